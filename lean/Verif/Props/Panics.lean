import Verif.Props.Lin
import Verif.Exec.Demo

/-! # Panics of table allocation (C27, C45) -/

set_option linter.unusedSectionVars false
set_option linter.unusedVariables false

namespace Papaya

variable {K V : Type} [DecidableEq K]

variable {C : Cfg K} {ps : PSt K V}

theorem mayPanic_pow2 {c : Call K V} (h : c.MayPanic C .notPowerOfTwo) : ¬ isPow2 C.initialCapacity := by
  have hs : SysPanic C .notPowerOfTwo → ¬ isPow2 C.initialCapacity := by
    rintro (⟨_, h⟩ | h | ⟨h, _⟩ | h)
    · exact h
    all_goals cases h
  cases c <;> simp only [Call.MayPanic] at h
  all_goals first | exact hs h | exact h.elim | skip
  all_goals rcases h with h | h
  all_goals first | exact hs h | (rcases h with ⟨h, _⟩ | ⟨h, _⟩ <;> cases h; done) | (obtain ⟨h, _⟩ := h; cases h; done) | (cases h; done)

/-- **C27** (the part that holds) If the capacity the map was created with is 0 or a power of two, no call ever panics
because the length chosen for a new table is not a power of two: in any history, for any hash function, any number of
threads, in both resize modes. (`C27_false`: for other capacities this fails.) -/
theorem C27_no_shrink_panic_partial (h : Reach C ps) (hC : C.capacity = 0 ∨ isPow2 C.capacity) {o : OpId} {c : Call K V} :
    HEv.panic o c .notPowerOfTwo ∉ ps.hist := by
  intro hp
  refine mayPanic_pow2 (C09_panics h hp) ?_
  unfold Cfg.initialCapacity
  rcases hC with h | ⟨a, h⟩
  · exact ⟨0, by simp [h]⟩
  · exact ⟨a, by rw [if_neg, h]; rw [h]; positivity⟩

/-- A map created by `with_capacity(c)`; all keys have the same hash. -/
def cfgCap (c : Nat) : Cfg Nat := ⟨fun _ => 0, .blocking, c, 0, fun _ => 0, 0, 0, 0, fun _ => true⟩

/-- One thread inserts and removes `n` keys, one at a time. -/
def churn (n : Nat) : List (Cmd Nat Nat) :=
  [.pin 0] ++ (List.range n).flatMap fun k => [.call 0 (.insert k 0), .fin 0 500, .call 0 (.remove k), .fin 0 500]

-- with capacity 8, 20 keys are inserted and removed: the table, full of tombstones, has been replaced
example : ∃ ps : PSt Nat Nat, Reach (cfgCap 8) ps ∧ ps.mem.root = some 1 ∧ ps.seq 0 = 40 := by
  obtain ⟨ps, _, h1, h2⟩ := demo_run (C := cfgCap 8) (l := churn 20)
    (P := fun ps => ps.mem.root == some 1 && ps.seq 0 == 40) (by decide +kernel)
  simp only [Bool.and_eq_true, beq_iff_eq] at h2
  exact ⟨ps, h1, h2.1, h2.2⟩

/-- **C27 is false**: a map created by `with_capacity(5)` is used by a single thread, which inserts and removes keys one
after the other — the ninth `insert` panics, there being at most one key in the map at any time. -/
theorem C27_false : ∃ ps : PSt Nat Nat, Reach (cfgCap 5) ps ∧ HEv.panic (0, 17) (.insert 8 0) .notPowerOfTwo ∈ ps.hist := by
  obtain ⟨ps, ps', h1, h2, _, _, h3⟩ := demo_panic (C := cfgCap 5) (l1 := churn 8) (l2 := [.fin 0 500]) (t := 0)
    (c := .insert 8 0) trivial (n := 17) (w := .notPowerOfTwo) (P1 := fun _ => true) (P2 := fun _ => true)
    (by decide +kernel) (by decide +kernel)
  exact ⟨ps', h1.steps h2, h3⟩

/-- A table of `n` slots (`n` pointers, `n` bytes of metadata, a header) fits in `isize::MAX` bytes. -/
def fits (n : Nat) : Bool := decide (8 * n + n + 128 < 2 ^ 63)

def cfgR : Cfg Nat := ⟨fun k => UInt64.ofNat (k * 0x9E3779B97F4A7C15), .incremental 64, 1, 0, fun _ => 0, 0, 0, 0, fits⟩

/-- **C45 is false**: a `reserve` that panics because the table would be too large leaves the allocation mutex of the
current table poisoned, and a later `insert` that has to resize panics as well — although there are only eight keys in
the map. -/
theorem C45_false : ∃ ps : PSt Nat Nat, Reach cfgR ps ∧ HEv.panic (0, 1) (.reserve (2 ^ 59)) .layoutOverflow ∈ ps.hist ∧
    ∃ o c, HEv.panic o c .poisonedLock ∈ ps.hist := by
  obtain ⟨ps, ps', h1, h2, _, h4, h3⟩ := demo_panic (C := cfgR) (V := Nat) (l1 := [.pin 0])
    (l2 := .fin 0 500 :: (List.range 20).flatMap fun k => [.call 0 (.insert k 0), .fin 0 500]) (t := 0)
    (c := .reserve (2 ^ 59)) trivial (n := 1) (w := .layoutOverflow) (P1 := fun _ => true)
    (P2 := fun ps => ps.hist.any (HEv.panicTest (0, 10) .poisonedLock))
    (by decide +kernel) (by decide +kernel)
  obtain ⟨c, h5⟩ := panic_of_test h4
  exact ⟨ps', h1.steps h2, h3, _, c, h5⟩

end Papaya
