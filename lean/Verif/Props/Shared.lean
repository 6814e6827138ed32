import Verif.Proof.Shared
import Verif.Exec.Shared
import Verif.Props.Memory
import Verif.Props.Lin

/-! # C50: a guard may be used by several operations at the same time -/

set_option linter.unusedSectionVars false
set_option linter.unusedVariables false

namespace Papaya

variable {K V : Type} [DecidableEq K]

variable {C : Cfg K} {gd : Tid → Tid} {ss : SSt K V} {t g : Tid}

theorem safe_withG {β : Type} {a : Act K V β} {σ : St K V} {pn : Tid → Bool} {bl tb : Nat → Tid → Bool}
    (h : a.Safe (σ.withG pn bl tb)) : a.Safe σ := by
  cases a <;> exact h

/-- **C50** Whatever is done with guards that are used by several operations at once — threads sharing a guard, iterators
interleaved with other calls, iterators dropped in the middle — has a counterpart in which every operation has a guard of
its own: with the same history, and the same tables, entries and counters in memory. Hence what is proved of the
histories and of the contents of the map (C01–C14, C36, C37, C42, …) holds for shared guards, too. -/
theorem C50_private (h : SReach C gd ss) :
    ∃ ps, Reach C ps ∧ ps.hist = ss.hist ∧ ∃ pn bl tb, ps.mem = { ss.mem with pinned := pn, blockers := bl, tabBlockers := tb } := by
  obtain ⟨ps, h1, h2⟩ := h.sim
  exact ⟨ps, h1, h2.hist.symm, _, _, _, h2.mem.mem.symm⟩

/-- **C50** The history is linearizable, and the memory contains the result of the linearization. -/
theorem C50_linearizable (h : SReach C gd ss) :
    ∃ L m, Linearization ss.hist L m ∧ ∀ k v, ss.mem.Holds k v ↔ m k = some v := by
  obtain ⟨ps, h1, h2⟩ := h.sim
  obtain ⟨L, m, h3, h4⟩ := C01_linearizable h1
  refine ⟨L, m, by rw [h2.hist]; exact h3, fun k v => ?_⟩
  rw [← h4 k v, ← h2.mem.mem]
  exact Iff.rfl

/-- **C50** Every atomic action that any operation is about to perform accesses only memory that is allocated and not
freed, within bounds, and retires nothing twice. -/
theorem C50_memory_safe (h : SReach C gd ss) {c : Call K V} {β : Type} {a : Act K V β} {k : β → Prog K V c.Res}
    (ht : ss.th t = .run c (.act a k)) : a.Safe ss.mem := by
  obtain ⟨ps, h1, h2⟩ := h.sim
  have h3 := h2.th t
  rw [ht] at h3
  have h4 := C21_memory_safe h1 h3.run_inv
  rw [← h2.mem.mem] at h4
  exact safe_withG h4

/-- **C50** A reference obtained with a guard stays valid as long as the guard is alive. -/
theorem C50_refs_valid (h : SReach C gd ss) {e : Entry K V} (he : e ∈ ss.held g) : ss.mem.EntryAlive e := by
  obtain ⟨ps, h1, h2⟩ := h.sim
  obtain ⟨t, _, h3⟩ := h2.held g e he
  have h4 := C21_refs_valid h1 h3
  rw [← h2.mem.mem] at h4
  exact h4

/-- Slots 0 to 3 use guard 0, the others guard 1. -/
def gdFour (t : Tid) : Tid := if t < 4 then 0 else 1

/-- Guard 0: an iterator (slot 1) has yielded some entries, in between (slot 0) keys 0 and 4 are removed. Guard 1 only exists. -/
def sharedCmds (n : Nat) : List (SCmd Nat Nat) :=
  [.pin 0, .pin 1, .call 0 (.insert 0 0), .fin 0 500, .call 0 (.insert 4 40), .fin 0 500, .call 2 (.insert 5 50), .fin 2 500,
    .call 1 .iter, .go 1 n, .call 0 (.remove 0), .fin 0 500, .call 2 (.remove 5), .fin 2 500]

-- in the middle of an iteration two entries have been removed with the guard of the iterator, in different slots; the
-- iterator is about to dereference one of them; the references returned by the removals are usable
example : ∃ (ss : SSt Nat Nat) (e : Entry Nat Nat), SReach cfgB gdFour ss ∧ (∃ c k, ss.th 1 = .run c (.act (.deref e) k)) ∧
    ss.mem.retired e.id = true ∧ e ∈ ss.held 0 := by
  obtain ⟨ss, h1, h2⟩ := sRunMap_reach (C := cfgB) (gd := gdFour) (l := sharedCmds 8)
    (P := fun ss => match ss.th 1 with
      | .run _ (.act (.deref e) _) => ss.mem.retired e.id && decide (e ∈ ss.held 0)
      | _ => false) (by decide +kernel)
  split at h2
  · rename_i c e k hth
    rw [Bool.and_eq_true, decide_eq_true_eq] at h2
    exact ⟨ss, e, h1, ⟨c, k, hth⟩, h2⟩
  · cases h2

-- the iterator is dropped without being exhausted
example : ∃ ss : SSt Nat Nat, SReach cfgB gdFour ss ∧ ss.th 1 = .gone ∧ (∀ t c p, gdFour t = 0 → ss.th t ≠ .run c p) := by
  obtain ⟨ss, h1, h2⟩ := sRunMap_reach (C := cfgB) (gd := gdFour) (l := sharedCmds 8 ++ [.abandon 1])
    (P := fun ss => (match ss.th 1 with | .gone => true | _ => false) &&
      (List.range 4).all fun t => match ss.th t with | .run _ _ => false | _ => true) (by decide +kernel)
  rw [Bool.and_eq_true] at h2
  refine ⟨ss, h1, ?_, fun t c p hg ht => ?_⟩
  · have := h2.1
    split at this
    · assumption
    · cases this
  · have htt : t < 4 := by
      unfold gdFour at hg
      split at hg
      · assumption
      · cases hg
    have := List.all_eq_true.1 h2.2 t (List.mem_range.2 htt)
    rw [ht] at this
    cases this

end Papaya
