import Verif.Exec.Demo

/-! # A concrete execution in which a table is aborted

A blocking resize shrinks a table of 64 slots to 32 slots; before the copy starts, another guard inserts many more keys,
and the copy does not fit. -/

namespace Papaya

/-- Keys below 100 collide, the others have the slot number as their hash. -/
def abortHash (k : Nat) : UInt64 := if k < 100 then 0 else UInt64.ofNat (k - 100)

def cfgA : Cfg Nat := ⟨abortHash, .blocking, 32, 0, fun _ => 0, 0, 0, 0, fun _ => true⟩

/-- The slots that are not on the probe sequence of hash 0. -/
def freeSlots : List Nat := (List.range 64).filter fun i => !((List.range 31).map fun n => tri n % 64).contains i

def abortCmds : List (Cmd Nat Nat) :=
  [.pin 0, .pin 1] ++
  ((List.range 31).flatMap fun k => [.call 0 (.insert k 0), .fin 0 500]) ++
  (((List.range 31).drop 8).flatMap fun k => [.call 0 (.remove k), .fin 0 500]) ++
  [.call 0 (.insert 99 0), .go 0 115] ++
  (freeSlots.flatMap fun i => [.call 1 (.insert (100 + i) 0), .fin 1 500]) ++
  [.go 0 600]

theorem abort_reachable : ∃ ps : PSt Nat Nat, Reach cfgA ps ∧ ps.mem.root = some 0 ∧ ps.mem.status 1 = .aborted ∧
    ps.mem.nTabs = 3 := by
  obtain ⟨ps, _, h1, h2⟩ := demo_run (C := cfgA) (l := abortCmds)
    (P := fun ps => ps.mem.root == some 0 && (ps.mem.status 1 == .aborted && ps.mem.nTabs == 3)) (by decide +kernel)
  simp only [Bool.and_eq_true, beq_iff_eq] at h2
  exact ⟨ps, h1, h2⟩

end Papaya
