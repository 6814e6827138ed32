import Verif.Pure.Stack

/-! Property theorem C31. -/

namespace Papaya.StackM

/-- C31. In every reachable state — any number of threads, any interleaving of their atomic steps, some possibly
stopped in the middle of a push — draining the stack terminates, visits (and frees) no node twice, and hands out
exactly the values whose push has returned, each exactly as often as it was pushed, latest first. No other outcome
is possible. -/
theorem C31_drain {T : Type} {s : St T} (h : Reach s) :
    (∃ ns, Drains s s.head s.hist ns ∧ ns.Nodup) ∧
    ∀ xs ns, Drains s s.head xs ns → xs = s.hist := by
  obtain ⟨⟨ns, hd, hnd, _⟩, _⟩ := Inv.reach h
  exact ⟨⟨ns, hd, hnd⟩, fun xs ns' h' => (h'.det hd).1⟩

/-- Non-vacuity: two threads race, the second one overtakes the first. -/
example : ∃ s : St Nat, Reach s ∧ s.hist = [10, 20] ∧ ∀ t, s.pc t = .idle := by
  have s0 : Reach (init Nat) := .init
  have s1 := Reach.step s0 (.call _ 0 10 rfl)
  have s2 := Reach.step s1 (.call _ 1 20 rfl)
  have s3 := Reach.step s2 (.load _ 0 0 rfl)
  have s4 := Reach.step s3 (.load _ 1 1 rfl)
  have s5 := Reach.step s4 (.link _ 1 1 none rfl)
  have s6 := Reach.step s5 (.casOk _ 1 1 none 20 rfl rfl rfl)
  have s7 := Reach.step s6 (.link _ 0 0 none rfl)
  have s8 := Reach.step s7 (.casFail _ 0 0 none rfl (by decide))
  have s9 := Reach.step s8 (.load _ 0 0 rfl)
  have s10 := Reach.step s9 (.link _ 0 0 (some 1) rfl)
  have s11 := Reach.step s10 (.casOk _ 0 0 (some 1) 10 rfl rfl rfl)
  refine ⟨_, s11, rfl, ?_⟩
  intro t
  by_cases h0 : t = 0
  · subst h0; rfl
  · by_cases h1 : t = 1
    · subst h1; rfl
    · simp [Function.update, h0, h1, init]

end Papaya.StackM
