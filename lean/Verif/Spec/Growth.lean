import Verif.Spec.LockFree

/-! # Specification: executions that never end -/

namespace Papaya

variable {K V : Type} [DecidableEq K]

/-- The event is the start of a call. -/
def HEv.isInv : HEv K V → Bool
  | .inv _ _ => true
  | _ => false

/-- Number of calls made so far. -/
def PSt.calls (ps : PSt K V) : Nat := (ps.hist.filter HEv.isInv).length

/-- An infinite execution, from a reachable state. -/
structure Endless (C : Cfg K) (run : Nat → PSt K V) : Prop where
  reach : Reach C (run 0)
  step : ∀ i, Step C (run i) (run (i + 1))

/-- Guard `t` executes the `i`-th step of the execution, a step of its current operation. -/
def Steps.By (C : Cfg K) (run : Nat → PSt K V) (i : Nat) (t : Tid) : Prop := OwnStep C t (run i) (run (i + 1))

/-- From some moment on, no compare-exchange fails spuriously. -/
def FewSpurious (C : Cfg K) (run : Nat → PSt K V) : Prop :=
  ∃ n, ∀ i t, n ≤ i → Steps.By C run i t → ¬ FailsSpuriously t (run i) (run (i + 1))

/-- Finitely many calls are made. -/
def FewCalls (run : Nat → PSt K V) : Prop := ∃ m, ∀ i, (run i).calls ≤ m

/-- Finitely many entries are published. -/
def FewEntries (run : Nat → PSt K V) : Prop := ∃ m, ∀ i, (run i).mem.nIds ≤ m

/-- Again and again the map allocates a table. -/
def TablesForever (run : Nat → PSt K V) : Prop := ∀ m, ∃ i, m ≤ (run i).mem.nTabs

/-- Again and again some operation executes a step. -/
def StepsForever (C : Cfg K) (run : Nat → PSt K V) : Prop := ∀ n, ∃ i, n ≤ i ∧ ∃ t, Steps.By C run i t

/-- From some moment on the operation of guard `t` executes steps again and again, and never ends. -/
def RunsForever (C : Cfg K) (run : Nat → PSt K V) (t : Tid) : Prop :=
  (∃ n, ∀ i, n ≤ i → Running (run i) t ∧ (run i).seq t = (run n).seq t) ∧ ∀ n, ∃ i, n ≤ i ∧ Steps.By C run i t

/-- The processor is not idle: as long as some operation can go on, some operation will make a step sooner or later (which one is not
determined). -/
def Busy (C : Cfg K) (run : Nat → PSt K V) : Prop :=
  ∀ n, (∀ i, n ≤ i → ∃ t, CanMove C (run i) t) → ∃ i, n ≤ i ∧ ∃ t, Steps.By C run i t

end Papaya
