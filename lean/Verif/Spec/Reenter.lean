import Verif.Model.Reenter

/-! # Specification: closures that do anything -/

namespace Papaya

variable {K V R : Type} [DecidableEq K]

/-- An operation is running in slot `t` (it may be inside its closure). -/
def ORunning (os : OSt K V R) (t : Tid) : Prop := ∃ c p, os.th t = .run c p

/-- The operation of slot `t` can go on: it has a next step, and it does not need an answer of its closure for it. -/
def OCanMove (C : Cfg K) (gd : Tid → Tid) (os : OSt K V R) (t : Tid) : Prop := ¬ os.InClosure t ∧ ∃ os', OOwn C gd t os os'

/-- The operation of slot `t` waits for another operation: it is running, it is not inside its closure, and it has no next step. -/
def OWaiting (C : Cfg K) (gd : Tid → Tid) (os : OSt K V R) (t : Tid) : Prop :=
  ORunning os t ∧ ¬ os.InClosure t ∧ ¬ ∃ os', OOwn C gd t os os'

/-- No operation was abandoned in the middle. -/
def ONoneAbandoned (os : OSt K V R) : Prop := ∀ t, os.th t ≠ .gone

/-- No table allocation has failed so far. -/
def ONoAllocPanic (os : OSt K V R) : Prop := ∀ o c w, OHEv.panic o c w ∈ os.hist → ¬ AllocPanic w

/-- What has been observed: the operations, the answers their closures gave, the results. -/
def OSt.history (os : OSt K V R) : List (HEv K V) := os.hist.map (OHEv.close os.given)

end Papaya
