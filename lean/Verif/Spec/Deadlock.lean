import Verif.Spec.Progress

/-! # Specification: waiting -/

namespace Papaya

variable {K V : Type} [DecidableEq K]

/-- An operation called with guard `t` is running. -/
def Running (ps : PSt K V) (t : Tid) : Prop := ∃ c p, ps.th t = .run c p

/-- The operation of guard `t` can go on: it has a next step and does not wait for another one. -/
def CanMove (C : Cfg K) (ps : PSt K V) (t : Tid) : Prop := ∃ ps', OwnStep C t ps ps'

/-- The operation of guard `t` is running and waits: for a mutex, for the end of a resize, for a slot to be copied. Only steps of other
operations can let it go on. -/
def Waiting (C : Cfg K) (ps : PSt K V) (t : Tid) : Prop := Running ps t ∧ ¬ CanMove C ps t

/-- No operation was abandoned in the middle (its thread killed). -/
def NoneAbandoned (ps : PSt K V) : Prop := ∀ t, ps.th t ≠ .gone

end Papaya
