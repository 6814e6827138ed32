import Verif.Spec.Lin

/-! # Specification: what a map contained while a piece of client code ran -/

namespace Papaya

variable {K V : Type} [DecidableEq K]

/-- At some instant between `ps` and `ps'` the map satisfied `P`; more precisely, during a call that was made after `ps` and had returned
in `ps'`. `L` is the order in which the calls took effect. -/
def DuringRun (ps ps' : PSt K V) (L : List (Item K V)) (P : AMap K V → Prop) : Prop :=
  ∃ o c r, HEv.inv o c ∉ ps.hist ∧ HEv.ret o c r ∈ ps'.hist ∧ During ps'.hist L o P

end Papaya
