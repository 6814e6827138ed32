import Verif.Spec.Quiet

/-! # Specification: the length reported while there are writers -/

namespace Papaya

variable {K V : Type}

/-- The call `c`, number `o`, may write, was made before `ps'`, and was not over in `ps`: it is in progress at some time
between `ps` and `ps'` (calls that never return — stalled or abandoned — are in progress for ever). -/
def Overlaps (ps ps' : PSt K V) (o : OpId) (c : Call K V) : Prop :=
  HEv.inv o c ∈ ps'.hist ∧ ¬ Ended ps.hist o ∧ ¬ c.readOnly

/-- The calls that may remove more than one key. -/
def Call.bulk : Call K V → Prop
  | .clear | .retain _ => True
  | _ => False

end Papaya
