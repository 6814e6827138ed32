import Verif.Spec.Latency

/-! # Specification: the calls that leave an incremental resize to others -/

namespace Papaya

variable {K V : Type} [DecidableEq K]

/-- The readers, and the writers that are built on `compute`. -/
def Call.bystands : Call K V → Bool
  | .get _ | .containsKey _ | .len | .isEmpty => true
  | .compute _ _ | .update _ _ | .updateOrInsert _ _ _ | .updateOrInsertWith _ _ _ | .tryInsertWith _ _ | .getOrInsertWith _ _ => true
  | _ => false

/-- From `ps` to `ps'`, only bystanders are being executed. -/
def OnlyBystanders (ps ps' : PSt K V) : Prop :=
  (∀ t c p, ps.th t = .run c p → c.bystands = true) ∧
  ∀ o c, HEv.inv o c ∈ ps'.hist → HEv.inv o c ∉ ps.hist → c.bystands = true

/-- The resizes stand still from `ps` to `ps'`: the map has the same root, no slot has been marked for being moved or
counted as moved, no table has been retired. -/
structure Standstill (ps ps' : PSt K V) : Prop where
  root : ∀ T, ps.mem.root = some T → ps'.mem.root = some T
  marks : ∀ T i, (ps'.mem.slot T i).copying = true → (ps.mem.slot T i).copying = true
  copied : ∀ T, T < ps.mem.nTabs → ps'.mem.copied T = ps.mem.copied T
  tables : ∀ T, ps'.mem.tabRetired T = ps.mem.tabRetired T

end Papaya
