import Verif.Spec.Contents
import Verif.Spec.Lin
import Mathlib.Data.Finset.Card

/-! # Specification: calls executed without concurrent writers -/

namespace Papaya

variable {K V : Type}

/-- Operations that never change the map. -/
def Call.readOnly : Call K V → Prop
  | .get _ | .containsKey _ | .iter | .iterTake _ | .len | .isEmpty | .reserve _ => True
  | _ => False

/-- The call may change the binding of `k`. -/
def Call.Writes (k : K) : Call K V → Prop
  | .insert k' _ | .tryInsert k' _ | .tryInsertWith k' _ | .getOrInsert k' _ | .getOrInsertWith k' _ | .update k' _
  | .updateOrInsert k' _ _ | .updateOrInsertWith k' _ _ | .compute k' _ | .remove k' | .removeIf k' _ => k' = k
  | .clear | .retain _ => True
  | .get _ | .containsKey _ | .iter | .iterTake _ | .len | .isEmpty | .reserve _ => False

/-- Every call made so far that may write has returned or panicked. -/
def NoWriter (hist : List (HEv K V)) : Prop :=
  ∀ o c, HEv.inv o c ∈ hist → c.readOnly ∨ Ended hist o

/-- The map has exactly `n` keys. -/
def HasKeys (σ : St K V) (n : Nat) : Prop := ∃ F : Finset K, (∀ k, k ∈ F ↔ ∃ v, σ.Holds k v) ∧ F.card = n

variable [DecidableEq K]

/-- Between the states `ps` and `ps'` of an execution the operation `c` is called (call number `o`), no writer was
active in `ps`, and all other calls made in between are read only. Readers, iterators and `reserve` may be running. -/
structure Alone (C : Cfg K) (ps ps' : PSt K V) (o : OpId) (c : Call K V) : Prop where
  reach : Reach C ps
  steps : Steps C ps ps'
  quiet : NoWriter ps.hist
  fresh : HEv.inv o c ∉ ps.hist
  called : HEv.inv o c ∈ ps'.hist
  others : ∀ o' c', HEv.inv o' c' ∈ ps'.hist → HEv.inv o' c' ∉ ps.hist → o' = o ∨ c'.readOnly

end Papaya
