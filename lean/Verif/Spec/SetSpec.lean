import Verif.Model.SetApi
import Mathlib.Data.Set.Basic
import Mathlib.Data.Finset.Insert

/-! # Specification of `HashSet`: mathematical sets -/

namespace Papaya

variable {K : Type}

/-- `SetSpec c s r s'`: executed on the set `s`, the operation `c` may return `r` and leave the set `s'`. -/
def SetSpec : (c : SetCall K) → Set K → c.Res → Set K → Prop
  | .contains k, s, r, s' => (r = true ↔ k ∈ s) ∧ s' = s
  | .get k, s, r, s' => ((k ∈ s ∧ r = some k) ∨ (k ∉ s ∧ r = none)) ∧ s' = s
  | .insert k, s, r, s' => (r = true ↔ k ∉ s) ∧ s' = {k} ∪ s
  | .remove k, s, r, s' => (r = true ↔ k ∈ s) ∧ s' = s \ {k}
  | .clear, _, _, s' => s' = ∅
  | .retain f, s, r, s' => f.Made r ∧ s' ⊆ s ∧ (∀ k ∈ s', List.Mem (k, true) r) ∧ ∀ k ∈ s, k ∉ s' → List.Mem (k, false) r
  | .iter, s, r, s' => s' = s ∧ List.Nodup r ∧ ∀ k, List.Mem k r ↔ k ∈ s
  | .iterTake n, s, r, s' => s' = s ∧ List.length r ≤ n ∧ List.Nodup r ∧ (∀ k, List.Mem k r → k ∈ s) ∧
      (List.length r < n → ∀ k ∈ s, List.Mem k r)
  | .len, s, r, s' => s' = s ∧ ∃ F : Finset K, (F : Set K) = s ∧ F.card = r
  | .isEmpty, s, r, s' => s' = s ∧ (r = true ↔ s = ∅)
  | .reserve _, s, _, s' => s' = s

/-- The elements of a set represented by a map. -/
def AMap.dom {V : Type} (m : AMap K V) : Set K := {k | m k ≠ none}

/-- The memory represents the set `s`. -/
def SetContents (σ : St K Unit) (s : Set K) : Prop := ∀ k, σ.Holds k () ↔ k ∈ s

end Papaya
