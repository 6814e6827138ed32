import Verif.Spec.Quiet

/-! # Specification: a map used by one writer at a time -/

namespace Papaya

variable {K V : Type} [DecidableEq K]

/-- The memory represents the map `m`. -/
def Contents (σ : St K V) (m : AMap K V) : Prop := ∀ k v, σ.Holds k v ↔ m k = some v

/-- Sequential specification of all operations: `SeqSpec c m r m'` — executed on the map `m`, the operation `c` may
return `r` and leave the map `m'`. -/
def SeqSpec : (c : Call K V) → AMap K V → c.Res → AMap K V → Prop
  | .clear, _, _, m' => m' = AMap.empty
  | .retain f, m, r, m' => f.Made r.calls ∧ ∀ k v,
      (m' k = some v → m k = some v ∧ ((k, v), true) ∈ r.calls) ∧
      (m k = some v → m' k = none → ((k, v), false) ∈ r.calls)
  | .iter, m, r, m' => m' = m ∧ (List.map Entry.key r).Nodup ∧
      ∀ k v, (∃ e : Entry K V, List.Mem e r ∧ e.key = k ∧ e.val = v) ↔ m k = some v
  | .iterTake n, m, r, m' => m' = m ∧ List.length r ≤ n ∧ (List.map Entry.key r).Nodup ∧
      (∀ e : Entry K V, List.Mem e r → m e.key = some e.val) ∧
      (List.length r < n → ∀ k v, m k = some v → ∃ e : Entry K V, List.Mem e r ∧ e.key = k ∧ e.val = v)
  | .len, m, r, m' => m' = m ∧ ∃ F : Finset K, (∀ k, k ∈ F ↔ m k ≠ none) ∧ F.card = r
  | .isEmpty, m, r, m' => m' = m ∧ (r = true ↔ m = AMap.empty)
  | .reserve _, m, _, m' => m' = m
  | c, m, r, m' => SpecOp c m r m'

end Papaya
