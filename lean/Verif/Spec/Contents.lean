import Verif.Model.Pool

/-! # Specification: what a memory state contains

Read off the physical state only. -/

namespace Papaya

variable {K V : Type}

/-- Index of the root table. -/
def St.rootIx (σ : St K V) : Nat := σ.root.getD 0

/-- Slot `i` of table `T` points to `e`. -/
def St.Ptr (σ : St K V) (T i : Nat) (e : Entry K V) : Prop := (σ.slot T i).ptr = some e

/-- Slot `i` of table `T` has been handed over to the next table. -/
def St.Moved (σ : St K V) (T i : Nat) : Prop := (σ.slot T i).copied = true ∧ σ.md T i ≠ EMPTY

/-- Slot `i` of table `T` represents a binding of the map: `T` is the root table or a later one that is not aborted,
the slot is published and not handed over, and its entry is not a copy whose original in the root table still counts. -/
def St.Counts (σ : St K V) (T i : Nat) (e : Entry K V) : Prop :=
  σ.rootIx ≤ T ∧ σ.status T ≠ .aborted ∧ σ.Ptr T i e ∧ σ.md T i ≠ EMPTY ∧ ¬ σ.Moved T i ∧
  ¬ (σ.rootIx < T ∧ ∃ j, σ.Ptr σ.rootIx j e ∧ ¬ σ.Moved σ.rootIx j)

/-- The memory binds `e.key` to `e.val`, through the entry `e`. -/
def St.Binds (σ : St K V) (e : Entry K V) : Prop := ∃ T i, σ.Counts T i e

/-- The memory binds `k` to `v`. -/
def St.Holds (σ : St K V) (k : K) (v : V) : Prop := ∃ e, σ.Binds e ∧ e.key = k ∧ e.val = v

end Papaya
