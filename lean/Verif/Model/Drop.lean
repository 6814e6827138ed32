import Verif.Model.Pool

/-! # Dropping the map — src/raw/mod.rs:2721-2805

`Drop` has exclusive access: no operation is running. It is a sequential walk over the memory; what matters is which
allocations it frees. -/

namespace Papaya

variable {K V : Type}

/-- The tables visited by the loop `while !raw.is_null()` of `drop`, starting from a table pointer and following the
`next` pointers — src/raw/mod.rs:2733-2752. The loop terminates iff such a list exists. -/
inductive St.Walk (σ : St K V) : Option Nat → List Nat → Prop
  | nil : σ.Walk none []
  | cons {T l} : σ.Walk (σ.next T) l → σ.Walk (some T) (T :: l)

/-- `drop_entries` — src/raw/mod.rs:2761-2779: the (ids of the) entries freed for one table; null pointers and slots
marked `COPYING` are skipped. -/
def St.dropEntries (σ : St K V) (T : Nat) : List Nat :=
  (List.range (σ.cap T)).filterMap fun i =>
    match (σ.slot T i).ptr with
    | none => none
    | some e => if (σ.slot T i).copying then none else some e.id

/-- The entries drained from the deferred list by `drop_table` — src/raw/mod.rs:2786-2805. (They are handed to the
collector, which frees them when it is dropped right after.) -/
def St.drain (σ : St K V) (T : Nat) : List Nat := (σ.deferred T).map Entry.id

/-- `Collector::reclaim_all`, tables — contract of `seize`: everything retired and not freed yet is freed. -/
def St.reclaimTables (σ : St K V) : List Nat :=
  (List.range σ.nTabs).filter fun T => σ.tabRetired T && !σ.tabFreed T

/-- `Collector::reclaim_all`, entries; reclaiming a table runs `drop_table`. -/
def St.reclaimEntries (σ : St K V) : List Nat :=
  ((List.range σ.nIds).filter fun x => σ.retired x && !σ.freed x) ++ σ.reclaimTables.flatMap σ.drain

/-- The entries freed when the map is dropped, the loop visiting the tables `l` — src/raw/mod.rs:2721-2754. -/
def St.dropFrees (σ : St K V) (l : List Nat) : List Nat :=
  σ.reclaimEntries ++ l.flatMap fun T => σ.dropEntries T ++ σ.drain T

/-- The tables freed when the map is dropped. -/
def St.dropTables (σ : St K V) (l : List Nat) : List Nat := σ.reclaimTables ++ l

end Papaya
