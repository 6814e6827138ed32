import Verif.Spec.Map
import Verif.Model.Pool

/-! # Specification: linearizable histories

A history is the list of the observable events: calls and responses. -/

namespace Papaya

variable {K V : Type}

/-- Call `o` has ended: it has returned, or panicked. -/
def Ended (hist : List (HEv K V)) (o : OpId) : Prop := (∃ c r, HEv.ret o c r ∈ hist) ∨ ∃ c w, HEv.panic o c w ∈ hist

/-- The end of `a` comes before the call of `b`. -/
def Precedes (hist : List (HEv K V)) (a b : OpId) : Prop :=
  ∃ H1 H2, hist = H1 ++ H2 ∧ Ended H1 a ∧ ∃ c, HEv.inv b c ∈ H2

/-- What happens to the map at one instant. -/
inductive Item (K V : Type) : Type 1
  /-- the atomic operation `c` takes effect and returns `r` -/
  | op (o : OpId) (c : Call K V) (r : c.Res)
  /-- the bulk operation `c` (`clear`, `retain`) removes one binding -/
  | del (o : OpId) (c : Call K V) (x : K × V)

/-- The call an item belongs to. -/
def Item.id : Item K V → OpId
  | .op o _ _ => o
  | .del o _ _ => o

def Item.call : Item K V → Call K V
  | .op _ c _ => c
  | .del _ c _ => c

/-- The call, for the atomic operations. -/
def Item.opId? : Item K V → Option OpId
  | .op o _ _ => some o
  | .del _ _ _ => none

variable [DecidableEq K]

/-- Effect of one item on a mathematical map. -/
def Item.Apply : Item K V → AMap K V → AMap K V → Prop
  | .op _ c r, m, m' => SpecOp c m r m'
  | .del _ c x, m, m' => SpecDel c x ∧ m x.1 = some x.2 ∧ m' = m.put x.1 none

/-- Sequential execution of a list of items. -/
inductive SeqRun : AMap K V → List (Item K V) → AMap K V → Prop
  | nil {m} : SeqRun m [] m
  | cons {m m1 m2 x L} (h : x.Apply m m1) (hr : SeqRun m1 L m2) : SeqRun m (x :: L) m2

/-- At some instant of the call `o` the map satisfied `P`: the sequential execution can be cut at a point such that
nothing before the point must come after `o`, and nothing after the point must come before `o`. -/
def During (hist : List (HEv K V)) (L : List (Item K V)) (o : OpId) (P : AMap K V → Prop) : Prop :=
  ∃ L1 L2 m, L = L1 ++ L2 ∧ (∀ x ∈ L1, ¬ Precedes hist o x.id) ∧ (∀ y ∈ L2, ¬ Precedes hist y.id o) ∧
    SeqRun AMap.empty L1 m ∧ P m

/-- What is required of an iterator that yielded the entries `r`, in this order. -/
structure SpecIter (hist : List (HEv K V)) (L : List (Item K V)) (o : OpId) (r : List (Entry K V)) : Prop where
  /-- everything yielded was in the map during the iteration -/
  sound : ∀ e, e ∈ r → During hist L o fun m => m e.key = some e.val
  /-- a key that is not yielded was absent at some instant of the iteration -/
  total : ∀ k, (∃ e, e ∈ r ∧ e.key = k) ∨ During hist L o fun m => m k = none
  /-- a key that is yielded twice was absent at some instant of the iteration -/
  nodup : r.Pairwise fun a b => a.key = b.key → During hist L o fun m => m a.key = none

/-- What is required of an iterator that is dropped as soon as it has yielded `n` entries. -/
structure SpecIterTake (hist : List (HEv K V)) (L : List (Item K V)) (o : OpId) (n : Nat) (r : List (Entry K V)) : Prop where
  /-- at most `n` entries are yielded -/
  bound : r.length ≤ n
  /-- everything yielded was in the map during the iteration -/
  sound : ∀ e, e ∈ r → During hist L o fun m => m e.key = some e.val
  /-- if fewer are yielded, a key that is not among them was absent at some instant of the iteration -/
  total : r.length < n → ∀ k, (∃ e, e ∈ r ∧ e.key = k) ∨ During hist L o fun m => m k = none
  /-- a key that is yielded twice was absent at some instant of the iteration -/
  nodup : r.Pairwise fun a b => a.key = b.key → During hist L o fun m => m a.key = none

/-- What is required of the operations that are not atomic. -/
def SpecBulk (hist : List (HEv K V)) (L : List (Item K V)) (o : OpId) : (c : Call K V) → c.Res → Prop
  | .clear, _ => ∀ k, During hist L o fun m => m k = none
  | .retain f, r =>
      f.Made r.calls ∧ (∀ x, .del o (.retain f) x ∈ L → (x, false) ∈ r.calls) ∧
      ∀ k, During hist L o (fun m => m k = none) ∨
        ∃ v, ((k, v), true) ∈ r.calls ∧ During hist L o fun m => m k = some v
  | .iter, r => SpecIter hist L o r
  | .iterTake n, r => SpecIterTake hist L o n r
  | _, _ => True

/-- `L` is a linearization of the history `hist` that ends with the map `m`. -/
structure Linearization (hist : List (HEv K V)) (L : List (Item K V)) (m : AMap K V) : Prop where
  /-- executing `L` sequentially, from the empty map, is legal and gives `m` -/
  legal : SeqRun AMap.empty L m
  /-- everything in `L` was called -/
  called : ∀ x, x ∈ L → HEv.inv x.id x.call ∈ hist
  /-- every completed atomic operation is in `L`, with its result -/
  complete : ∀ o c r, HEv.ret o c r ∈ hist → c.atomic = true → Item.op o c r ∈ L
  /-- each operation takes effect at most once -/
  once : (L.filterMap Item.opId?).Nodup
  /-- operations that do not overlap are in `L` in the order in which they were executed -/
  order : L.Pairwise fun x y => ¬ Precedes hist y.id x.id
  /-- an atomic operation that panics has no effect -/
  panicked : ∀ o c w, HEv.panic o c w ∈ hist → c.atomic = true → ∀ x ∈ L, x.id ≠ o
  /-- the completed bulk operations -/
  bulk : ∀ o c r, HEv.ret o c r ∈ hist → SpecBulk hist L o c r

end Papaya
