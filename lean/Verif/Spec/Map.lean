import Verif.Model.Api

/-! # Specification: what each operation may return and how it changes a map

This file does not mention tables, slots or the state of the implementation: only the public operations
(`Call`), their results, and mathematical maps. -/

namespace Papaya

variable {K V : Type}

/-- Mathematical maps. -/
abbrev AMap (K V : Type) := K → Option V

/-- The empty map. -/
def AMap.empty : AMap K V := fun _ => none

/-- The key and value seen through a reference. -/
def Entry.kv (e : Entry K V) : K × V := (e.key, e.val)

variable [DecidableEq K]

/-- `m.put k (some v)`: `k` is bound to `v`; `m.put k none`: `k` is removed. -/
def AMap.put (m : AMap K V) (k : K) (x : Option V) : AMap K V := fun k' => if k' = k then x else m k'

/-- The binding of `k` with its key. -/
def AMap.at (m : AMap K V) (k : K) : Option (K × V) := (m k).map fun v => (k, v)

/-- Once the closure passed to `compute` has answered `Insert` to `None`, it is not called with `None` again. -/
def OnceNone {R : Type} (calls : List (Option (K × V) × Operation V R)) : Prop :=
  calls.Pairwise fun a b => ∀ v, a = (none, .insert v) → b.1 ≠ none

/-- The operations that are required to be atomic. -/
def Call.atomic : Call K V → Bool
  | .clear | .retain _ | .iter | .iterTake _ | .len | .isEmpty | .reserve _ => false
  | _ => true

/-- Sequential specification of the atomic operations: `SpecOp c m r m'` — executed on the map `m`, the operation `c`
may return `r` and leave the map `m'`. -/
def SpecOp : (c : Call K V) → AMap K V → c.Res → AMap K V → Prop
  | .get k, m, r, m' => Option.map Entry.kv r = m.at k ∧ m' = m
  | .containsKey k, m, r, m' => r = (m k).isSome ∧ m' = m
  | .insert k v, m, r, m' => Option.map Entry.kv r = m.at k ∧ m' = m.put k (some v)
  | .tryInsert k v, m, .inl e, m' => m k = none ∧ e.kv = (k, v) ∧ m' = m.put k (some v)
  | .tryInsert k v, m, .inr (e, v'), m' => m.at k = some e.kv ∧ v' = v ∧ m' = m
  | .tryInsertWith k f, m, .inl e, m' => m k = none ∧ e.key = k ∧ Gives f e.val ∧ m' = m.put k (some e.val)
  | .tryInsertWith k _, m, .inr e, m' => m.at k = some e.kv ∧ m' = m
  | .getOrInsert k v, m, e, m' =>
      (m.at k = some (Entry.kv e) ∧ m' = m) ∨ (m k = none ∧ Entry.kv e = (k, v) ∧ m' = m.put k (some v))
  | .getOrInsertWith k f, m, e, m' =>
      (m.at k = some (Entry.kv e) ∧ m' = m) ∨
      (m k = none ∧ Entry.key e = k ∧ Gives f (Entry.val e) ∧ m' = m.put k (some (Entry.val e)))
  | .update k f, m, r, m' =>
      f.Made r.calls ∧
      match r.out with
      | none => m k = none ∧ m' = m
      | some e => e.key = k ∧ ∃ old, m k = some old ∧ (old, e.val) ∈ r.calls ∧ m' = m.put k (some e.val)
  | .updateOrInsert k u v, m, r, m' =>
      u.Made r.calls ∧ r.out.key = k ∧ m' = m.put k (some r.out.val) ∧
      match m k with
      | none => r.out.val = v
      | some old => (old, r.out.val) ∈ r.calls
  | .updateOrInsertWith k u f, m, r, m' =>
      u.Made r.calls ∧ r.out.key = k ∧ m' = m.put k (some r.out.val) ∧
      match m k with
      | none => Gives f r.out.val
      | some old => (old, r.out.val) ∈ r.calls
  | .compute k f, m, r, m' =>
      f.Made r.calls ∧ OnceNone r.calls ∧
      match r.out with
      | .inserted e => m k = none ∧ e.key = k ∧ (none, .insert e.val) ∈ r.calls ∧ m' = m.put k (some e.val)
      | .updated old new => m.at k = some old.kv ∧ new.key = k ∧ (some old.kv, .insert new.val) ∈ r.calls ∧
          m' = m.put k (some new.val)
      | .removed e => m.at k = some e.kv ∧ (some e.kv, .remove) ∈ r.calls ∧ m' = m.put k none
      | .aborted a seen => m.at k = seen.map Entry.kv ∧ (m.at k, .abort a) ∈ r.calls ∧ m' = m
  | .remove k, m, r, m' => Option.map Entry.kv r = m.at k ∧ m' = m.put k none
  | .removeIf k f, m, r, m' =>
      f.Made r.calls ∧
      match r.out with
      | .absent => m k = none ∧ m' = m
      | .removed e => m.at k = some e.kv ∧ (e.kv, true) ∈ r.calls ∧ m' = m.put k none
      | .kept e => m.at k = some e.kv ∧ (e.kv, false) ∈ r.calls ∧ m' = m
  | _, _, _, _ => False

/-- What a bulk operation (`clear`, `retain`) may remove. -/
def SpecDel : Call K V → K × V → Prop
  | .clear, _ => True
  | .retain f, x => f.Says x false
  | _, _ => False

/-- The closure may panic when it is called repeatedly. -/
def Closure.Panics {I O : Type} (f : Closure I O) : Prop := ∃ s i, f.Run s ∧ f.call s.st i = .error .user

/-- Likewise for the closure of `compute`, in a sequence of calls in which it is not called with `None` again after having
answered `Insert` to `None`. -/
def Closure.PanicsOnce {R : Type} (f : Closure (Option (K × V)) (Operation V R)) : Prop :=
  ∃ s i, f.Run s ∧ OnceNone s.calls ∧ (i = none → ∀ v, (none, .insert v) ∉ s.calls) ∧ f.call s.st i = .error .user

/-- The documented panics: those of table allocation, those of user closures, "capacity overflow", and a closure passed
to `compute` that answers `Remove` to `None`. Reading operations never panic. An initialiser (`FnOnce`) is called at most
once: it is its first call that panics. -/
def Call.MayPanic (C : Cfg K) : Call K V → PanicReason → Prop
  | .get _, _ | .containsKey _, _ | .len, _ | .isEmpty, _ => False
  | .reserve _, r => SysPanic C r ∨ r = .capacityOverflow
  | .compute _ f, r => SysPanic C r ∨ (r = .user ∧ f.PanicsOnce) ∨
      (r = .removeNone ∧ ∃ calls, f.Made calls ∧ OnceNone calls ∧ (none, .remove) ∈ calls)
  | .tryInsertWith _ f, r | .getOrInsertWith _ f, r => SysPanic C r ∨ (r = .user ∧ f.call f.init () = .error .user)
  | .update _ f, r | .updateOrInsert _ f _, r => SysPanic C r ∨ (r = .user ∧ f.Panics)
  | .updateOrInsertWith _ u f, r => SysPanic C r ∨ (r = .user ∧ (u.Panics ∨ f.call f.init () = .error .user))
  | .removeIf _ f, r | .retain f, r => SysPanic C r ∨ (r = .user ∧ f.Panics)
  | .insert _ _, r | .tryInsert _ _, r | .getOrInsert _ _, r | .remove _, r | .clear, r | .iter, r | .iterTake _, r => SysPanic C r

end Papaya
