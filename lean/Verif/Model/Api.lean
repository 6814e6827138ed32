import Verif.Model.Ops

/-! # The public operations of `HashMap` — src/map.rs:365-1075

Each public method is a value of `Call`; `Call.prog` is the program it runs. A reference returned by the map is
represented by the entry it points into. `get_key_value`, `remove_entry`, `keys` and `values` run the same programs
as `get`, `remove` and `iter` and return a projection of the same entry (src/map.rs:480, 855, 1032, 1064). -/

namespace Papaya

/-- The public operations. Closures are arbitrary (`FnMut`, with their own state, possibly panicking). -/
inductive Call (K V : Type) : Type 1
  /-- `get`, `get_key_value` — src/map.rs:449-487 -/
  | get (k : K)
  /-- `contains_key` — src/map.rs:422-427 -/
  | containsKey (k : K)
  /-- `insert` — src/map.rs:512-518 -/
  | insert (k : K) (v : V)
  /-- `try_insert` — src/map.rs:541-559 -/
  | tryInsert (k : K) (v : V)
  /-- `try_insert_with` — src/map.rs:581-592 -/
  | tryInsertWith (k : K) (f : Closure Unit V)
  /-- `get_or_insert` — src/map.rs:609-616 -/
  | getOrInsert (k : K) (v : V)
  /-- `get_or_insert_with` — src/map.rs:636-642 -/
  | getOrInsertWith (k : K) (f : Closure Unit V)
  /-- `update` — src/map.rs:674-680 -/
  | update (k : K) (f : Closure V V)
  /-- `update_or_insert` — src/map.rs:700-712 -/
  | updateOrInsert (k : K) (u : Closure V V) (v : V)
  /-- `update_or_insert_with` — src/map.rs:733-746 -/
  | updateOrInsertWith (k : K) (u : Closure V V) (f : Closure Unit V)
  /-- `compute` — src/map.rs:795-806 -/
  | compute {R : Type} (k : K) (f : Closure (Option (K × V)) (Operation V R))
  /-- `remove`, `remove_entry` — src/map.rs:825-861 -/
  | remove (k : K)
  /-- `remove_if` — src/map.rs:888-900 -/
  | removeIf (k : K) (f : Closure (K × V) Bool)
  /-- `clear` — src/map.rs:945-947 -/
  | clear
  /-- `retain` — src/map.rs:971-976 -/
  | retain (f : Closure (K × V) Bool)
  /-- `iter`, `keys`, `values`, consumed to the end — src/map.rs:1000-1072 -/
  | iter
  /-- `iter`, `keys`, `values`, dropped as soon as `n` entries have been consumed (which `n` that will be is decided when the
  iterator is created; the iterator does not depend on it) — src/map.rs:1000-1072 -/
  | iterTake (n : Nat)
  /-- `len` — src/map.rs:380-382 -/
  | len
  /-- `is_empty` — src/map.rs:397-399 -/
  | isEmpty
  /-- `reserve` — src/map.rs:923-925 -/
  | reserve (additional : Nat)

namespace Call

variable {K V : Type}

/-- Result types. `Sum.inl` is `Ok`, `Sum.inr` is `Err`. The results of the operations that call a closure several
times are accompanied by the calls they made. -/
def Res : Call K V → Type
  | .get _ => Option (Entry K V)
  | .containsKey _ => Bool
  | .insert _ _ => Option (Entry K V)
  | .tryInsert _ _ => Entry K V ⊕ (Entry K V × V)
  | .tryInsertWith _ _ => Entry K V ⊕ Entry K V
  | .getOrInsert _ _ => Entry K V
  | .getOrInsertWith _ _ => Entry K V
  | .update _ _ => Called V V (Option (Entry K V))
  | .updateOrInsert _ _ _ => Called V V (Entry K V)
  | .updateOrInsertWith _ _ _ => Called V V (Entry K V)
  | .compute (R := R) _ _ => Called (Option (K × V)) (Operation V R) (Compute K V R)
  | .remove _ => Option (Entry K V)
  | .removeIf _ _ => Called (K × V) Bool (RemRes K V)
  | .clear => Unit
  | .retain _ => Called (K × V) Bool Unit
  | .iter => List (Entry K V)
  | .iterTake _ => List (Entry K V)
  | .len => Nat
  | .isEmpty => Bool
  | .reserve _ => Unit

/-- The references contained in a result. -/
def refs : (c : Call K V) → c.Res → List (Entry K V)
  | .get _, r => Option.toList r
  | .containsKey _, _ => []
  | .insert _ _, r => Option.toList r
  | .tryInsert _ _, .inl e => [e]
  | .tryInsert _ _, .inr (e, _) => [e]
  | .tryInsertWith _ _, .inl e => [e]
  | .tryInsertWith _ _, .inr e => [e]
  | .getOrInsert _ _, e => [e]
  | .getOrInsertWith _ _, e => [e]
  | .update _ _, r => r.out.toList
  | .updateOrInsert _ _ _, r => [r.out]
  | .updateOrInsertWith _ _ _, r => [r.out]
  | .compute _ _, r =>
    match r.out with
    | .inserted e => [e]
    | .updated old new => [old, new]
    | .removed e => [e]
    | .aborted _ seen => seen.toList
  | .remove _, r => Option.toList r
  | .removeIf _ _, r =>
    match r.out with
    | .absent => []
    | .removed e => [e]
    | .kept e => [e]
  | .clear, _ => []
  | .retain _, _ => []
  | .iter, r => r
  | .iterTake _, r => r
  | .len, _ => []
  | .isEmpty, _ => []
  | .reserve _, _ => []

variable [DecidableEq K]

/-- `HashMap::try_insert` — src/map.rs:541-559. -/
def tryInsertProg (C : Cfg K) (k : K) (v : V) : Prog K V (Entry K V ⊕ (Entry K V × V)) := do
  match ← Papaya.insert C k v false with
  | .inserted e => return Sum.inl e
  | .error cur v' => return Sum.inr (cur, v')
  | .replaced _ _ => .panic .unreachableCode

/-- The program run by each operation. -/
def prog (C : Cfg K) : (c : Call K V) → Prog K V c.Res
  | .get k => Papaya.get C k
  | .containsKey k => do
    let r : Option (Entry K V) ← Papaya.get C k
    return r.isSome
  | .insert k v => do
    match ← Papaya.insert C k v true with
    | .inserted _ => return (none : Option (Entry K V))
    | .replaced old _ => return some old
    | .error _ _ => .panic .unreachableCode
  | .tryInsert k v => tryInsertProg C k v
  | .tryInsertWith k f => Papaya.tryInsertWith C k f
  | .getOrInsert k v => do
    match ← tryInsertProg C k v with
    | .inl e => return e
    | .inr (e, _) => return e
  | .getOrInsertWith k f => Papaya.getOrInsertWith C k f
  | .update k f => Papaya.update C k f
  | .updateOrInsert k u v => Papaya.updateOrInsertWith C k u (Closure.pure fun _ => v)
  | .updateOrInsertWith k u f => Papaya.updateOrInsertWith C k u f
  | .compute k f => Papaya.compute C k f
  | .remove k => Papaya.remove C k
  | .removeIf k f => Papaya.removeIf C k f
  | .clear => Papaya.clear C
  | .retain f => Papaya.retain C f
  | .iter => Papaya.iterUpTo C none
  | .iterTake n => Papaya.iterUpTo C (some n)
  | .len => Papaya.len C
  | .isEmpty => do
    let n : Nat ← Papaya.len C
    return n == 0
  | .reserve n => Papaya.reserve C n

end Call

end Papaya
