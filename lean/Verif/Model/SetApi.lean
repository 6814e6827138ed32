import Verif.Model.Client

/-! # `HashSet` — src/set.rs: a `HashMap` with values `()`

Each public method calls one operation of the underlying map (`SetCall.toCall`) and projects its result
(`SetCall.out`). -/

namespace Papaya

/-- The public operations of `HashSet`. -/
inductive SetCall (K : Type) : Type 1
  /-- `contains` — src/set.rs:368-373 -/
  | contains (k : K)
  /-- `get` — src/set.rs:395-404 -/
  | get (k : K)
  /-- `insert` — src/set.rs:429-435 -/
  | insert (k : K)
  /-- `remove` — src/set.rs:455-464 -/
  | remove (k : K)
  /-- `clear` — src/set.rs:508-510 -/
  | clear
  /-- `retain` — src/set.rs:536-541 -/
  | retain (f : Closure K Bool)
  /-- `iter`, consumed to the end — src/set.rs:564-571 -/
  | iter
  /-- `iter`, dropped as soon as `n` elements have been consumed — src/set.rs:564-571 -/
  | iterTake (n : Nat)
  /-- `len` — src/set.rs:326-328 -/
  | len
  /-- `is_empty` — src/set.rs:343-345 -/
  | isEmpty
  /-- `reserve` — src/set.rs:486-488 -/
  | reserve (additional : Nat)

variable {K : Type}

/-- The closure `|k, _| f(k)` passed to the map by `retain` — src/set.rs:540. -/
def Closure.onKey (f : Closure K Bool) : Closure (K × Unit) Bool := ⟨f.S, f.init, fun s x => f.call s x.1⟩

namespace SetCall

/-- The operation of the underlying map. -/
def toCall : SetCall K → Call K Unit
  | .contains k => .get k
  | .get k => .get k
  | .insert k => .insert k ()
  | .remove k => .remove k
  | .clear => .clear
  | .retain f => .retain f.onKey
  | .iter => .iter
  | .iterTake n => .iterTake n
  | .len => .len
  | .isEmpty => .isEmpty
  | .reserve n => .reserve n

/-- Result types; for `retain` the calls made to the predicate. -/
def Res : SetCall K → Type
  | .contains _ => Bool
  | .get _ => Option K
  | .insert _ => Bool
  | .remove _ => Bool
  | .clear => Unit
  | .retain _ => List (K × Bool)
  | .iter => List K
  | .iterTake _ => List K
  | .len => Nat
  | .isEmpty => Bool
  | .reserve _ => Unit

/-- What the method returns, given the result of the operation of the map. (`HashMap::insert` returns the replaced entry
if there was one: `Inserted` is `none`, `Replaced` is `some`.) -/
def out : (c : SetCall K) → c.toCall.Res → c.Res
  | .contains _, r => Option.isSome r
  | .get _, r => Option.map Entry.key r
  | .insert _, r => Option.isNone r
  | .remove _, r => Option.isSome r
  | .clear, r => r
  | .retain _, r => List.map (fun x : (K × Unit) × Bool => (x.1.1, x.2)) r.calls
  | .iter, r => List.map Entry.key r
  | .iterTake _, r => List.map Entry.key r
  | .len, r => r
  | .isEmpty, r => r
  | .reserve _, r => r

end SetCall

end Papaya
