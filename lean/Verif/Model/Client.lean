import Verif.Spec.Seq
import Mathlib.Logic.Function.Basic

/-! # Code on top of the public operations

The trait implementations of `HashMap` and the whole of `HashSet` call the operations of `Verif/Model/Api.lean` one after
the other, on one or two maps. Such code is a `Client`; `ι` names the maps. Simplifications: an iterator is consumed by
one call; that `eq` and `clone` use their iterator lazily is modelled by the rule `lazy` of `Client.RunsIn`. `Client.Runs` executes
such code without concurrent writers (`Alone`), `Client.RunsIn` while other threads do anything to some of the maps. -/

namespace Papaya

/-- A sequential program that calls operations on the maps `ι`. -/
inductive Client (ι K V : Type) : Type → Type 1
  | ret {α : Type} (a : α) : Client ι K V α
  | call {α : Type} (i : ι) (c : Call K V) (k : c.Res → Client ι K V α) : Client ι K V α

variable {ι K V α : Type}

namespace Client

/-- `for (key, value) in iter { map.insert(key, value) }` -/
def inserts (i : ι) : List (K × V) → Client ι K V Unit
  | [] => .ret ()
  | x :: l => .call i (.insert x.1 x.2) fun _ => inserts i l

/-- `Extend::extend` — src/map.rs:1167-1187, src/set.rs:614-633. `hint` is the lower bound of the iterator's size hint, which may be
any number. -/
def extend (i : ι) (hint : Nat) (l : List (K × V)) : Client ι K V Unit :=
  .call i .isEmpty fun b =>
  .call i (.reserve (cond b hint ((hint + 1) / 2))) fun _ => inserts i l

/-- The capacity of the map created by `FromIterator::from_iter` — src/map.rs:1214-1220, 1235: `hint` is the lower bound
of the size hint after the first element. -/
def fromIterCapacity (hint : Nat) (l : List (K × V)) : Nat := if l.isEmpty then 0 else min (hint + 1) (2 ^ 64 - 1)

/-- The rest of `FromIterator::from_iter`, on the new map `i` — src/map.rs:1214-1237; also `From<[(K, V); N]>`, and
`Deserialize` (src/serde_impls.rs:77-94), which uses the size hint of the input as capacity. -/
def fromIter (i : ι) (l : List (K × V)) : Client ι K V Unit := inserts i l

/-- `Clone::clone` — src/map.rs:1246-1262: `i` is cloned, `j` is the new map, created with capacity `self.len()`;
`clK` and `clV` are the clone functions of the types. -/
def clone (i j : ι) (clK : K → K) (clV : V → V) : Client ι K V Unit :=
  .call i .iter fun r => inserts j (List.map (fun e : Entry K V => (clK e.key, clV e.val)) r)

/-- `Serialize::serialize` — src/serde_impls.rs:14-41: what is handed to the serializer, in this order. -/
def serialize (i : ι) : Client ι K V (List (K × V)) :=
  .call i .iter fun r => .ret (List.map (fun e : Entry K V => (e.key, e.val)) r)

/-- The `all` of `PartialEq::eq` — src/map.rs:1137; `veq` is `PartialEq` of the values. -/
def allEq (j : ι) (veq : V → V → Bool) : List (Entry K V) → Client ι K V Bool
  | [] => .ret true
  | e :: l => .call j (.get e.key) fun r =>
      if Option.any (fun e' : Entry K V => veq e.val e'.val) r then allEq j veq l else .ret false

/-- `PartialEq::eq` — src/map.rs:1128-1139, when the iterator is consumed to the end. -/
def eq (i j : ι) (veq : V → V → Bool) : Client ι K V Bool :=
  .call i .len fun n => .call j .len fun n' =>
    if Nat.beq n n' then .call i .iter fun r => allEq j veq r else .ret false

/-- `PartialEq::eq` — src/map.rs:1128-1139, when the `n`th entry decides: `all` then returns `false` and the iterator is dropped. -/
def eqTake (n : Nat) (i j : ι) (veq : V → V → Bool) : Client ι K V Bool :=
  .call i .len fun l => .call j .len fun l' =>
    if Nat.beq l l' then .call i (.iterTake n) fun r => allEq j veq r else .ret false

end Client

variable [DecidableEq K] [DecidableEq ι]

/-- Executing a client: `C i` are the parameters of map `i`, `ps i` its state. Each call is executed without concurrent
writers on that map. -/
inductive Client.Runs (C : ι → Cfg K) : (ι → PSt K V) → Client ι K V α → α → (ι → PSt K V) → Prop
  | ret {ps a} : Runs C ps (.ret a) a ps
  | call {ps i c k a ps'} {o : OpId} {q : PSt K V} {r : c.Res} (h : Alone (C i) (ps i) q o c)
      (hr : HEv.ret o c r ∈ q.hist) (hk : Runs C (Function.update ps i q) (k r) a ps') : Runs C ps (.call i c k) a ps'

/-- What other threads may do while the client does nothing: anything to the maps they know, nothing to the maps that the client `own`s
(a map that has just been created and not yet been passed to anybody). -/
def OthersMove (C : ι → Cfg K) (own : ι → Bool) (ps ps' : ι → PSt K V) : Prop :=
  ∀ i, Steps (C i) (ps i) (ps' i) ∧ (own i = true → ps' i = ps i)

/-- The calls whose results the client gets one by one, while the call is in progress. -/
def Call.isIterator : Call K V → Bool
  | .iter | .iterTake _ => true
  | _ => false

/-- Executing a client while other threads call anything on the maps that are not `own`. An iterator may be consumed lazily (rule
`lazy`): once it has been created, the client goes on, and the iteration ends sometime before the client does. (The rule allows more than
the code does: that an entry is used only after it has been yielded is not required.) -/
inductive Client.RunsIn (C : ι → Cfg K) (own : ι → Bool) : (ι → PSt K V) → Client ι K V α → α → (ι → PSt K V) → Prop
  | ret {ps a ps'} (h : OthersMove C own ps ps') : RunsIn C own ps (.ret a) a ps'
  | shared {ps i c k a q ps'} {o : OpId} {r : c.Res} (hi : own i = false) (h : OthersMove C own ps q) (hc : HEv.inv o c ∉ (ps i).hist)
      (hr : HEv.ret o c r ∈ (q i).hist) (hk : RunsIn C own q (k r) a ps') : RunsIn C own ps (.call i c k) a ps'
  | lazy {ps i c k a q ps'} {o : OpId} {r : c.Res} (hi : own i = false) (hit : c.isIterator = true) (h : OthersMove C own ps q)
      (hc : HEv.inv o c ∉ (ps i).hist) (hq : HEv.inv o c ∈ (q i).hist) (hk : RunsIn C own q (k r) a ps')
      (hr : HEv.ret o c r ∈ (ps' i).hist) : RunsIn C own ps (.call i c k) a ps'
  | mine {ps i c k a ps'} {o : OpId} {q : PSt K V} {r : c.Res} (hi : own i = true) (h : Alone (C i) (ps i) q o c)
      (hr : HEv.ret o c r ∈ q.hist) (hk : RunsIn C own (Function.update ps i q) (k r) a ps') : RunsIn C own ps (.call i c k) a ps'

/-- Executing a client on mathematical maps. -/
inductive Client.Spec : (ι → AMap K V) → Client ι K V α → α → (ι → AMap K V) → Prop
  | ret {m a} : Spec m (.ret a) a m
  | call {m i c k a m'} {r : c.Res} {x : AMap K V} (h : SeqSpec c (m i) r x)
      (hk : Spec (Function.update m i x) (k r) a m') : Spec m (.call i c k) a m'

end Papaya
