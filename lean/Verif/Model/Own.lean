import Verif.Model.Api

/-! # Who owns the keys and the values a call has been given

The programs of Model/Ops.lean describe what the operations do to the shared memory; a new entry appears there at the
compare-and-swap that publishes it. Here the operations that take a key and values from the caller are written again
with what the Rust code does to them in between: the entry is allocated (for `insert` before the first access to the
table, for `compute` at the first attempt to publish), values are written into the allocation, moved out of it
again after a failed attempt, cached, dropped, handed back, and the allocation is freed or left to the map.

The accesses to the shared memory are those of Model/Ops.lean; here their answers are arbitrary, except that an entry
that has been published is the one that was allocated. -/

set_option linter.unusedVariables false

namespace Papaya

variable {K V : Type}

/-- The entries an action publishes when it gives the answer `r`: a successful compare-and-swap that writes a new entry
publishes it. -/
def Act.pub : {β : Type} → Act K V β → β → List (Entry K V)
  | _, .casNew _ _ _ _ _ _, .inl e => [e]
  | _, _, _ => []

/-- The answers that are possible as far as the contents of a new entry are concerned. -/
def Act.May : {β : Type} → Act K V β → β → Prop
  | _, .casNew _ _ _ _ k v, .inl e => e.key = k ∧ e.val = v
  | _, _, _ => True

/-- The runs of a Rust `loop`, given the runs of its body: the entries published and the result or the panic. -/
inductive LoopEnds {σ β : Type} (B : σ → List (Entry K V) → Except PanicReason (σ ⊕ β) → Prop) :
    σ → List (Entry K V) → Except PanicReason β → Prop
  | more {s s' p q o} : B s p (.ok (.inl s')) → LoopEnds B s' q o → LoopEnds B s (p ++ q) o
  | done {s p b} : B s p (.ok (.inr b)) → LoopEnds B s p (.ok b)
  | panic {s p r} : B s p (.error r) → LoopEnds B s p (.error r)

/-- The complete runs of a program: the entries it publishes, in order, and its result or panic. -/
def Prog.Ends : {α : Type} → Prog K V α → List (Entry K V) → Except PanicReason α → Prop
  | _, .ret a, p, o => p = [] ∧ o = .ok a
  | _, .act a k, p, o => ∃ x q, a.May x ∧ p = a.pub x ++ q ∧ (k x).Ends q o
  | _, .iter body s k, p, o =>
      (∃ p₁ p₂ b, LoopEnds (fun s => (body s).Ends) s p₁ (.ok b) ∧ (k b).Ends p₂ o ∧ p = p₁ ++ p₂) ∨
      (∃ r, LoopEnds (fun s => (body s).Ends) s p (.error r) ∧ o = .error r)
  | _, .panic r, p, o => p = [] ∧ o = .error r

/-- How a piece of code ends: normally, with a panic, or with undefined behaviour (a read of uninitialised memory, an
access to memory that is not owned any more, a double free). -/
inductive Out (α : Type)
  | ok (a : α)
  | panic (r : PanicReason)
  | fault

/-- Code working on the local state `F` of a call: the state before, the entries it publishes, the state afterwards, and
how it ends. -/
def OM (K V F α : Type) : Type := F → List (Entry K V) → F → Out α → Prop

namespace OM

variable {F α β σ : Type}

/-- Sequential composition; a panic or a fault ends the rest. -/
def bind (m : OM K V F α) (g : α → OM K V F β) : OM K V F β := fun h p h' o =>
  (∃ p₁ p₂ h₁ a, m h p₁ h₁ (.ok a) ∧ g a h₁ p₂ h' o ∧ p = p₁ ++ p₂) ∨
  (∃ r, m h p h' (.panic r) ∧ o = .panic r) ∨
  (m h p h' .fault ∧ o = .fault)

instance : Monad (OM K V F) where
  pure a := fun h p h' o => h' = h ∧ p = [] ∧ o = .ok a
  bind := OM.bind

/-- Code that accesses the shared memory only. -/
def sh (q : Prog K V α) : OM K V F α := fun h p h' o =>
  h' = h ∧ ((∃ a, q.Ends p (.ok a) ∧ o = .ok a) ∨ (∃ r, q.Ends p (.error r) ∧ o = .panic r))

/-- A local computation. -/
def upd (g : F → F × Out α) : OM K V F α := fun h p h' o => h' = (g h).1 ∧ p = [] ∧ o = (g h).2

/-- Reading the local state. -/
def frame : OM K V F F := upd fun h => (h, .ok h)

/-- Changing the local state. -/
def modify (g : F → F) : OM K V F Unit := upd fun h => (g h, .ok ())

/-- Undefined behaviour. -/
def fault : OM K V F α := upd fun h => (h, .fault)

/-- `panic!`. -/
def panic (r : PanicReason) : OM K V F α := upd fun h => (h, .panic r)

/-- `loop { .. }` -/
inductive Loop (body : σ → OM K V F (σ ⊕ β)) : σ → OM K V F β
  | more {s s' h h₁ h' p q o} : body s h p h₁ (.ok (.inl s')) → Loop body s' h₁ q h' o → Loop body s h (p ++ q) h' o
  | done {s h h' p b} : body s h p h' (.ok (.inr b)) → Loop body s h p h' (.ok b)
  | panic {s h h' p r} : body s h p h' (.panic r) → Loop body s h p h' (.panic r)
  | fault {s h h' p} : body s h p h' .fault → Loop body s h p h' .fault

/-- The scope of a local variable: when it is left, normally or by a panic that unwinds, its destructor `d` is run. -/
def scope (m : OM K V F α) (d : F → F) : OM K V F α := fun h p h' o =>
  match o with
  | .fault => m h p h' .fault
  | o => ∃ h₁, m h p h₁ o ∧ h' = d h₁

/-- A local variable that is moved away at the end of `m`: its destructor runs only if `m` panics. -/
def unwinding (m : OM K V F α) (d : F → F) : OM K V F α := fun h p h' o =>
  match o with
  | .panic r => ∃ h₁, m h p h₁ (.panic r) ∧ h' = d h₁
  | o => m h p h' o

end OM

/-- The allocation `Box<Entry<K, V>>` of a call, with the value cell possibly uninitialised. -/
inductive OBox (K V : Type)
  /-- not allocated -/
  | none
  /-- allocated and owned by the call; `val = none` if the value cell is uninitialised or has been moved out of -/
  | mine (k : K) (val : Option V)
  /-- published: owned by the map -/
  | published
  /-- deallocated -/
  | freed

/-- `enum LazyEntry` — src/raw/mod.rs:1336-1342. -/
inductive LazyEntry (K : Type)
  | uninit (k : K)
  | init

/-- The values inside an operation that is dropped. -/
def Operation.vals {R : Type} : Operation V R → List V
  | .insert v => [v]
  | .remove => []
  | .abort _ => []

/-! ## `compute` -/

/-- The local state of a call of `compute`: the closure, `struct ComputeState` (src/raw/mod.rs:1246-1255), the variable
`entry: LazyEntry` (src/raw/mod.rs:1523), the allocation it may point to, and the keys and values dropped so far. -/
structure CFrame (K V R : Type) (f : Closure (Option (K × V)) (Operation V R)) where
  st : f.Tr
  insert : Option V
  update : Option (Nat × Operation V R)
  entry : LazyEntry K
  box : OBox K V
  deadKeys : List K
  deadVals : List V

namespace CFrame

variable {R : Type} {f : Closure (Option (K × V)) (Operation V R)}

/-- `LazyEntry::Uninit(key)`, `ComputeState::new` — src/raw/mod.rs:1523, 1274-1280. -/
def new (f : Closure (Option (K × V)) (Operation V R)) (k : K) : CFrame K V R f :=
  ⟨f.start, none, none, .uninit k, .none, [], []⟩

/-- The values dropped with the cached insertion and the cached update. -/
def dropInsert (fr : CFrame K V R f) : CFrame K V R f :=
  { fr with insert := none, deadVals := fr.deadVals ++ fr.insert.toList }

/-- Dropping the cached update. -/
def dropUpdate (fr : CFrame K V R f) : CFrame K V R f :=
  { fr with update := none, deadVals := fr.deadVals ++ (match fr.update with | some (_, op) => op.vals | none => []) }

/-- The destructor of `ComputeState` drops the cached insertion and the cached update (the derived drop glue). -/
def dropState (fr : CFrame K V R f) : CFrame K V R f := fr.dropInsert.dropUpdate

/-- The destructor of `LazyEntry`: it has none of its own, so the key of an `Uninit` is dropped, and the pointer of an
`Init` is forgotten. -/
def dropEntry (fr : CFrame K V R f) : CFrame K V R f :=
  match fr.entry with
  | .uninit k => { fr with deadKeys := fr.deadKeys ++ [k] }
  | .init => fr

/-- Dropping a value held in a local variable. -/
def dropVal (v : V) (fr : CFrame K V R f) : CFrame K V R f := { fr with deadVals := fr.deadVals ++ [v] }

end CFrame

namespace Own

open OM

variable {R : Type} {f : Closure (Option (K × V)) (Operation V R)}

/-- Calling the closure — src/raw/mod.rs:1296, 1309. -/
def invoke (i : Option (K × V)) : OM K V (CFrame K V R f) (Operation V R) :=
  upd fun fr =>
    match f.call fr.st.st i with
    | .ok (st, op) => ({ fr with st := ⟨st, fr.st.calls ++ [(i, op)]⟩ }, .ok op)
    | .error r => (fr, .panic r)

/-- `ComputeState::next` — src/raw/mod.rs:1288-1312. A cached update for another entry is dropped (in the code at the
end of the `match`, after the closure has been called, also if it panics). -/
def next (entry : Option (Entry K V)) : OM K V (CFrame K V R f) (Operation V R) := do
  let fr ← frame
  match entry with
  | none =>
    match fr.insert with
    | some v => do
      modify fun fr => { fr with insert := none }
      return .insert v
    | none => invoke none
  | some e =>
    match fr.update with
    | some (id, op) => do
      if ← sh (A.sameEntry id e.id) then
        modify fun fr => { fr with update := none }
        return op
      else
        modify CFrame.dropUpdate
        sh (A.deref e)
        invoke (some (e.key, e.val))
    | none => do
      sh (A.deref e)
      invoke (some (e.key, e.val))

/-- `ComputeState::restore` — src/raw/mod.rs:1324-1332. The assignments drop what was cached before. -/
def restore (input : Option (Entry K V)) (output : Operation V R) : OM K V (CFrame K V R f) Unit := do
  match input with
  | some e => do
    modify CFrame.dropUpdate
    modify fun fr => { fr with update := some (e.id, output) }
  | none =>
    match output with
    | .insert v => do
      modify CFrame.dropInsert
      modify fun fr => { fr with insert := some v }
    | _ => panic .unreachableCode

/-- `LazyEntry::init` — src/raw/mod.rs:1357-1378. (If the allocator panics, the process is aborted.) -/
def init : OM K V (CFrame K V R f) Unit :=
  modify fun fr =>
    match fr.entry with
    | .init => fr
    | .uninit k => { fr with entry := .init, box := .mine k none }

/-- `(*new_entry).value = MaybeUninit::new(value)` — src/raw/mod.rs:1605, 1704. A value that is already there is
overwritten without being dropped. -/
def write (v : V) : OM K V (CFrame K V R f) Unit :=
  upd fun fr =>
    match fr.box with
    | .mine k _ => ({ fr with box := .mine k (some v) }, .ok ())
    | _ => (fr, .fault)

/-- `(*new_entry).value.assume_init_read()` — src/raw/mod.rs:1631, 1643, 1738. -/
def moveOut : OM K V (CFrame K V R f) V :=
  upd fun fr =>
    match fr.box with
    | .mine k (some v) => ({ fr with box := .mine k none }, .ok v)
    | _ => (fr, .fault)

/-- `Box::from_raw(entry)`, dropped at once: the key is dropped, the `MaybeUninit` value is not — src/raw/mod.rs:1534. -/
def free : OM K V (CFrame K V R f) Unit :=
  upd fun fr =>
    match fr.box with
    | .mine k _ => ({ fr with box := .freed, deadKeys := fr.deadKeys ++ [k] }, .ok ())
    | _ => (fr, .fault)

variable [DecidableEq K]

/-- The key of the entry to be inserted — src/raw/mod.rs:1347-1352 (`LazyEntry::key`). -/
def key : OM K V (CFrame K V R f) K :=
  upd fun fr =>
    match fr.entry, fr.box with
    | .uninit k, _ => (fr, .ok k)
    | .init, .mine k _ => (fr, .ok k)
    | .init, _ => (fr, .fault)

/-- An attempt to publish the allocation: from the moment it is published on (also if the code goes on and panics), it
belongs to the map. -/
def attempt {α : Type} (q : K → V → Prog K V α) : OM K V (CFrame K V R f) α := fun fr p fr' o =>
  match fr.box with
  | .mine k (some v) =>
    ((∃ a, (q k v).Ends p (.ok a) ∧ o = .ok a) ∨ (∃ r, (q k v).Ends p (.error r) ∧ o = .panic r)) ∧
    fr' = match p with
      | [] => fr
      | _ :: _ => { fr with box := .published }
  | _ => fr' = fr ∧ p = [] ∧ o = .fault

/-- `insert_at` called with the allocation — src/raw/mod.rs:1611. -/
def insertAt (C : Cfg K) (i m : Nat) (T : Table) : OM K V (CFrame K V R f) (InsStat K V) :=
  attempt fun k v => Papaya.insertAt C i m k v T

/-- `update_at` called with the allocation — src/raw/mod.rs:1712-1714. -/
def updateAt (C : Cfg K) (i : Nat) (e : Entry K V) (s : Slot K V) (T : Table) :
    OM K V (CFrame K V R f) (UpdStat K V) :=
  attempt fun k v => Papaya.updateAtNew C i e s k v T

/-- Handling of a failed update in `compute_with` — src/raw/mod.rs:1791-1820. -/
def computeFailure (T : Table) (probe : Probe) (status : EStat K V) :
    OM K V (CFrame K V R f) ((Entry K V × Slot K V) ⊕ (Probe ⊕ WOut (Compute K V R))) := do
  match status with
  | .copied _ _ => return Sum.inr (Sum.inr (.retry (some probe.i)))
  | .null => do
    match ← next none with
    | .insert v => do
      restore none (.insert v)
      return Sum.inr (Sum.inl (probe.next T.mask))
    | .remove => panic .removeNone
    | .abort a => return Sum.inr (Sum.inr (.done (.aborted a none)))
  | .value e' s' => return Sum.inl (e', s')

/-- The update loop of `compute_with` — src/raw/mod.rs:1691-1821. -/
def computeLoop (C : Cfg K) (T : Table) (probe : Probe) (e : Entry K V) (s : Slot K V) :
    OM K V (CFrame K V R f) (Probe ⊕ WOut (Compute K V R)) :=
  Loop (fun (e, s) => do
    match ← next (some e) with
    | .abort a => return Sum.inr (Sum.inr (.done (.aborted a (some e))))
    | .insert v => do
      init
      write v
      match ← updateAt C probe.i e s T with
      | .replaced (some new) => return Sum.inr (Sum.inr (.done (.updated e new)))
      | .replaced none => panic .unreachableCode
      | .found st => do
        let v ← moveOut
        restore (some e) (.insert v)
        computeFailure T probe st
    | .remove => do
      match ← sh (updateAtTomb C probe.i e s T) with
      | .replaced _ => do
        sh (A.storeMd T.id probe.i TOMBSTONE)
        sh (A.addCount (-1))
        return Sum.inr (Sum.inr (.done (.removed e)))
      | .found st => do
        restore (some e) .remove
        computeFailure T probe st) (e, s)

/-- Handling of a non-null entry found by `compute_with` — src/raw/mod.rs:1676-1821. -/
def computeFound (C : Cfg K) (T : Table) (probe : Probe) (e : Entry K V) (s : Slot K V) :
    OM K V (CFrame K V R f) (Probe ⊕ WOut (Compute K V R)) := do
  sh (A.deref e)
  let k ← key
  if e.key ≠ k then
    return Sum.inl (probe.next T.mask)
  else if s.copying then
    return Sum.inr (.retry (some probe.i))
  else
    computeLoop C T probe e s

/-- The probe loop of `compute_with` on one table — src/raw/mod.rs:1582-1822. -/
def computeProbe (C : Cfg K) (h1 h2 : Nat) (T : Table) : OM K V (CFrame K V R f) (WOut (Compute K V R)) :=
  Loop (fun probe => do
    if probe.len ≤ T.limit then
      let m ← sh (A.loadMd T.id probe.i)
      if m = EMPTY then
        match ← next none with
        | .remove => panic .removeNone
        | .abort a => return Sum.inr (.done (.aborted a none))
        | .insert v => do
          init
          write v
          match ← insertAt C probe.i h2 T with
          | .inserted e => do
            sh (A.addCount 1)
            return Sum.inr (.done (.inserted e))
          | .found (.value e s) => do
            let v ← moveOut
            restore none (.insert v)
            computeFound C T probe e s
          | .found (.copied e s) => do
            let v ← moveOut
            restore none (.insert v)
            computeFound C T probe e s
          | .found .null => do
            let v ← moveOut
            restore none (.insert v)
            return Sum.inl (probe.next T.mask)
      else if m = h2 then
        let s ← sh (A.loadSlot T.id probe.i)
        match s.ptr with
        | none => return Sum.inl (probe.next T.mask)
        | some e => computeFound C T probe e s
      else
        return Sum.inl (probe.next T.mask)
    else
      return Sum.inr (.retry none)) (Probe.start h1 T.mask)

/-- First part of `compute_with` — src/raw/mod.rs:1556-1572. -/
def computeInit (C : Cfg K) : OM K V (CFrame K V R f) (Table ⊕ R) := do
  match ← sh A.loadRoot with
  | some T => return Sum.inl T
  | none => do
    match ← next none with
    | .insert v => do
      restore none (.insert v)
      let T ← sh (initTable C none)
      return Sum.inl T
    | .remove => panic .removeNone
    | .abort a => return Sum.inr a

/-- `compute_with` without the end of the scope of `state` — src/raw/mod.rs:1547-1844. -/
def computeBody (C : Cfg K) : OM K V (CFrame K V R f) (Compute K V R) := do
  match ← computeInit C with
  | .inr a => return .aborted a none
  | .inl T => do
    let k ← key
    Loop (fun (T, help) => do
      match ← computeProbe C (C.h1 k) (C.h2 k) T with
      | .done r => return Sum.inr r
      | .retry copying => do
        match ← sh (prepareRetry C copying help T) with
        | some next => return Sum.inl (next, false)
        | none => do
          match ← next none with
          | .insert v => do
            let next ← unwinding (sh (prepareRetryInsert C none help T)) (CFrame.dropVal v)
            restore none (.insert v)
            return Sum.inl (next, false)
          | .abort a => return Sum.inr (.aborted a none)
          | .remove => panic .removeNone) (T, false)

/-- `compute_with` — src/raw/mod.rs:1547-1844: `state` is dropped at the end. -/
def computeWith (C : Cfg K) : OM K V (CFrame K V R f) (Compute K V R) := scope (computeBody C) CFrame.dropState

/-- `compute` — src/raw/mod.rs:1513-1539: the allocation is freed if it has not been published; the variable `entry` is
dropped at the end. -/
def compute (C : Cfg K) : OM K V (CFrame K V R f) (Compute K V R) :=
  scope (do
    let r ← computeWith C
    match r with
    | .removed _ | .aborted _ _ => do
      match (← frame).entry with
      | .init => do
        free
        return r
      | .uninit _ => return r
    | _ => return r) CFrame.dropEntry

/-! ## `insert` -/

end Own

/-- The local state of a call of `insert`: the allocation, and the keys dropped so far. -/
structure IFrame (K V : Type) where
  box : OBox K V
  deadKeys : List K

namespace Own

open OM

/-- `insert_inner` after the allocation — src/raw/mod.rs:450-579. The allocation is only read, until it is published. -/
def insertInner [DecidableEq K] (C : Cfg K) (replace : Bool) : OM K V (IFrame K V) (InsRes K V) := fun fr p fr' o =>
  match fr.box with
  | .mine k (some v) =>
    ((∃ a, (Papaya.insertInner C k v replace).Ends p (.ok a) ∧ o = .ok a) ∨
      (∃ r, (Papaya.insertInner C k v replace).Ends p (.error r) ∧ o = .panic r)) ∧
    fr' = match p with
      | [] => fr
      | _ :: _ => { fr with box := .published }
  | _ => fr' = fr ∧ p = [] ∧ o = .fault

/-- `Box::from_raw(not_inserted)`, of which the value is moved out; the key is dropped with the box —
src/raw/mod.rs:419-431. -/
def unbox : OM K V (IFrame K V) V :=
  upd fun fr =>
    match fr.box with
    | .mine k (some v) => ({ box := .freed, deadKeys := fr.deadKeys ++ [k] }, .ok v)
    | _ => (fr, .fault)

/-- `insert` — src/raw/mod.rs:397-435, with the allocation at the beginning of `insert_inner`, src/raw/mod.rs:446-447. -/
def insert [DecidableEq K] (C : Cfg K) (k : K) (v : V) (replace : Bool) : OM K V (IFrame K V) (InsRes K V) := do
  modify fun fr => { fr with box := .mine k (some v) }
  match ← insertInner C replace with
  | .inserted e => do
    sh (A.addCount 1)
    return .inserted e
  | .replaced old new => return .replaced old new
  | .error cur _ => do
    let v ← unbox
    return .error cur v

end Own

end Papaya
