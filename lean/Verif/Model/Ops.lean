import Verif.Model.Resize

/-! # Map operations — src/raw/mod.rs:312-1844, 2626-2684 -/

namespace Papaya

open Prog

variable {K V : Type} [DecidableEq K]

/-- Outcome of one pass of the probe loop of `get`. -/
inductive GetOut (K V : Type)
  /-- `return Some(..)` -/
  | found (e : Entry K V)
  /-- `return None` -/
  | absent
  /-- `break 'probe` or the probe limit was exceeded -/
  | nextTable

/-- The probe loop of `get` on one table — src/raw/mod.rs:331-380. -/
def getProbe (C : Cfg K) (k : K) (T : Table) : Prog K V (GetOut K V) :=
  loop (Probe.start (C.h1 k) T.mask) fun probe => do
    if probe.len ≤ T.limit then
      let m ← A.loadMd T.id probe.i
      if m = C.h2 k then
        let s ← A.loadSlot T.id probe.i
        match s.ptr with
        | none => return Sum.inl (probe.next T.mask)
        | some e => do
          A.deref e
          if e.key = k then
            if s.copied then return Sum.inr .nextTable
            else return Sum.inr (.found e)
          else if m = EMPTY then return Sum.inr .absent
          else return Sum.inl (probe.next T.mask)
      else if m = EMPTY then return Sum.inr .absent
      else return Sum.inl (probe.next T.mask)
    else
      return Sum.inr .nextTable

/-- `HashMap::get` — src/raw/mod.rs:312-393. -/
def get (C : Cfg K) (k : K) : Prog K V (Option (Entry K V)) := do
  match ← A.loadRoot with
  | none => return none
  | some T =>
    loop T fun T => do
      match ← getProbe C k T with
      | .found e => return Sum.inr (some e)
      | .absent => return Sum.inr none
      | .nextTable => do
        if C.inc then
          match ← A.loadNext T.id with
          | some next => return Sum.inl next
          | none => return Sum.inr none
        else
          return Sum.inr none

/-- `InsertStatus` — src/raw/mod.rs:205-211. -/
inductive InsStat (K V : Type)
  | inserted (e : Entry K V)
  | found (s : EStat K V)

/-- `UpdateStatus` — src/raw/mod.rs:196-202; on success the entry that was written (if any). -/
inductive UpdStat (K V : Type)
  | replaced (new : Option (Entry K V))
  | found (s : EStat K V)

/-- `insert_at` — src/raw/mod.rs:878-936. Inserts a new entry `(k, v)`. -/
def insertAt (C : Cfg K) (i m : Nat) (k : K) (v : V) (T : Table) : Prog K V (InsStat K V) := do
  match ← A.casNew false T.id i Slot.null k v with
  | .inl e => do
    A.storeMd T.id i m
    return .inserted e
  | .inr found => do
    match found.ptr with
    | some e => do
      A.deref e
      if (← A.loadMd T.id i) = EMPTY then
        A.storeMd T.id i (C.h2 e.key)
        return .found (.value e found)
      else
        return .found (.value e found)
    | none => do
      if (← A.loadMd T.id i) = EMPTY then
        A.storeMd T.id i TOMBSTONE
        return .found .null
      else
        return .found .null

/-- `update_at` with a new entry `(k, v)` — src/raw/mod.rs:949-983. `cur` is the tagged pointer of `e`. -/
def updateAtNew (C : Cfg K) (i : Nat) (e : Entry K V) (cur : Slot K V) (k : K) (v : V) (T : Table) :
    Prog K V (UpdStat K V) := do
  match ← A.casNew true T.id i cur k v with
  | .inl new => do
    deferRetire C e cur T
    return .replaced (some new)
  | .inr found => return .found (EStat.from found)

/-- `update_at` with `Entry::TOMBSTONE` — src/raw/mod.rs:949-983. -/
def updateAtTomb (C : Cfg K) (i : Nat) (e : Entry K V) (cur : Slot K V) (T : Table) :
    Prog K V (UpdStat K V) := do
  match ← A.cas true T.id i cur Slot.tombstone with
  | none => do
    deferRetire C e cur T
    return .replaced none
  | some found => return .found (EStat.from found)

/-- `prepare_retry_insert` — src/raw/mod.rs:617-657; returns the next table and the new `help_copy` flag. -/
def prepareRetryInsert (C : Cfg K) (copying : Option Nat) (helpCopy' : Bool) (T : Table) :
    Prog K V Table := do
  let next ← getOrAllocNext C none T
  match C.mode with
  | .blocking => helpCopy C true T
  | .incremental _ => do
    let next ← (if helpCopy' then helpCopy C false T else return next)
    match copying with
    | some i => do
      waitCopied C i T
      return next
    | none => return next

/-- `prepare_retry` — src/raw/mod.rs:821-866. -/
def prepareRetry (C : Cfg K) (copying : Option Nat) (helpCopy' : Bool) (T : Table) :
    Prog K V (Option Table) := do
  match C.mode with
  | .blocking =>
    match copying with
    | some _ => do
      let n ← helpCopy C true T
      return some n
    | none => return none
  | .incremental _ => do
    match ← A.loadNext T.id with
    | none => return none
    | some next => do
      if helpCopy' then
        let _ ← helpCopy C false T
      else
        .ret ()
      match copying with
      | some i => do
        waitCopied C i T
        return some next
      | none => return some next

/-- `RawInsertResult` / `InsertResult` — src/raw/mod.rs:95-119. -/
inductive InsRes (K V : Type)
  | inserted (e : Entry K V)
  | replaced (old : Entry K V) (new : Entry K V)
  | error (current : Entry K V) (notInserted : V)

/-- `insert_slow` — src/raw/mod.rs:590-612. -/
def insertSlow (C : Cfg K) (i : Nat) (e : Entry K V) (cur : Slot K V) (k : K) (v : V) (T : Table) :
    Prog K V ((Entry K V × Entry K V) ⊕ EStat K V) :=
  loop (e, cur) fun (e, cur) => do
    match ← updateAtNew C i e cur k v T with
    | .found (.value e' cur') => return Sum.inl (e', cur')
    | .found st => return Sum.inr (Sum.inr st)
    | .replaced (some new) => return Sum.inr (Sum.inl (e, new))
    | .replaced none => .panic .unreachableCode

/-- What the probe loop of a writer ends with: a result, or `break 'probe copying`. -/
inductive WOut (R : Type)
  | done (r : R)
  | retry (copying : Option Nat)

/-- Handling of a non-null entry found by `insert_inner` — src/raw/mod.rs:525-573. -/
def insertFound (C : Cfg K) (k : K) (v : V) (replace : Bool) (T : Table) (probe : Probe)
    (e : Entry K V) (s : Slot K V) : Prog K V (Probe ⊕ WOut (InsRes K V)) := do
  A.deref e
  if e.key = k then
    if s.copying then
      return Sum.inr (.retry (some probe.i))
    else if replace = false then
      return Sum.inr (.done (.error e v))
    else
      match ← insertSlow C probe.i e s k v T with
      | .inl (old, new) => return Sum.inr (.done (.replaced old new))
      | .inr (.copied _ _) => return Sum.inr (.retry (some probe.i))
      | .inr .null => return Sum.inl (probe.next T.mask)
      | .inr (.value _ _) => return Sum.inl probe
  else
    return Sum.inl (probe.next T.mask)

/-- The probe loop of `insert_inner` on one table — src/raw/mod.rs:468-574. -/
def insertProbe (C : Cfg K) (k : K) (v : V) (replace : Bool) (T : Table) :
    Prog K V (WOut (InsRes K V)) :=
  loop (Probe.start (C.h1 k) T.mask) fun probe => do
    if probe.len ≤ T.limit then
      let m ← A.loadMd T.id probe.i
      if m = EMPTY then
        match ← insertAt C probe.i (C.h2 k) k v T with
        | .inserted e => return Sum.inr (.done (.inserted e))
        | .found (.value e s) => insertFound C k v replace T probe e s
        | .found (.copied e s) => insertFound C k v replace T probe e s
        | .found .null => return Sum.inl (probe.next T.mask)
      else if m = C.h2 k then
        let s ← A.loadSlot T.id probe.i
        match s.ptr with
        | none => return Sum.inl (probe.next T.mask)
        | some e => insertFound C k v replace T probe e s
      else
        return Sum.inl (probe.next T.mask)
    else
      return Sum.inr (.retry none)

/-- `insert_inner` — src/raw/mod.rs:439-579. (The entry is allocated by the CAS that publishes it.) -/
def insertInner (C : Cfg K) (k : K) (v : V) (replace : Bool) : Prog K V (InsRes K V) := do
  let T ← (do
    match ← A.loadRoot with
    | some T => return T
    | none => initTable C none)
  loop (T, true) fun (T, help) => do
    match ← insertProbe C k v replace T with
    | .done r => return Sum.inr r
    | .retry copying => do
      let next ← prepareRetryInsert C copying help T
      return Sum.inl (next, false)

/-- `HashMap::insert` — src/raw/mod.rs:397-435. -/
def insert (C : Cfg K) (k : K) (v : V) (replace : Bool) : Prog K V (InsRes K V) := do
  let r ← insertInner C k v replace
  match r with
  | .inserted e => do
    A.addCount 1
    return .inserted e
  | r => return r

/-- The result of an operation together with the calls it made to its closure (recorded for the specifications; a
`FnMut` closure can record them itself). -/
structure Called (I O R : Type) where
  calls : List (I × O)
  out : R

/-- Result of `remove_if`: `Ok(None)`, `Ok(Some(..))`, `Err(..)`. -/
inductive RemRes (K V : Type)
  | absent
  | removed (e : Entry K V)
  | kept (e : Entry K V)

/-- The update loop of `remove_if` — src/raw/mod.rs:754-804. -/
def removeLoop (C : Cfg K) (f : Closure (K × V) Bool) (T : Table) (i : Nat) (st : f.Tr)
    (e : Entry K V) (s : Slot K V) : Prog K V (f.Tr × WOut (RemRes K V)) :=
  loop (st, e, s) fun (st, e, s) => do
    A.deref e
    let (st, b) ← f.invoke st (e.key, e.val)
    if b = false then
      return Sum.inr (st, .done (.kept e))
    else
      match ← updateAtTomb C i e s T with
      | .replaced _ => do
        A.storeMd T.id i TOMBSTONE
        A.addCount (-1)
        return Sum.inr (st, .done (.removed e))
      | .found (.copied _ _) => return Sum.inr (st, .retry (some i))
      | .found .null => return Sum.inr (st, .done .absent)
      | .found (.value e' s') => return Sum.inl (st, e', s')

/-- The probe loop of `remove_if` on one table — src/raw/mod.rs:703-805. -/
def removeProbe (C : Cfg K) (k : K) (f : Closure (K × V) Bool) (st : f.Tr) (T : Table) :
    Prog K V (f.Tr × WOut (RemRes K V)) :=
  loop (Probe.start (C.h1 k) T.mask) fun probe => do
    if probe.len ≤ T.limit then
      let m ← A.loadMd T.id probe.i
      if m = EMPTY then
        return Sum.inr (st, .done .absent)
      else if m ≠ C.h2 k then
        return Sum.inl (probe.next T.mask)
      else
        let s ← A.loadSlot T.id probe.i
        match s.ptr with
        | none => return Sum.inl (probe.next T.mask)
        | some e => do
          A.deref e
          if e.key ≠ k then
            return Sum.inl (probe.next T.mask)
          else if s.copying then
            return Sum.inr (st, .retry (some probe.i))
          else
            let r ← removeLoop C f T probe.i st e s
            return Sum.inr r
    else
      return Sum.inr (st, .retry none)

/-- `HashMap::remove_if` — src/raw/mod.rs:677-815. -/
def removeIf (C : Cfg K) (k : K) (f : Closure (K × V) Bool) : Prog K V (Called (K × V) Bool (RemRes K V)) := do
  match ← A.loadRoot with
  | none => return ⟨[], .absent⟩
  | some T =>
    loop (T, true, f.start) fun (T, help, st) => do
      match ← removeProbe C k f st T with
      | (st, .done r) => return Sum.inr ⟨st.calls, r⟩
      | (st, .retry copying) => do
        match ← prepareRetry C copying help T with
        | some next => return Sum.inl (next, false, st)
        | none => return Sum.inr ⟨st.calls, .absent⟩

/-- `HashMap::remove` — src/raw/mod.rs:661-672. Reaching the `Err` case would be undefined behaviour
(`unwrap_unchecked`), modelled as the panic `unreachableCode`. -/
def remove (C : Cfg K) (k : K) : Prog K V (Option (Entry K V)) := do
  let r ← removeIf C k (Closure.pure fun _ => true)
  match r.out with
  | .absent => return none
  | .removed e => return some e
  | .kept _ => .panic .unreachableCode

/-- `enum Operation` — src/map.rs:1078-1091. -/
inductive Operation (V R : Type)
  | insert (v : V)
  | remove
  | abort (a : R)

/-- `enum Compute` — src/map.rs:1093-1115. In the case `Aborted`, `seen` is the entry the closure was given when it
aborted: its answer `a` may contain references to it (as in `try_insert_with`). -/
inductive Compute (K V R : Type)
  | inserted (e : Entry K V)
  | updated (old new : Entry K V)
  | removed (e : Entry K V)
  | aborted (a : R) (seen : Option (Entry K V))

/-- `struct ComputeState` — src/raw/mod.rs:1246-1255. -/
structure CState (K V R : Type) (f : Closure (Option (K × V)) (Operation V R)) where
  st : f.Tr
  insert : Option V
  update : Option (Nat × Operation V R)

/-- `ComputeState::new` — src/raw/mod.rs:1274-1280. -/
def CState.new {R : Type} (f : Closure (Option (K × V)) (Operation V R)) : CState K V R f :=
  ⟨f.start, none, none⟩

/-- `ComputeState::next` — src/raw/mod.rs:1288-1312. Cached updates are compared by address. -/
def CState.next {R : Type} {f : Closure (Option (K × V)) (Operation V R)} (c : CState K V R f)
    (entry : Option (Entry K V)) : Prog K V (CState K V R f × Operation V R) :=
  match entry with
  | none =>
    match c.insert with
    | some v => .ret ({ c with insert := none }, .insert v)
    | none => do
      let (st, op) ← f.invoke c.st none
      return ({ c with st := st }, op)
  | some e =>
    match c.update with
    | some (id, op) => do
      if ← A.sameEntry id e.id then return ({ c with update := none }, op)
      else
        A.deref e
        let (st, op) ← f.invoke c.st (some (e.key, e.val))
        return ({ c with st := st, update := none }, op)
    | none => do
      A.deref e
      let (st, op) ← f.invoke c.st (some (e.key, e.val))
      return ({ c with st := st }, op)

/-- `ComputeState::restore` — src/raw/mod.rs:1324-1332. -/
def CState.restore {R : Type} {f : Closure (Option (K × V)) (Operation V R)} (c : CState K V R f)
    (input : Option (Entry K V)) (output : Operation V R) : Prog K V (CState K V R f) :=
  match input with
  | some e => .ret { c with update := some (e.id, output) }
  | none =>
    match output with
    | .insert v => .ret { c with insert := some v }
    | _ => .panic .unreachableCode

/-- Handling of a failed update in `compute_with` — src/raw/mod.rs:1791-1820. -/
def computeFailure {R : Type} {f : Closure (Option (K × V)) (Operation V R)} (T : Table)
    (probe : Probe) (c : CState K V R f) (status : EStat K V) :
    Prog K V ((CState K V R f × Entry K V × Slot K V) ⊕
      ((CState K V R f × Probe) ⊕ (CState K V R f × WOut (Compute K V R)))) := do
  match status with
  | .copied _ _ => return Sum.inr (Sum.inr (c, .retry (some probe.i)))
  | .null => do
    let (c, op) ← c.next none
    match op with
    | .insert v => do
      let c ← c.restore none (.insert v)
      return Sum.inr (Sum.inl (c, probe.next T.mask))
    | .remove => .panic .removeNone
    | .abort a => return Sum.inr (Sum.inr (c, .done (.aborted a none)))
  | .value e' s' => return Sum.inl (c, e', s')

/-- The update loop of `compute_with` — src/raw/mod.rs:1691-1821. Returns the probe to continue with, or how the
probe loop ends. -/
def computeLoop {R : Type} {f : Closure (Option (K × V)) (Operation V R)} (C : Cfg K) (k : K)
    (T : Table) (probe : Probe) (c : CState K V R f) (e : Entry K V) (s : Slot K V) :
    Prog K V ((CState K V R f × Probe) ⊕ (CState K V R f × WOut (Compute K V R))) :=
  loop (c, e, s) fun (c, e, s) => do
    let (c, op) ← c.next (some e)
    match op with
    | .abort a => return Sum.inr (Sum.inr (c, .done (.aborted a (some e))))
    | .insert v => do
      match ← updateAtNew C probe.i e s k v T with
      | .replaced (some new) => return Sum.inr (Sum.inr (c, .done (.updated e new)))
      | .replaced none => .panic .unreachableCode
      | .found st => do
        let c ← c.restore (some e) (.insert v)
        computeFailure T probe c st
    | .remove => do
      match ← updateAtTomb C probe.i e s T with
      | .replaced _ => do
        A.storeMd T.id probe.i TOMBSTONE
        A.addCount (-1)
        return Sum.inr (Sum.inr (c, .done (.removed e)))
      | .found st => do
        let c ← c.restore (some e) .remove
        computeFailure T probe c st

/-- Handling of a non-null entry found by `compute_with` — src/raw/mod.rs:1676-1821. -/
def computeFound {R : Type} {f : Closure (Option (K × V)) (Operation V R)} (C : Cfg K) (k : K)
    (T : Table) (probe : Probe) (c : CState K V R f) (e : Entry K V) (s : Slot K V) :
    Prog K V ((CState K V R f × Probe) ⊕ (CState K V R f × WOut (Compute K V R))) := do
  A.deref e
  if e.key ≠ k then
    return Sum.inl (c, probe.next T.mask)
  else if s.copying then
    return Sum.inr (c, .retry (some probe.i))
  else
    computeLoop C k T probe c e s

/-- The probe loop of `compute_with` on one table — src/raw/mod.rs:1582-1822. -/
def computeProbe {R : Type} {f : Closure (Option (K × V)) (Operation V R)} (C : Cfg K) (k : K)
    (T : Table) (c : CState K V R f) : Prog K V (CState K V R f × WOut (Compute K V R)) :=
  loop (c, Probe.start (C.h1 k) T.mask) fun (c, probe) => do
    if probe.len ≤ T.limit then
      let m ← A.loadMd T.id probe.i
      if m = EMPTY then
        let (c, op) ← c.next none
        match op with
        | .remove => .panic .removeNone
        | .abort a => return Sum.inr (c, .done (.aborted a none))
        | .insert v => do
          match ← insertAt C probe.i (C.h2 k) k v T with
          | .inserted e => do
            A.addCount 1
            return Sum.inr (c, .done (.inserted e))
          | .found (.value e s) => do
            let c ← c.restore none (.insert v)
            computeFound C k T probe c e s
          | .found (.copied e s) => do
            let c ← c.restore none (.insert v)
            computeFound C k T probe c e s
          | .found .null => do
            let c ← c.restore none (.insert v)
            return Sum.inl (c, probe.next T.mask)
      else if m = C.h2 k then
        let s ← A.loadSlot T.id probe.i
        match s.ptr with
        | none => return Sum.inl (c, probe.next T.mask)
        | some e => computeFound C k T probe c e s
      else
        return Sum.inl (c, probe.next T.mask)
    else
      return Sum.inr (c, .retry none)

/-- First part of `compute_with`, when no table is allocated yet — src/raw/mod.rs:1556-1572. -/
def computeInit {R : Type} {f : Closure (Option (K × V)) (Operation V R)} (C : Cfg K) (c : CState K V R f) :
    Prog K V ((CState K V R f × Table) ⊕ (CState K V R f × R)) := do
  match ← A.loadRoot with
  | some T => return Sum.inl (c, T)
  | none => do
    let (c, op) ← c.next none
    match op with
    | .insert v => do
      let c ← c.restore none (.insert v)
      let T ← initTable C none
      return Sum.inl (c, T)
    | .remove => .panic .removeNone
    | .abort a => return Sum.inr (c, a)

/-- `compute` / `compute_with` — src/raw/mod.rs:1513-1844. -/
def compute {R : Type} (C : Cfg K) (k : K) (f : Closure (Option (K × V)) (Operation V R)) :
    Prog K V (Called (Option (K × V)) (Operation V R) (Compute K V R)) := do
  match ← computeInit C (CState.new f) with
  | .inr (c, a) => return ⟨c.st.calls, .aborted a none⟩
  | .inl (c, T) =>
    loop (T, false, c) fun (T, help, c) => do
      match ← computeProbe C k T c with
      | (c, .done r) => return Sum.inr ⟨c.st.calls, r⟩
      | (c, .retry copying) => do
        match ← prepareRetry C copying help T with
        | some next => return Sum.inl (next, false, c)
        | none => do
          let (c, op) ← c.next none
          match op with
          | .insert v => do
            let next ← prepareRetryInsert C none help T
            let c ← c.restore none (.insert v)
            return Sum.inl (next, false, c)
          | .abort a => return Sum.inr ⟨c.st.calls, .aborted a none⟩
          | .remove => .panic .removeNone

/-- The closure built by `try_insert_with` — src/raw/mod.rs:1400-1410. -/
def tryInsertClosure (f : Closure Unit V) : Closure (Option (K × V)) (Operation V V) where
  S := Option f.S
  init := some f.init
  call s i :=
    match i with
    | some (_, cur) => .ok (s, .abort cur)
    | none =>
      match s with
      | none => .error .unwrapNone
      | some s =>
        match f.call s () with
        | .ok (_, v) => .ok (none, .insert v)
        | .error r => .error r

/-- `try_insert_with` — src/raw/mod.rs:1390-1421. `inl`: inserted, `inr`: existing value (the
closure aborts only with a reference to the value of the entry it was given). -/
def tryInsertWith (C : Cfg K) (k : K) (f : Closure Unit V) : Prog K V (Entry K V ⊕ Entry K V) := do
  let r ← compute C k (tryInsertClosure f)
  match r.out with
  | .aborted _ (some cur) => return Sum.inr cur
  | .inserted e => return Sum.inl e
  | _ => .panic .unreachableCode

/-- `get_or_insert_with` — src/raw/mod.rs:1426-1435. -/
def getOrInsertWith (C : Cfg K) (k : K) (f : Closure Unit V) : Prog K V (Entry K V) := do
  match ← tryInsertWith C k f with
  | .inl e => return e
  | .inr e => return e

/-- The closure built by `update` — src/raw/mod.rs:1449-1454. -/
def updateClosure (f : Closure V V) : Closure (Option (K × V)) (Operation V Unit) where
  S := f.S
  init := f.init
  call s i :=
    match i with
    | none => .ok (s, .abort ())
    | some (_, v) =>
      match f.call s v with
      | .ok (s', v') => .ok (s', .insert v')
      | .error r => .error r

/-- The calls of the update function made by the closure of `update`. -/
def updateCalls (calls : List (Option (K × V) × Operation V Unit)) : List (V × V) :=
  calls.filterMap fun c =>
    match c with
    | (some (_, v), .insert v') => some (v, v')
    | _ => none

/-- `update` — src/raw/mod.rs:1439-1467. -/
def update (C : Cfg K) (k : K) (f : Closure V V) : Prog K V (Called V V (Option (Entry K V))) := do
  let r ← compute C k (updateClosure f)
  match r.out with
  | .updated _ new => return ⟨updateCalls r.calls, some new⟩
  | .aborted _ _ => return ⟨updateCalls r.calls, none⟩
  | _ => .panic .unreachableCode

/-- The closure built by `update_or_insert_with` — src/raw/mod.rs:1483-1493. -/
def updateOrInsertClosure (u : Closure V V) (f : Closure Unit V) :
    Closure (Option (K × V)) (Operation V Unit) where
  S := u.S × Option f.S
  init := (u.init, some f.init)
  call s i :=
    match i with
    | some (_, v) =>
      match u.call s.1 v with
      | .ok (su, v') => .ok ((su, s.2), .insert v')
      | .error r => .error r
    | none =>
      match s.2 with
      | none => .error .unwrapNone
      | some sf =>
        match f.call sf () with
        | .ok (_, v) => .ok ((s.1, none), .insert v)
        | .error r => .error r

/-- `update_or_insert_with` — src/raw/mod.rs:1471-1506. -/
def updateOrInsertWith (C : Cfg K) (k : K) (u : Closure V V) (f : Closure Unit V) :
    Prog K V (Called V V (Entry K V)) := do
  let r ← compute C k (updateOrInsertClosure u f)
  match r.out with
  | .updated _ new => return ⟨updateCalls r.calls, new⟩
  | .inserted e => return ⟨updateCalls r.calls, e⟩
  | _ => .panic .unreachableCode

/-- `reserve` — src/raw/mod.rs:987-1011. -/
def reserve (C : Cfg K) (additional : Nat) : Prog K V Unit := do
  let T ← (do
    match ← A.loadRoot with
    | some T => return T
    | none =>
      match entriesFor additional with
      | some n => initTable C (some n)
      | none => .panic .capacityOverflow)
  loop T fun T => do
    let n ← len C
    if n + additional < 2 ^ 64 then
      match entriesFor (n + additional) with
      | none => .panic .capacityOverflow
      | some capacity => do
        if T.len ≥ capacity then
          return Sum.inr ()
        else
          let _ ← getOrAllocNext C (some capacity) T
          let next ← helpCopy C true T
          return Sum.inl next
    else
      .panic .capacityOverflow

/-- Deleting the entry at index `i` in `clear` and `retain` — src/raw/mod.rs:1040-1087, 1139-1195: try to delete
the entry unless `f` accepts it; `true` iff the entry is being copied. (For `clear`, `f` is constantly
`false` and the first metadata check is skipped by the caller.) -/
def deleteLoop (C : Cfg K) (f : Closure (K × V) Bool) (T : Table) (i : Nat) (st : f.Tr)
    (s : Slot K V) : Prog K V (f.Tr × Bool) :=
  loop (st, s) fun (st, s) => do
    match s.ptr with
    | none => return Sum.inr (st, false)
    | some e => do
      if s.copying then
        return Sum.inr (st, true)
      else
        A.deref e
        let (st, keep) ← f.invoke st (e.key, e.val)
        if keep then
          return Sum.inr (st, false)
        else
          match ← A.cas false T.id i s Slot.tombstone with
          | none => do
            A.storeMd T.id i TOMBSTONE
            A.addCount (-1)
            deferRetire C e s T
            return Sum.inr (st, false)
          | some found => return Sum.inl (st, found)

/-- One pass of `clear` over a table — src/raw/mod.rs:1032-1088; `true` iff some entry was being copied. -/
def clearPass (C : Cfg K) (T : Table) : Prog K V Bool :=
  loop (0, false) fun (i, copying) => do
    if i < T.len then
      let s ← A.loadSlot T.id i
      let (_, c) ← deleteLoop C (Closure.pure fun _ => false) T i (Closure.start _) s
      return Sum.inl (i + 1, copying || c)
    else
      return Sum.inr copying

/-- `clear` — src/raw/mod.rs:1015-1099. -/
def clear (C : Cfg K) : Prog K V Unit := do
  match ← A.loadRoot with
  | none => return ()
  | some T =>
    loop T fun T => do
      let T ← linearize C T
      if ← clearPass C T then
        let n ← helpCopy C true T
        return Sum.inl n
      else
        return Sum.inr ()

/-- One pass of `retain` over a table — src/raw/mod.rs:1120-1196. -/
def retainPass (C : Cfg K) (f : Closure (K × V) Bool) (st : f.Tr) (T : Table) :
    Prog K V (f.Tr × Bool) :=
  loop (0, st, false) fun (i, st, copying) => do
    if i < T.len then
      let m ← A.loadMd T.id i
      if m = EMPTY ∨ m = TOMBSTONE then
        return Sum.inl (i + 1, st, copying)
      else
        let s ← A.loadSlot T.id i
        let (st, c) ← deleteLoop C f T i st s
        return Sum.inl (i + 1, st, copying || c)
    else
      return Sum.inr (st, copying)

/-- `retain` — src/raw/mod.rs:1103-1208. -/
def retain (C : Cfg K) (f : Closure (K × V) Bool) : Prog K V (Called (K × V) Bool Unit) := do
  match ← A.loadRoot with
  | none => return ⟨[], ()⟩
  | some T =>
    loop (T, f.start) fun (T, st) => do
      let T ← linearize C T
      let (st, copying) ← retainPass C f st T
      if copying then
        let n ← helpCopy C true T
        return Sum.inl (n, st)
      else
        return Sum.inr ⟨st.calls, ()⟩

/-- The iterator is dropped after it has yielded the entries `acc`: if at most `n` entries are asked for. -/
def iterStop : Option Nat → List (Entry K V) → Bool
  | none, _ => false
  | some n, acc => decide (n ≤ acc.length)

/-- `iter` followed by `Iter::next` — src/raw/mod.rs:1212-1232, 2639-2684 — until it returns `None` or, if `lim` is
`some n`, until it has yielded `n` entries; the entries in the order they are yielded. -/
def iterUpTo (C : Cfg K) (lim : Option Nat) : Prog K V (List (Entry K V)) := do
  match ← A.loadRoot with
  | none => return []
  | some T => do
    let T ← linearize C T
    loop (0, []) fun (i, acc) => do
      if iterStop lim acc then
        return Sum.inr acc
      else
      if i < T.len then
        let m ← A.loadMd T.id i
        if m = EMPTY ∨ m = TOMBSTONE then
          return Sum.inl (i + 1, acc)
        else
          let s ← A.loadSlot T.id i
          match s.ptr with
          | none => return Sum.inl (i + 1, acc)
          | some e => do
            A.deref e
            return Sum.inl (i + 1, acc ++ [e])
      else
        return Sum.inr acc

end Papaya
