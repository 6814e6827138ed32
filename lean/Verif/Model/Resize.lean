import Verif.Model.Prog

/-! # Resizing and retirement — src/raw/mod.rs:1856-2622 -/

namespace Papaya

open Prog

variable {K V : Type}

/-- `EntryStatus` — src/raw/mod.rs:170-179; non-null statuses keep the entry and its tagged pointer. -/
inductive EStat (K V : Type)
  | null
  | copied (e : Entry K V) (s : Slot K V)
  | value (e : Entry K V) (s : Slot K V)

/-- `From<Tagged<Entry>> for EntryStatus` — src/raw/mod.rs:181-193. -/
def EStat.from (s : Slot K V) : EStat K V :=
  match s.ptr with
  | none => .null
  | some e => if s.copying then .copied e s else .value e s

/-- `Counter::sum` — src/raw/utils/counter.rs:44-53: load every shard, add up, negative sums count as 0. -/
def len (C : Cfg K) : Prog K V Nat := do
  let s ← loop (0, (0 : Int)) fun (j, acc) => do
    if j ≤ C.shards then
      let x ← A.loadShard j
      return Sum.inl (j + 1, acc + x)
    else
      return Sum.inr acc
  return s.toNat

/-- `Vec::is_power_of_two` test used by the assertion in `Table::alloc`. -/
def isPow2B (n : Nat) : Bool := n != 0 && 2 ^ Nat.log2 n == n

/-- `isize::MAX` -/
def isizeMax : Nat := 2 ^ 63 - 1

/-- The capacity chosen by `get_or_alloc_next` — src/raw/mod.rs:1943-1970 (`papaya_stress` off). -/
def nextCapacity (initialCapacity current active : Nat) : Nat :=
  if active ≥ current >>> 1 then current <<< 1
  else if active ≤ current >>> 3 then max initialCapacity (current >>> 1)
  else current

/-- `HashMap::init` — src/raw/mod.rs:1856-1882.  `Table::alloc` pads the length to 8
(src/raw/alloc.rs:63) and panics if the layout is too large, before anything is shared. -/
def initTable (C : Cfg K) (capacity : Option Nat) : Prog K V Table := do
  let n := capacity.getD 32
  if isPow2B n then
    if C.layoutOk (max n 8) then
      A.casRootInit (max n 8)
    else
      .panic .layoutOverflow
  else
    .panic .notPowerOfTwo

/-- The part of `get_or_alloc_next` executed while holding the lock — src/raw/mod.rs:1934-1981. -/
def allocNextLocked (C : Cfg K) (capacity : Option Nat) (T : Table) : Prog K V Table := do
  match ← A.loadNext T.id with
  | some next => do
    A.unlock T.id
    return next
  | none => do
    let active ← len C
    let n := capacity.getD (nextCapacity C.initialCapacity T.len active)
    if n ≤ isizeMax then
      if isPow2B n then
        if C.layoutOk (max n 8) then
          let next ← A.storeNext T.id (max n 8)
          A.unlock T.id
          return next
        else
          A.poison T.id
          .panic .layoutOverflow
      else
        A.poison T.id
        .panic .notPowerOfTwo
    else
      A.poison T.id
      .panic .maxCapacity

/-- `get_or_alloc_next` — src/raw/mod.rs:1887-1982. -/
def getOrAllocNext (C : Cfg K) (capacity : Option Nat) (T : Table) : Prog K V Table := do
  match ← A.loadNext T.id with
  | some next => return next
  | none => do
    if ← A.tryLock T.id then
      allocNextLocked C capacity T
    else
      -- spin for a bit
      let r ← loop 0 fun spun => do
        if spun ≤ C.spinAlloc then
          match ← A.loadNext T.id with
          | some next => return Sum.inr (some next)
          | none => return Sum.inl (spun + 1)
        else return Sum.inr none
      match r with
      | some next => return next
      | none => do
        if ← A.lockWait T.id then
          allocNextLocked C capacity T
        else
          .panic .poisonedLock

/-- `try_promote` — src/raw/mod.rs:2446-2505. -/
def tryPromote (T next : Table) (copied : Nat) : Prog K V Bool := do
  let c ← (if copied > 0 then do
      let old ← A.addCopied next.id copied T
      return old + copied
    else do
      A.loadCopied next.id)
  if c = T.len then
    match ← A.peekRoot with
    | none => return false
    | some root => do
      if ← A.sameTable T.id root then
        if ← A.casRoot T.id next.id then
          A.storeStatus next.id .promoted
          A.retireTable T.id
          A.unparkStatus next.id
          return true
        else
          A.unparkStatus next.id
          return true
      else
        return false
  else
    return false

/-- `insert_copy` — src/raw/mod.rs:2362-2441.  `s` is the tagged pointer of `e` to be written. -/
def insertCopy (C : Cfg K) (e : Entry K V) (s : Slot K V) (resize : Bool) (T : Table) :
    Prog K V (Option (Table × Nat)) := do
  A.deref e
  loop T fun T => do
    let out ← loop (Probe.start (C.h1 e.key) T.mask) fun probe => do
      if probe.len ≤ T.limit then
        let m ← A.loadMd T.id probe.i
        if m = EMPTY then
          match ← A.cas false T.id probe.i Slot.null s with
          | none => do
            A.storeMd T.id probe.i (C.h2 e.key)
            return Sum.inr (some probe.i)
          | some found => do
            let m ← (match found.ptr with
              | none => return TOMBSTONE
              | some e' => do
                A.deref e'
                return C.h2 e'.key)
            if (← A.loadMd T.id probe.i) = EMPTY then
              A.storeMd T.id probe.i m
              return Sum.inl (probe.next T.mask)
            else
              return Sum.inl (probe.next T.mask)
        else
          return Sum.inl (probe.next T.mask)
      else
        return Sum.inr none
    match out with
    | some i => return Sum.inr (some (T, i))
    | none => do
      if resize then
        let next ← getOrAllocNext C none T
        return Sum.inl next
      else
        return Sum.inr none

/-- `copy_at_blocking` — src/raw/mod.rs:2145-2187. -/
def copyAtBlocking (C : Cfg K) (i : Nat) (T next : Table) : Prog K V Bool := do
  let s ← A.fetchOrCopying T.id i
  match s.ptr with
  | none => do
    -- `entry.raw == Entry::TOMBSTONE`
    if s.copying = false ∧ s.copied = true ∧ s.borrowed = false then
      return true
    else
      A.storeMd T.id i TOMBSTONE
      return true
  | some e => do
    let r ← insertCopy C e (Slot.untagged e) false next
    return r.isSome

/-- `copy_at_incremental` — src/raw/mod.rs:2297-2352. -/
def copyAtIncremental (C : Cfg K) (i : Nat) (T next : Table) : Prog K V Unit := do
  let s ← A.fetchOrCopying T.id i
  match s.ptr with
  | none => do
    if s.copying = false ∧ s.copied = true ∧ s.borrowed = false then
      return ()
    else
      A.storeMd T.id i TOMBSTONE
  | some e => do
    match ← insertCopy C e { s with borrowed := true } true next with
    | none => .panic .unwrapNone
    | some _ => do
      A.storeSlot T.id i { s with copying := true, copied := true }
      A.unparkSlot T.id i

/-- Copy the claimed chunk `[start, start + chunk)` in blocking mode — src/raw/mod.rs:2047-2079.
`none`: some entry did not fit. -/
def copyChunkBlocking (C : Cfg K) (T next : Table) (start chunk : Nat) : Prog K V (Option Nat) :=
  loop 0 fun j => do
    if j < chunk then
      if start + j < T.len then
        if ← copyAtBlocking C (start + j) T next then
          return Sum.inl (j + 1)
        else
          return Sum.inr none
      else
        return Sum.inr (some j)
    else
      return Sum.inr (some j)

/-- How the inner claim loop of `help_copy_blocking` ends. -/
inductive CopyOut
  /-- `break`: everything is claimed -/
  | brk
  /-- `continue 'copy` -/
  | retry (next : Table)
  /-- `return next` -/
  | done (next : Table)

/-- `help_copy_blocking` — src/raw/mod.rs:2015-2136. -/
def helpCopyBlocking (C : Cfg K) (T : Table) : Prog K V Table := do
  match ← A.loadNext T.id with
  | none => .panic .unwrapNone
  | some next =>
    loop next fun next => do
      -- make sure we are copying to the correct table
      let next ← loop next fun next => do
        if (← A.loadStatus next.id) = .aborted then
          let n ← getOrAllocNext C none next
          return Sum.inl n
        else
          return Sum.inr next
      if ← tryPromote T next 0 then
        return Sum.inr next
      else
      let chunk := min T.len 4096
      let out ← loop () fun _ => do
        if (← A.loadClaim next.id) ≥ T.len then
          return Sum.inr CopyOut.brk
        else
        let start ← A.addClaim next.id chunk T
        match ← copyChunkBlocking C T next start chunk with
        | none => do
          A.storeStatus next.id .aborted
          let allocated ← getOrAllocNext C none next
          A.unparkStatus T.id
          return Sum.inr (CopyOut.retry allocated)
        | some copied => do
          if ← tryPromote T next copied then
            return Sum.inr (CopyOut.done next)
          else
          if (← A.loadStatus next.id) = .aborted then
            return Sum.inr (CopyOut.retry next)
          else
            return Sum.inl ()
      match out with
      | .done n => return Sum.inr n
      | .retry n => return Sum.inl n
      | .brk => do
        -- wait for the table to be promoted (or aborted)
        let ok ← loop 0 fun spun => do
          match ← A.loadStatus next.id with
          | .aborted => return Sum.inr false
          | .promoted => return Sum.inr true
          | .pending => do
            if spun ≤ C.spinWait then
              return Sum.inl (spun + 1)
            else
              A.parkStatus next.id
              return Sum.inl (spun + 1)
        if ok then return Sum.inr next else return Sum.inl next

/-- Copy the claimed chunk in incremental mode — src/raw/mod.rs:2224-2236. -/
def copyChunkIncremental (C : Cfg K) (T next : Table) (start chunk : Nat) : Prog K V Nat :=
  loop 0 fun j => do
    if j < chunk then
      if start + j < T.len then
        copyAtIncremental C (start + j) T next
        return Sum.inl (j + 1)
      else
        return Sum.inr j
    else
      return Sum.inr j

/-- `help_copy_incremental` — src/raw/mod.rs:2192-2290. -/
def helpCopyIncremental (C : Cfg K) (chunk : Nat) (block : Bool) : Prog K V (Option Table) := do
  match ← A.loadRoot with
  | none => return none
  | some T => do
    match ← A.loadNext T.id with
    | none => return some T
    | some next => do
      let r ← loop () fun _ => do
        if ← tryPromote T next 0 then
          return Sum.inr next
        else
        let out ← loop () fun _ => do
          if (← A.loadClaim next.id) ≥ T.len then
            return Sum.inr CopyOut.brk
          else
          let start ← A.addClaim next.id chunk T
          let copied ← copyChunkIncremental C T next start chunk
          let p ← tryPromote T next copied
          if p = true ∨ block = false then
            return Sum.inr (CopyOut.done next)
          else
            return Sum.inl ()
        match out with
        | .done n => return Sum.inr n
        | .retry _ => return Sum.inl ()
        | .brk => do
          if block then
            loop 0 fun spun => do
              match ← A.loadStatus next.id with
              | .promoted => return Sum.inr ()
              | _ => do
                if spun ≤ C.spinWait then
                  return Sum.inl (spun + 1)
                else
                  A.parkStatus next.id
                  return Sum.inl (spun + 1)
            return Sum.inr next
          else
            return Sum.inr next
      return some r

/-- `help_copy` — src/raw/mod.rs:1990-2010. -/
def helpCopy (C : Cfg K) (copyAll : Bool) (T : Table) : Prog K V Table := do
  match C.mode with
  | .blocking => helpCopyBlocking C T
  | .incremental chunk => do
    let copiedTo ← helpCopyIncremental C chunk copyAll
    if copyAll then
      match copiedTo with
      | some n => return n
      | none => .panic .unwrapNone
    else
      match ← A.loadNext T.id with
      | some n => return n
      | none => .panic .unwrapNone

/-- `linearize` — src/raw/mod.rs:2512-2527. -/
def linearize (C : Cfg K) (T : Table) : Prog K V Table := do
  if C.inc then
    loop T fun T => do
      match ← A.loadNext T.id with
      | none => return Sum.inr T
      | some _ => do
        let n ← helpCopy C true T
        return Sum.inl n
  else
    return T

/-- `wait_copied` — src/raw/mod.rs:2532-2558: spin, then park, until the `COPIED` bit is seen. -/
def waitCopied (C : Cfg K) (i : Nat) (T : Table) : Prog K V Unit := do
  let seen ← loop 0 fun spun => do
    if spun < C.spinCopied then
      let s ← A.loadSlot T.id i
      if s.copied then return Sum.inr true else return Sum.inl (spun + 1)
    else return Sum.inr false
  if seen then return () else A.parkSlot T.id i

/-- `defer_retire` — src/raw/mod.rs:2568-2622.  `s` is the tagged pointer that was replaced, `e` its entry. -/
def deferRetire (C : Cfg K) (e : Entry K V) (s : Slot K V) (T : Table) : Prog K V Unit := do
  match C.mode with
  | .blocking => A.retire e
  | .incremental _ => do
    if s.borrowed = false then
      A.retire e
    else
    match ← A.loadRoot with
    | none => .panic .unwrapNone
    | some root => do
      -- is our table, or any subsequent table, the root?
      let found ← loop (some T) fun next => do
        match next with
        | none => return Sum.inr false
        | some n => do
          if ← A.sameTable n.id root.id then return Sum.inr true
          else
            let n' ← A.loadNext n.id
            return Sum.inl n'
      if found then
        A.retire e
      else
        loop root fun prev => do
          match ← A.loadNext prev.id with
          | none => .panic .unwrapNone
          | some next => do
            if ← A.sameTable next.id T.id then
              A.pushDeferred prev.id e
              return Sum.inr ()
            else
              return Sum.inl next

end Papaya
