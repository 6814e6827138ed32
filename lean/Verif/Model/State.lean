import Verif.Pure.Probe
import Verif.Pure.Meta

/-! # Shared state and atomic actions of the map

Model of the shared memory of `src/raw/mod.rs`, `src/raw/alloc.rs` and of the atomic accesses made by the
implementation.  Memory is sequentially consistent; each action is one atomic access. (For the memory orderings, see
`Verif/Model/Weak.lean`.) -/

namespace Papaya

/-- Thread (more precisely: guard) identifiers. -/
abbrev Tid := Nat

/-- Identifier of a call: the guard it uses and its number among the calls made with that guard. -/
abbrev OpId := Tid × Nat

/-- `struct Entry` — src/raw/mod.rs:122-129.  The field `id` stands for the address of the allocation: a fresh
number per allocation.  A pointer to an entry is represented by the entry itself (entries are immutable once
published), two pointers are equal iff the ids are: that reusing the address of freed memory makes no difference is
proved in `Verif/Props/Addr.lean`. -/
structure Entry (K V : Type) where
  id : Nat
  key : K
  val : V
deriving DecidableEq

/-- A tagged entry pointer — src/raw/mod.rs:131-167 and src/raw/utils/tagged.rs: the untagged pointer and the three
tag bits `COPYING`, `COPIED`, `BORROWED`. -/
structure Slot (K V : Type) where
  ptr : Option (Entry K V)
  copying : Bool
  copied : Bool
  borrowed : Bool
deriving DecidableEq

/-- The null pointer, the initial value of every slot (`alloc_zeroed`, src/raw/alloc.rs:72). -/
def Slot.null {K V : Type} : Slot K V := ⟨none, false, false, false⟩

/-- `Entry::TOMBSTONE` — src/raw/mod.rs:160-167: a null pointer carrying the `COPIED` bit. -/
def Slot.tombstone {K V : Type} : Slot K V := ⟨none, false, true, false⟩

/-- An untagged pointer — src/raw/utils/tagged.rs:54-59. -/
def Slot.untagged {K V : Type} (e : Entry K V) : Slot K V := ⟨some e, false, false, false⟩

/-- `State::status` — src/raw/mod.rs:60, 83-92. -/
inductive Status
  | pending | aborted | promoted
deriving DecidableEq, Repr

/-- `State::allocating : Mutex<()>` — src/raw/mod.rs:50.  A panic while holding it poisons it. -/
inductive Lock
  | free | held (t : Tid) | poisoned
deriving DecidableEq, Repr

/-- `struct Table` — src/raw/alloc.rs:36-47: a handle with the (immutable) mask and limit read from the
allocation; `id` stands for the raw pointer. -/
structure Table where
  id : Nat
  mask : Nat
  limit : Nat
deriving DecidableEq, Repr

/-- `Table::len` — src/raw/alloc.rs:162-164. -/
def Table.len (T : Table) : Nat := T.mask + 1

/-- `enum ResizeMode` — src/map.rs:155-179. -/
inductive Mode
  | blocking
  | incremental (chunk : Nat)
deriving DecidableEq, Repr

/-- Fixed parameters of a map. -/
structure Cfg (K : Type) where
  /-- `self.hasher.hash_one(key)` : any function -/
  hash : K → UInt64
  /-- `self.resize` -/
  mode : Mode
  /-- the capacity passed to `HashMap::new` — src/raw/mod.rs:216-246 -/
  capacity : Nat
  /-- number of counter shards minus one — src/raw/utils/counter.rs:14-28 -/
  shards : Nat
  /-- shard used by a guard — src/raw/utils/counter.rs:33-40 -/
  shardOf : Tid → Nat
  /-- `SPIN_ALLOC` — src/raw/mod.rs:1893-1897 -/
  spinAlloc : Nat
  /-- `SPIN_WAIT` of the copying loops — src/raw/mod.rs:2096-2100, 2255-2259 -/
  spinWait : Nat
  /-- `SPIN_WAIT` of `wait_copied` — src/raw/mod.rs:2534-2538 -/
  spinCopied : Nat
  /-- `Layout::from_size_align(..)` succeeds for a table of this length — src/raw/alloc.rs:213-219 -/
  layoutOk : Nat → Bool

/-- `self.initial_capacity` — src/raw/mod.rs:222-242: 1 if the requested capacity is 0. -/
def Cfg.initialCapacity {K : Type} (C : Cfg K) : Nat := if C.capacity = 0 then 1 else C.capacity

/-- `is_incremental` — src/raw/mod.rs:300-302. -/
def Cfg.inc {K : Type} (C : Cfg K) : Bool :=
  match C.mode with
  | .blocking => false
  | .incremental _ => true

/-- `HashMap::hash` (first component) — src/raw/mod.rs:1236-1242. -/
def Cfg.h1 {K : Type} (C : Cfg K) (k : K) : Nat := Papaya.h1 (C.hash k)
/-- `HashMap::hash` (second component) — src/raw/mod.rs:1236-1242. -/
def Cfg.h2 {K : Type} (C : Cfg K) (k : K) : Nat := Papaya.h2 (C.hash k)

/-- The shared state: `struct HashMap` (src/raw/mod.rs:22-42) and, for each table id, its `TableLayout`
(src/raw/alloc.rs:17-32) with its `State` (src/raw/mod.rs:44-67).  Table ids are handed out in the order in
which tables are published.  The last group of fields models the contract of the `seize` collector: which
guards are active, what has been retired, which active guards block its reclamation, what has been freed. -/
structure St (K V : Type) where
  root : Option Nat
  nTabs : Nat
  cap : Nat → Nat
  next : Nat → Option Nat
  lock : Nat → Lock
  claim : Nat → Nat
  copied : Nat → Nat
  status : Nat → Status
  deferred : Nat → List (Entry K V)
  slot : Nat → Nat → Slot K V
  md : Nat → Nat → Nat
  nIds : Nat
  shard : Nat → Int
  pinned : Tid → Bool
  retired : Nat → Bool
  blockers : Nat → Tid → Bool
  freed : Nat → Bool
  tabRetired : Nat → Bool
  tabBlockers : Nat → Tid → Bool
  tabFreed : Nat → Bool

variable {K V : Type}

/-- `Table::from_raw` — src/raw/alloc.rs:108-125. -/
def St.handle (σ : St K V) (T : Nat) : Table := ⟨T, σ.cap T - 1, limit (σ.cap T)⟩

/-- A store to `table.entry(i)`. -/
def St.setSlot (σ : St K V) (T i : Nat) (s : Slot K V) : St K V :=
  { σ with slot := fun T' i' => if T' = T ∧ i' = i then s else σ.slot T' i' }

/-- A store to `table.meta(i)`. -/
def St.setMd (σ : St K V) (T i m : Nat) : St K V :=
  { σ with md := fun T' i' => if T' = T ∧ i' = i then m else σ.md T' i' }

/-- `Table::alloc(len)` with `len` already padded, — src/raw/alloc.rs:59-100: all entries null, all metadata
`EMPTY`, default resize state except for `status`. The table gets the next free id. -/
def St.allocTable (σ : St K V) (cap : Nat) (st : Status) : St K V :=
  { σ with
    nTabs := σ.nTabs + 1
    cap := fun T => if T = σ.nTabs then cap else σ.cap T
    next := fun T => if T = σ.nTabs then none else σ.next T
    lock := fun T => if T = σ.nTabs then .free else σ.lock T
    claim := fun T => if T = σ.nTabs then 0 else σ.claim T
    copied := fun T => if T = σ.nTabs then 0 else σ.copied T
    status := fun T => if T = σ.nTabs then st else σ.status T
    deferred := fun T => if T = σ.nTabs then [] else σ.deferred T
    slot := fun T i => if T = σ.nTabs then Slot.null else σ.slot T i
    md := fun T i => if T = σ.nTabs then EMPTY else σ.md T i }

/-- Contract of `seize`: retiring an entry records the guards active at that moment; it may be freed once all of
them are dropped. -/
def St.retireEntry (σ : St K V) (e : Entry K V) : St K V :=
  { σ with
    retired := fun x => if x = e.id then true else σ.retired x
    blockers := fun x t => if x = e.id then σ.pinned t else σ.blockers x t }

/-- Shared-memory actions. Each constructor is one atomic access (or one access together with thread-private
work, as noted). -/
inductive Act (K V : Type) : Type → Type
  /-- `self.root(guard)` / `self.table.load` — src/raw/mod.rs:278-284 -/
  | loadRoot : Act K V (Option Table)
  /-- `self.table.load(Relaxed)`, whose result is only compared — src/raw/mod.rs:2464 -/
  | peekRoot : Act K V (Option Nat)
  /-- `init`: private `Table::alloc(cap)` and the CAS of the null root — src/raw/mod.rs:1857-1882 -/
  | casRootInit (cap : Nat) : Act K V Table
  /-- `next_table` — src/raw/alloc.rs:182-192 -/
  | loadNext (T : Nat) : Act K V (Option Table)
  /-- `state.allocating.try_lock()` : `true` iff acquired -/
  | tryLock (T : Nat) : Act K V Bool
  /-- `state.allocating.lock()` : blocks while held, `false` iff poisoned -/
  | lockWait (T : Nat) : Act K V Bool
  /-- dropping the mutex guard -/
  | unlock (T : Nat) : Act K V Unit
  /-- dropping the mutex guard while panicking -/
  | poison (T : Nat) : Act K V Unit
  /-- private `Table::alloc(cap)` and `state.next.store` — src/raw/mod.rs:1976-1978 -/
  | storeNext (T cap : Nat) : Act K V Table
  /-- `table.meta(i).load` -/
  | loadMd (T i : Nat) : Act K V Nat
  /-- `table.meta(i).store` -/
  | storeMd (T i m : Nat) : Act K V Unit
  /-- `table.entry(i).load` -/
  | loadSlot (T i : Nat) : Act K V (Slot K V)
  /-- `compare_exchange(_weak)` with an existing pointer or the tombstone; `none` on success, else the value
  found; a weak CAS may fail spuriously -/
  | cas (weak : Bool) (T i : Nat) (exp new : Slot K V) : Act K V (Option (Slot K V))
  /-- `compare_exchange(_weak)` that publishes a freshly allocated entry `(k, v)` (allocation merged) -/
  | casNew (weak : Bool) (T i : Nat) (exp : Slot K V) (k : K) (v : V) : Act K V (Entry K V ⊕ Slot K V)
  /-- `entry.fetch_or(COPYING)` returning the previous value -/
  | fetchOrCopying (T i : Nat) : Act K V (Slot K V)
  /-- `entry.store` -/
  | storeSlot (T i : Nat) (s : Slot K V) : Act K V Unit
  | loadStatus (T : Nat) : Act K V Status
  /-- `state.parker.park(&state.status, |status| status == PENDING)` — src/raw/mod.rs:2131-2133, 2285-2287: blocks until the
  status is not `PENDING` (how the thread is woken up, see `Verif/Model/Park.lean`) -/
  | parkStatus (T : Nat) : Act K V Unit
  /-- `parker.park(entry, |entry| entry.addr() & COPIED == 0)` — src/raw/mod.rs:2556-2557: blocks until the slot has the
  `COPIED` bit -/
  | parkSlot (T i : Nat) : Act K V Unit
  /-- `state.parker.unpark(&state.status)` — src/raw/mod.rs:2070-2071, 2498: wakes up those who are parked; no effect on the
  memory (see `Verif/Model/Park.lean`) -/
  | unparkStatus (T : Nat) : Act K V Unit
  /-- `table.state().parker.unpark(entry)` — src/raw/mod.rs:2351 -/
  | unparkSlot (T i : Nat) : Act K V Unit
  | storeStatus (T : Nat) (s : Status) : Act K V Unit
  | loadClaim (T : Nat) : Act K V Nat
  /-- `next.state().claim.fetch_add(chunk)` — src/raw/mod.rs:2043, 2220. `src` is the table that is being copied: an
  annotation for the proofs, it has no effect -/
  | addClaim (T n : Nat) (src : Table) : Act K V Nat
  | loadCopied (T : Nat) : Act K V Nat
  /-- `next.state().copied.fetch_add(copied)` — src/raw/mod.rs:2457. `src`: as for `addClaim` -/
  | addCopied (T n : Nat) (src : Table) : Act K V Nat
  /-- promotion CAS — src/raw/mod.rs:2472-2475 -/
  | casRoot (T N : Nat) : Act K V Bool
  /-- comparison of two table pointers (`table.raw == root` — src/raw/mod.rs:2470, 2594, 2613) -/
  | sameTable (T T' : Nat) : Act K V Bool
  /-- comparison of two entry pointers (`input == entry` — src/raw/mod.rs:1303) -/
  | sameEntry (x y : Nat) : Act K V Bool
  /-- dereferencing an entry pointer (reads the immutable key or value) -/
  | deref (e : Entry K V) : Act K V Unit
  /-- `guard.defer_retire(entry.ptr, ..)` -/
  | retire (e : Entry K V) : Act K V Unit
  /-- `guard.defer_retire(table.raw, ..)` -/
  | retireTable (T : Nat) : Act K V Unit
  /-- `prev.state().deferred.push` (linearized at its CAS, see `Verif/Pure/Stack.lean`) -/
  | pushDeferred (T : Nat) (e : Entry K V) : Act K V Unit
  | loadShard (j : Nat) : Act K V Int
  /-- `self.count.get(guard).fetch_add(d)` -/
  | addCount (d : Int) : Act K V Unit

/-- Semantics of the actions: `Exec C t a σ r σ'` — in state `σ`, thread `t` performing `a` may get the result `r`
and leave the state `σ'`. -/
def Exec (C : Cfg K) (t : Tid) : {β : Type} → Act K V β → St K V → β → St K V → Prop
  | _, .loadRoot, σ, r, σ' => r = σ.root.map σ.handle ∧ σ' = σ
  | _, .peekRoot, σ, r, σ' => r = σ.root ∧ σ' = σ
  | _, .casRootInit cap, σ, r, σ' =>
      match σ.root with
      | none => σ' = { σ.allocTable cap .promoted with root := some σ.nTabs } ∧ r = σ'.handle σ.nTabs
      | some T => σ' = σ ∧ r = σ.handle T
  | _, .loadNext T, σ, r, σ' => r = (σ.next T).map σ.handle ∧ σ' = σ
  | _, .tryLock T, σ, r, σ' =>
      (σ.lock T = .free ∧ r = true ∧
        σ' = { σ with lock := fun T' => if T' = T then .held t else σ.lock T' }) ∨
      (σ.lock T ≠ .free ∧ r = false ∧ σ' = σ)
  | _, .lockWait T, σ, r, σ' =>
      (σ.lock T = .free ∧ r = true ∧
        σ' = { σ with lock := fun T' => if T' = T then .held t else σ.lock T' }) ∨
      (σ.lock T = .poisoned ∧ r = false ∧ σ' = σ)
  | _, .unlock T, σ, _, σ' => σ' = { σ with lock := fun T' => if T' = T then .free else σ.lock T' }
  | _, .poison T, σ, _, σ' => σ' = { σ with lock := fun T' => if T' = T then .poisoned else σ.lock T' }
  | _, .storeNext T cap, σ, r, σ' =>
      σ' = { σ.allocTable cap .pending with
              next := fun T' => if T' = T then some σ.nTabs else if T' = σ.nTabs then none else σ.next T' } ∧
      r = σ'.handle σ.nTabs
  | _, .loadMd T i, σ, r, σ' => r = σ.md T i ∧ σ' = σ
  | _, .storeMd T i m, σ, _, σ' => σ' = σ.setMd T i m
  | _, .loadSlot T i, σ, r, σ' => r = σ.slot T i ∧ σ' = σ
  | _, .cas weak T i exp new, σ, r, σ' =>
      (σ.slot T i = exp ∧ r = none ∧ σ' = σ.setSlot T i new) ∨
      ((σ.slot T i ≠ exp ∨ weak = true) ∧ r = some (σ.slot T i) ∧ σ' = σ)
  | _, .casNew weak T i exp k v, σ, r, σ' =>
      (σ.slot T i = exp ∧ r = .inl ⟨σ.nIds, k, v⟩ ∧
        σ' = { σ.setSlot T i (Slot.untagged ⟨σ.nIds, k, v⟩) with nIds := σ.nIds + 1 }) ∨
      ((σ.slot T i ≠ exp ∨ weak = true) ∧ r = .inr (σ.slot T i) ∧ σ' = σ)
  | _, .fetchOrCopying T i, σ, r, σ' =>
      r = σ.slot T i ∧ σ' = σ.setSlot T i { σ.slot T i with copying := true }
  | _, .storeSlot T i s, σ, _, σ' => σ' = σ.setSlot T i s
  | _, .loadStatus T, σ, r, σ' => r = σ.status T ∧ σ' = σ
  | _, .parkStatus T, σ, _, σ' => σ.status T ≠ .pending ∧ σ' = σ
  | _, .parkSlot T i, σ, _, σ' => (σ.slot T i).copied = true ∧ σ' = σ
  | _, .unparkStatus _, σ, r, σ' => r = () ∧ σ' = σ
  | _, .unparkSlot _ _, σ, r, σ' => r = () ∧ σ' = σ
  | _, .storeStatus T s, σ, _, σ' =>
      σ' = { σ with status := fun T' => if T' = T then s else σ.status T' }
  | _, .loadClaim T, σ, r, σ' => r = σ.claim T ∧ σ' = σ
  | _, .addClaim T n _, σ, r, σ' =>
      r = σ.claim T ∧ σ' = { σ with claim := fun T' => if T' = T then σ.claim T + n else σ.claim T' }
  | _, .loadCopied T, σ, r, σ' => r = σ.copied T ∧ σ' = σ
  | _, .addCopied T n _, σ, r, σ' =>
      r = σ.copied T ∧ σ' = { σ with copied := fun T' => if T' = T then σ.copied T + n else σ.copied T' }
  | _, .casRoot T N, σ, r, σ' =>
      (σ.root = some T ∧ r = true ∧ σ' = { σ with root := some N }) ∨
      (σ.root ≠ some T ∧ r = false ∧ σ' = σ)
  | _, .sameTable T T', σ, r, σ' => r = decide (T = T') ∧ σ' = σ
  | _, .sameEntry x y, σ, r, σ' => r = decide (x = y) ∧ σ' = σ
  | _, .deref _, σ, _, σ' => σ' = σ
  | _, .retire e, σ, _, σ' => σ' = σ.retireEntry e
  | _, .retireTable T, σ, _, σ' =>
      σ' = { σ with
              tabRetired := fun x => if x = T then true else σ.tabRetired x
              tabBlockers := fun x u => if x = T then σ.pinned u else σ.tabBlockers x u }
  | _, .pushDeferred T e, σ, _, σ' =>
      σ' = { σ with deferred := fun T' => if T' = T then e :: σ.deferred T else σ.deferred T' }
  | _, .loadShard j, σ, r, σ' => r = σ.shard j ∧ σ' = σ
  | _, .addCount d, σ, _, σ' =>
      σ' = { σ with shard := fun j => if j = C.shardOf t % (C.shards + 1) then σ.shard j + d else σ.shard j }

/-- The state built by `HashMap::new` — src/raw/mod.rs:216-246.  With capacity 0 no table is allocated. `none`
models the panic of `entries_for`. -/
def initSt (C : Cfg K) : Option (St K V) :=
  let σ : St K V :=
    { root := none, nTabs := 0, cap := fun _ => 0, next := fun _ => none, lock := fun _ => .free
      claim := fun _ => 0, copied := fun _ => 0, status := fun _ => .pending, deferred := fun _ => []
      slot := fun _ _ => Slot.null, md := fun _ _ => EMPTY, nIds := 0, shard := fun _ => 0
      pinned := fun _ => false, retired := fun _ => false, blockers := fun _ _ => false
      freed := fun _ => false, tabRetired := fun _ => false, tabBlockers := fun _ _ => false
      tabFreed := fun _ => false }
  if C.capacity = 0 then some σ
  else (entriesFor C.capacity).map fun n =>
    { σ.allocTable (max n 8) .promoted with root := some 0 }

end Papaya
