# Formal model of papaya (Lean 4)

Target: `/repo` (ibraheemdev/papaya, lock-free hash map; seize-based reclamation). Everything here is read
from the source text; the code is not run.

## 1. What is modelled

| Lean module | Rust source | what |
|---|---|---|
| `Verif/Pure/Probe.lean` | `raw/probe.rs` | `Probe::start/next`, `limit`, `entries_for` |
| `Verif/Pure/Meta.lean` | `raw/mod.rs` `mod meta` | `h1`, `h2`, `EMPTY`, `TOMBSTONE` |
| `Verif/Pure/Tagged.lean` | `raw/utils/tagged.rs`, `raw/mod.rs` tags | pointers as `BitVec 64` |
| `Verif/Pure/Layout.lean` | `raw/alloc.rs` | layout arithmetic of a table |
| `Verif/Pure/Bounds.lean` | `map.rs`, `set.rs` | auto-trait bounds |
| `Verif/Pure/Stack.lean` | `raw/utils/stack.rs` | push/drain under all interleavings |
| `Verif/Pure/Parker.lean` | `raw/utils/parker.rs` | park/unpark under all interleavings |
| `Verif/Model/Drop.lean` | `raw/mod.rs` `impl Drop` | which allocations `drop` frees |
| `Verif/Spec/*.lean` | – | specifications: abstract map, linearizability, contents, memory safety, quiescence, progress |
| `Verif/Exec/*.lean` | – | an executable scheduler, sound for the model, for concrete executions |
| `Verif/Model/*.lean` | `raw/mod.rs` | every operation of the table as a program of atomic actions, run by any number of threads under any scheduler |
| `Verif/Proof/*.lean` | – | rely/guarantee logic, global invariant, per-operation proofs |
| `Verif/Model/Api.lean`, `Model/Pool.lean` | `map.rs` | the public operations; threads, guards, the collector |
| `Verif/Model/Client.lean` | `map.rs`, `serde_impls.rs` trait impls | `extend`, `from_iter`, `from`, `clone`, `==`, (de)serialisation, as sequential clients of the operations |
| `Verif/Model/Multi.lean` | `raw/mod.rs` `verify`, `pin` | systems of several maps and guards |
| `Verif/Model/Shared.lean` | `map.rs`, `seize` guards | guards used by several operations at the same time |
| `Verif/Model/Park.lean` | `raw/utils/parker.rs`, in the whole system | the map with the parkers of its tables |
| `Verif/Model/Resize.lean` | `raw/mod.rs`, `raw/utils/counter.rs` `sum` | length, capacity policy, allocation of tables, copying, promotion, retirement |
| `Verif/Model/Wrap.lean`, `Model/Counter.lean` | `raw/mod.rs` `State`, `raw/utils/counter.rs` | the counters as 64-bit words that wrap around |
| `Verif/Model/Weak.lean` | the memory orderings in `raw/mod.rs`, `raw/alloc.rs` | the map on weakly ordered memory |
| `Verif/Model/Addr.lean` | `raw/mod.rs`, `raw/alloc.rs` | addresses and their reuse |
| `Verif/Model/Reenter.lean` | `map.rs`, `raw/mod.rs` | closures that may do anything |
| `Verif/Model/Own.lean` | `raw/mod.rs` `insert`, `compute_with`, `LazyEntry`, `ComputeState` | ownership of keys and values |
| `Verif/Model/SetApi.lean` | `set.rs` | the methods of `HashSet` |
| `Verif/Props/*.lean` | – | the property theorems and their non-vacuity examples |

### The concurrent core

A program is a term of a free monad (`Prog`): `ret`, `act a k` (one atomic access to shared memory), `iter`
(an unbounded Rust `loop`), `panic reason`. Each Rust function is transcribed into one Lean definition with the
same control flow; each atomic load / store / CAS / fetch_add / fetch_or is one action, so that every
interleaving of atomic accesses of any number of threads is an execution of the model. Weak CAS may fail
spuriously (nondeterministically).

Simplifications (each also in the comment of the definition it concerns):

* **Sequential consistency.** Actions are interleaved; the orderings written in the code do not matter. For C52 only,
  `Model/Weak.lean` runs the same programs on weakly ordered memory: a location is the set of all values ever written to
  it, a load may return any of them (not even coherence is assumed), a read-modify-write reads a value that no other one
  has read; what *happens before* a step is tracked as a set of allocations (*view*), transmitted by release stores,
  release sequences and acquire loads, with the orderings of each access as in the source (`papaya : Orders`). Locations
  without pointers return arbitrary values and do not synchronise. This contains every execution of the C++20 memory model
  in which the union of program order and reads-from is acyclic (no values out of thin air). Nothing is freed in that
  model, so C52 is about publication (initialisation happens before every use), not about reclamation.
* **Private allocations merged.** `Box::new(Entry)` / `Table::alloc` happen in the same action as the CAS/store
  that publishes them (they are invisible to other threads before).
* **Pointers carry their (immutable) entry**; the entry has a fresh `id` per allocation. `Model/Addr.lean` adds addresses:
  an allocator that may reuse freed addresses, and comparisons (CAS, `==` on raw pointers) that see addresses only; C51
  shows that this changes nothing. What the model keeps from the identities is that dereferencing a pointer to live
  memory yields the entry it was made from.
* **Parking is a blocking action**: waiting loops spin the number of times of the source (parameters of the configuration),
  then execute `parkStatus`/`parkSlot`, which is enabled when the condition `cond` of `park(a, cond)` is false. That a park
  returns only after `cond` was seen false, and that a thread is woken when `cond` became false and `unpark` is called on the
  same atomic is the separate Parker theorem (C25). For C55–C57 and C26 the parkers are part of the state of the whole system
  (`Model/Park.lean`): `park` and `unpark` are expanded into their atomic steps (the counter `pending`, the registration under the
  mutex, the checks of the condition, `thread::park` with its token and spurious wakeups, `Thread::unpark` one thread at a time).
  Each such step under the mutex of the parker is one action; the mutex itself is not modelled (it is never held across another
  blocking step). Every execution with parkers, stripped of the steps of the parkers, is an execution of the system without.
* Keys are compared with `=`; `Equivalent<K>` lookups are lookups by the equivalent key. `Hash`, `Eq` are
  assumed consistent and pure. The key instance stored next to the value may be put in the `V` component.
* Counters (`claim`, `copied`, shard counters) are unbounded integers. `Model/Wrap.lean` and `Model/Counter.lean` make them 64-bit words; C61 and C66
  say when this makes no difference.
* Iteration (`iter`, `keys`, `values`, `retain`, `clear`) is one operation that runs to completion or is abandoned; an
  iterator may also be dropped after any number of entries (`iterTake n`), which is an operation that returns; in
  `Model/Pool.lean` a guard runs one operation at a time; `len`/`is_empty` take a guard. `Model/Shared.lean` drops this
  restriction: any number of operations use the same guard at once (an `OwnedGuard` shared between threads, an iterator
  interleaved with other calls, an iterator dropped in the middle), and C50 reduces that system to the first one.
* Closures are pure state machines: they may panic (reason `user`), they do not re-enter the map. A panic is caught and
  the guard may be used again or dropped. `Model/Reenter.lean` drops this restriction: an operation that calls its closure is
  suspended, everything else goes on (in particular operations called by the closure, in other slots), and at some time the
  closure answers, anything; C59 reduces that system to the one with state machines. The calls made to a closure are part of the operation's result in the model.
* Trait implementations (`Model/Client.lean`): clones of keys equal the original. `Runs` has no concurrent writers (C44), so it does
  not matter that an iterator is consumed by one call; in `RunsIn` the maps the code does not own are used by any other threads meanwhile
  (C67), and iterators may be consumed lazily, as `eq` and `clone` do.
* `papaya_stress` is off; alloc failure aborts the process and is not modelled.

### Proof method

Rely–guarantee: `Safe n t p Q S` (step-indexed) says that thread `t` running `p` keeps the global invariant and the
guarantee at each of its steps whatever the other threads do, provided they respect the rely, and ends in `Q`.
The ghost state (log of linearization events, …) is chosen existentially after every physical step, so the
physical semantics contains no ghost code. Soundness: every reachable configuration of any number of threads
satisfies the invariant and every response satisfies its operation's postcondition.
From the ghost log we derive Herlihy–Wing linearizability.

## 2. Properties

| id | modelled by / proof idea |
|---|---|
| C01 | concurrent core; invariant + ghost log; HW linearization assembled from log positions |
| C02–C05, C08 | postconditions of the operations' triples (hindsight: value current at an instant of the call) |
| C06, C07 | `compute_with` with an arbitrary stateful closure; `ComputeState` cache |
| C09 | `Safe` forbids the panic reasons `unreachable`/`unwrapNone`; every execution |
| C10–C12 | triples of `clear`, `retain`, `iter` |
| C13 | ghost "count owed by thread" + invariant `sum + owed = number of live keys` |
| C14, C15, C36, C37 | clauses of the invariant, restated over abstract map |
| C16–C20, C28 | arithmetic / bit-vector theorems |
| C21, C22 | retirement tokens in the ghost state, guards and blockers of the collector |
| C23 | `Model/Drop.lean` walks the memory; a "duty" logic (`Proof/Finish*.lean`) shows that an operation that has started a copy, promotion, allocation, … finishes it before it ends; with the invariant this determines what `drop` frees |
| C44 | corollary of C01, C13, C22: panicked calls end without effect |
| C24 | schedules may stop a thread anywhere: same theorem as C01 (executions are prefix closed) |
| C25 | transition system of the Parker, invariant over all interleavings |
| C26 | false of the code: witness execution of the whole system with parkers (`C26_false_system`); the waiter stays in `park` in every continuation (`C26_blocked_forever`) |
| C27 | false of the code for non-power-of-two capacities: witness execution (`with_capacity(5)`, nine inserts and removes by one thread); partial theorem: no execution of a map whose capacity is a power of two panics this way |
| C29 | false of the code in blocking mode: `C29_insert_never_returns` (an observation logic, `Proof/Observe.lean`, that follows a never-ending execution) and a reachable witness (`C29_witness`). Proved in incremental mode (`C29_new_key_ends`), with C47; in blocking mode under the hypothesis that there is room (C49) |
| C30 | triple of `reserve` |
| C31 | transition system of the stack |
| C32, C33 | clauses of the invariant (single chain of tables) |
| C34 | `Spec/Progress.lean` counts the own steps of one call in an arbitrary execution; a cost logic (`Within`) bounds `get` |
| C35 | `Model/Multi.lean`: several maps, any guard passed to any method; each map's projection is an execution of that map alone |
| C38, C39 | `Model/Client.lean`: the trait implementations call operations one after the other (`Client.Runs`); C46 turns each call into its specification |
| C40 | `HashSet` methods are projections of map operations; specification over `Set K` |
| C46 | corollary of the invariant, log and quiescence theorems |
| C41 | finite table of trait bounds: HashSet's `Sync` bound violates it |
| C42 | corollary of C01/C02 |
| C45 | false of the code (finding 13): witness execution; what is left of it is proved: a structural property of all programs (`Proof/Poison.lean`: who poisons a lock panics at once for want of a table) and an invariant give every poisoned-lock panic a cause |
| C47 | termination logic for one thread running alone (`Proof/Term*.lean`: `Tm` is inductive, so every execution is finite and not stuck); loop measures: probe distance, then number of tables after the current one (an allocated table is empty, so its first probe succeeds); the state at rest has no half-copied slot and no held lock (C23) |
| C48 | false of the code in incremental mode (finding 14): an observation logic that knows the root table (`Proof/Overfull.lean`); `clear` and `retain` are compared with a second execution in which an iteration accesses the memory in the same way, so that the contents are known not to change; reachable witness |
| C49 | the termination logic of C47 for a root table without successor (`Proof/TermSettled.lean`): no slot is being copied, so no retry is caused by a copy; loop invariant of the insertions: the slot with room has not been passed (`HasRoom`); corollaries: the key is present, or fewer slots are in use than are probed (pigeonhole with C16) |
| C50 | simulation (`Proof/Shared.lean`): each call slot gets a guard of its own, created at its first call and dropped together with the shared guard; the private guards hold back less than the shared one, so the collector of the shared system frees nothing that could not be freed in the private one. Histories and memory are the same, hence C01, C21 (and everything stated about histories and contents) transfer |
| C51 | invariant "different live allocations have different addresses"; it is kept by the allocator's contract, and with C21 (all pointers that are compared are null or point to live memory — part of `Act.Safe`) and "same allocation, same key and value" (`Act.Coherent`, from the ghost invariant) every comparison by address equals the comparison by identity (`Proof/Addr.lean`); hence the executions are those of C50 |
| C52 | observation logic over the programs (`Proof/WeakOps.lean`, `Proof/WeakCalls.lean`): whatever the shared memory answers, as long as every pointer it returns is known to the thread and every slot has one key, all accesses are to known memory; invariant of weak memory (`Proof/Weak.lean`): the view recorded with a pointer contains its target, all pointers ever stored in a slot have the same key, null is read by at most one successful CAS; simulation of the interleaving model (`Proof/WeakSc.lean`); necessity of the orderings: eleven concrete executions run by a scheduler (`Exec/Weak.lean`) |
| C53, C54 | a second logic of duties (`Proof/Work.lean`, `Proof/WorkOps.lean`): whoever has claimed a chunk counts it or aborts the copy, whoever counts the last slot promotes, whoever promotes announces it, whoever marks a slot `COPYING` marks it `COPIED`, whoever locks unlocks, and on the way there does not wait (but for a mutex, if it holds none); invariant (`Proof/WorkInv.lean`): every cell of a copy that is claimed but not counted, and every promotion, announcement, slot or mutex that is due, has a running operation with that duty. A waiting operation is given a duty-holder by case analysis on what it waits for (`Props/Deadlock.lean`) |
| C55–C57 | the model with parkers refines the pool (`PkStep.pool_step`), so the invariants of C53/C54 hold of it; bookkeeping invariant (`Proof/Park.lean`: who is registered, taken, counted in `pending`) and wake-up invariant (`Proof/ParkWake.lean`: the condition of a registered sleeper is false only if a running operation has the duty to unpark that very key and has not yet looked at the list), from the duties of C54 |
| C58 | a program logic with budgets (`Proof/LockFree.lean`): what is known of the contents of a slot, races left, steps left (4 are refunded for each race), writes left, use of the mutex; one lemma per operation (`Proof/LockFreeOps.lean`); soundness for any schedule without resizes, and summation over all calls (`Props/LockFree.lean`) |
| C59 | prophecy: an operation is a family of programs indexed by the answers its closures will ever give (`Closure.replay`); for every completion of the answers given so far the execution is one of `Model/Shared.lean` (`OReach.close`, induction with the completion universally quantified). A relational logic (`Proof/ReenterOps.lean`) shows that the next step depends only on the answers given. No deadlock: an operation with a duty (C54) is not at a closure call, as it would end with the duty undone if the closure panicked there |
| C60 | a program logic over a memory that does not change any more (`Proof/Frozen.lean`, `FrozenOps.lean`, `FrozenCalls.lean`): in a memory that satisfies the invariants every operation of the map, at any point, ends after finitely many own steps, or has written (`FE`), given a box that bounds the tables and their sizes; a measure of the memory (`phi`, `Proof/Growth.lean`: ranks of slots, statuses, claims up to the box, position of the root) that every other write increases, so that with finitely many tables and entries the memory settles; a ghost token per call that pays for the entry it publishes. `Props/Growth.lean`: infinite executions; the last part uses C54. `Props/GrowthDemo.lean`: with `Incremental(0)` an iteration runs forever without allocating anything (`C60_zero_chunk`); the operations of C48 do run and allocate tables forever (`C60_overfull`); an execution in which everything ends |
| C61 | false of the code for huge chunks (finding 15): the system with the counters reduced modulo 2^64 after every step (`Model/Wrap.lean`); a syntactic logic (`Proof/Claim.lean`: every `fetch_add` on the claim counter immediately follows a load that returned less than the length of the table, and adds one chunk) and an invariant on the number of threads about to add (`Proof/Wrap.lean`): counters < m + n·chunk for n concurrent operations and tables of m slots, so if m + n·chunk ≤ 2^64 the two systems reach the same states; two witness executions with chunk 2^63 and three threads: a removed key is found again, and `get` reads freed memory |
| C62 | counting executions (`Spec/Latency.lean`: `MovesBy C t n ps ps'`, the guard `t` marks `n` slots as being moved); a budget logic on programs (`Proof/Latency.lean`: `Bd b p Q`, at most `b` slots marked whatever the actions return); the bound follows for every execution, without any invariant of the memory |
| C63 | executions with one writing call at a time and at most `N` keys between the calls (`Spec/Thrift.lean`: `WithinLimits`, `OneByOne`); a logic about the tables a program allocates while nobody else changes the counter (`Proof/Thrift.lean`: `Sv`), with the exactness of the counter when no writer runs (C13) at the start of each call |
| C64 | `Model/Own.lean` writes `compute` and `insert` again with the allocation, the writes and moves of the value, the cached operations, destructors and unwinding (relational monad with faults); a weakest-precondition calculus proves that every complete run is fault-free and accounts for key and values (`Proof/OwnAcc.lean`, `OwnIns.lean`); a simulation (`Proof/OwnSim.lean`) shows that every call of the concurrent system that is about to end corresponds to such a run. Not covered: the payload of `Operation::Abort` (passed through), panics of `Hash`/`Eq` |
| C65 | the guarantee of every step of an operation (`Mo`, Proof/WBase) says that a thread owes the counters nothing, or the effect of one event of its current call (`DueOk`), and that a step makes at most one counter update; the summation of the shards returns the sum of what each thread had paid at some time during the call (`LenIs`, Proof/TriLen); by induction along the execution what a thread had paid at any such time differs from its effect on the size at the start by at most the number of its overlapping calls (`thread_bound`, Props/LenClose). `len_stalled` shows that the bound is attained |
| C66 | every program changes the counter by one at a time (structural property, Proof/Counter); so the largest absolute values that the shards ever had add up to at most the number of steps (`exec_bound`, Props/Counter), whence no shard and no sum of shards read at any times leaves the range of `isize` |
| C67 | `RunsIn` (Model/Client): between and during the calls of the client code all maps but those it owns move arbitrarily, and an iterator over such a map may still be in progress while the client goes on (rule `lazy`; `eqTake`: dropped early); the linearizability theorem (C01) at the end of the run gives the instants; `DuringRun` (Spec/ClientIn). The example is a clone that is no snapshot, filled while the iteration is in progress |
| C68 | structural property of programs (`Aloof`, Proof/Promote): in incremental mode the programs of the readers and of the `compute` family execute none of the actions of which a resize consists; carried along executions. Example: 30 keys through `get_or_insert_with` leave three tables with the first as root, through `insert` the third one is the root |
| C69 | false of the code (finding 17). `Orphaned` (Spec/Stall): all slots of the root are claimed, not all are counted, nobody is running. A program logic with the results that loads have in this situation (`stallSys`, Proof/Stall) shows for each operation that it performs no action that could end it; carried along all continuations: never promoted or aborted, no table allocated, at most `cap` keys, waiting operations and large reservations never return; reachable witness. Incremental mode (Props/StallInc): `FrozenSlot` (a slot frozen, its entry nowhere else); there is an operation, the copier, such that if it is abandoned now, whatever else is running, the ghost copy state of that slot stays `marked` in all continuations, so the slot is never released, the root never replaced, its waiters never return, nor do `iter`, `clear`, `retain`, large reservations (`lostSys`, Proof/StallInc); reachable witness. What remains true: `get` (C34), and C41's/C48's progress theorems, which assume that no operation is abandoned |
| C70 | a program logic in which a program may park on a slot only if it is in a given set, which contains all slots that were seen to hold the key (`kwSys`, Proof/OwnKey); a slot that has held a key never holds another one (invariant of the memory), so along executions the set can be read as `KeyAt` (Props/OwnKey); no assumption about abandoned operations. Examples: with guard 0 killed while it copies key 0, an `insert` of key 0 waits, an `insert` of key 3 returns. Termination of such operations: C71 |
| C71 | the termination logic of C47 (`Proof/Term*.lean`) with a weaker invariant: not all copies are complete, only those of the entries whose keys are in a set `ks` (here: the operation's key); helping to copy freezes entries of other keys, but completes them before it goes on; all other facts come from the invariant of reachable states, so other operations may be suspended anywhere. Excluded by hypothesis (and both necessary: `C71_copy_necessary`, `C71_allocation_necessary`): an entry of the same key being copied, a held allocation mutex. Lookups: no hypothesis (`tt_get` needs none) |
| C43 | false of the code (finding 11): witnesses; partial theorem for alignments ≥ 8 |

## 3. Disagreements between properties and code found while modelling

1. **Shrink panic** (C27). `initial_capacity` is the raw user capacity; `get_or_alloc_next` shrinks to
   `initial_capacity.max(cap >> 1)`, which need not be a power of two, and `Table::alloc` asserts that it is. Besides
   `with_capacity`, also `clone` (capacity `len()`), `from_iter`, `From<[_; N]>` and deserialisation create such maps.
2. **Lost wakeup** (C26). On abort `help_copy_blocking` unparks `table.state().parker` on `table.state().status`,
   waiters are parked on `next.state().parker` / `next.state().status`. `C26_false_system`: an execution of the whole system after which an
   `insert` sleeps for ever although a later resize has completed.
3. **Livelock** (C29). Blocking mode, constant hash: 31 keys in a 64-slot table exhaust the probe limit while
   `31 < 64/2`, so the next table has again 64 slots, forever. `tests/basic.rs` `mod hasher` ignores its type
   parameter and never tests this.
4. **Leak**: an aborted blocking-mode table is unreachable from the promoted table and never retired.
5. **Double free at a crash point** (C23, blocking): panic in user `Hash` after an abort, while copying to the third
   table: `Drop` walks both copies, whose entries carry no tag.
6. `ResizeMode::Incremental(0)` never finishes a blocking help (C60); `Incremental(n)` for huge `n` wraps `claim`: see 15.
7. `HashSet: Sync` requires only `K: Sync` (C41).
8. The doc of `insert` says the key is not updated; the code replaces the whole entry including the key instance.
9. `compute_with` starts with `help_copy = false`, so compute-only workloads never help copying in incremental mode: they keep
   their first table for ever, and every lookup of a missing key walks through all the tables (C68).

10. `iter` may yield a key twice if it is removed and reinserted concurrently (allowed by C12 as stated).
11. **Tag bits not reserved** (C43): `Entry` is `#[repr(C)]` without `align(8)`. For `HashMap<(), ()>`/`HashSet<()>` the
    entry is zero-sized, `Box::new` returns the dangling address 1, which the map reads as null tagged `COPYING`; for
    alignments < 8 the allocator contract allows addresses with tag bits set.
12. **Layout wrap** (C20): `size_of::<AtomicPtr<T>>() * len` wraps in release builds for `len >= 2^61`, which passes the
    `isize::MAX` assertion; only the failing allocation prevents out-of-bounds accesses.
13. **Poisoned allocation lock** (C45): `get_or_alloc_next` allocates while it holds `state().allocating` and unwraps
    `lock()`. A `reserve` that panics for lack of address space poisons the lock of the current table: every later
    operation that needs a larger table panics, too.
14. **Livelock of `linearize`** (C48). Incremental mode, constant hash: 40 keys in a 128-slot table (36 slots per probe sequence) are
    spread over two tables. `iter`, `clear`, `retain` copy the root table into the next one until the root has no successor, but every copy
    overflows into a newly allocated third table of the same size (40 keys are too few to grow), so there always is a successor.
    `reserve(1000)` does the same: the successor exists already, so the requested capacity is never used.
15. **Claim counter wraps** (C61): `help_copy_incremental` adds the chunk size, which the user chooses freely, to `claim` with `fetch_add`.
    With `ResizeMode::Incremental(1 << 63)`, two helpers that both saw `claim = 0` bring it back to 0, and a third one copies the same slots
    again. The second copy of an entry (which carries the COPYING tag) survives its removal: `get` returns a removed key, and reads freed
    memory once the entry is reclaimed — use after free in safe code.
16. **Leak when a closure panics** (C64, `compute_leak`): `LazyEntry` has no destructor. If an attempt of `compute` to publish its entry has
    failed and the closure, called again, panics (or returns `Remove` for a missing entry), the key and the allocation are leaked. Likewise
    `insert` leaks key and value if a table allocation panics.
17. **A panic of the user's `Hash` (or a killed thread) in a resize hangs the map** (C69): `help_copy_blocking` claims chunks of slots,
    and `insert_copy` hashes every key again. If that panics, the claimed slots are never reported as copied, nobody else may claim them, and
    the status stays `PENDING` for ever: every later operation that needs the resize parks without being woken, and the map never grows again. In incremental mode the same
    happens between freezing a slot (`COPYING`) and placing its entry: writers of that key, and every `iter`, `clear`, `retain`, wait for ever.

## 4. Trusted base

* Lean 4.33 kernel; axioms allowed: `propext`, `Quot.sound`, `Classical.choice` (audited by `vcheck`).
* The reading of the Rust source (this is not checked by any tool), under the simplifications above.
* Not modelled: weak memory orderings (except for C52), seize's internals (a contract is used), allocator, user `Hash`/`Eq` side effects,
  `Debug` impls, 32-bit targets.
