{"id": "C01", "title": "Single-key operations are linearizable", "statement": "Every concurrent history of get / contains_key / get_key_value / insert / try_insert / remove / remove_if / compute (and the operations derived from it) on one map is linearizable: there is a total order of the completed operations (plus some pending ones) that respects real time, in which every operation returns exactly what a sequential map would return.", "quantifier": "all keys, values, hash functions (any collisions), initial capacities, both resize modes, any number of threads, every schedule and every moment at which a resize may start, be helped or finish", "why_tests_cant": "Tests sample a handful of interleavings; the claim ranges over every interleaving of every thread's atomic steps, including ones in the middle of a resize.", "anchors": ["src/raw/mod.rs: get, insert_inner, remove_if, compute_with, insert_at, update_at, help_copy_*, try_promote"]}
{"id": "C02", "title": "get returns a value that was current during the call", "statement": "If get(k) returns Some(v), then at some instant between its invocation and its response the map associated k with exactly v; if it returns None, then at some instant in that interval k was absent. In particular a key that is present for the whole call is never missed, even while tables are being resized, and a key absent for the whole call is never found.", "quantifier": "every key, every state of every in-progress resize, every schedule", "why_tests_cant": "Tests sample a handful of interleavings; the claim ranges over every interleaving of every thread's atomic steps, including ones in the middle of a resize.", "anchors": ["src/raw/mod.rs: HashMap::get"]}
{"id": "C03", "title": "insert is an atomic put", "statement": "insert(k,v) returning None happens atomically at an instant when k was absent; returning Some(old) happens atomically at an instant when k was mapped to exactly old; in both cases k maps to v right after that instant. No insert is lost or applied twice.", "quantifier": "every key/value, table layout, resize state and schedule", "why_tests_cant": "Tests sample a handful of interleavings; the claim ranges over every interleaving of every thread's atomic steps, including ones in the middle of a resize.", "anchors": ["src/raw/mod.rs: insert, insert_inner, insert_slow, insert_at, update_at, prepare_retry_insert"]}
{"id": "C04", "title": "try_insert never overwrites and hands the value back", "statement": "try_insert(k,v) succeeds only at an instant when k was absent; otherwise it changes nothing, reports a value that was current during the call and returns the rejected value v itself.", "quantifier": "every key/value and schedule", "why_tests_cant": "Tests sample a handful of interleavings; the claim ranges over every interleaving of every thread's atomic steps, including ones in the middle of a resize.", "anchors": ["src/raw/mod.rs: insert (replace=false)", "src/map.rs: try_insert"]}
{"id": "C05", "title": "remove / remove_if remove exactly the reported entry", "statement": "remove_if(k,f) returning Ok(Some((k,v))) atomically removes k at an instant when it was mapped to v and f(k,v) was true; Err((k,v)) means v was current during the call, f(k,v) was false and nothing was removed; Ok(None) means k was absent at some instant of the call. remove(k) always returns through the Ok branch, so its unwrap_unchecked is never undefined behaviour.", "quantifier": "every key, predicate and schedule", "why_tests_cant": "Tests sample a handful of interleavings; the claim ranges over every interleaving of every thread's atomic steps, including ones in the middle of a resize.", "anchors": ["src/raw/mod.rs: remove, remove_if"]}
{"id": "C06", "title": "compute is an atomic read-modify-write", "statement": "compute(k,f) takes effect at one instant at which the current entry of k is the argument of a call that f was given, and the map is changed exactly as the operation returned by that call says (Insert, Remove, Abort); the result reports that old and new entry. Aborted calls change nothing.", "quantifier": "every key, every stateful (FnMut) closure, every schedule", "why_tests_cant": "Tests sample a handful of interleavings; the claim ranges over every interleaving of every thread's atomic steps, including ones in the middle of a resize.", "anchors": ["src/raw/mod.rs: compute, compute_with, ComputeState"]}
{"id": "C07", "title": "compute calls the closure on None at most once when it answers Insert", "statement": "Within one compute call, once f(None) has returned Insert(v), f is never called with None again: v is cached and reused. Hence try_insert_with, get_or_insert_with and update_or_insert_with run their FnOnce initialiser at most once and their internal unwrap never panics.", "quantifier": "every closure, every number of retries, lost races and table migrations", "why_tests_cant": "The number of retries is decided by the schedule; tests exercise only a few lost races.", "anchors": ["src/raw/mod.rs: ComputeState::next, ComputeState::restore, try_insert_with, update_or_insert_with"]}
{"id": "C08", "title": "update / get_or_insert(_with) / update_or_insert(_with) behave as documented", "statement": "update(k,f) atomically replaces the current value v by f(v) and returns it, or returns None at an instant when k is absent; get_or_insert(k,v) returns the value current at its linearization point, inserting v only if k was absent; update_or_insert(k,f,v) replaces or inserts atomically. No lost updates: every successful update applies f to the immediately preceding value.", "quantifier": "every key, closure and schedule", "why_tests_cant": "Tests sample a handful of interleavings; the claim ranges over every interleaving of every thread's atomic steps, including ones in the middle of a resize.", "anchors": ["src/raw/mod.rs: update, update_or_insert_with, get_or_insert_with, try_insert_with"]}
{"id": "C09", "title": "internal unreachable!/unwrap panics cannot fire", "statement": "No schedule of the public operations reaches an unreachable!() or an Option::unwrap on None inside the implementation (restore, compute result matching, help_copy's next_table().unwrap(), insert_copy(..).unwrap(), defer_retire's walk).", "quantifier": "every operation, every schedule, both modes", "why_tests_cant": "A panic branch that is never hit in tests may still be reachable under some schedule.", "anchors": ["src/raw/mod.rs: ComputeState::restore, compute_with, help_copy, copy_at_incremental, defer_retire"]}
{"id": "C10", "title": "clear removes everything that was there", "statement": "When clear returns, every key was absent at some instant during the call; executed without concurrent writers it leaves the map empty (every get returns None, len is 0).", "quantifier": "every contents, every resize in progress, every schedule", "why_tests_cant": "Tests sample a handful of interleavings; the claim ranges over every interleaving of every thread's atomic steps, including ones in the middle of a resize.", "anchors": ["src/raw/mod.rs: clear, linearize"]}
{"id": "C11", "title": "retain removes exactly the entries rejected by the predicate", "statement": "Every entry removed by retain(f) was rejected by f with exactly the key and value that were removed; when it returns, every key was, at some instant during the call, either absent or mapped to a value accepted by f. Without concurrent writers the result is the filtered map.", "quantifier": "every predicate, contents and schedule", "why_tests_cant": "Tests sample a handful of interleavings; the claim ranges over every interleaving of every thread's atomic steps, including ones in the middle of a resize.", "anchors": ["src/raw/mod.rs: retain"]}
{"id": "C12", "title": "iter yields only real entries and misses no stable key", "statement": "Every pair yielded by iter/keys/values was in the map at some instant of the iteration; every key present (with whatever value) during the whole iteration is yielded; without concurrent writers each entry is yielded exactly once.", "quantifier": "every contents, every resize in progress when the iterator is created, every schedule", "why_tests_cant": "Tests sample a handful of interleavings; the claim ranges over every interleaving of every thread's atomic steps, including ones in the middle of a resize.", "anchors": ["src/raw/mod.rs: iter, Iter::next, linearize", "src/map.rs: Iter, Keys, Values"]}
{"id": "C13", "title": "len is exact at quiescence", "statement": "Whenever no write is in progress, len() equals the number of keys in the map, whatever happened before; len never underflows (a transiently negative sum is reported as 0). is_empty agrees with len.", "quantifier": "all operation histories and schedules, any number of counter shards and threads", "why_tests_cant": "The counter is sharded and updated separately from the table; the property is about all interleavings of the two.", "anchors": ["src/raw/mod.rs: len, insert, remove_if, compute_with, clear, retain", "src/raw/utils/counter.rs"]}
{"id": "C14", "title": "capacity policy never changes the contents", "statement": "Resizing (growing, shrinking, same-size rehash, aborted and nested resizes), reserve and helping by other threads never add, drop or change an association: the abstract map is the same before and after every internal resize step.", "quantifier": "every table contents, every chunk size, number of helpers, every schedule", "why_tests_cant": "Tests sample a handful of interleavings; the claim ranges over every interleaving of every thread's atomic steps, including ones in the middle of a resize.", "anchors": ["src/raw/mod.rs: help_copy_blocking, help_copy_incremental, copy_at_*, insert_copy, try_promote, reserve"]}
{"id": "C15", "title": "an aborted resize never becomes the map", "statement": "In blocking mode a next table in which some entry did not fit (aborted) is never promoted to root, and a promoted table contains every entry of the previous root exactly once.", "quantifier": "every contents, every schedule of copiers", "why_tests_cant": "Tests sample a handful of interleavings; the claim ranges over every interleaving of every thread's atomic steps, including ones in the middle of a resize.", "anchors": ["src/raw/mod.rs: help_copy_blocking, try_promote"]}
{"id": "C16", "title": "probe sequence covers the table and stays in bounds", "statement": "For every hash and every power-of-two capacity every probed index is in bounds, the index after n steps is (h1 + n(n+1)/2) mod capacity, the first `capacity` probes visit every slot exactly once, and no intermediate sum overflows a 64-bit usize.", "quantifier": "all hashes, all capacities 2^a, all probe lengths", "why_tests_cant": "Unit tests check a few capacities; the claim is number-theoretic over all powers of two.", "anchors": ["src/raw/probe.rs: Probe::start, Probe::next, limit"]}
{"id": "C17", "title": "table sizing arithmetic", "statement": "entries_for(c) is a power of two with at least c*8/6 slots (so with_capacity(c)/reserve(c) provide at least c slots), it panics exactly when c*8 overflows usize, and limit(2^a) = 5a.", "quantifier": "all 64-bit capacities", "why_tests_cant": "Boundary behaviour over all of usize.", "anchors": ["src/raw/probe.rs: entries_for, limit", "src/raw/alloc.rs: Table::alloc"]}
{"id": "C18", "title": "metadata bytes are unambiguous", "statement": "For every 64-bit hash the stored metadata byte is < 0x80, hence different from the EMPTY and TOMBSTONE markers; equal keys always have equal metadata, so a metadata mismatch proves that keys differ.", "quantifier": "all 2^64 hashes", "why_tests_cant": "Cannot enumerate 2^64 hashes.", "anchors": ["src/raw/mod.rs: meta::h1, meta::h2, EMPTY, TOMBSTONE"]}
{"id": "C19", "title": "tagged pointers round-trip", "statement": "For every 8-aligned entry address and every tag combination, packing and unpacking returns the same address and tag, fetch_or changes only the tag, and no entry address, tagged or not, can be confused with null or the tombstone.", "quantifier": "all 64-bit addresses aligned to 8, all tags", "why_tests_cant": "2^61 addresses.", "anchors": ["src/raw/utils/tagged.rs", "src/raw/mod.rs: Entry::{COPYING,COPIED,BORROWED,MASK,TOMBSTONE}, EntryStatus::from"]}
{"id": "C20", "title": "table layout is in bounds, aligned and non-overlapping", "statement": "For every table length, each metadata byte and each entry pointer lies inside the allocation, distinct slots occupy disjoint bytes, entry pointers are 8-aligned, and dealloc computes the same layout as alloc.", "quantifier": "all lengths, all indices", "why_tests_cant": "Pointer arithmetic over all lengths.", "anchors": ["src/raw/alloc.rs: Table::{alloc,meta,entry,layout,dealloc}"]}
{"id": "C21", "title": "no element is used after it is freed", "statement": "A reference obtained under a guard stays valid until the guard is dropped: no operation dereferences an entry (or table) that has been freed, and no entry returned by an operation is freed while its guard is alive.", "quantifier": "every schedule of operations, pins, unpins and reclamation, both resize modes", "why_tests_cant": "Tests sample a handful of interleavings; the claim ranges over every interleaving of every thread's atomic steps, including ones in the middle of a resize.", "anchors": ["src/raw/mod.rs: defer_retire, drop_table, update_at, clear, retain", "src/raw/utils/stack.rs"]}
{"id": "C22", "title": "every removed entry is retired exactly once", "statement": "No entry is retired twice (no double free) and an entry is only retired after it has become unreachable from the root table and every later one.", "quantifier": "every schedule, both resize modes, nested resizes", "why_tests_cant": "Tests sample a handful of interleavings; the claim ranges over every interleaving of every thread's atomic steps, including ones in the middle of a resize.", "anchors": ["src/raw/mod.rs: defer_retire, update_at, try_promote, drop_table"]}
{"id": "C23", "title": "dropping the map frees every remaining entry exactly once", "statement": "After all threads are done, Drop frees each entry still owned by the map exactly once, none twice, whatever resizes were left unfinished (incremental mode: at every possible stopping point).", "quantifier": "all reachable states, including ones with several chained tables", "why_tests_cant": "Depends on the unfinished-resize state, which tests rarely reach.", "anchors": ["src/raw/mod.rs: Drop for HashMap, drop_entries, drop_table"]}
{"id": "C24", "title": "operations abandoned at any point keep the map usable (crash points)", "statement": "If a thread stops forever (or panics in user code) between any two atomic steps of an operation, every operation completed by other threads still satisfies the linearizability guarantee.", "quantifier": "every stopping point of every operation", "why_tests_cant": "Crash points between atomic steps cannot be enumerated by tests.", "anchors": ["src/raw/mod.rs: all operations"]}
{"id": "C25", "title": "parking never loses a wakeup on the same atomic", "statement": "A thread calling Parker::park(a, cond) returns only after having observed cond false, and if another thread makes the condition false and then calls unpark on the same parker and the same atomic, the parked thread is eventually runnable: no interleaving leaves it parked and registered after the unpark has completed.", "quantifier": "every interleaving of any number of parkers and unparkers", "why_tests_cant": "Tests sample a handful of interleavings; the claim ranges over every interleaving of every thread's atomic steps, including ones in the middle of a resize.", "anchors": ["src/raw/utils/parker.rs"]}
{"id": "C26", "title": "waiters of an aborted blocking resize are woken", "statement": "In blocking mode, a writer that parked waiting for a resize is woken when this resize is aborted by another thread.", "quantifier": "every schedule of writers and copiers in blocking mode", "why_tests_cant": "Tests sample a handful of interleavings; the claim ranges over every interleaving of every thread's atomic steps, including ones in the middle of a resize.", "anchors": ["src/raw/mod.rs: help_copy_blocking (abort path unparks table.state().parker, waiters park on next.state().parker)"]}
{"id": "C27", "title": "shrinking never panics", "statement": "No sequence of inserts and removes makes the map panic because of the chosen next capacity, for any capacity passed to with_capacity.", "quantifier": "all initial capacities and all operation sequences", "why_tests_cant": "Only non-power-of-two initial capacities combined with a high removal rate trigger the shrink rule at the boundary.", "anchors": ["src/raw/mod.rs: HashMap::new (initial_capacity), get_or_alloc_next", "src/raw/alloc.rs: Table::alloc assert"]}
{"id": "C28", "title": "map never shrinks below the requested capacity", "statement": "Every table the map ever allocates after with_capacity(c) (c a power of two) has at least c slots, and a resize decision changes the capacity by at most a factor of two (except for reserve), doubling only when at least half full and halving only when at most one eighth full.", "quantifier": "all capacities, element counts", "why_tests_cant": "Policy over all sizes.", "anchors": ["src/raw/mod.rs: get_or_alloc_next"]}
{"id": "C29", "title": "inserts terminate for colliding hashes", "statement": "A single-threaded insert of a new key terminates for every hash function, including constant ones.", "quantifier": "all hash functions, all table contents, both modes", "why_tests_cant": "The shipped hasher tests do not actually use the bad hashers (type parameter ignored).", "anchors": ["src/raw/mod.rs: insert_inner, prepare_retry_insert, get_or_alloc_next"]}
{"id": "C30", "title": "reserve makes room", "statement": "When reserve(n) returns, the table it observed has room for len + n elements according to entries_for; it changes no association.", "quantifier": "all n, all contents, schedules", "why_tests_cant": "Tests sample a handful of interleavings; the claim ranges over every interleaving of every thread's atomic steps, including ones in the middle of a resize.", "anchors": ["src/raw/mod.rs: reserve"]}
{"id": "C31", "title": "deferred-retirement stack loses nothing", "statement": "Every pointer pushed on the deferred stack by any thread is handed to drain exactly once, in any interleaving of pushes, and drain terminates.", "quantifier": "every number of pushers and every interleaving", "why_tests_cant": "Tests sample a handful of interleavings; the claim ranges over every interleaving of every thread's atomic steps, including ones in the middle of a resize.", "anchors": ["src/raw/utils/stack.rs"]}
{"id": "C32", "title": "lazy initialisation installs exactly one root table", "statement": "When several threads race to insert into a map created without capacity exactly one initial table is installed, all of them proceed on that one and no insert is lost.", "quantifier": "any number of threads, every schedule", "why_tests_cant": "Tests sample a handful of interleavings; the claim ranges over every interleaving of every thread's atomic steps, including ones in the middle of a resize.", "anchors": ["src/raw/mod.rs: init"]}
{"id": "C33", "title": "the allocation lock yields at most one next table", "statement": "For each table at most one successor is ever installed, whatever number of threads ask for it, and all of them get the same one.", "quantifier": "any number of threads, every schedule", "why_tests_cant": "Tests sample a handful of interleavings; the claim ranges over every interleaving of every thread's atomic steps, including ones in the middle of a resize.", "anchors": ["src/raw/mod.rs: get_or_alloc_next"]}
{"id": "C34", "title": "readers are never blocked by writers", "statement": "get finishes within a number of its own steps bounded by the sizes of the tables in the chain, independently of what other threads do or whether they have stopped (get is wait-free between table allocations).", "quantifier": "every schedule and every table chain", "why_tests_cant": "Tests sample a handful of interleavings; the claim ranges over every interleaving of every thread's atomic steps, including ones in the middle of a resize.", "anchors": ["src/raw/mod.rs: get"]}
{"id": "C35", "title": "guards from another map are rejected", "statement": "Every operation taking a guard panics, before touching the map, exactly when the guard belongs to another collector.", "quantifier": "every operation, guard and collector", "why_tests_cant": "All pairs of maps and guards.", "anchors": ["src/raw/mod.rs: verify", "src/map.rs: all methods calling self.raw.verify"]}
{"id": "C36", "title": "a shared key is stored once", "statement": "At every instant each key has at most one live entry in the map, although during resizes the same entry may be physically present in several tables.", "quantifier": "every schedule", "why_tests_cant": "Tests sample a handful of interleavings; the claim ranges over every interleaving of every thread's atomic steps, including ones in the middle of a resize.", "anchors": ["src/raw/mod.rs: insert_inner, insert_copy"]}
{"id": "C37", "title": "deleted entries do not come back", "statement": "A removed key stays absent until it is inserted again: neither lagging metadata writes, nor copying, nor helping can resurrect a removed or replaced entry.", "quantifier": "every schedule", "why_tests_cant": "Tests sample a handful of interleavings; the claim ranges over every interleaving of every thread's atomic steps, including ones in the middle of a resize.", "anchors": ["src/raw/mod.rs: remove_if, insert_at, insert_copy, copy_at_incremental"]}
{"id": "C38", "title": "bulk construction equals repeated insertion", "statement": "from_iter, from, extend, and deserialisation produce the map in which each key is bound to its last value in the sequence; clone produces an equal map; deserialising a serialised map gives back an equal map.", "quantifier": "all sequences of pairs", "why_tests_cant": "All lists of pairs, with duplicates in any order.", "anchors": ["src/map.rs: Extend, FromIterator, From, Clone", "src/serde_impls.rs"]}
{"id": "C39", "title": "map equality is extensional", "statement": "a == b holds iff both maps have the same keys with equal values, independently of capacity, hashers, insertion order and history; it is reflexive (for Eq values), symmetric and transitive.", "quantifier": "all pairs of quiescent maps", "why_tests_cant": "All pairs of contents and layouts.", "anchors": ["src/map.rs: PartialEq for HashMap"]}
{"id": "C40", "title": "HashSet is the map with unit values", "statement": "contains/insert/remove/get/len/iter/retain/equality on HashSet agree with a mathematical set: insert returns true iff the element was absent, remove returns true iff it was present.", "quantifier": "all elements and histories", "why_tests_cant": "All histories.", "anchors": ["src/set.rs"]}
{"id": "C41", "title": "Send/Sync bounds", "statement": "Sharing a HashMap or HashSet between threads is allowed only for key/value types that may be both shared and moved across threads (references are handed out and elements are dropped on other threads).", "quantifier": "all type parameters", "why_tests_cant": "Trait bounds are claims over all types.", "anchors": ["src/map.rs: unsafe impl Send/Sync", "src/set.rs: unsafe impl Send/Sync"]}
{"id": "C42", "title": "per-key history is sequentially consistent for one thread", "statement": "A thread that gets a successful insert/remove/update response and then reads the same key, with no other thread writing that key in between, reads its own write; two successive reads by the same thread never observe the history of a key going backwards.", "quantifier": "every schedule", "why_tests_cant": "Tests sample a handful of interleavings; the claim ranges over every interleaving of every thread's atomic steps, including ones in the middle of a resize.", "anchors": ["src/raw/mod.rs: get, insert_inner, remove_if"]}
{"id": "C43", "title": "entry addresses leave the tag bits free", "statement": "Every entry the map allocates, for every key and value type, sits at a non-null address whose three low bits are zero, so that its address can never be mistaken for null or for a tagged pointer.", "quantifier": "all key and value types (sizes and alignments), all addresses the allocator may return", "why_tests_cant": "The usual allocators return 16-aligned addresses; the allocator contract only guarantees the alignment of the type, and zero-sized entries are never allocated.", "anchors": ["src/raw/mod.rs: struct Entry, Entry::MASK, insert_inner (Box::new)", "src/raw/utils/tagged.rs"]}
{"id": "C44", "title": "a call that panics has no effect", "statement": "If a single-key operation panics (in a user closure, because compute's closure answers Remove to None, or in a table allocation), it has not changed the map; retain that panics in its predicate has removed only entries the predicate rejected, clear that panics only entries that were there. Afterwards the guard and the map remain usable: all other guarantees (linearizability, exact len at quiescence, no leak and no double retirement) hold in executions in which calls panicked and were caught.", "quantifier": "every execution, every schedule, every user closure and every point at which it panics, any number of panicking calls, both resize modes", "why_tests_cant": "the panicking call may have been retried or be helping a resize at that point; tests can only exercise a few closures, points and interleavings", "anchors": ["src/raw/mod.rs: compute_with, insert_with, remove_if, retain, clear, get_or_alloc_next, alloc", "src/map.rs: HashMap::compute, update, get_or_insert_with, remove_if, retain"]}
{"id": "C45", "title": "a failed reserve has no lasting effect", "statement": "If a reserve call panics because the requested table would be too large, and the panic is caught, later operations on the map behave as if the call had not been made: in particular inserts that need a larger table still succeed.", "quantifier": "every map, every reservation that is too large, every later sequence of operations and every schedule", "why_tests_cant": "the failure must hit the current table's allocation lock and the next operation that needs to resize must come afterwards; tests do not catch panics of reserve and go on", "anchors": ["src/raw/mod.rs: reserve, get_or_alloc_next (allocating.lock().unwrap())", "src/raw/alloc.rs: Table::alloc"]}
{"id": "C46", "title": "a map used by one writer at a time is a mathematical map", "statement": "Every operation that is called while no other writer is active behaves exactly as the operation on a mathematical map: if the contents are m at the call, its result and the contents afterwards are what the specification of the operation allows for m. Readers may run concurrently and a resize may be in progress. A single-key operation that panics leaves the contents unchanged.", "quantifier": "all operations, contents, internal states (including any stage of a resize) and interleavings with readers", "why_tests_cant": "The internal states reachable by earlier concurrent use are unbounded; a test fixes one of them.", "anchors": ["src/raw/mod.rs: all operations", "src/map.rs: all methods"]}
{"id": "C47", "title": "operations executed alone end (incremental mode)", "statement": "In incremental resize mode, every operation on a single key (get, contains_key, insert, try_insert, try_insert_with, get_or_insert, get_or_insert_with, update, update_or_insert, update_or_insert_with, compute, remove, remove_if), and len and is_empty, called when no other operation is running, ends: there is a bound on the number of its steps, it never waits for ever, and it returns or panics for a documented reason.", "quantifier": "all hash functions (including constant ones), contents, capacities, resize modes Incremental(n), histories and stages of pending resizes, all closures that terminate", "why_tests_cant": "Retry loops (probing, allocating the next table, waiting for a copy, weak compare-exchanges) are unbounded in the code; that they end depends on the stage of every table of the chain.", "anchors": ["src/raw/mod.rs: get, insert_with, insert_inner, remove_if, compute_with, prepare_retry, prepare_retry_insert, help_copy, wait_copied, get_or_alloc_next"]}
{"id": "C48", "title": "operations on the whole map executed alone end", "statement": "An iteration, clear, retain and reserve, called when no other operation is running, end: they return or panic for a documented reason after finitely many steps.", "quantifier": "all hash functions (including constant ones), contents, capacities, resize modes and stages of pending resizes", "why_tests_cant": "These operations first finish every pending resize; whether that loop ends depends on how the keys collide in every table that is allocated on the way.", "anchors": ["src/raw/mod.rs: linearize, clear, retain, iter, reserve, help_copy_incremental, copy_at_incremental, insert_copy", "src/raw/probe.rs: limit"]}
{"id": "C49", "title": "operations that need no new table end", "statement": "Called when no other operation is running and no resize is pending (which is always so in blocking mode between operations), an operation that needs no new table ends: every operation that does not insert a key (get, contains_key, update, remove, remove_if, clear, retain, iteration, len, is_empty); an operation on a key that is in the map; an insertion, if one of the slots probed for the key is free. get and contains_key end in every state, whatever other operations are suspended or abandoned.", "quantifier": "all hash functions (including constant ones), contents, capacities, histories, all closures that terminate", "why_tests_cant": "The retry loops are unbounded in the code; the state in which insertions livelock (C29) shows that termination depends on the contents.", "anchors": ["src/raw/mod.rs: get, insert_inner, remove_if, compute_with, prepare_retry, clear, retain, iter, reserve, defer_retire"]}
{"id": "C50", "title": "a guard may be used by several operations at once", "statement": "A guard may be shared: by threads that call operations with the same guard concurrently, by an iterator and the calls made in the body of the loop, by iterators that are dropped before they are exhausted. The operations remain linearizable, no freed memory is accessed, and the references obtained with the guard stay valid until the guard is dropped, which requires that no operation is using it any more.", "quantifier": "all assignments of calls to guards, all operations, schedules, histories, and all times at which the collector frees what has been retired", "why_tests_cant": "The claim ranges over every interleaving of operations that share guards and every moment at which the collector may free an entry.", "anchors": ["src/map.rs: guard, owned_guard, pin, iter", "src/raw/utils/mod.rs: MapGuard", "src/raw/mod.rs: defer_retire"]}
{"id": "C51", "title": "address reuse cannot confuse the map (no ABA)", "statement": "The allocator may place a new entry or table at the address of one that has been freed. The map compares pointers by address only (compare-and-swap on slots and on the root, pointer equality in compute and when retiring); nevertheless no comparison ever takes a new allocation for an old one: all operations remain linearizable and memory safe, exactly as if every allocation had an address of its own.", "quantifier": "all allocators that return only memory not in use, all operations, schedules, guards (shared or not), histories, and all times at which the collector frees what has been retired", "why_tests_cant": "An ABA failure needs a free and a reuse of the same address between a load and a compare-and-swap of another thread; the claim ranges over all allocator behaviours and interleavings.", "anchors": ["src/raw/mod.rs: insert_at, update_at, remove_if, clear, retain, compute (CachedUpdate), try_promote, defer_retire", "src/raw/alloc.rs: Table::alloc", "src/raw/utils/mod.rs: MapGuard"]}
{"id": "C52", "title": "safe publication under the memory orderings of the source", "statement": "With the acquire/release/relaxed orderings written in the source, on weakly ordered memory where loads may return any old value: every entry and table that an operation reads, follows, publishes or retires has been fully initialised before (the initialisation happens before the access), indices are in bounds, a returned reference points to an initialised entry with the right key whose value was supplied for that key, and no unreachable code is reached. None of the acquire/release orderings on slots, root and next pointers can be relaxed (except those of failed or purely comparing accesses).", "quantifier": "all operations, keys, values, closures, numbers of threads, schedules and all choices of the values (however old) returned by the loads that are compatible with the orderings", "why_tests_cant": "Missing orderings show only on weakly ordered hardware or under compiler reorderings, in rare interleavings; the tests run on strongly ordered machines and sample few executions.", "anchors": ["src/raw/mod.rs: root, get, insert_with, insert_at, update_at, remove_if, compute, init, get_or_alloc_next, copy_at_blocking, copy_at_incremental, insert_copy, try_promote, iter", "src/raw/alloc.rs: Table::next_table", "src/raw/utils/tagged.rs"]}
{"id": "C53", "title": "whoever holds a lock goes on", "statement": "The only locks of the map are the mutexes that serialise the allocation of the next table. Whoever holds one is in the middle of an operation and waits for nothing: neither for another (or the same) mutex, nor for the end of a resize, nor for a slot. (Provided no thread was killed in the middle of an operation and no table allocation has failed.)", "quantifier": "all operations, numbers of threads, schedules, resize modes, hash functions, closures", "why_tests_cant": "A lock-order cycle or a wait under a lock shows only in particular interleavings of resizing threads.", "anchors": ["src/raw/mod.rs: get_or_alloc_next, next_table_or_panic, help_copy_blocking, wait_copied", "src/raw/alloc.rs: State (allocating)"]}
{"id": "C54", "title": "no deadlock", "statement": "Operations never wait for each other in a cycle: whenever an operation waits (for an allocation mutex, for the end of a blocking resize, or for an entry to be copied by an incremental resize), the condition it waits for is in the hands of other running operations, and some other running operation can go on. In particular, as long as operations are running, one of them can take a step. (Provided no thread was killed in the middle of an operation and no table allocation has failed. That a waiting thread is also woken is C55 and C56; the exception is C26.)", "quantifier": "all operations, numbers of threads, schedules, resize modes, sizes and stages of resizes, hash functions, closures", "why_tests_cant": "A deadlock depends on who has claimed, counted, promoted and announced what at the moment another thread starts to wait.", "anchors": ["src/raw/mod.rs: help_copy_blocking, try_promote, copy_at_incremental, wait_copied, get_or_alloc_next", "src/raw/utils/parker.rs: Parker"]}
{"id": "C55", "title": "no lost wakeup", "statement": "An operation that sleeps while it waits (for the end of a blocking resize, or for an entry to be copied by an incremental resize) is woken once the condition it sleeps for holds: there is another running operation that does not end before the sleeper has been woken or has been taken from the waiting list by a running operation in order to be woken; that operation, run on, wakes it after a bounded number of its own steps; and a sleeper that has been woken and taken from the list returns from the wait. (Provided no thread was killed in the middle of an operation and no table allocation has failed, and except after an aborted blocking resize: C26.)", "quantifier": "all operations, numbers of threads, schedules (including spurious wakeups), resize modes, hash functions, closures, tables and entries waited for", "why_tests_cant": "A lost wakeup needs a store and an unpark to fall between the check of the waiter and its registration or its park.", "anchors": ["src/raw/utils/parker.rs: Parker (park, unpark)", "src/raw/mod.rs: help_copy_blocking, try_promote, copy_at_incremental, wait_copied"]}
{"id": "C56", "title": "no deadlock, with real wake-ups", "statement": "With threads that really go to sleep and have to be unparked (not merely waits that end when their condition holds): whenever an operation sleeps or waits, some other running operation can go on by itself; as long as operations are running, one of them can take a step, without relying on spurious wakeups. In incremental mode this holds without exception, in blocking mode unless a thread sleeps for a resize that was aborted (C26). (Provided no thread was killed in the middle of an operation and no table allocation has failed.)", "quantifier": "all operations, numbers of threads, schedules, resize modes, hash functions, closures", "why_tests_cant": "Depends on who registered, took, checked and stored what when a thread goes to sleep.", "anchors": ["src/raw/utils/parker.rs: Parker (park, unpark)", "src/raw/mod.rs: help_copy_blocking, try_promote, copy_at_incremental, wait_copied, get_or_alloc_next"]}
{"id": "C57", "title": "the waiting lists are used safely", "statement": "The list of waiting threads belongs to a table; while a thread is inside park or unpark on it, that table is not freed. Its counter of registered threads never underflows, no thread is registered that is not waiting, and when no operation is running nobody is registered anywhere.", "quantifier": "all operations, numbers of threads, schedules, resize modes, drops of guards, hash functions, closures", "why_tests_cant": "A use after free of a parker needs the table to be retired and reclaimed exactly while a waker walks its list.", "anchors": ["src/raw/utils/parker.rs: Parker (pending, state, park, unpark)", "src/raw/alloc.rs: State (parker)", "src/raw/mod.rs: help_copy_blocking, try_promote, wait_copied"]}
{"id": "C58", "title": "lock-freedom between resizes", "statement": "As long as the map is not resized: (1) a call takes a number of steps that is at most logarithmic in the capacity (linear for clear, retain, iter), plus 4 for every time that another operation changes a slot or one of its own weak compare-exchanges fails spuriously, so an operation is delayed only by progress of others; (2) calls that never insert a key (get, contains_key, update, remove, remove_if, clear, retain, iterators, len, is_empty, compute without insertion) never wait for anything, even if all other threads are stopped in the middle of their operations; other calls wait, if at all, for the mutex that protects the allocation of the next table; (3) an operation on one key changes a slot at most once, clear and retain each slot at most once; hence any set of concurrent calls executes a bounded number of steps in total: some operation always completes.", "quantifier": "all calls, numbers of threads, schedules, thread stops, spurious failures, capacities, hash functions, closures, resize modes, states reachable by any history", "why_tests_cant": "A retry loop that livelocks, or a hidden wait, shows up only in particular schedules; the bound ranges over all of them.", "anchors": ["README.md: lock-free", "src/raw/mod.rs: get, insert_with, insert_slow, remove_if, compute_with, clear, retain, update_at, insert_at", "src/raw/mod.rs: get_or_alloc_next"]}
{"id": "C59", "title": "closures may do anything, in particular call the map", "statement": "The closures passed to compute, update, update_or_insert(_with), get_or_insert_with, try_insert_with, remove_if and retain are ordinary code: they may call operations of the same map (with the same guard or another, on the same key or others, including removing the very entry), block, wait for other threads, and answer differently each time. All operations, outer and nested, are still linearizable, no freed memory is accessed, references stay valid as long as their guard, and there is no deadlock: no operation ever waits for an operation that is inside its closure, so an operation called by a closure never waits for the operation that called the closure.", "quantifier": "for all executions of any number of operations, all behaviours of the closures (answers, panics, nested calls, blocking), all schedules, both resize modes, guards shared in any way", "why_tests_cant": "a test runs one closure in one schedule; the property is about all closures, including those that block or call the map in the middle of a resize, and all interleavings of nested and concurrent operations", "anchors": ["src/map.rs: compute, update, update_or_insert_with, get_or_insert_with, try_insert_with, remove_if, retain", "src/raw/mod.rs: compute_with, ComputeState, remove_if, retain, prepare_retry, help_copy", "src/lib.rs: \"no more deadlocks\""]}
{"id": "C60", "title": "operations run forever only if tables are allocated forever", "statement": "In any infinite execution, resizes included: (1) an operation that executes steps again and again and never ends is overtaken again and again: tables are allocated, or entries are published by other operations, or weak compare-exchanges fail spuriously, without end; (2) a call publishes at most one entry; (3) if finitely many operations are called, they execute steps forever only if the map allocates tables forever (or compare-exchanges fail spuriously forever); (4) hence, if finitely many operations are called, tables are not allocated forever, no operation is abandoned, no allocation panics, and the processor does not idle while some operation can go on, all operations end, however unfair the scheduling between them is. ResizeMode::Incremental(0) is excluded, where helping copies nothing and an operation that must finish the resize runs forever.", "quantifier": "all infinite executions of any number of operations, all calls, schedules (fair or not), capacities, hash functions, closures, both resize modes with any chunk size other than 0", "why_tests_cant": "A livelock (two operations undoing each other's work, a helper looping on a table that never gets promoted, a retry loop on a stale slot) is an infinite execution: no finite test run shows or excludes one.", "anchors": ["src/raw/mod.rs: insert_with, insert_slow, remove_if, compute_with, clear, retain, prepare_retry, help_copy, help_copy_blocking, help_copy_incremental, copy_chunk_incremental, try_promote, get_or_alloc_next, linearize", "README.md: lock-free, predictable latency"]}
{"id": "C61", "title": "the chunk size is only a matter of performance: the counters of a copy never wrap", "statement": "ResizeMode::Incremental(chunk) accepts any chunk size, and any number of threads may help with a copy; the number of slots claimed and copied so far are kept in machine words. The counters never wrap around: no slot is handed out to two helpers, so no entry is copied twice (a second copy of an entry would survive its removal and be read after it is freed).", "quantifier": "all executions of any number of operations, all chunk sizes, both resize modes, all schedules", "why_tests_cant": "the wrap-around needs particular chunk sizes together with particular interleavings of several helpers between the load of the counter and the fetch_add; the bound needed is on all histories of all threads", "anchors": ["src/map.rs: ResizeMode::Incremental", "src/raw/mod.rs: help_copy_incremental, help_copy_blocking, try_promote, State::claim, State::copied"]}
{"id": "C62", "title": "in incremental mode a call does at most one chunk of a resize", "statement": "With ResizeMode::Incremental(chunk), a single call of insert, try_insert, get_or_insert, remove or remove_if moves at most chunk slots of the old table to the new one, however many tables it walks through, however often it is retried and whatever the other threads do; get, contains_key, len, is_empty and compute, update, update_or_insert(_with), get_or_insert_with, try_insert_with move none. (iter, clear, retain and reserve complete resizes and have no such bound.)", "quantifier": "all executions and schedules of any number of operations, all chunk sizes, all calls, closures, hash functions, table sizes", "why_tests_cant": "a latency spike (a write that copies several chunks, or helps again on every retry) occurs only in particular interleavings with other helpers, nested resizes and full tables; the bound is on all paths through the retry loops", "anchors": ["src/map.rs: ResizeMode::Incremental (\"writers copy a constant number of key/value pairs\", \"avoids latency spikes\")", "src/raw/mod.rs: insert_inner, remove_if, compute_with, prepare_retry, prepare_retry_insert, help_copy, help_copy_incremental"]}
{"id": "C63", "title": "the tables stay proportional to the contents", "statement": "As long as the calls that may write are made one at a time (lookups - get, contains_key, len, is_empty - may run concurrently), none of them is abandoned half-way and the map has at most N keys between them, no table ever has more than M slots, for any M that is at least 32, at least 4 * N, and at least what with_capacity and reserve were explicitly asked for: no matter how many keys have been inserted and removed in the meantime, what their hashes are, and how often the map was resized.", "quantifier": "all sequences of calls of any length, all interleavings with lookups, all hash functions, closures (including panics in them), bounds N and M, both resize modes", "why_tests_cant": "the capacity is recomputed at every resize from the approximate counter; one resize path that doubles unconditionally, or a counter that drifts, makes the table grow without bound only after a long enough history", "anchors": ["src/raw/mod.rs: get_or_alloc_next, init, reserve, entries_for (capacity policy), insert, remove_if, compute_with (counter updates)", "src/raw/utils/counter.rs: Counter"]}
{"id": "C64", "title": "every key and value given to a call ends up in exactly one place", "statement": "A call of compute (also by way of update, update_or_insert, update_or_insert_with, try_insert_with, get_or_insert_with) that returns has accounted for every value its closure produced exactly once: it is either in the entry that the call put into the map, or it has been dropped; the key passed to the call is either in that entry or has been dropped; the allocation of an entry that was not published has been freed. For insert, try_insert and get_or_insert the value is in the map or handed back. There is no read of an uninitialised value, no access to the entry after it was handed to the map, no double free, whatever the other threads do. If compute panics, the values are still accounted for, and the key is never dropped twice, but key and allocation are leaked if an earlier attempt to publish them had failed.", "quantifier": "all closures (stateful, panicking), all keys and values, all answers of the shared memory (all interleavings with other threads), all numbers of retries", "why_tests_cant": "the value is moved into the allocation before each attempt and moved out again after a failed one; the paths that differ are those where a concurrent writer wins the race at a particular access, arbitrarily often", "anchors": ["src/raw/mod.rs: LazyEntry, ComputeState, compute, compute_with, insert, insert_inner (not_inserted)", "src/map.rs: try_insert, get_or_insert, compute"]}
{"id": "C65", "title": "how far len may be off while the map is being written", "statement": "Let m be the number of keys in the map at some instant before a call of len() and n the value the call returns. Then n is at most m plus the number of calls that may write and are in progress at some time between that instant and the return (calls that are stalled, abandoned or panicking included); and m is at most n plus this number unless clear or retain is among them. Likewise is_empty() returns true only if m is at most that number. The bound is attained: calls stalled between their effect and their counter update are not counted.", "quantifier": "every reachable state, every execution from it with any number of threads, any number of counter shards and any assignment of threads to shards, any calls in progress, stalled or abandoned", "why_tests_cant": "The shards are read one after the other while other threads change them; the error must be bounded for every interleaving of table updates, counter updates and shard reads.", "anchors": ["src/raw/utils/counter.rs: Counter::sum, Counter::get", "src/raw/mod.rs: len, insert, insert_slow, remove_if, compute_with, clear, retain", "src/map.rs: len, is_empty"]}
{"id": "C66", "title": "the length counter never overflows", "statement": "In an execution of fewer than 2^63 steps (however many shards and threads there are) no shard of the length counter, a 64-bit signed word, wraps around: a map with such counters has exactly the executions of one with unbounded counters, so len, is_empty and the resizing policy are as described elsewhere. No addition performed while summing the shards overflows (which would panic in debug builds and give a wrong length in release builds), at whatever times during the execution the shards are read.", "quantifier": "all executions of fewer than 2^63 steps, any number of threads and shards, any times at which the shards are read", "why_tests_cant": "single shards go negative and drift apart without bound while their sum stays small; an overflow needs astronomically long histories", "anchors": ["src/raw/utils/counter.rs: Counter, Counter::get, Counter::sum", "src/raw/mod.rs: insert, remove_if, compute_with, clear, retain (fetch_add, fetch_sub)"]}
{"id": "C67", "title": "clone, extend, serialize and == on a map that others are using", "statement": "While other threads use the map: extend inserts its pairs one after the other, each atomically and during the call. Every pair that serialize (or collecting an iterator) hands out was in the map at some instant of the call, and every key that was in the map during the whole call is handed out. Every binding of a clone is one that the original had at some instant of the call; a key that was in the original throughout is in the clone, with its value if that was not changed. a == b is true only if every key that was in a throughout had, at some instants of the call, equal values in a and b; it is false only if the two lengths reported during the call differed or some key had, at some instants, a value in a and no equal value in b. None of them is a snapshot: a clone may hold contents that the original never had.", "quantifier": "all executions of any number of threads on the maps while the trait method runs, all interleavings, all contents", "why_tests_cant": "depends on what other threads do between and during the calls that the trait method makes", "anchors": ["src/map.rs: impl Extend, impl Clone, impl PartialEq", "src/set.rs: impl Extend, impl Clone, impl PartialEq", "src/serde_impls.rs: Serialize"]}
{"id": "C68", "title": "who completes an incremental resize", "statement": "In incremental mode, get, contains_key, len, is_empty and the writers built on compute (compute, update, update_or_insert(_with), get_or_insert_with, try_insert_with) never contribute to a resize: as long as only these are executed, by any number of threads, the table that is the root stays the root, no slot is marked, moved or counted as moved, and no table is retired, however many tables are allocated. A map that is only written in this way keeps its first table for ever (only insert, try_insert, get_or_insert, remove, remove_if, reserve, clear, retain and iterators complete resizes).", "quantifier": "all executions in incremental mode, any chunk size, any number of threads and calls of these kinds, from any reachable state", "why_tests_cant": "that something never happens in any execution, whatever the number of keys, threads and tables", "anchors": ["src/raw/mod.rs: compute_with (help_copy = false), prepare_retry, prepare_retry_insert, help_copy_incremental, try_promote"]}
{"id": "C69", "title": "a panicking Hash or a killed thread leaves the map usable", "statement": "If the user's Hash panics inside an operation (or a thread is killed in the middle of one), the other threads can go on using the map: their later operations, in particular insertions and reservations that need a larger table, return. In particular nobody waits forever for a copy that the vanished operation had claimed.", "quantifier": "all executions, all points of all operations at which an operation is abandoned, all later calls of all threads", "why_tests_cant": "that no later operation can ever return, whatever is called in whatever order, is a claim about all continuations; the window (between claiming the last chunk and counting it as copied) is small", "anchors": ["src/raw/mod.rs: help_copy_blocking, copy_at_blocking, insert_copy (hasher.hash_one), try_promote", "src/raw/utils/parker.rs: Parker::park"]}
{"id": "C70", "title": "in incremental mode a write waits only for its own key", "statement": "In incremental mode an operation on a single key never waits for the completion of a resize. It waits at most for the copy of one entry, and that entry has the key of the operation (besides a short critical section in which another thread allocates the next table). So a copier that is suspended, or has vanished, in the middle of a copy delays only operations on the entry it is copying; an operation on any other key can always take its next step.", "quantifier": "all incremental executions, including those in which operations were abandoned at any point, all operations on a single key, all schedules, all hash functions (in particular when all keys collide)", "why_tests_cant": "which slot a writer parks on depends on collisions, tombstones and on races between its probe and several copiers in several tables; a wait for the wrong slot only shows as a hang when that slot's copier never finishes", "anchors": ["src/raw/mod.rs: wait_copied, prepare_retry, prepare_retry_insert, insert_inner, remove_if, compute_with, help_copy_incremental"]}
{"id": "C71", "title": "an operation executed alone ends, whatever else is suspended", "statement": "In incremental mode an operation on a single key, executed alone, ends after a bounded number of its own steps (it returns, or panics for a documented reason), from every reachable state: other operations may be suspended, or have been abandoned, at any point, in the middle of any number of resizes. The only exceptions: an entry of the very same key is being copied by a suspended operation, or a suspended operation is just allocating a table. A lookup (`get`, `contains_key`) ends in this way from every reachable state without exception, in both modes.", "quantifier": "all reachable states (including those with suspended and abandoned operations), all operations on a single key, all guards, all hash functions, capacities, contents and pending resizes", "why_tests_cant": "the number of points at which other threads can be suspended is unbounded, and a livelock or a hang that needs two stopped threads at particular instructions is not found by running threads", "anchors": ["src/raw/mod.rs: get, insert_inner, remove_if, compute_with, prepare_retry, prepare_retry_insert, help_copy_incremental, copy_at_incremental, insert_copy, get_or_alloc_next, defer_retire"]}
