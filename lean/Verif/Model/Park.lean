import Verif.Spec.Progress
import Mathlib.Data.Finset.Card

/-!
# The map with its parkers

In `Verif/Model/Pool.lean` an operation that parks is at an action that cannot be executed until the condition it waits for is
false, and `unpark` does nothing. Here the parkers of the tables are part of the state (src/raw/utils/parker.rs; each table has one,
src/raw/mod.rs:62-63), `park` and `unpark` consist of their atomic steps, and a thread in `thread::park()` goes on only
when another thread has called `Thread::unpark` for it, or spuriously.
-/

namespace Papaya

variable {K V : Type}

/-- The atomic on which a thread parks; in the code its address, `key` — src/raw/utils/parker.rs:33, 105. -/
inductive PKey
  /-- `next.state().status` — src/raw/mod.rs:2133, 2287 -/
  | status (T : Nat)
  /-- `table.entry(i)` — src/raw/mod.rs:2557 -/
  | slot (T i : Nat)
deriving DecidableEq

/-- The table whose parker is used with this key: `state.parker` with `state = next.state()` — src/raw/mod.rs:2092, 2131-2133; 2252, 2285-2287;
`table.state().parker` — src/raw/mod.rs:2556, 2351; `state.parker` — src/raw/mod.rs:2070-2071, 2498. -/
def PKey.tab : PKey → Nat
  | .status T => T
  | .slot T _ => T

/-- `should_park`, for each key — src/raw/mod.rs:2133, 2287 (`status == State::PENDING`), 2557 (`entry.addr() & Entry::COPIED == 0`). -/
def PKey.shouldPark (σ : St K V) : PKey → Prop
  | .status T => σ.status T = .pending
  | .slot T i => (σ.slot T i).copied = false

/-- The action is a call of `park` — src/raw/mod.rs:2131-2133, 2285-2287, 2556-2557. -/
def Act.parkKey : {β : Type} → Act K V β → Option PKey
  | _, .parkStatus T => some (.status T)
  | _, .parkSlot T i => some (.slot T i)
  | _, _ => none

/-- The action is a call of `unpark` — src/raw/mod.rs:2070-2071, 2351, 2498. -/
def Act.unparkKey : {β : Type} → Act K V β → Option PKey
  | _, .unparkStatus T => some (.status T)
  | _, .unparkSlot T i => some (.slot T i)
  | _, _ => none

/-- The operation is about to call, or is in, `park`. -/
def Prog.parkKey {α : Type} : Prog K V α → Option PKey
  | .act a _ => a.parkKey
  | _ => none

/-- The operation is about to call, or is in, `unpark`. -/
def Prog.unparkKey {α : Type} : Prog K V α → Option PKey
  | .act a _ => a.unparkKey
  | _ => none

/-- What the operation does after `park` or `unpark` has returned. -/
def Prog.after {α : Type} : Prog K V α → Option (Prog K V α)
  | .act (.parkStatus _) k => some (k ())
  | .act (.parkSlot _ _) k => some (k ())
  | .act (.unparkStatus _) k => some (k ())
  | .act (.unparkSlot _ _) k => some (k ())
  | _ => none

/-- Where a thread is in `park` or `unpark`. -/
inductive PkPC
  /-- in neither -/
  | norm
  /-- in `park`, head of the loop: about to `pending.fetch_add(1)` — src/raw/utils/parker.rs:44 -/
  | p0 (a : PKey)
  /-- about to insert itself into the map, under the mutex — src/raw/utils/parker.rs:47-55 -/
  | p1 (a : PKey)
  /-- about to check the condition — src/raw/utils/parker.rs:61 -/
  | p2 (a : PKey) (id : Nat)
  /-- the condition was false: about to remove itself, under the mutex — src/raw/utils/parker.rs:63-69 -/
  | p3 (a : PKey) (id : Nat)
  /-- it was still registered: about to `pending.fetch_sub(1)` and return — src/raw/utils/parker.rs:71-75 -/
  | p3b (a : PKey)
  /-- in `thread::park()` — src/raw/utils/parker.rs:80 -/
  | p4 (a : PKey) (id : Nat)
  /-- about to check whether it is still registered, under the mutex — src/raw/utils/parker.rs:82-89 -/
  | p5 (a : PKey) (id : Nat)
  /-- about to check the condition a last time — src/raw/utils/parker.rs:95 -/
  | p6 (a : PKey)
  /-- in `unpark`: about to load `pending` — src/raw/utils/parker.rs:113 -/
  | u0 (a : PKey)
  /-- about to remove the threads of this key, under the mutex — src/raw/utils/parker.rs:118-121 -/
  | u1 (a : PKey)
  /-- about to `pending.fetch_sub(threads.len())` — src/raw/utils/parker.rs:124-125 -/
  | u2 (a : PKey) (l : List Tid)
  /-- about to unpark the remaining threads — src/raw/utils/parker.rs:127-129 -/
  | u3 (a : PKey) (l : List Tid)

/-- A thread in the map `threads: HashMap<usize, HashMap<u64, Thread>>` of the parker of table `a.tab` —
src/raw/utils/parker.rs:22-25. -/
structure PkReg where
  a : PKey
  id : Nat
  t : Tid
deriving DecidableEq

/-- The state of the system with its parkers: for each table `pending` (an `AtomicU64`) and `count`; the registered threads; the
token of `std::thread::park` of each thread. (A thread that uses several guards, one after the other, has several `Tid`s in the
model, each with a token of its own; a token that it has kept from an earlier call only makes `thread::park` return at once, like a
spurious wakeup.) — src/raw/utils/parker.rs:16-25. -/
structure KSt (K V : Type) where
  ps : PSt K V
  pending : Nat → Int
  count : Nat → Nat
  reg : Finset PkReg
  token : Tid → Bool
  pk : Tid → PkPC

/-- Replace the place where thread `t` is. -/
def KSt.go (x : KSt K V) (t : Tid) (q : PkPC) : KSt K V := { x with pk := fun u => if u = t then q else x.pk u }

/-- Add `n` to `pending` of the parker of table `T`. -/
def KSt.addPending (x : KSt K V) (T : Nat) (n : Int) : KSt K V :=
  { x with pending := fun T' => if T' = T then x.pending T + n else x.pending T' }

/-- The operation of thread `t` goes on with `p`. -/
def KSt.resume (x : KSt K V) (t : Tid) (c : Call K V) (p : Prog K V c.Res) : KSt K V :=
  { x with ps := { x.ps with th := setTh x.ps.th t (.run c p) } }

/-- The thread with number `id` is in the map of the parker. -/
def KSt.registered (x : KSt K V) (a : PKey) (id : Nat) : Prop := ∃ r ∈ x.reg, r.a = a ∧ r.id = id

variable [DecidableEq K]

/-- Thread `t` executes one step of its current operation. -/
inductive PkStep (C : Cfg K) (t : Tid) : KSt K V → KSt K V → Prop
  /-- a step outside of `park` and `unpark` -/
  | pool {x : KSt K V} {ps' : PSt K V} (hs : OwnStep C t x.ps ps') (hn : x.pk t = .norm)
      (hp : ∀ c p, x.ps.th t = .run c p → p.parkKey = none ∧ p.unparkKey = none) : PkStep C t x { x with ps := ps' }
  /-- `park` is called — src/raw/utils/parker.rs:32 -/
  | callPark {x : KSt K V} {c p a} (hr : x.ps.th t = .run c p) (hn : x.pk t = .norm) (ha : p.parkKey = some a) :
      PkStep C t x (x.go t (.p0 a))
  /-- `self.pending.fetch_add(1)` — src/raw/utils/parker.rs:44 -/
  | announce {x : KSt K V} {c p a} (hr : x.ps.th t = .run c p) (h : x.pk t = .p0 a) :
      PkStep C t x ((x.addPending a.tab 1).go t (.p1 a))
  /-- `state.count += 1; threads.insert(state.count, thread::current())` — src/raw/utils/parker.rs:47-55 -/
  | register {x : KSt K V} {c p a} (hr : x.ps.th t = .run c p) (h : x.pk t = .p1 a) :
      PkStep C t x ({ x with
        count := fun T => if T = a.tab then x.count a.tab + 1 else x.count T
        reg := Insert.insert (⟨a, x.count a.tab + 1, t⟩ : PkReg) x.reg }.go t (.p2 a (x.count a.tab + 1)))
  /-- `should_park` is false — src/raw/utils/parker.rs:61 -/
  | checkFalse {x : KSt K V} {c p a id} (hr : x.ps.th t = .run c p) (h : x.pk t = .p2 a id) (hc : ¬ a.shouldPark x.ps.mem) :
      PkStep C t x (x.go t (.p3 a id))
  /-- `should_park` is true — src/raw/utils/parker.rs:61 -/
  | checkTrue {x : KSt K V} {c p a id} (hr : x.ps.th t = .run c p) (h : x.pk t = .p2 a id) (hc : a.shouldPark x.ps.mem) :
      PkStep C t x (x.go t (.p4 a id))
  /-- the thread removes itself — src/raw/utils/parker.rs:63-69 -/
  | removeSome {x : KSt K V} {c p a id} (hr : x.ps.th t = .run c p) (h : x.pk t = .p3 a id) (hg : x.registered a id) :
      PkStep C t x ({ x with reg := x.reg.filter fun r => ¬ (r.a = a ∧ r.id = id) }.go t (.p3b a))
  /-- … unless it was already unparked; `park` returns — src/raw/utils/parker.rs:63-75 -/
  | removeNone {x : KSt K V} {c p p' a id} (hr : x.ps.th t = .run c p) (h : x.pk t = .p3 a id) (hg : ¬ x.registered a id)
      (hp : p.after = some p') : PkStep C t x ((x.resume t c p').go t .norm)
  /-- `self.pending.fetch_sub(1)`, `park` returns — src/raw/utils/parker.rs:71-75 -/
  | retract {x : KSt K V} {c p p' a} (hr : x.ps.th t = .run c p) (h : x.pk t = .p3b a) (hp : p.after = some p') :
      PkStep C t x (((x.addPending a.tab (-1)).resume t c p').go t .norm)
  /-- `thread::park()` returns, because the token is set; it is consumed — src/raw/utils/parker.rs:80 -/
  | wake {x : KSt K V} {c p a id} (hr : x.ps.th t = .run c p) (h : x.pk t = .p4 a id) (ht : x.token t = true) :
      PkStep C t x ({ x with token := fun u => if u = t then false else x.token u }.go t (.p5 a id))
  /-- still registered — src/raw/utils/parker.rs:82-89 -/
  | still {x : KSt K V} {c p a id} (hr : x.ps.th t = .run c p) (h : x.pk t = .p5 a id) (hg : x.registered a id) :
      PkStep C t x (x.go t (.p4 a id))
  /-- not registered any more — src/raw/utils/parker.rs:82-89 -/
  | woken {x : KSt K V} {c p a id} (hr : x.ps.th t = .run c p) (h : x.pk t = .p5 a id) (hg : ¬ x.registered a id) :
      PkStep C t x (x.go t (.p6 a))
  /-- `should_park` is false, `park` returns — src/raw/utils/parker.rs:95-97 -/
  | finalFalse {x : KSt K V} {c p p' a} (hr : x.ps.th t = .run c p) (h : x.pk t = .p6 a) (hc : ¬ a.shouldPark x.ps.mem)
      (hp : p.after = some p') : PkStep C t x ((x.resume t c p').go t .norm)
  /-- `should_park` is true — src/raw/utils/parker.rs:95, 35 -/
  | finalTrue {x : KSt K V} {c p a} (hr : x.ps.th t = .run c p) (h : x.pk t = .p6 a) (hc : a.shouldPark x.ps.mem) :
      PkStep C t x (x.go t (.p0 a))
  /-- `unpark` is called — src/raw/utils/parker.rs:104 -/
  | callUnpark {x : KSt K V} {c p a} (hr : x.ps.th t = .run c p) (hn : x.pk t = .norm) (ha : p.unparkKey = some a) :
      PkStep C t x (x.go t (.u0 a))
  /-- `self.pending.load() == 0`, `unpark` returns — src/raw/utils/parker.rs:113-115 -/
  | unparkNone {x : KSt K V} {c p p' a} (hr : x.ps.th t = .run c p) (h : x.pk t = .u0 a) (h0 : x.pending a.tab = 0)
      (hp : p.after = some p') : PkStep C t x ((x.resume t c p').go t .norm)
  /-- `self.pending.load() != 0` — src/raw/utils/parker.rs:113 -/
  | unparkSome {x : KSt K V} {c p a} (hr : x.ps.th t = .run c p) (h : x.pk t = .u0 a) (h0 : x.pending a.tab ≠ 0) :
      PkStep C t x (x.go t (.u1 a))
  /-- `state.threads.remove(&key)`; the order in which the hash map yields its elements is arbitrary; `None` is treated as an empty
  map (nothing is subtracted, nobody is unparked) — src/raw/utils/parker.rs:118-123 -/
  | take {x : KSt K V} {c p a} (l : List Tid) (hr : x.ps.th t = .run c p) (h : x.pk t = .u1 a)
      (hl : ((x.reg.filter fun r => r.a = a).toList.map PkReg.t).Perm l) :
      PkStep C t x ({ x with reg := x.reg.filter fun r => ¬ r.a = a }.go t (.u2 a l))
  /-- `self.pending.fetch_sub(threads.len())` — src/raw/utils/parker.rs:124-125 -/
  | subtract {x : KSt K V} {c p a l} (hr : x.ps.th t = .run c p) (h : x.pk t = .u2 a l) :
      PkStep C t x ((x.addPending a.tab (-l.length)).go t (.u3 a l))
  /-- `thread.unpark()` — src/raw/utils/parker.rs:127-129 -/
  | wakeOne {x : KSt K V} {c p a u l} (hr : x.ps.th t = .run c p) (h : x.pk t = .u3 a (u :: l)) :
      PkStep C t x ({ x with token := fun w => if w = u then true else x.token w }.go t (.u3 a l))
  /-- `unpark` returns — src/raw/utils/parker.rs:131 -/
  | unparkDone {x : KSt K V} {c p p' a} (hr : x.ps.th t = .run c p) (h : x.pk t = .u3 a []) (hp : p.after = some p') :
      PkStep C t x ((x.resume t c p').go t .norm)

/-- One step of the system, without spurious wakeups. -/
inductive KStep (C : Cfg K) : KSt K V → KSt K V → Prop
  /-- a thread executes one step of its current operation -/
  | own {x x' : KSt K V} (t : Tid) (h : PkStep C t x x') : KStep C x x'
  /-- a guard is created or dropped, an operation is called, the collector frees memory, a thread is killed — but no operation goes on -/
  | env {x : KSt K V} {ps' : PSt K V} (hs : Step C x.ps ps')
      (hn : ∀ t c p, x.ps.th t = .run c p → ps'.th t = .run c p ∨ ps'.th t = .gone) : KStep C x { x with ps := ps' }

/-- `thread::park()` returns although nobody has called `unpark`. -/
inductive Spurious : KSt K V → KSt K V → Prop
  | mk {x : KSt K V} {t c p a id} (hr : x.ps.th t = .run c p) (h : x.pk t = .p4 a id) : Spurious x (x.go t (.p5 a id))

/-- The state after `HashMap::new`: nobody is parked. -/
def KSt.IsInit (C : Cfg K) (x : KSt K V) : Prop :=
  Papaya.IsInit C x.ps ∧ (∀ T, x.pending T = 0) ∧ x.reg = ∅ ∧ ∀ t, x.pk t = .norm

/-- The reachable states, with any number of spurious wakeups. -/
inductive KReach (C : Cfg K) : KSt K V → Prop
  | init {x} (h : x.IsInit C) : KReach C x
  | step {x x'} (h : KReach C x) (hs : KStep C x x') : KReach C x'
  | spurious {x x'} (h : KReach C x) (hs : Spurious x x') : KReach C x'

end Papaya
