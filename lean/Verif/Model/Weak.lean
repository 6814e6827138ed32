import Verif.Model.Pool

/-! # The map on weakly ordered memory

In `Verif/Model/State.lean` memory is sequentially consistent: a load returns the value stored last. Here the accesses
have the memory orderings written in the source, and memory is weaker than what the C++20/Rust memory model allows:

* a location is the list of everything ever written to it (`Cell`); a load may return any of these values, however old
  (not even coherence is assumed);
* a read-modify-write reads a value that no other read-modify-write has read (they are atomic); nothing else is assumed
  about which;
* a *view* is a set of allocations (entries and tables). The view of a thread consists of the allocations whose
  initialisation *happens before* its next step: those it made itself, and those it learnt of by synchronising. A release
  store records the view of the thread in the cell, an acquire load adds the view recorded in the cell to that of the
  thread; a read-modify-write passes on the view recorded in the cell it reads (release sequences); relaxed accesses
  record and add nothing;
* metadata, status, claim and copy counters, the allocation locks and `len` counters contain no pointers: reading them
  yields an arbitrary result, and no synchronisation is assumed to be established by them;
* pointer comparisons yield an arbitrary result.

So every execution of the source under the C++20 memory model (in which, as usual, reads do not read from the future) is
an execution of this model, as far as pointers are concerned. Nothing is ever freed here: reclamation, which rests on the
contract of `seize`, is treated in `Verif/Props/Memory.lean`, for sequentially consistent memory. -/

namespace Papaya

variable {K V : Type}

/-- `core::sync::atomic::Ordering`. -/
inductive Order
  | relaxed | acquire | release | acqRel | seqCst
deriving DecidableEq, Repr

/-- The read synchronises. -/
def Order.acq : Order → Bool
  | .acquire | .acqRel | .seqCst => true
  | _ => false

/-- The write synchronises. -/
def Order.rel : Order → Bool
  | .release | .acqRel | .seqCst => true
  | _ => false

/-- The orderings of the accesses to locations that contain pointers; for a compare-exchange, of its success and of its
failure. -/
structure Orders where
  rootLoad : Order
  rootPeek : Order
  rootInit : Order × Order
  rootCas : Order × Order
  nextLoad : Order
  nextStore : Order
  slotLoad : Order
  slotCas : Order × Order
  slotOr : Order
  slotStore : Order

/-- The orderings in the source. -/
def papaya : Orders where
  /- `guard.protect(&self.table, Ordering::Acquire)` — src/raw/mod.rs:280 -/
  rootLoad := .acquire
  /- `self.table.load(Ordering::Relaxed)` — src/raw/mod.rs:2464 -/
  rootPeek := .relaxed
  /- src/raw/mod.rs:1867-1868 -/
  rootInit := (.release, .acquire)
  /- src/raw/mod.rs:2474 -/
  rootCas := (.release, .acquire)
  /- src/raw/alloc.rs:183 -/
  nextLoad := .acquire
  /- src/raw/mod.rs:1978 -/
  nextStore := .release
  /- `guard.protect(table.entry(i), Ordering::Acquire)` — src/raw/mod.rs:342, 507, 729, 1037, 1136, 1658, 2667, and
  `entry.load(Ordering::Acquire)` — src/raw/mod.rs:2545 -/
  slotLoad := .acquire
  /- src/raw/mod.rs:895-896, 965-966, 1060-1061, 1169-1170, 2397-2398 -/
  slotCas := (.release, .acquire)
  /- `fetch_or(Entry::COPYING, Ordering::AcqRel)` — src/raw/mod.rs:2160, 2308 -/
  slotOr := .acqRel
  /- `entry.store(copied, Ordering::SeqCst)` — src/raw/mod.rs:2348 -/
  slotStore := .seqCst

/-- A set of allocations: entries and tables. It is represented by lists without repetitions; this is the only reason why
equality of keys and values is assumed to be decidable below. -/
structure View (K V : Type) where
  ents : List (Entry K V)
  tabs : List Table

namespace View

/-- The entry is in the set. -/
def ent (W : View K V) (e : Entry K V) : Prop := e ∈ W.ents

/-- The table is in the set. -/
def tab (W : View K V) (T : Table) : Prop := T ∈ W.tabs

/-- Nothing. -/
def none : View K V := ⟨[], []⟩

/-- Union. -/
def join [DecidableEq K] [DecidableEq V] (W W' : View K V) : View K V :=
  ⟨W.ents ++ W'.ents.filter (fun e => e ∉ W.ents), W.tabs ++ W'.tabs.filter (fun T => T ∉ W.tabs)⟩

/-- With a new entry. -/
def addEnt (W : View K V) (e : Entry K V) : View K V := { W with ents := e :: W.ents }

/-- With a new table. -/
def addTab (W : View K V) (T : Table) : View K V := { W with tabs := T :: W.tabs }

end View

/-- A value written to a location, with the view recorded by a release store; `used`: a read-modify-write has read it. -/
structure Cell (K V α : Type) where
  val : α
  view : View K V
  used : Bool

variable [DecidableEq K] [DecidableEq V]

/-- Adding the view recorded in a cell. -/
def Order.read (o : Order) (W M : View K V) : View K V := if o.acq then W.join M else W

/-- The view recorded by a store. -/
def Order.write (o : Order) (W : View K V) : View K V := if o.rel then W else View.none

section
variable {α : Type}

/-- A load with ordering `o` by a thread with view `W`; it returns `v`, and the view becomes `W'`. -/
def Load (o : Order) (l : List (Cell K V α)) (W : View K V) (v : α) (W' : View K V) : Prop :=
  ∃ c ∈ l, v = c.val ∧ W' = o.read W c.view

/-- The location after a store of `v`. -/
def storeAt (o : Order) (l : List (Cell K V α)) (W : View K V) (v : α) : List (Cell K V α) :=
  l ++ [⟨v, o.write W, false⟩]

/-- A read-modify-write that reads `old` and writes `new`. -/
def Rmw (o : Order) (l : List (Cell K V α)) (W : View K V) (old new : α) (l' : List (Cell K V α)) (W' : View K V) : Prop :=
  ∃ l1 c l2, l = l1 ++ c :: l2 ∧ c.used = false ∧ c.val = old ∧ W' = o.read W c.view ∧
    l' = l1 ++ { c with used := true } :: l2 ++ [⟨new, c.view.join (o.write W'), false⟩]

end

/-- Weak memory. Every slot is initially null, every table initially has no next table. -/
structure WSt (K V : Type) where
  /-- the allocations made so far -/
  all : View K V
  root : List (Cell K V (Option Table))
  next : Nat → List (Cell K V (Option Table))
  slot : Nat → Nat → List (Cell K V (Slot K V))

/-- The header of a new table — src/raw/alloc.rs:59-100. -/
def newTable (T cap : Nat) : Table := ⟨T, cap - 1, limit cap⟩

namespace WSt

/-- The address of `e` is new. -/
def FreshEnt (w : WSt K V) (e : Entry K V) : Prop := ∀ x, w.all.ent x → x.id ≠ e.id

/-- The address of `T` is new. -/
def FreshTab (w : WSt K V) (T : Table) : Prop := ∀ x, w.all.tab x → x.id ≠ T.id

def setSlot (w : WSt K V) (T i : Nat) (l : List (Cell K V (Slot K V))) : WSt K V :=
  { w with slot := fun T' i' => if T' = T ∧ i' = i then l else w.slot T' i' }

def setNext (w : WSt K V) (T : Nat) (l : List (Cell K V (Option Table))) : WSt K V :=
  { w with next := fun T' => if T' = T then l else w.next T' }

end WSt

/-- Semantics of the actions: in memory `w`, a thread with view `W` performing the action may get the result `r`, leave
memory `w'` and have the view `W'`. -/
def WExec (O : Orders) : {β : Type} → Act K V β → WSt K V → View K V → β → WSt K V → View K V → Prop
  | _, .loadRoot, w, W, r, w', W' => Load O.rootLoad w.root W r W' ∧ w' = w
  | _, .peekRoot, w, W, r, w', W' => (∃ T : Option Table, Load O.rootPeek w.root W T W' ∧ r = T.map Table.id) ∧ w' = w
  | _, .casRootInit cap, w, W, r, w', W' =>
      (∃ T l, r = newTable T cap ∧ w.FreshTab r ∧ Rmw O.rootInit.1 w.root (W.addTab r) none (some r) l W' ∧
        w' = { w with all := w.all.addTab r, root := l }) ∨
      (Load O.rootInit.2 w.root W (some r) W' ∧ w' = w)
  | _, .loadNext T, w, W, r, w', W' => Load O.nextLoad (w.next T) W r W' ∧ w' = w
  | _, .storeNext T cap, w, W, r, w', W' =>
      ∃ N, r = newTable N cap ∧ w.FreshTab r ∧ W' = W.addTab r ∧
        w' = { w.setNext T (storeAt O.nextStore (w.next T) W' (some r)) with all := w.all.addTab r }
  | _, .loadSlot T i, w, W, r, w', W' => Load O.slotLoad (w.slot T i) W r W' ∧ w' = w
  | _, .cas weak T i exp new, w, W, r, w', W' =>
      (∃ l, Rmw O.slotCas.1 (w.slot T i) W exp new l W' ∧ r = none ∧ w' = w.setSlot T i l) ∨
      (∃ s, Load O.slotCas.2 (w.slot T i) W s W' ∧ (s ≠ exp ∨ weak = true) ∧ r = some s ∧ w' = w)
  | _, .casNew weak T i exp k v, w, W, r, w', W' =>
      (∃ e l, e.key = k ∧ e.val = v ∧ w.FreshEnt e ∧
        Rmw O.slotCas.1 (w.slot T i) (W.addEnt e) exp (Slot.untagged e) l W' ∧ r = .inl e ∧
        w' = { w.setSlot T i l with all := w.all.addEnt e }) ∨
      (∃ s, Load O.slotCas.2 (w.slot T i) W s W' ∧ (s ≠ exp ∨ weak = true) ∧ r = .inr s ∧ w' = w)
  | _, .fetchOrCopying T i, w, W, r, w', W' =>
      ∃ l, Rmw O.slotOr (w.slot T i) W r { r with copying := true } l W' ∧ w' = w.setSlot T i l
  | _, .storeSlot T i s, w, W, _, w', W' => W' = W ∧ w' = w.setSlot T i (storeAt O.slotStore (w.slot T i) W s)
  | _, .casRoot T N, w, W, r, w', W' =>
      (∃ A B l, A.id = T ∧ W.tab B ∧ B.id = N ∧ Rmw O.rootCas.1 w.root W (some A) (some B) l W' ∧ r = true ∧
        w' = { w with root := l }) ∨
      (∃ s : Option Table, Load O.rootCas.2 w.root W s W' ∧ s.map Table.id ≠ some T ∧ r = false ∧ w' = w)
  -- all the others: no pointer is read or written
  | _, .tryLock _, w, W, _, w', W' => W' = W ∧ w' = w
  | _, .lockWait _, w, W, _, w', W' => W' = W ∧ w' = w
  | _, .unlock _, w, W, _, w', W' => W' = W ∧ w' = w
  | _, .poison _, w, W, _, w', W' => W' = W ∧ w' = w
  | _, .loadMd _ _, w, W, _, w', W' => W' = W ∧ w' = w
  | _, .storeMd _ _ _, w, W, _, w', W' => W' = W ∧ w' = w
  | _, .loadStatus _, w, W, _, w', W' => W' = W ∧ w' = w
  | _, .parkStatus _, w, W, _, w', W' => W' = W ∧ w' = w
  | _, .parkSlot _ _, w, W, _, w', W' => W' = W ∧ w' = w
  | _, .unparkStatus _, w, W, _, w', W' => W' = W ∧ w' = w
  | _, .unparkSlot _ _, w, W, _, w', W' => W' = W ∧ w' = w
  | _, .storeStatus _ _, w, W, _, w', W' => W' = W ∧ w' = w
  | _, .loadClaim _, w, W, _, w', W' => W' = W ∧ w' = w
  | _, .addClaim _ _ _, w, W, _, w', W' => W' = W ∧ w' = w
  | _, .loadCopied _, w, W, _, w', W' => W' = W ∧ w' = w
  | _, .addCopied _ _ _, w, W, _, w', W' => W' = W ∧ w' = w
  | _, .sameTable _ _, w, W, _, w', W' => W' = W ∧ w' = w
  | _, .sameEntry _ _, w, W, _, w', W' => W' = W ∧ w' = w
  | _, .deref _, w, W, _, w', W' => W' = W ∧ w' = w
  | _, .retire _, w, W, _, w', W' => W' = W ∧ w' = w
  | _, .retireTable _, w, W, _, w', W' => W' = W ∧ w' = w
  | _, .pushDeferred _ _, w, W, _, w', W' => W' = W ∧ w' = w
  | _, .loadShard _, w, W, _, w', W' => W' = W ∧ w' = w
  | _, .addCount _, w, W, _, w', W' => W' = W ∧ w' = w

/-- State of the whole system. -/
structure WPSt (K V : Type) : Type 1 where
  mem : WSt K V
  /-- what each thread is doing: `out` between two operations -/
  th : Tid → Th K V
  view : Tid → View K V

/-- The memory built by `HashMap::new` with capacity `cap` — src/raw/mod.rs:216-246. -/
def initWSt (cap : Option Nat) : WSt K V where
  all := match cap with
    | none => View.none
    | some n => View.none.addTab (newTable 0 n)
  root := match cap with
    | none => [⟨none, View.none, false⟩]
    | some n => [⟨some (newTable 0 n), View.none.addTab (newTable 0 n), false⟩]
  next := fun _ => [⟨none, View.none, false⟩]
  slot := fun _ _ => [⟨Slot.null, View.none, false⟩]

/-- One step of the system; `P`: which operations are called. -/
inductive WStep (O : Orders) (C : Cfg K) (P : Call K V → Prop) : WPSt K V → WPSt K V → Prop
  /-- an operation is called -/
  | inv {ws} (t) (c : Call K V) (h : ws.th t = .out) (hc : P c) :
      WStep O C P ws { ws with th := setTh ws.th t (.run c (c.prog C)) }
  /-- an atomic action of an operation -/
  | act {ws} (t) {c : Call K V} {β : Type} {a : Act K V β} {k : β → Prog K V c.Res} {r : β} {w : WSt K V} {W : View K V}
      (h : ws.th t = .run c (.act a k)) (he : WExec O a ws.mem (ws.view t) r w W) :
      WStep O C P ws ⟨w, setTh ws.th t (.run c (k r)), fun u => if u = t then W else ws.view u⟩
  /-- an operation goes through a loop -/
  | loop {ws} (t) {c : Call K V} {β σ : Type} {body : σ → Prog K V (σ ⊕ β)} {s : σ} {k : β → Prog K V c.Res}
      (h : ws.th t = .run c (.iter body s k)) :
      WStep O C P ws { ws with th := setTh ws.th t (.run c (Prog.unfoldIter body s k)) }
  /-- an operation returns -/
  | ret {ws} (t) {c : Call K V} {r : c.Res} (h : ws.th t = .run c (.ret r)) :
      WStep O C P ws { ws with th := setTh ws.th t .out }
  /-- an operation panics -/
  | panic {ws} (t) {c : Call K V} {why : PanicReason} (h : ws.th t = .run c (.panic why)) :
      WStep O C P ws { ws with th := setTh ws.th t .out }
  /-- the threads synchronise by other means: what happened before a step of `u` now happens before the steps of `t` -/
  | sync {ws} (t u) : WStep O C P ws { ws with view := fun x => if x = t then (ws.view t).join (ws.view u) else ws.view x }

/-- The state right after the construction of the map. -/
def WInit (C : Cfg K) (ws : WPSt K V) : Prop :=
  ((C.capacity = 0 ∧ ws.mem = initWSt none) ∨
    (C.capacity ≠ 0 ∧ ∃ n, entriesFor C.capacity = some n ∧ ws.mem = initWSt (some (max n 8)))) ∧
  ws.th = (fun _ => .out) ∧ ws.view = fun _ => View.none

/-- The reachable states. -/
inductive WReach (O : Orders) (C : Cfg K) (P : Call K V → Prop) : WPSt K V → Prop
  | init {ws} (h : WInit C ws) : WReach O C P ws
  | step {ws ws'} (h : WReach O C P ws) (hs : WStep O C P ws ws') : WReach O C P ws'

end Papaya
