import Verif.Model.Shared

/-! # Closures that do anything: call the map, block, answer differently each time

In `Verif/Model/Pool.lean` and `Verif/Model/Shared.lean` a closure passed to an operation is a state machine that answers
at once. A Rust closure (`FnMut`, src/map.rs:581, 636, 674, 733, 795, 888, 971) is ordinary code: it may take its time, call
operations of the same map — with the same guard or another one, on the same key or others —, wait for other threads,
draw random numbers. Here nothing is assumed about it: when an operation calls its closure, the operation is *suspended*,
everything else goes on, and at some time the closure answers something, or panics. Operations that the closure itself
calls are executed in other call slots in the meantime.

The program of an operation is represented as a family of programs, indexed by the sequence of all the answers that its
closures will ever give (`OCall.fill` with closures that read their answers off a list, `Closure.replay`). Only the answers
given so far are known (`OSt.given`); the operation can make a step if its next step is the same for every sequence that
begins like that. If the answers given so far are used up and the closure is called once more, `replay` panics:
this is how it is seen that the operation is suspended. (`C59_never_stuck` shows that an operation is always either
suspended or has one definite next step.) -/

namespace Papaya

variable {K V : Type} {R : Type}

/-- One answer of a closure. -/
inductive Ans (V R : Type)
  /-- a new value computed from the old one (`update`, `update_or_insert_with`) -/
  | upd (v : V)
  /-- a value for a key that is absent (`get_or_insert_with`, …) -/
  | val (v : V)
  /-- `compute` -/
  | op (o : Operation V R)
  /-- yes or no (`remove_if`, `retain`) -/
  | bool (b : Bool)

def Ans.upd? : Ans V R → Option V | .upd v => some v | _ => none
def Ans.val? : Ans V R → Option V | .val v => some v | _ => none
def Ans.op? : Ans V R → Option (Operation V R) | .op o => some o | _ => none
def Ans.bool? : Ans V R → Option Bool | .bool b => some b | _ => none

/-- A closure that gives the answers of a list, whatever its argument, and panics when they are used up. -/
def Closure.replay {I O : Type} (l : List O) : Closure I O where
  S := List O
  init := l
  call s _ :=
    match s with
    | [] => .error .user
    | o :: s => .ok (s, o)

/-- A call of a public operation whose closures are not known — the methods of src/map.rs that take closures. -/
inductive OCall (K V R : Type) : Type 1
  /-- an operation without closures, or with closures that are state machines, as in `Call` -/
  | plain (c : Call K V)
  /-- `try_insert_with` — src/map.rs:581-592 -/
  | tryInsertWith (k : K)
  /-- `get_or_insert_with` — src/map.rs:636-642 -/
  | getOrInsertWith (k : K)
  /-- `update` — src/map.rs:674-680 -/
  | update (k : K)
  /-- `update_or_insert` — src/map.rs:700-712 -/
  | updateOrInsert (k : K) (v : V)
  /-- `update_or_insert_with` — src/map.rs:733-746 -/
  | updateOrInsertWith (k : K)
  /-- `compute` — src/map.rs:795-806 -/
  | compute (k : K)
  /-- `remove_if` — src/map.rs:888-900 -/
  | removeIf (k : K)
  /-- `retain` — src/map.rs:971-976 -/
  | retain

/-- The call whose closures give the answers `l`. -/
def OCall.fill : OCall K V R → List (Ans V R) → Call K V
  | .plain c, _ => c
  | .tryInsertWith k, l => .tryInsertWith k (.replay (l.filterMap Ans.val?))
  | .getOrInsertWith k, l => .getOrInsertWith k (.replay (l.filterMap Ans.val?))
  | .update k, l => .update k (.replay (l.filterMap Ans.upd?))
  | .updateOrInsert k v, l => .updateOrInsert k (.replay (l.filterMap Ans.upd?)) v
  | .updateOrInsertWith k, l => .updateOrInsertWith k (.replay (l.filterMap Ans.upd?)) (.replay (l.filterMap Ans.val?))
  | .compute k, l => .compute (R := R) k (.replay (l.filterMap Ans.op?))
  | .removeIf k, l => .removeIf k (.replay (l.filterMap Ans.bool?))
  | .retain, l => .retain (.replay (l.filterMap Ans.bool?))

/-- What is left to do, depending on the answers of the closures. -/
abbrev OProg (K V R : Type) (c : OCall K V R) : Type 1 := (l : List (Ans V R)) → Prog K V (c.fill l).Res

/-- Status of a call slot. -/
inductive OTh (K V R : Type) : Type 1
  | out
  | run (c : OCall K V R) (p : OProg K V R c)
  | gone

/-- Observable events; results, too, may depend on the answers. -/
inductive OHEv (K V R : Type) : Type 1
  | inv (o : OpId) (c : OCall K V R)
  | ret (o : OpId) (c : OCall K V R) (r : (l : List (Ans V R)) → (c.fill l).Res)
  | panic (o : OpId) (c : OCall K V R) (why : PanicReason)

/-- The event, once the answers of all closures are known. -/
def OHEv.close (G : OpId → List (Ans V R)) : OHEv K V R → HEv K V
  | .inv o c => .inv o (c.fill (G o))
  | .ret o c r => .ret o (c.fill (G o)) (r (G o))
  | .panic o c why => .panic o (c.fill (G o)) why

/-- State of the whole system. -/
structure OSt (K V R : Type) : Type 1 where
  /-- shared memory -/
  mem : St K V
  /-- the call slots -/
  th : Tid → OTh K V R
  /-- number of operations started in each slot -/
  seq : Tid → Nat
  /-- the answers given so far by the closures of each operation -/
  given : OpId → List (Ans V R)
  /-- references handed out and still usable -/
  held : Tid → List (Entry K V)
  hist : List (OHEv K V R)

/-- Answers given so far in the operation of slot `t`. -/
def OSt.now (os : OSt K V R) (t : Tid) : List (Ans V R) := os.given (t, os.seq t)

/-- The operation of slot `t` is inside its closure: it has used all answers and asks for another one. -/
def OSt.InClosure (os : OSt K V R) (t : Tid) : Prop := ∃ c p, os.th t = .run c p ∧ p (os.now t) = .panic .user

/-- Updating the status of a slot. -/
def setOTh (th : Tid → OTh K V R) (t : Tid) (x : OTh K V R) : Tid → OTh K V R := fun u => if u = t then x else th u

/-- Going once through a loop. -/
def Prog.unroll {α : Type} : Prog K V α → Prog K V α
  | .iter body s k => Prog.unfoldIter body s k
  | p => p

/-- The program is at a loop. -/
def Prog.isIter {α : Type} : Prog K V α → Prop
  | .iter _ _ _ => True
  | _ => False

variable [DecidableEq K]

/-- The steps of the operation in slot `t`. -/
inductive OOwn (C : Cfg K) (gd : Tid → Tid) (t : Tid) : OSt K V R → OSt K V R → Prop
  /-- an atomic action: the same one whatever the closures will answer -/
  | act {os} {c : OCall K V R} {p : OProg K V R c} {β : Type} {a : Act K V β}
      {k : (l : List (Ans V R)) → β → Prog K V (c.fill l).Res} {r : β} {σ : St K V}
      (h : os.th t = .run c p) (hp : ∀ l, os.now t <+: l → p l = .act a (k l)) (he : Exec C t a os.mem r σ) :
      OOwn C gd t os { os with mem := σ, th := setOTh os.th t (.run c fun l => k l r) }
  /-- the operation goes through a loop -/
  | loop {os} {c : OCall K V R} {p : OProg K V R c} (h : os.th t = .run c p)
      (hp : ∀ l, os.now t <+: l → (p l).isIter) :
      OOwn C gd t os { os with th := setOTh os.th t (.run c fun l => (p l).unroll) }
  /-- the operation returns -/
  | ret {os} {c : OCall K V R} {p : OProg K V R c} {r : (l : List (Ans V R)) → (c.fill l).Res} (h : os.th t = .run c p)
      (hp : ∀ l, os.now t <+: l → p l = .ret (r l)) :
      OOwn C gd t os { os with
        th := setOTh os.th t .out
        held := fun g => if g = gd t then (c.fill (os.now t)).refs (r (os.now t)) ++ os.held g else os.held g
        hist := os.hist ++ [.ret (t, os.seq t) c r] }
  /-- the operation panics -/
  | panic {os} {c : OCall K V R} {p : OProg K V R c} {why : PanicReason} (h : os.th t = .run c p)
      (hp : ∀ l, os.now t <+: l → p l = .panic why) :
      OOwn C gd t os { os with th := setOTh os.th t .out, hist := os.hist ++ [.panic (t, os.seq t) c why] }

/-- One step of the system. -/
inductive OStep (C : Cfg K) (gd : Tid → Tid) : OSt K V R → OSt K V R → Prop
  | pin {os} (g) (h : os.mem.pinned g = false) : OStep C gd os { os with mem := os.mem.pin g }
  | unpin {os} (g) (h : ∀ t c p, gd t = g → os.th t ≠ .run c p) :
      OStep C gd os { os with mem := os.mem.unpin g, held := fun u => if u = g then [] else os.held u }
  | abandon {os} (t) {c p} (h : os.th t = .run c p) : OStep C gd os { os with th := setOTh os.th t .gone }
  | inv {os} (t) (c : OCall K V R) (h : os.th t = .out) (hg : os.mem.pinned (gd t) = true)
      (hwf : ∀ d, c = .plain d → d.WF) :
      OStep C gd os { os with
        th := setOTh os.th t (.run c fun l => (c.fill l).prog C)
        seq := fun u => if u = t then os.seq t + 1 else os.seq u
        hist := os.hist ++ [.inv (t, os.seq t + 1) c] }
  /-- an operation makes a step -/
  | own {os os'} (t) (h : OOwn C gd t os os') : OStep C gd os os'
  /-- the closure called by an operation answers, anything -/
  | answer {os} (t) (a : Ans V R) (h : os.InClosure t) :
      OStep C gd os { os with given := fun o => if o = (t, os.seq t) then os.given o ++ [a] else os.given o }
  /-- the closure called by an operation panics -/
  | closurePanics {os} (t) {c : OCall K V R} {p : OProg K V R c} (h : os.th t = .run c p)
      (hp : p (os.now t) = .panic .user) :
      OStep C gd os { os with th := setOTh os.th t .out, hist := os.hist ++ [.panic (t, os.seq t) c .user] }
  | freeEntry {os} (x : Nat) (h1 : os.mem.retired x = true) (h2 : ∀ g, os.mem.blockers x g = false)
      (h3 : os.mem.freed x = false) : OStep C gd os { os with mem := os.mem.freeEntry x }
  | freeTable {os} (T : Nat) (h1 : os.mem.tabRetired T = true) (h2 : ∀ g, os.mem.tabBlockers T g = false)
      (h3 : os.mem.tabFreed T = false) : OStep C gd os { os with mem := os.mem.freeTable T }

/-- The state right after the creation of the map. -/
def OInit (C : Cfg K) (os : OSt K V R) : Prop :=
  initSt C = some os.mem ∧ os.th = (fun _ => .out) ∧ os.seq = (fun _ => 0) ∧ os.given = (fun _ => []) ∧
    os.held = (fun _ => []) ∧ os.hist = []

/-- The reachable states. -/
inductive OReach (C : Cfg K) (gd : Tid → Tid) : OSt K V R → Prop
  | init {os} (h : OInit C os) : OReach C gd os
  | step {os os'} (h : OReach C gd os) (hs : OStep C gd os os') : OReach C gd os'

end Papaya
