import Verif.Model.Api
import Mathlib.Logic.Relation

/-! # Executions: any number of guards calling the public operations concurrently

A thread identifier stands for a guard (src/raw/utils mod `MapGuard`, the `seize` guards): it is created, used for
operations one after the other, and dropped. Simplifications: a guard runs at most one operation at a time (an
`OwnedGuard` shared between threads is not modelled), `len` and `is_empty` are called with a guard although they do not
need one, an iterator is consumed at once. A panic unwinds out of the operation; the guard stays usable (`catch_unwind`). -/

namespace Papaya

variable {K V : Type}

/-- Observable events. -/
inductive HEv (K V : Type) : Type 1
  /-- call number `o.2` of guard `o.1` starts: operation `c` -/
  | inv (o : OpId) (c : Call K V)
  /-- it returns `r` -/
  | ret (o : OpId) (c : Call K V) (r : c.Res)
  /-- it panics -/
  | panic (o : OpId) (c : Call K V) (why : PanicReason)

/-- Status of a guard. -/
inductive Th (K V : Type) : Type 1
  /-- not active -/
  | out
  /-- active, between two operations -/
  | idle
  /-- executing operation `c`; `p` is what is left to do -/
  | run (c : Call K V) (p : Prog K V c.Res)
  /-- abandoned in the middle of an operation -/
  | gone

/-- State of the whole system. -/
structure PSt (K V : Type) : Type 1 where
  /-- shared memory -/
  mem : St K V
  th : Tid → Th K V
  /-- number of operations started with each guard -/
  seq : Tid → Nat
  /-- references handed out and still usable: those obtained with the guard since it was created -/
  held : Tid → List (Entry K V)
  /-- what happened so far -/
  hist : List (HEv K V)

/-- Creating a guard (`HashMap::guard`, `pin`) — contract of `seize`: the guard is active. -/
def St.pin (σ : St K V) (t : Tid) : St K V := { σ with pinned := fun u => if u = t then true else σ.pinned u }

/-- Dropping a guard — contract of `seize`: it no longer delays reclamation. -/
def St.unpin (σ : St K V) (t : Tid) : St K V :=
  { σ with
    pinned := fun u => if u = t then false else σ.pinned u
    blockers := fun x u => if u = t then false else σ.blockers x u
    tabBlockers := fun x u => if u = t then false else σ.tabBlockers x u }

/-- The collector frees a retired entry. -/
def St.freeEntry (σ : St K V) (x : Nat) : St K V := { σ with freed := fun y => if y = x then true else σ.freed y }

/-- The collector frees a retired table, with the entries deferred on it (`drop_table`) — src/raw/mod.rs:2786-2805. -/
def St.freeTable (σ : St K V) (T : Nat) : St K V :=
  { σ with
    tabFreed := fun y => if y = T then true else σ.tabFreed y
    freed := fun y => (σ.deferred T).any (fun e => e.id == y) || σ.freed y }

/-- User closures panic with their own panics only (not with those of the map). -/
def Closure.WF {I O : Type} (f : Closure I O) : Prop := ∀ s i r, f.call s i = .error r → r = .user

/-- The closures passed to an operation are well formed. -/
def Call.WF : Call K V → Prop
  | .tryInsertWith _ f => f.WF
  | .getOrInsertWith _ f => f.WF
  | .update _ f => f.WF
  | .updateOrInsert _ u _ => u.WF
  | .updateOrInsertWith _ u f => u.WF ∧ f.WF
  | .compute _ f => f.WF
  | .removeIf _ f => f.WF
  | .retain f => f.WF
  | _ => True

/-- Updating the status of a guard. -/
def setTh (th : Tid → Th K V) (t : Tid) (x : Th K V) : Tid → Th K V := fun u => if u = t then x else th u

variable [DecidableEq K]

/-- One step of the system. -/
inductive Step (C : Cfg K) : PSt K V → PSt K V → Prop
  /-- a guard is created -/
  | pin {ps} (t) (h : ps.th t = .out) :
      Step C ps { ps with mem := ps.mem.pin t, th := setTh ps.th t .idle }
  /-- a guard is dropped; the references obtained with it can no longer be used -/
  | unpin {ps} (t) (h : ps.th t = .idle) :
      Step C ps { ps with
        mem := ps.mem.unpin t, th := setTh ps.th t .out, held := fun u => if u = t then [] else ps.held u }
  /-- a thread stops forever in the middle of an operation; its guard stays active unless it is released -/
  | abandon {ps} (t) {c p} (h : ps.th t = .run c p) :
      Step C ps { ps with th := setTh ps.th t .gone }
  /-- the guard of an operation that was abandoned is dropped (for instance by a panic that unwinds through it) -/
  | release {ps} (t) (h : ps.th t = .gone) :
      Step C ps { ps with mem := ps.mem.unpin t, held := fun u => if u = t then [] else ps.held u }
  /-- an operation is called -/
  | inv {ps} (t) (c : Call K V) (h : ps.th t = .idle) (hwf : c.WF) :
      Step C ps { ps with
        th := setTh ps.th t (.run c (c.prog C))
        seq := fun u => if u = t then ps.seq t + 1 else ps.seq u
        hist := ps.hist ++ [.inv (t, ps.seq t + 1) c] }
  /-- an atomic action of an operation -/
  | act {ps} (t) {c : Call K V} {β : Type} {a : Act K V β} {k : β → Prog K V c.Res} {r : β} {σ : St K V}
      (h : ps.th t = .run c (.act a k)) (he : Exec C t a ps.mem r σ) :
      Step C ps { ps with mem := σ, th := setTh ps.th t (.run c (k r)) }
  /-- an operation goes through a loop -/
  | loop {ps} (t) {c : Call K V} {β σ : Type} {body : σ → Prog K V (σ ⊕ β)} {s : σ} {k : β → Prog K V c.Res}
      (h : ps.th t = .run c (.iter body s k)) :
      Step C ps { ps with th := setTh ps.th t (.run c (Prog.unfoldIter body s k)) }
  /-- an operation returns -/
  | ret {ps} (t) {c : Call K V} {r : c.Res} (h : ps.th t = .run c (.ret r)) :
      Step C ps { ps with
        th := setTh ps.th t .idle
        held := fun u => if u = t then c.refs r ++ ps.held t else ps.held u
        hist := ps.hist ++ [.ret (t, ps.seq t) c r] }
  /-- an operation panics: the panic is caught, or unwinds further and drops the guard (step `unpin`) -/
  | panic {ps} (t) {c : Call K V} {why : PanicReason} (h : ps.th t = .run c (.panic why)) :
      Step C ps { ps with
        th := setTh ps.th t .idle
        hist := ps.hist ++ [.panic (t, ps.seq t) c why] }
  /-- the collector frees an entry that has been retired, once no guard that was active then is left -/
  | freeEntry {ps} (x : Nat) (h1 : ps.mem.retired x = true) (h2 : ∀ t, ps.mem.blockers x t = false)
      (h3 : ps.mem.freed x = false) : Step C ps { ps with mem := ps.mem.freeEntry x }
  /-- likewise for a table -/
  | freeTable {ps} (T : Nat) (h1 : ps.mem.tabRetired T = true) (h2 : ∀ t, ps.mem.tabBlockers T t = false)
      (h3 : ps.mem.tabFreed T = false) : Step C ps { ps with mem := ps.mem.freeTable T }

/-- The state right after `HashMap::new`, `with_capacity`, … -/
def IsInit (C : Cfg K) (ps : PSt K V) : Prop :=
  initSt C = some ps.mem ∧ ps.th = (fun _ => .out) ∧ ps.seq = (fun _ => 0) ∧ ps.held = (fun _ => []) ∧ ps.hist = []

/-- The reachable states. -/
inductive Reach (C : Cfg K) : PSt K V → Prop
  | init {ps} (h : IsInit C ps) : Reach C ps
  | step {ps ps'} (h : Reach C ps) (hs : Step C ps ps') : Reach C ps'

/-- Several steps. -/
abbrev Steps (C : Cfg K) : PSt K V → PSt K V → Prop := Relation.ReflTransGen (Step C)

theorem Reach.steps {C : Cfg K} {ps ps' : PSt K V} (h : Reach C ps) (hs : Steps C ps ps') : Reach C ps' := by
  induction hs with
  | refl => exact h
  | tail _ h1 ih => exact .step ih h1

end Papaya
