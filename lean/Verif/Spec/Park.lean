import Verif.Model.Park
import Verif.Spec.Deadlock

/-! # Specification: waiting in `thread::park` -/

namespace Papaya

variable {K V : Type} [DecidableEq K]

/-- The operation of guard `t` is blocked in `thread::park()`, in a call of `Parker::park` on the atomic `a`: nobody has called
`unpark` for its thread. -/
def KSt.Blocked (x : KSt K V) (t : Tid) (a : PKey) : Prop := Running x.ps t ∧ (∃ id, x.pk t = .p4 a id) ∧ x.token t = false

/-- The operation of guard `t` can execute a step (other than waking up spuriously). -/
def KCanMove (C : Cfg K) (x : KSt K V) (t : Tid) : Prop := ∃ x', PkStep C t x x'

/-- What the waiting operation waits for has happened: the resize is finished (the new table is the root, or was), the entry is
copied. -/
def PKey.Done (σ : St K V) : PKey → Prop
  | .status T => σ.status T = .promoted
  | .slot T i => (σ.slot T i).copied = true

/-- The resize the operation waits for has been given up. -/
def PKey.Aborted (σ : St K V) : PKey → Prop
  | .status T => σ.status T = .aborted
  | .slot _ _ => False

/-- A step of the system, or a spurious wakeup. -/
def KAny (C : Cfg K) (x x' : KSt K V) : Prop := KStep C x x' ∨ Spurious x x'

/-- Any number of steps, spurious wakeups included. -/
abbrev KRun (C : Cfg K) : KSt K V → KSt K V → Prop := Relation.ReflTransGen (KAny C)

/-- Any number of steps, none of them a spurious wakeup. -/
abbrev KSteps (C : Cfg K) : KSt K V → KSt K V → Prop := Relation.ReflTransGen (KStep C)

/-- The operation that guard `u` was executing in `x` is still running in `x'`. -/
def StillRunning (x x' : KSt K V) (u : Tid) : Prop := Running x.ps u ∧ Running x'.ps u ∧ x'.ps.seq u = x.ps.seq u

/-- The operation of guard `v` is in `Parker::unpark`, has removed the thread of guard `t` from the map of the parker, and has not
yet called `Thread::unpark` for it. -/
def Waking (x : KSt K V) (v t : Tid) : Prop :=
  Running x.ps v ∧ ∃ a l, (x.pk v = .u2 a l ∨ x.pk v = .u3 a l) ∧ t ∈ l

/-- Nothing has gone wrong for good: no operation was abandoned in the middle (its thread killed, its future leaked), no
allocation of a table has failed. -/
def Sound (ps : PSt K V) : Prop := NoneAbandoned ps ∧ ∀ o c w, HEv.panic o c w ∈ ps.hist → ¬ AllocPanic w

/-- The atomic of the call of `park` or `unpark` in which the thread is. -/
def PkPC.key : PkPC → Option PKey
  | .norm => none
  | .p0 a => some a
  | .p1 a => some a
  | .p2 a _ => some a
  | .p3 a _ => some a
  | .p3b a => some a
  | .p4 a _ => some a
  | .p5 a _ => some a
  | .p6 a => some a
  | .u0 a => some a
  | .u1 a => some a
  | .u2 a _ => some a
  | .u3 a _ => some a

/-- An execution (spurious wakeups included) in which guard `v` executes `n` steps of its current operation. -/
inductive KRunOwn (C : Cfg K) (v : Tid) : Nat → KSt K V → KSt K V → Prop
  | refl {x} : KRunOwn C v 0 x x
  | own {n x y x'} (h : KRunOwn C v n x y) (hs : PkStep C v y x') : KRunOwn C v (n + 1) x x'
  | other {n x y x'} (h : KRunOwn C v n x y) (hs : KAny C y x') (hth : x'.ps.th v = y.ps.th v) (hpk : x'.pk v = y.pk v) :
      KRunOwn C v n x x'

end Papaya
