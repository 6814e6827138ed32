import Verif.Spec.Deadlock
import Verif.Spec.Solo

/-! # Specification: steps of an operation while the map is not resized -/

namespace Papaya

variable {K V : Type} [DecidableEq K]

/-- No resize is in progress: `R` is the current table, and no other table has been allocated to replace it. -/
def Calm (R : Nat) (ps : PSt K V) : Prop := ps.mem.root = some R ∧ ps.mem.next R = none

/-- No slot of any table is changed. -/
def SameSlots (ps ps' : PSt K V) : Prop := ∀ T i, ps'.mem.slot T i = ps.mem.slot T i

/-- The action is a compare-exchange of slot `i` of table `T`, which is expected to contain `s`. -/
def Act.expects : {β : Type} → Act K V β → Option (Nat × Nat × Slot K V)
  | _, .cas _ T i e _ => some (T, i, e)
  | _, .casNew _ T i e _ _ => some (T, i, e)
  | _, _ => none

/-- The next step of the operation is a compare-exchange of slot `i` of table `T`, which is expected to contain `s`. -/
def Th.expects : Th K V → Option (Nat × Nat × Slot K V)
  | .run _ (.act a _) => a.expects
  | _ => none

/-- The step of guard `t` from `ps` to `ps'` is a (weak) compare-exchange that fails although the slot has the expected value. -/
def FailsSpuriously (t : Tid) (ps ps' : PSt K V) : Prop :=
  ∃ T i s, (ps.th t).expects = some (T, i, s) ∧ ps.mem.slot T i = s ∧ ps'.mem.slot T i = s

/-- An execution without resizes in which guard `t` executes `n` steps of its current operation. The other guards and the collector
do whatever they like; `m` counts those of their steps that change a slot, and the compare-exchanges of `t` that fail spuriously. -/
inductive CalmRun (C : Cfg K) (R : Nat) (t : Tid) : Nat → Nat → PSt K V → PSt K V → Prop
  | refl {ps} (hc : Calm R ps) : CalmRun C R t 0 0 ps ps
  | own {n m ps q ps'} (h : CalmRun C R t n m ps q) (hs : OwnStep C t q ps') (hf : ¬ FailsSpuriously t q ps') (hc : Calm R ps') :
      CalmRun C R t (n + 1) m ps ps'
  | spurious {n m ps q ps'} (h : CalmRun C R t n m ps q) (hs : OwnStep C t q ps') (hf : FailsSpuriously t q ps') (hc : Calm R ps') :
      CalmRun C R t (n + 1) (m + 1) ps ps'
  | other {n m ps q ps'} (h : CalmRun C R t n m ps q) (hs : Step C q ps') (hth : ps'.th t = q.th t) (hsame : SameSlots q ps')
      (hc : Calm R ps') : CalmRun C R t n m ps ps'
  | race {n m ps q ps'} (h : CalmRun C R t n m ps q) (hs : Step C q ps') (hth : ps'.th t = q.th t) (hne : ¬ SameSlots q ps')
      (hc : Calm R ps') : CalmRun C R t n (m + 1) ps ps'

/-- Bound for the steps of an operation on a table with `cap` slots, if no other operation interferes: linear in the number of probes
(`limit cap`, logarithmic in `cap`) and in the number of shards of the counter; linear in `cap` for the operations on all elements. -/
def Call.stepBound (C : Cfg K) (cap : Nat) : Call K V → Nat
  | .get _ | .containsKey _ => 4 * limit cap + 10
  | .remove _ | .removeIf _ _ => 13 * limit cap + 20
  | .clear | .retain _ => 12 * cap + 6
  | .iter | .iterTake _ => 4 * cap + 5
  | .len | .isEmpty => 2 * C.shards + 4
  | .reserve _ => 4 * C.shards + 2 * C.spinAlloc + 20
  | _ => 17 * limit cap + 2 * C.shards + 2 * C.spinAlloc + 36

/-- Bound for the number of times an operation on a table with `cap` slots changes a slot. -/
def Call.writeBound (cap : Nat) : Call K V → Nat
  | .get _ | .containsKey _ | .iter | .iterTake _ | .len | .isEmpty | .reserve _ => 0
  | .clear | .retain _ => cap
  | _ => 1

/-! ## The whole system -/

/-- An execution of the system without resizes: `calls` are the operations called, all operations together execute `n` steps; `x` of
them change a slot; `s` of them are compare-exchanges that fail spuriously. -/
inductive CalmExec (C : Cfg K) (R : Nat) : List (Call K V) → Nat → Nat → Nat → PSt K V → PSt K V → Prop
  | refl {ps} (hc : Calm R ps) : CalmExec C R [] 0 0 0 ps ps
  /-- an operation is called -/
  | call {l n x s ps q} (h : CalmExec C R l n x s ps q) (t : Tid) (c : Call K V) (ht : q.th t = .idle) (hwf : c.WF) :
      CalmExec C R (c :: l) n x s ps (q.call C t c)
  /-- a step of an operation -/
  | step {l n x s ps q ps'} (h : CalmExec C R l n x s ps q) (t : Tid) (hs : OwnStep C t q ps') (hf : ¬ FailsSpuriously t q ps')
      (he : SameSlots q ps') (hc : Calm R ps') : CalmExec C R l (n + 1) x s ps ps'
  /-- a step of an operation that changes a slot -/
  | write {l n x s ps q ps'} (h : CalmExec C R l n x s ps q) (t : Tid) (hs : OwnStep C t q ps') (he : ¬ SameSlots q ps')
      (hc : Calm R ps') : CalmExec C R l (n + 1) (x + 1) s ps ps'
  /-- a compare-exchange fails spuriously -/
  | spurious {l n x s ps q ps'} (h : CalmExec C R l n x s ps q) (t : Tid) (hs : OwnStep C t q ps') (hf : FailsSpuriously t q ps')
      (hc : Calm R ps') : CalmExec C R l (n + 1) x (s + 1) ps ps'
  /-- something else: a guard is created or dropped, the collector frees memory, an operation is abandoned -/
  | other {l n x s ps q ps'} (h : CalmExec C R l n x s ps q) (hs : Step C q ps') (hown : ∀ t, ¬ OwnStep C t q ps')
      (hseq : ps'.seq = q.seq) (hc : Calm R ps') : CalmExec C R l n x s ps ps'

end Papaya
