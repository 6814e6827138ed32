import Verif.Spec.Contents
import Mathlib.Algebra.BigOperators.Intervals
import Mathlib.Algebra.Order.BigOperators.Group.Finset

/-! # Specification: counting the steps of one operation -/

namespace Papaya

variable {K V : Type} [DecidableEq K]

/-- Guard `t` executes one step of its current operation. -/
inductive OwnStep (C : Cfg K) (t : Tid) : PSt K V → PSt K V → Prop
  /-- an atomic action -/
  | act {ps} {c : Call K V} {β : Type} {a : Act K V β} {k : β → Prog K V c.Res} {r : β} {σ : St K V}
      (h : ps.th t = .run c (.act a k)) (he : Exec C t a ps.mem r σ) :
      OwnStep C t ps { ps with mem := σ, th := setTh ps.th t (.run c (k r)) }
  /-- a loop is entered or repeated -/
  | loop {ps} {c : Call K V} {β σ : Type} {body : σ → Prog K V (σ ⊕ β)} {s : σ} {k : β → Prog K V c.Res}
      (h : ps.th t = .run c (.iter body s k)) :
      OwnStep C t ps { ps with th := setTh ps.th t (.run c (Prog.unfoldIter body s k)) }
  /-- the operation returns -/
  | ret {ps} {c : Call K V} {r : c.Res} (h : ps.th t = .run c (.ret r)) :
      OwnStep C t ps { ps with
        th := setTh ps.th t .idle
        held := fun u => if u = t then c.refs r ++ ps.held t else ps.held u
        hist := ps.hist ++ [.ret (t, ps.seq t) c r] }
  /-- the operation panics -/
  | panic {ps} {c : Call K V} {why : PanicReason} (h : ps.th t = .run c (.panic why)) :
      OwnStep C t ps { ps with
        th := setTh ps.th t .idle
        hist := ps.hist ++ [.panic (t, ps.seq t) c why] }

/-- These are steps of the system. -/
theorem OwnStep.step {C : Cfg K} {t : Tid} {ps ps' : PSt K V} (h : OwnStep C t ps ps') : Step C ps ps' := by
  cases h with
  | act h he => exact .act t h he
  | loop h => exact .loop t h
  | ret h => exact .ret t h
  | panic h => exact .panic t h

/-- An execution in which guard `t` executes `n` steps of its current operation, while the other guards and the collector
do whatever they like. -/
inductive RunOwn (C : Cfg K) (t : Tid) : Nat → PSt K V → PSt K V → Prop
  | refl {ps} : RunOwn C t 0 ps ps
  | own {n ps q ps'} (h : RunOwn C t n ps q) (hs : OwnStep C t q ps') : RunOwn C t (n + 1) ps ps'
  | other {n ps q ps'} (h : RunOwn C t n ps q) (hs : Step C q ps') (hth : ps'.th t = q.th t) : RunOwn C t n ps ps'

theorem RunOwn.steps {C : Cfg K} {t : Tid} {n : Nat} {ps ps' : PSt K V} (h : RunOwn C t n ps ps') : Steps C ps ps' := by
  induction h with
  | refl => exact .refl
  | own _ hs ih => exact .tail ih hs.step
  | other _ hs _ ih => exact .tail ih hs

/-- Bound for `get`, if the root is table `R` when it starts: `2 + ∑ (4 · limit + 7)` over the tables from `R` on, where
`limit` is the maximal number of probes in the table, `5 · log₂ capacity`. -/
def St.getBound (σ : St K V) (R : Nat) : Nat := 2 + ∑ T ∈ Finset.Ico R σ.nTabs, (4 * limit (σ.cap T) + 7)

end Papaya
