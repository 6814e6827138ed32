import Verif.Model.Shared
import Verif.Exec.Run

/-! # Running the model with shared guards

Like `Verif/Exec/Run.lean`: concrete executions for the examples, not part of the model. -/

set_option linter.unusedSectionVars false
set_option linter.unusedVariables false

namespace Papaya

variable {K V : Type} [DecidableEq K] [DecidableEq V]

variable {C : Cfg K} {gd : Tid → Tid}

/-- Commands for the scheduler. -/
inductive SCmd (K V : Type) : Type 1
  /-- create a guard -/
  | pin (g : Tid)
  /-- call an operation in a slot -/
  | call (t : Tid) (c : Call K V) (h : c.WF := by trivial)
  /-- the operation in the slot is cancelled -/
  | abandon (t : Tid)
  /-- let the slot execute `n` steps -/
  | go (t : Tid) (n : Nat)
  /-- let the slot run until its operation responds (or `fuel` is exhausted) -/
  | fin (t : Tid) (fuel : Nat)

/-- One step of slot `t`. -/
def sStepFn (C : Cfg K) (gd : Tid → Tid) (t : Tid) (ss : SSt K V) : Option (SSt K V) :=
  match ss.th t with
  | .run c (.act a k) => (execFn C t a ss.mem).map fun (r, σ) =>
      { ss with mem := σ, th := setTh ss.th t (.run c (k r)) }
  | .run c (.iter body s k) => some { ss with th := setTh ss.th t (.run c (Prog.unfoldIter body s k)) }
  | .run c (.ret r) => some { ss with
        th := setTh ss.th t .out
        held := fun g => if g = gd t then c.refs r ++ ss.held g else ss.held g
        hist := ss.hist ++ [.ret (t, ss.seq t) c r] }
  | .run c (.panic why) => some { ss with th := setTh ss.th t .out, hist := ss.hist ++ [.panic (t, ss.seq t) c why] }
  | _ => none

theorem sStepFn_sound {t : Tid} {ss ss' : SSt K V} (h : sStepFn C gd t ss = some ss') : SStep C gd ss ss' := by
  unfold sStepFn at h
  split at h
  · rename_i c β a k hth
    rw [Option.map_eq_some_iff] at h
    obtain ⟨⟨r, σ⟩, h1, h2⟩ := h
    cases h2
    exact .act t hth (execFn_sound h1)
  · rename_i hth; cases h; exact .loop t hth
  · rename_i hth; cases h; exact .ret t hth
  · rename_i hth; cases h; exact .panic t hth
  · cases h

def sGoFn (C : Cfg K) (gd : Tid → Tid) (t : Tid) : Nat → SSt K V → Option (SSt K V)
  | 0, ss => some ss
  | n + 1, ss => (sStepFn C gd t ss).bind (sGoFn C gd t n)

def sFinFn (C : Cfg K) (gd : Tid → Tid) (t : Tid) : Nat → SSt K V → Option (SSt K V)
  | 0, _ => none
  | n + 1, ss =>
    match ss.th t with
    | .run _ _ => (sStepFn C gd t ss).bind (sFinFn C gd t n)
    | _ => some ss

def sCmdFn (C : Cfg K) (gd : Tid → Tid) (ss : SSt K V) : SCmd K V → Option (SSt K V)
  | .pin g => if ss.mem.pinned g = false then some { ss with mem := ss.mem.pin g } else none
  | .call t c _ =>
    match ss.th t with
    | .out => if ss.mem.pinned (gd t) = true then some { ss with
        th := setTh ss.th t (.run c (c.prog C))
        seq := fun u => if u = t then ss.seq t + 1 else ss.seq u
        hist := ss.hist ++ [.inv (t, ss.seq t + 1) c] } else none
    | _ => none
  | .abandon t =>
    match ss.th t with
    | .run _ _ => some { ss with th := setTh ss.th t .gone }
    | _ => none
  | .go t n => sGoFn C gd t n ss
  | .fin t n => sFinFn C gd t n ss

def sRunCmds (C : Cfg K) (gd : Tid → Tid) : List (SCmd K V) → SSt K V → Option (SSt K V)
  | [], ss => some ss
  | c :: l, ss => (sCmdFn C gd ss c).bind (sRunCmds C gd l)

theorem sGoFn_reach {t : Tid} {n : Nat} {ss ss' : SSt K V} (h : sGoFn C gd t n ss = some ss') (hr : SReach C gd ss) :
    SReach C gd ss' := by
  induction n generalizing ss with
  | zero => cases h; exact hr
  | succ n ih =>
    simp only [sGoFn, Option.bind_eq_some_iff] at h
    obtain ⟨q, h1, h2⟩ := h
    exact ih h2 (.step hr (sStepFn_sound h1))

theorem sFinFn_reach {t : Tid} {n : Nat} {ss ss' : SSt K V} (h : sFinFn C gd t n ss = some ss') (hr : SReach C gd ss) :
    SReach C gd ss' := by
  induction n generalizing ss with
  | zero => cases h
  | succ n ih =>
    unfold sFinFn at h
    split at h
    · rw [Option.bind_eq_some_iff] at h
      obtain ⟨q, h1, h2⟩ := h
      exact ih h2 (.step hr (sStepFn_sound h1))
    · cases h; exact hr

theorem sCmdFn_reach {c : SCmd K V} {ss ss' : SSt K V} (h : sCmdFn C gd ss c = some ss') (hr : SReach C gd ss) :
    SReach C gd ss' := by
  cases c with
  | pin g =>
    unfold sCmdFn at h; dsimp only at h
    split at h
    · cases h; exact .step hr (.pin g ‹_›)
    · cases h
  | call t c hc =>
    unfold sCmdFn at h; dsimp only at h
    split at h
    · split at h
      · cases h; exact .step hr (.inv t c ‹_› ‹_› hc)
      · cases h
    · cases h
  | abandon t =>
    unfold sCmdFn at h; dsimp only at h
    split at h
    · cases h; exact .step hr (.abandon t ‹_›)
    · cases h
  | go t n => exact sGoFn_reach h hr
  | fin t n => exact sFinFn_reach h hr

/-- Running commands from the creation of the map on. -/
def sRunMap (C : Cfg K) (gd : Tid → Tid) (l : List (SCmd K V)) : Option (SSt K V) :=
  ((initSt C).map fun σ => (⟨σ, fun _ => .out, fun _ => 0, fun _ => [], []⟩ : SSt K V)).bind (sRunCmds C gd l)

theorem sRunMap_reach {l : List (SCmd K V)} {P : SSt K V → Bool} (h : (sRunMap C gd l).any P = true) :
    ∃ ss, SReach C gd ss ∧ P ss = true := by
  obtain ⟨ss, h1, h2⟩ := (Option.any_eq_true _ _).1 h
  refine ⟨ss, ?_, h2⟩
  simp only [sRunMap, Option.bind_eq_some_iff, Option.map_eq_some_iff] at h1
  obtain ⟨_, ⟨σ, h3, rfl⟩, h1⟩ := h1
  have hr : SReach C gd (⟨σ, fun _ => .out, fun _ => 0, fun _ => [], []⟩ : SSt K V) := .init ⟨h3, rfl, rfl, rfl, rfl⟩
  generalize (⟨σ, fun _ => .out, fun _ => 0, fun _ => [], []⟩ : SSt K V) = q at hr h1
  clear h
  induction l generalizing q with
  | nil => cases h1; exact hr
  | cons c l ih =>
    simp only [sRunCmds, Option.bind_eq_some_iff] at h1
    obtain ⟨q', h4, h5⟩ := h1
    exact ih _ (sCmdFn_reach h4 hr) h5

end Papaya
