import Verif.Props.Reenter
import Verif.Exec.Demo

/-! # C59: concrete executions with closures that call the map -/

set_option linter.unusedSectionVars false
set_option linter.unusedVariables false

namespace Papaya

variable {K V R : Type} [DecidableEq K] [DecidableEq V] {C : Cfg K} {gd : Tid → Tid} {os : OSt K V R} {t : Tid}

/-- The result types do not depend on the answers. -/
def OCall.castRes {l : List (Ans V R)} (l' : List (Ans V R)) : (c : OCall K V R) → (c.fill l).Res → (c.fill l').Res
  | .plain _, x => x
  | .tryInsertWith _, x => x
  | .getOrInsertWith _, x => x
  | .update _, x => x
  | .updateOrInsert _ _, x => x
  | .updateOrInsertWith _, x => x
  | .compute _, x => x
  | .removeIf _, x => x
  | .retain, x => x

/-- What is left after the next action. -/
def actNext (C : Cfg K) (t : Tid) (σ : St K V) {α : Type} (p : Prog K V α) : Prog K V α :=
  match p with
  | .act a k =>
    match execFn C t a σ with
    | some (r, _) => k r
    | none => .act a k
  | p => p

/-- The result. -/
def Prog.resultOr {α : Type} (d : α) : Prog K V α → α
  | .ret x => x
  | _ => d

/-- One step of slot `t`. -/
def oStepFn (C : Cfg K) (gd : Tid → Tid) (t : Tid) (os : OSt K V R) : Option (OSt K V R) :=
  match os.th t with
  | .run c p =>
    match p (os.now t) with
    | .act a _ => (execFn C t a os.mem).map fun (_, σ) =>
        { os with mem := σ, th := setOTh os.th t (.run c fun l => actNext C t os.mem (p l)) }
    | .iter _ _ _ => some { os with th := setOTh os.th t (.run c fun l => (p l).unroll) }
    | .ret x => some { os with
        th := setOTh os.th t .out
        held := fun g => if g = gd t then (c.fill (os.now t)).refs x ++ os.held g else os.held g
        hist := os.hist ++ [.ret (t, os.seq t) c fun l => (p l).resultOr (c.castRes l x)] }
    | .panic _ => none
  | _ => none

theorem oStepFn_sound {os' : OSt K V R} (hr : OReach C gd os) (h : oStepFn C gd t os = some os') : OOwn C gd t os os' := by
  have hco := hr.coherent
  unfold oStepFn at h
  split at h
  · rename_i c p hth
    have hn := hco.next hth
    split at h
    · rename_i β a k0 hp
      rw [Option.map_eq_some_iff] at h
      obtain ⟨⟨r, σ⟩, h1, h2⟩ := h
      cases h2
      rcases hn with ⟨c', p', h3, h4⟩ | ⟨β', a', k', h3⟩ | h3 | ⟨r', h3⟩ | ⟨w, _, h3⟩
      · rw [hth] at h3; cases h3; rw [hp] at h4; cases h4
      · have h4 := h3 _ (List.prefix_refl _)
        rw [hp] at h4
        cases h4
        classical
        have h5 := OOwn.act (C := C) (gd := gd) (os := os) (t := t)
          (k := fun l r' => if os.now t <+: l then k' l r' else actNext C t os.mem (p l)) hth
          (fun l hl => by rw [h3 l hl]; congr 1; funext r'; rw [if_pos hl]) (execFn_sound h1)
        refine Eq.subst (motive := fun x => OOwn C gd t os x) ?_ h5
        congr 3
        funext l
        by_cases hl : os.now t <+: l
        · rw [if_pos hl, h3 l hl]
          unfold actNext
          simp only [h1]
        · rw [if_neg hl]
      · have h4 := h3 _ (List.prefix_refl _); rw [hp] at h4; exact h4.elim
      · have h4 := h3 _ (List.prefix_refl _); rw [hp] at h4; cases h4
      · have h4 := h3 _ (List.prefix_refl _); rw [hp] at h4; cases h4
    · rename_i hp
      cases h
      rcases hn with ⟨c', p', h3, h4⟩ | ⟨β', a', k', h3⟩ | h3 | ⟨r', h3⟩ | ⟨w, _, h3⟩
      · rw [hth] at h3; cases h3; rw [hp] at h4; cases h4
      · have h4 := h3 _ (List.prefix_refl _); rw [hp] at h4; cases h4
      · exact .loop hth h3
      · have h4 := h3 _ (List.prefix_refl _); rw [hp] at h4; cases h4
      · have h4 := h3 _ (List.prefix_refl _); rw [hp] at h4; cases h4
    · rename_i x hp
      cases h
      rcases hn with ⟨c', p', h3, h4⟩ | ⟨β', a', k', h3⟩ | h3 | ⟨r', h3⟩ | ⟨w, _, h3⟩
      · rw [hth] at h3; cases h3; rw [hp] at h4; cases h4
      · have h4 := h3 _ (List.prefix_refl _); rw [hp] at h4; cases h4
      · have h4 := h3 _ (List.prefix_refl _); rw [hp] at h4; exact h4.elim
      · have h5 := OOwn.ret (C := C) (gd := gd) (os := os) (t := t) (r := fun l => (p l).resultOr (c.castRes l x)) hth
          (fun l hl => by rw [h3 l hl]; rfl)
        refine Eq.subst (motive := fun x => OOwn C gd t os x) ?_ h5
        have h6 : (p (os.now t)).resultOr (c.castRes (os.now t) x) = x := by rw [hp]; rfl
        rw [h6]
      · have h4 := h3 _ (List.prefix_refl _); rw [hp] at h4; cases h4
    · cases h
  · cases h

/-- Commands for the scheduler. -/
inductive OCmd (K V R : Type) : Type 1
  | pin (g : Tid)
  | call (t : Tid) (c : OCall K V R) (h : ∀ d, c = .plain d → d.WF := by intro d h; cases h; try trivial)
  /-- the closure called by the operation answers -/
  | answer (t : Tid) (a : Ans V R)
  /-- let the slot run until it needs an answer or returns -/
  | run (t : Tid) (fuel : Nat)
  /-- let the slot execute `n` steps -/
  | go (t : Tid) (n : Nat)

/-- Test for `InClosure`. -/
def inClosureB (os : OSt K V R) (t : Tid) : Bool :=
  match os.th t with
  | .run _ p => match p (os.now t) with | .panic .user => true | _ => false
  | _ => false

theorem inClosureB_iff (h : inClosureB os t = true) : os.InClosure t := by
  unfold inClosureB at h
  split at h
  · rename_i c p hth
    split at h
    · exact ⟨c, p, hth, ‹_›⟩
    · cases h
  · cases h

def oRunFn (C : Cfg K) (gd : Tid → Tid) (t : Tid) : Nat → OSt K V R → Option (OSt K V R)
  | 0, _ => none
  | n + 1, os =>
    match os.th t with
    | .run _ _ => if inClosureB os t then some os else (oStepFn C gd t os).bind (oRunFn C gd t n)
    | _ => some os

def oGoFn (C : Cfg K) (gd : Tid → Tid) (t : Tid) : Nat → OSt K V R → Option (OSt K V R)
  | 0, os => some os
  | n + 1, os => (oStepFn C gd t os).bind (oGoFn C gd t n)

def oCmdFn (C : Cfg K) (gd : Tid → Tid) (os : OSt K V R) : OCmd K V R → Option (OSt K V R)
  | .pin g => if os.mem.pinned g = false then some { os with mem := os.mem.pin g } else none
  | .call t c _ =>
    match os.th t with
    | .out => if os.mem.pinned (gd t) = true then some { os with
        th := setOTh os.th t (.run c fun l => (c.fill l).prog C)
        seq := fun u => if u = t then os.seq t + 1 else os.seq u
        hist := os.hist ++ [.inv (t, os.seq t + 1) c] } else none
    | _ => none
  | .answer t a => if inClosureB os t then
      some { os with given := fun o => if o = (t, os.seq t) then os.given o ++ [a] else os.given o } else none
  | .run t n => oRunFn C gd t n os
  | .go t n => oGoFn C gd t n os

def oRunCmds (C : Cfg K) (gd : Tid → Tid) : List (OCmd K V R) → OSt K V R → Option (OSt K V R)
  | [], os => some os
  | c :: l, os => (oCmdFn C gd os c).bind (oRunCmds C gd l)

def oRunMap (C : Cfg K) (gd : Tid → Tid) (l : List (OCmd K V R)) : Option (OSt K V R) :=
  ((initSt C).map fun σ => (⟨σ, fun _ => .out, fun _ => 0, fun _ => [], fun _ => [], []⟩ : OSt K V R)).bind (oRunCmds C gd l)

theorem oRunFn_reach {n : Nat} {os' : OSt K V R} (h : oRunFn C gd t n os = some os') (hr : OReach C gd os) : OReach C gd os' := by
  induction n generalizing os with
  | zero => cases h
  | succ n ih =>
    unfold oRunFn at h
    split at h
    · split at h
      · cases h; exact hr
      · rw [Option.bind_eq_some_iff] at h
        obtain ⟨q, h1, h2⟩ := h
        exact ih h2 (.step hr (.own t (oStepFn_sound hr h1)))
    · cases h; exact hr

theorem oGoFn_reach {n : Nat} {os' : OSt K V R} (h : oGoFn C gd t n os = some os') (hr : OReach C gd os) : OReach C gd os' := by
  induction n generalizing os with
  | zero => cases h; exact hr
  | succ n ih =>
    simp only [oGoFn, Option.bind_eq_some_iff] at h
    obtain ⟨q, h1, h2⟩ := h
    exact ih h2 (.step hr (.own t (oStepFn_sound hr h1)))

theorem oCmdFn_reach {c : OCmd K V R} {os' : OSt K V R} (h : oCmdFn C gd os c = some os') (hr : OReach C gd os) : OReach C gd os' := by
  cases c with
  | pin g =>
    unfold oCmdFn at h; dsimp only at h
    split at h
    · cases h; exact .step hr (.pin g ‹_›)
    · cases h
  | call t c hc =>
    unfold oCmdFn at h; dsimp only at h
    split at h
    · split at h
      · cases h; exact .step hr (.inv t c ‹_› ‹_› hc)
      · cases h
    · cases h
  | answer t a =>
    unfold oCmdFn at h; dsimp only at h
    split at h
    · cases h; exact .step hr (.answer t a (inClosureB_iff ‹_›))
    · cases h
  | run t n => exact oRunFn_reach h hr
  | go t n => exact oGoFn_reach h hr

theorem oRunMap_ok {l : List (OCmd K V R)} (h1 : oRunMap C gd l = some os) : OReach C gd os := by
  simp only [oRunMap, Option.bind_eq_some_iff, Option.map_eq_some_iff] at h1
  obtain ⟨_, ⟨σ, h3, rfl⟩, h1⟩ := h1
  have hr : OReach C gd (⟨σ, fun _ => .out, fun _ => 0, fun _ => [], fun _ => [], []⟩ : OSt K V R) :=
    .init ⟨h3, rfl, rfl, rfl, rfl, rfl⟩
  generalize (⟨σ, fun _ => .out, fun _ => 0, fun _ => [], fun _ => [], []⟩ : OSt K V R) = q at hr h1
  induction l generalizing q with
  | nil => cases h1; exact hr
  | cons c l ih =>
    simp only [oRunCmds, Option.bind_eq_some_iff] at h1
    obtain ⟨q', h4, h5⟩ := h1
    exact ih _ (oCmdFn_reach h4 hr) h5

theorem oRunMap_reach {l : List (OCmd K V R)} {P : OSt K V R → Bool} (h : (oRunMap C gd l).any P = true) :
    ∃ os, OReach C gd os ∧ P os = true := by
  obtain ⟨os, h1, h2⟩ := (Option.any_eq_true _ _).1 h
  exact ⟨os, oRunMap_ok h1, h2⟩

/-- A map with keys 0 and 1; `compute` is called for key 0, with the guard of all slots. -/
def reenterCmds : List (OCmd Nat Nat Unit) :=
  [.pin 0, .call 0 (.plain (.insert 0 0)), .run 0 500, .call 0 (.plain (.insert 1 10)), .run 0 500,
    .call 0 (.compute 0), .run 0 500]

/-- The closure removes the very key, inserts another one, and answers; it is called again, as the key is absent now. -/
def reenterCmds2 : List (OCmd Nat Nat Unit) :=
  reenterCmds ++ [.call 1 (.plain (.remove 0)), .run 1 500, .call 1 (.plain (.insert 7 70)), .run 1 500,
    .answer 0 (.op (.insert 5)), .run 0 500]

/-- Test: some slot of the first table holds the value. -/
def oHoldsB (os : OSt Nat Nat Unit) (k v : Nat) : Bool := (List.range 8).any fun i => holdsB os.mem i k v

-- the hypotheses are met: an operation is inside its closure, and has been called with the guard that the closure uses for its own calls;
-- in the middle of them it has removed the key in question
example : ∃ os : OSt Nat Nat Unit, OReach cfgB (fun _ => 0) os ∧ os.InClosure 0 ∧ ORunning os 1 := by
  obtain ⟨os, h1, h2⟩ := oRunMap_reach (C := cfgB) (gd := fun _ => 0)
    (l := reenterCmds ++ [.call 1 (.plain (.remove 0)), .run 1 500, .call 1 (.plain (.insert 7 70))])
    (P := fun os => inClosureB os 0 && match os.th 1 with | .run _ _ => true | _ => false) (by decide +kernel)
  rw [Bool.and_eq_true] at h2
  refine ⟨os, h1, inClosureB_iff h2.1, ?_⟩
  have := h2.2
  split at this
  · exact ⟨_, _, ‹_›⟩
  · cases this

-- the closure has answered, but the key has been removed in the meantime: it is called a second time
example : ∃ os : OSt Nat Nat Unit, OReach cfgB (fun _ => 0) os ∧ os.InClosure 0 ∧ os.given (0, 3) = [.op (.insert 5)] := by
  obtain ⟨os, h1, h2⟩ := oRunMap_reach (C := cfgB) (gd := fun _ => 0) (l := reenterCmds2)
    (P := fun os => inClosureB os 0 && match os.given (0, 3) with | [.op (.insert v)] => v == 5 | _ => false) (by decide +kernel)
  rw [Bool.and_eq_true] at h2
  refine ⟨os, h1, inClosureB_iff h2.1, ?_⟩
  have := h2.2
  split at this
  · rename_i v hv
    rw [hv, beq_iff_eq.1 this]
  · cases this

-- … and after its second answer the operation returns
example : ∃ os : OSt Nat Nat Unit, OReach cfgB (fun _ => 0) os ∧ os.th 0 = .out ∧ oHoldsB os 0 6 = true ∧ oHoldsB os 7 70 = true ∧
    oHoldsB os 1 10 = true := by
  obtain ⟨os, h1, h2⟩ := oRunMap_reach (C := cfgB) (gd := fun _ => 0)
    (l := reenterCmds2 ++ [.answer 0 (.op (.insert 6)), .run 0 500])
    (P := fun os => (match os.th 0 with | .out => true | _ => false) && (oHoldsB os 0 6 && (oHoldsB os 7 70 && oHoldsB os 1 10)))
    (by decide +kernel)
  simp only [Bool.and_eq_true] at h2
  refine ⟨os, h1, ?_, h2.2.1, h2.2.2.1, h2.2.2.2⟩
  have := h2.1
  split at this
  · assumption
  · cases this

/-- Test for `OWaiting`. -/
def oWaitingB (C : Cfg K) (os : OSt K V R) (t : Tid) : Bool :=
  match os.th t with
  | .run _ p => match p (os.now t) with | .act a _ => (execFn C t a os.mem).isNone | _ => false
  | _ => false

theorem oWaitingB_iff (h : oWaitingB C os t = true) : OWaiting C gd os t := by
  unfold oWaitingB at h
  split at h
  · rename_i c p hth
    split at h
    · rename_i β a k hp
      refine ⟨⟨c, p, hth⟩, ?_, ?_⟩
      · rintro ⟨c', p', h1, h2⟩
        rw [hth] at h1; cases h1
        rw [hp] at h2; cases h2
      · rintro ⟨os', hs⟩
        cases hs with
        | act h1 h2 h3 =>
          rw [hth] at h1; cases h1
          have h4 := h2 _ (List.prefix_refl _)
          rw [hp] at h4; cases h4
          exact execFn_none (Option.isNone_iff_eq_none.1 h) h3
        | loop h1 h2 =>
          rw [hth] at h1; cases h1
          have h4 := h2 _ (List.prefix_refl _)
          rw [hp] at h4; exact h4
        | ret h1 h2 =>
          rw [hth] at h1; cases h1
          have h4 := h2 _ (List.prefix_refl _)
          rw [hp] at h4; cases h4
        | panic h1 h2 =>
          rw [hth] at h1; cases h1
          have h4 := h2 _ (List.prefix_refl _)
          rw [hp] at h4; cases h4
    · cases h
  · cases h

theorem oNoneAbandoned_of {l : List (OCmd K V R)} (h : oRunMap C gd l = some os) : ONoneAbandoned os := by
  have hset : ∀ {os : OSt K V R} {t : Tid} {x : OTh K V R}, (∀ u, os.th u ≠ .gone) → x ≠ .gone → ∀ u, setOTh os.th t x u ≠ .gone := by
    intro os t x h1 h2 u
    unfold setOTh
    split
    · exact h2
    · exact h1 u
  have hstep : ∀ {t : Tid} {os os' : OSt K V R}, (∀ u, os.th u ≠ .gone) → oStepFn C gd t os = some os' → ∀ u, os'.th u ≠ .gone := by
    intro t os os' h1 h2
    unfold oStepFn at h2
    split at h2
    · split at h2
      · rw [Option.map_eq_some_iff] at h2
        obtain ⟨⟨r, σ⟩, _, h4⟩ := h2
        cases h4
        exact hset h1 (by intro h; cases h)
      · cases h2; exact hset h1 (by intro h; cases h)
      · cases h2; exact hset h1 (by intro h; cases h)
      · cases h2
    · cases h2
  simp only [oRunMap, Option.bind_eq_some_iff, Option.map_eq_some_iff] at h
  obtain ⟨_, ⟨σ, h3, rfl⟩, h⟩ := h
  have hr : ∀ u, (⟨σ, fun _ => .out, fun _ => 0, fun _ => [], fun _ => [], []⟩ : OSt K V R).th u ≠ .gone := fun u h => by cases h
  generalize (⟨σ, fun _ => .out, fun _ => 0, fun _ => [], fun _ => [], []⟩ : OSt K V R) = q at hr h
  induction l generalizing q with
  | nil => cases h; exact hr
  | cons c l ih =>
    simp only [oRunCmds, Option.bind_eq_some_iff] at h
    obtain ⟨q', h4, h5⟩ := h
    refine ih _ ?_ h5
    cases c with
    | pin g =>
      unfold oCmdFn at h4; dsimp only at h4
      split at h4
      · cases h4; exact hr
      · cases h4
    | call t c hc =>
      unfold oCmdFn at h4; dsimp only at h4
      split at h4
      · split at h4
        · cases h4; exact hset hr (by intro h; cases h)
        · cases h4
      · cases h4
    | answer t a =>
      unfold oCmdFn at h4; dsimp only at h4
      split at h4
      · cases h4; exact hr
      · cases h4
    | run t n =>
      have h4 : oRunFn C gd t n q = some q' := h4
      clear h5
      induction n generalizing q with
      | zero => cases h4
      | succ n ih2 =>
        unfold oRunFn at h4
        split at h4
        · split at h4
          · cases h4; exact hr
          · rw [Option.bind_eq_some_iff] at h4
            obtain ⟨q1, h6, h7⟩ := h4
            exact ih2 _ (hstep hr h6) h7 h7
        · cases h4; exact hr
    | go t n =>
      have h4 : oGoFn C gd t n q = some q' := h4
      clear h5
      induction n generalizing q with
      | zero => cases h4; exact hr
      | succ n ih2 =>
        simp only [oGoFn, Option.bind_eq_some_iff] at h4
        obtain ⟨q1, h6, h7⟩ := h4
        exact ih2 _ (hstep hr h6) h7 h7

/-- Test for `ONoAllocPanic`. -/
def oNoPanicB (os : OSt K V R) : Bool := os.hist.all fun ev => match ev with | .panic _ _ _ => false | _ => true

theorem oNoPanicB_iff (h : oNoPanicB os = true) : ONoAllocPanic os := by
  intro o c w hm
  have := List.all_eq_true.1 h _ hm
  cases this

-- slot 2 is inside its closure, slot 0 has begun a resize and is interrupted, slot 1 waits for the end of the resize
example : ∃ os : OSt Nat Nat Unit, OReach cfgB (fun _ => 0) os ∧ ONoneAbandoned os ∧ ONoAllocPanic os ∧ os.InClosure 2 ∧
    OWaiting cfgB (fun _ => 0) os 1 := by
  have hd : (oRunMap cfgB (fun _ => 0) (((.pin 0 : OCmd Nat Nat Unit) ::
      (List.range 8).flatMap fun k => [.call 0 (.plain (.insert k (10 * k))), .run 0 5000]) ++
      [.call 2 (.compute 0), .run 2 500, .call 0 (.plain (.insert 8 80)), .go 0 60, .call 1 (.plain (.insert 9 90)), .go 1 47])).any
      (fun os => oNoPanicB os && (inClosureB os 2 && oWaitingB cfgB os 1)) = true := by decide +kernel
  obtain ⟨os, h0, h2⟩ := (Option.any_eq_true _ _).1 hd
  simp only [Bool.and_eq_true] at h2
  refine ⟨os, ?_, oNoneAbandoned_of h0, oNoPanicB_iff h2.1, inClosureB_iff h2.2.1, oWaitingB_iff h2.2.2⟩
  exact oRunMap_ok h0

end Papaya
