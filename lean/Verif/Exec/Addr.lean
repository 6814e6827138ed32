import Verif.Proof.Addr

/-! # Running the model with addresses

Like `Verif/Exec/Run.lean`: concrete executions for the examples, not part of the model. The addresses are fixed in
advance; the runner checks that every allocation is at an address that is not in use. -/

set_option linter.unusedSectionVars false
set_option linter.unusedVariables false

namespace Papaya

variable {K V : Type} [DecidableEq K] [DecidableEq V]

variable {C : Cfg K} {gd : Tid → Tid} {ad tad : Nat → Nat}

/-- Commands for the scheduler. -/
inductive ACmd (K V : Type) : Type 1
  | pin (g : Tid)
  | unpin (g : Tid)
  | call (t : Tid) (c : Call K V) (h : c.WF := by trivial)
  | freeEntry (x : Nat)
  | freeTable (T : Nat)
  | go (t : Tid) (n : Nat)
  | fin (t : Tid) (fuel : Nat)

def allocChk (n n' : Nat) (freed : Nat → Bool) (ad : Nat → Nat) : Bool :=
  (List.range n').all fun x => decide (x < n) || (List.range n').all fun y => decide (y = x) || freed y || decide (ad y ≠ ad x)

theorem allocChk_ok {n n' : Nat} {freed : Nat → Bool} (h : allocChk n n' freed ad = true) : AllocOk n n' freed ad ad := by
  refine ⟨fun _ _ => rfl, fun x h1 h2 y h3 h4 h5 => ?_⟩
  have h6 := List.all_eq_true.1 h x (List.mem_range.2 h2)
  rw [Bool.or_eq_true, decide_eq_true_eq] at h6
  rcases h6 with h6 | h6
  · omega
  · have h7 := List.all_eq_true.1 h6 y (List.mem_range.2 h3)
    simp only [Bool.or_eq_true, decide_eq_true_eq] at h7
    rcases h7 with (h7 | h7) | h7
    · exact absurd h7 h4
    · rw [h5] at h7; cases h7
    · exact h7

def aStepFn (C : Cfg K) (gd : Tid → Tid) (ad tad : Nat → Nat) (t : Tid) (ss : SSt K V) : Option (SSt K V) :=
  (sStepFn C gd t ss).bind fun ss' =>
    if allocChk ss.mem.nIds ss'.mem.nIds ss'.mem.freed ad && allocChk ss.mem.nTabs ss'.mem.nTabs ss'.mem.tabFreed tad then
      some ss' else none

def aGoFn (C : Cfg K) (gd : Tid → Tid) (ad tad : Nat → Nat) (t : Tid) : Nat → SSt K V → Option (SSt K V)
  | 0, ss => some ss
  | n + 1, ss => (aStepFn C gd ad tad t ss).bind (aGoFn C gd ad tad t n)

def aFinFn (C : Cfg K) (gd : Tid → Tid) (ad tad : Nat → Nat) (t : Tid) : Nat → SSt K V → Option (SSt K V)
  | 0, _ => none
  | n + 1, ss =>
    match ss.th t with
    | .run _ _ => (aStepFn C gd ad tad t ss).bind (aFinFn C gd ad tad t n)
    | _ => some ss

def Th.isRun : Th K V → Bool
  | .run _ _ => true
  | _ => false

def aCmdFn (C : Cfg K) (gd : Tid → Tid) (ad tad : Nat → Nat) (ss : SSt K V) : ACmd K V → Option (SSt K V)
  | .pin g => if ss.mem.pinned g = false ∧ g < tidBound then some { ss with mem := ss.mem.pin g } else none
  | .unpin g =>
    if ((List.range tidBound).all fun t => decide (gd t ≠ g) || !(ss.th t).isRun) = true then
      some { ss with mem := ss.mem.unpin g, held := fun u => if u = g then [] else ss.held u }
    else none
  | .call t c _ =>
    match ss.th t with
    | .out => if ss.mem.pinned (gd t) = true ∧ t < tidBound then some { ss with
        th := setTh ss.th t (.run c (c.prog C))
        seq := fun u => if u = t then ss.seq t + 1 else ss.seq u
        hist := ss.hist ++ [.inv (t, ss.seq t + 1) c] } else none
    | _ => none
  | .freeEntry x =>
    if ss.mem.retired x = true ∧ noBlocker (ss.mem.blockers x) = true ∧ ss.mem.freed x = false then
      some { ss with mem := ss.mem.freeEntry x }
    else none
  | .freeTable T =>
    if ss.mem.tabRetired T = true ∧ noBlocker (ss.mem.tabBlockers T) = true ∧ ss.mem.tabFreed T = false then
      some { ss with mem := ss.mem.freeTable T }
    else none
  | .go t n => aGoFn C gd ad tad t n ss
  | .fin t n => aFinFn C gd ad tad t n ss

def aRunCmds (C : Cfg K) (gd : Tid → Tid) (ad tad : Nat → Nat) : List (ACmd K V) → SSt K V → Option (SSt K V)
  | [], ss => some ss
  | c :: l, ss => (aCmdFn C gd ad tad ss c).bind (aRunCmds C gd ad tad l)

/-- What the runner maintains. -/
def AOk (C : Cfg K) (gd : Tid → Tid) (ad tad : Nat → Nat) (ss : SSt K V) : Prop :=
  AReach C gd ⟨ss, ad, tad⟩ ∧ ss.mem.Bounded ∧ ∀ t, tidBound ≤ t → ss.th t = .out

theorem setTh_bound {th : Tid → Th K V} {t : Tid} {x : Th K V} (h : ∀ t, tidBound ≤ t → th t = .out) (ht : th t ≠ .out) :
    ∀ u, tidBound ≤ u → setTh th t x u = .out := by
  intro u hu
  unfold setTh
  split
  · rename_i e; subst e; exact absurd (h u hu) ht
  · exact h u hu

theorem aStepFn_ok {t : Tid} {ss ss' : SSt K V} (h : aStepFn C gd ad tad t ss = some ss') (hr : AOk C gd ad tad ss) :
    AOk C gd ad tad ss' := by
  obtain ⟨h1, h2, h3⟩ := hr
  unfold aStepFn at h
  rw [Option.bind_eq_some_iff] at h
  obtain ⟨q, g1, g2⟩ := h
  split at g2
  · rename_i g3
    cases g2
    rw [Bool.and_eq_true] at g3
    unfold sStepFn at g1
    split at g1
    · rename_i c β a k hth
      rw [Option.map_eq_some_iff] at g1
      obtain ⟨⟨r, σ⟩, g4, g5⟩ := g1
      cases g5
      obtain ⟨k1, k2, k3⟩ := h1.sim
      have he := (execAd_exec k2 k3 (C50_memory_safe k1 hth) (coherent k1 hth)).2 (execFn_sound g4)
      exact ⟨.step h1 (.act t hth he (allocChk_ok g3.1) (allocChk_ok g3.2)), execFn_bounded g4 h2,
        setTh_bound h3 (by rw [hth]; simp)⟩
    · rename_i hth; cases g1; exact ⟨.step h1 (.loop t hth), h2, setTh_bound h3 (by rw [hth]; simp)⟩
    · rename_i hth; cases g1; exact ⟨.step h1 (.ret t hth), h2, setTh_bound h3 (by rw [hth]; simp)⟩
    · rename_i hth; cases g1; exact ⟨.step h1 (.panic t hth), h2, setTh_bound h3 (by rw [hth]; simp)⟩
    · cases g1
  · cases g2

theorem aGoFn_ok {t : Tid} {n : Nat} {ss ss' : SSt K V} (h : aGoFn C gd ad tad t n ss = some ss') (hr : AOk C gd ad tad ss) :
    AOk C gd ad tad ss' := by
  induction n generalizing ss with
  | zero => cases h; exact hr
  | succ n ih =>
    simp only [aGoFn, Option.bind_eq_some_iff] at h
    obtain ⟨q, h1, h2⟩ := h
    exact ih h2 (aStepFn_ok h1 hr)

theorem aFinFn_ok {t : Tid} {n : Nat} {ss ss' : SSt K V} (h : aFinFn C gd ad tad t n ss = some ss') (hr : AOk C gd ad tad ss) :
    AOk C gd ad tad ss' := by
  induction n generalizing ss with
  | zero => cases h
  | succ n ih =>
    unfold aFinFn at h
    split at h
    · rw [Option.bind_eq_some_iff] at h
      obtain ⟨q, h1, h2⟩ := h
      exact ih h2 (aStepFn_ok h1 hr)
    · cases h; exact hr

theorem aCmdFn_ok {c : ACmd K V} {ss ss' : SSt K V} (h : aCmdFn C gd ad tad ss c = some ss') (hr : AOk C gd ad tad ss) :
    AOk C gd ad tad ss' := by
  have hr' := hr
  obtain ⟨hr, hb, ho⟩ := hr
  cases c with
  | pin g =>
    unfold aCmdFn at h; dsimp only at h
    split at h
    · rename_i h1
      cases h
      refine ⟨.step hr (.pin g h1.1), fun u hu => ⟨?_, (hb u hu).2⟩, ho⟩
      show (if u = g then true else ss.mem.pinned u) = false
      rw [if_neg (Nat.ne_of_gt (Nat.lt_of_lt_of_le h1.2 hu))]; exact (hb u hu).1
    · cases h
  | unpin g =>
    unfold aCmdFn at h; dsimp only at h
    split at h
    · rename_i h1
      cases h
      refine ⟨.step hr (.unpin g fun t c p hg ht => ?_), fun u hu => ?_, ho⟩
      · rcases Nat.lt_or_ge t tidBound with h2 | h2
        · have := List.all_eq_true.1 h1 t (List.mem_range.2 h2)
          rw [ht] at this
          simp [Th.isRun, hg] at this
        · rw [ho t h2] at ht; cases ht
      · obtain ⟨h2, h3⟩ := hb u hu
        simp only [St.unpin]
        split
        · exact ⟨rfl, fun _ => ⟨rfl, rfl⟩⟩
        · exact ⟨h2, h3⟩
    · cases h
  | call t c hc =>
    unfold aCmdFn at h; dsimp only at h
    split at h
    · split at h
      · rename_i h1 h2
        cases h
        refine ⟨.step hr (.inv t c h1 h2.1 hc), hb, fun u hu => ?_⟩
        show setTh ss.th t _ u = .out
        unfold setTh
        rw [if_neg (Nat.ne_of_gt (Nat.lt_of_lt_of_le h2.2 hu))]
        exact ho u hu
      · cases h
    · cases h
  | freeEntry x =>
    unfold aCmdFn at h; dsimp only at h; split at h
    · rename_i h1
      cases h
      exact ⟨.step hr (.freeEntry x h1.1 (noBlocker_all h1.2.1 fun t ht => ((hb t ht).2 x).1) h1.2.2), hb, ho⟩
    · cases h
  | freeTable T =>
    unfold aCmdFn at h; dsimp only at h; split at h
    · rename_i h1
      cases h
      exact ⟨.step hr (.freeTable T h1.1 (noBlocker_all h1.2.1 fun t ht => ((hb t ht).2 T).2) h1.2.2), hb, ho⟩
    · cases h
  | go t n => exact aGoFn_ok h hr'
  | fin t n => exact aFinFn_ok h hr'

/-- Running commands from the creation of the map on. -/
def aRunMap (C : Cfg K) (gd : Tid → Tid) (ad tad : Nat → Nat) (l : List (ACmd K V)) : Option (SSt K V) :=
  ((initSt C).map fun σ => (⟨σ, fun _ => .out, fun _ => 0, fun _ => [], []⟩ : SSt K V)).bind (aRunCmds C gd ad tad l)

theorem aRunMap_reach {l : List (ACmd K V)} {P : SSt K V → Bool} (h : (aRunMap C gd ad tad l).any P = true) :
    ∃ ss, AReach C gd ⟨ss, ad, tad⟩ ∧ P ss = true := by
  obtain ⟨ss, h1, h2⟩ := (Option.any_eq_true _ _).1 h
  refine ⟨ss, ?_, h2⟩
  simp only [aRunMap, Option.bind_eq_some_iff, Option.map_eq_some_iff] at h1
  obtain ⟨_, ⟨σ, h3, rfl⟩, h1⟩ := h1
  have hr : AOk C gd ad tad (⟨σ, fun _ => .out, fun _ => 0, fun _ => [], []⟩ : SSt K V) :=
    ⟨.init ⟨h3, rfl, rfl, rfl, rfl⟩, initSt_bounded h3, fun _ _ => rfl⟩
  generalize (⟨σ, fun _ => .out, fun _ => 0, fun _ => [], []⟩ : SSt K V) = q at hr h1
  clear h
  induction l generalizing q with
  | nil => cases h1; exact hr.1
  | cons c l ih =>
    simp only [aRunCmds, Option.bind_eq_some_iff] at h1
    obtain ⟨q', h4, h5⟩ := h1
    exact ih _ (aCmdFn_ok h4 hr) h5

end Papaya
