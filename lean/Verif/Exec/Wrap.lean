import Verif.Exec.Run
import Verif.Model.Wrap

/-! # Running the model with counters that wrap around -/

set_option linter.unusedSectionVars false
set_option linter.unusedVariables false

namespace Papaya

variable {K V : Type} [DecidableEq K] [DecidableEq V]

/-- Test for the tables. -/
def capsB (m : Nat) (ps : PSt K V) : Bool := (List.range ps.mem.nTabs).all fun T => decide (ps.mem.cap T ≤ m)

/-- The guards from `n` on are not used. -/
def OutFrom (n : Nat) (ps : PSt K V) : Prop := ∀ t, n ≤ t → ps.th t = .out

theorem small_of {n m : Nat} {ps : PSt K V} (h1 : OutFrom n ps) (h2 : capsB m ps = true) : Small n m ps := by
  refine ⟨⟨List.range n, by simp, fun t c p ht => ?_⟩, fun T hT => ?_⟩
  · by_contra hc
    rw [h1 t (by simpa using hc)] at ht; cases ht
  · have := List.all_eq_true.1 h2 T (List.mem_range.2 hT)
    simpa using this

/-- The state after a step, with the counters wrapped around. -/
def modOk (m : Nat) (q : PSt K V) : Option (PSt K V) := if capsB m q then some q.wrap else none

def modStep (C : Cfg K) (n m : Nat) (t : Tid) (ps : PSt K V) : Option (PSt K V) :=
  (stepFn C t ps).bind (modOk m)

def modGo (C : Cfg K) (n m : Nat) (t : Tid) : Nat → PSt K V → Option (PSt K V)
  | 0, ps => some ps
  | i + 1, ps => (modStep C n m t ps).bind (modGo C n m t i)

def modFin (C : Cfg K) (n m : Nat) (t : Tid) : Nat → PSt K V → Option (PSt K V)
  | 0, _ => none
  | i + 1, ps =>
    match ps.th t with
    | .run _ _ => (modStep C n m t ps).bind (modFin C n m t i)
    | _ => some ps

/-- One command. -/
def modCmd (C : Cfg K) (n m : Nat) (ps : PSt K V) (c : Cmd K V) : Option (PSt K V) :=
  match c with
  | .go t i => modGo C n m t i ps
  | .fin t i => modFin C n m t i ps
  | .pin t => if t < n then (cmdFn C ps (.pin t)).bind (modOk m) else none
  | .unpin t => (cmdFn C ps (.unpin t)).bind (modOk m)
  | .call t c h => (cmdFn C ps (.call t c h)).bind (modOk m)
  | .freeEntry x => (cmdFn C ps (.freeEntry x)).bind (modOk m)
  | .freeTable x => (cmdFn C ps (.freeTable x)).bind (modOk m)
  | _ => none

def modRun (C : Cfg K) (n m : Nat) : List (Cmd K V) → PSt K V → Option (PSt K V)
  | [], ps => some ps
  | c :: l, ps => (modCmd C n m ps c).bind (modRun C n m l)

/-- From the creation of the map on. -/
def modMap (C : Cfg K) (n m : Nat) (l : List (Cmd K V)) : Option (PSt K V) :=
  (initPSt C).bind fun ps => if capsB m ps then modRun C n m l ps else none

variable {C : Cfg K} {n m : Nat} {ps ps' : PSt K V}

/-- What is known about the states the scheduler goes through. -/
def ModGood (C : Cfg K) (n m : Nat) (ps : PSt K V) : Prop := ModReach C n m ps ∧ OutFrom n ps ∧ ps.mem.Bounded

theorem modOk_good {q : PSt K V} (h : ModGood C n m ps) (hs : Step C ps q) (ho : OutFrom n q) (hb : q.mem.Bounded)
    (hw : modOk m q = some ps') : ModGood C n m ps' := by
  unfold modOk at hw
  split at hw
  · rename_i hc
    cases hw
    exact ⟨.step h.1 hs (small_of ho hc), ho, hb⟩
  · cases hw

theorem outFrom_set {t : Tid} {x : Th K V} (h : OutFrom n ps) (ht : t < n) (q : PSt K V) (hq : q.th = setTh ps.th t x) : OutFrom n q := by
  intro u hu
  rw [hq]
  exact (if_neg (Nat.ne_of_gt (Nat.lt_of_lt_of_le ht hu))).trans (h u hu)

theorem lt_of_th {t : Tid} (h : OutFrom n ps) (ht : ps.th t ≠ .out) : t < n := by
  by_contra hc
  exact ht (h t (Nat.le_of_not_lt hc))

theorem modStep_good {t : Tid} (h : ModGood C n m ps) (hw : modStep C n m t ps = some ps') : ModGood C n m ps' := by
  obtain ⟨q, h1, h2⟩ := Option.bind_eq_some_iff.1 hw
  refine modOk_good h (stepFn_sound h1) ?_ (stepFn_bounded h1 h.2.2) h2
  unfold stepFn at h1
  split at h1
  · rename_i hth
    obtain ⟨⟨r, σ⟩, _, h3⟩ := Option.map_eq_some_iff.1 h1
    cases h3
    exact outFrom_set h.2.1 (lt_of_th h.2.1 (by rw [hth]; simp)) _ rfl
  · rename_i hth; cases h1; exact outFrom_set h.2.1 (lt_of_th h.2.1 (by rw [hth]; simp)) _ rfl
  · rename_i hth; cases h1; exact outFrom_set h.2.1 (lt_of_th h.2.1 (by rw [hth]; simp)) _ rfl
  · rename_i hth; cases h1; exact outFrom_set h.2.1 (lt_of_th h.2.1 (by rw [hth]; simp)) _ rfl
  · cases h1

theorem modGo_good {t : Tid} {i : Nat} (h : ModGood C n m ps) (hw : modGo C n m t i ps = some ps') : ModGood C n m ps' := by
  induction i generalizing ps with
  | zero => cases hw; exact h
  | succ i ih =>
    obtain ⟨q, h1, h2⟩ := Option.bind_eq_some_iff.1 hw
    exact ih (modStep_good h h1) h2

theorem modFin_good {t : Tid} {i : Nat} (h : ModGood C n m ps) (hw : modFin C n m t i ps = some ps') : ModGood C n m ps' := by
  induction i generalizing ps with
  | zero => cases hw
  | succ i ih =>
    unfold modFin at hw
    split at hw
    · obtain ⟨q, h1, h2⟩ := Option.bind_eq_some_iff.1 hw
      exact ih (modStep_good h h1) h2
    · cases hw; exact h

theorem modCmd_good {c : Cmd K V} (h : ModGood C n m ps) (hw : modCmd C n m ps c = some ps') : ModGood C n m ps' := by
  cases c with
  | go t i => exact modGo_good h hw
  | fin t i => exact modFin_good h hw
  | abandon t => cases hw
  | release t => cases hw
  | pin t =>
    simp only [modCmd] at hw
    split at hw
    · rename_i ht
      obtain ⟨q, h1, h2⟩ := Option.bind_eq_some_iff.1 hw
      have hb := (cmdFn_steps h1 h.2.2).2
      simp only [cmdFn] at h1
      split at h1
      · rename_i h3
        split at h1
        · cases h1
          exact modOk_good h (.pin t h3) (outFrom_set h.2.1 ht _ rfl) hb h2
        · cases h1
      · cases h1
    · cases hw
  | unpin t =>
    obtain ⟨q, h1, h2⟩ := Option.bind_eq_some_iff.1 hw
    have hb := (cmdFn_steps h1 h.2.2).2
    simp only [cmdFn] at h1
    split at h1
    · rename_i h3
      cases h1
      exact modOk_good h (.unpin t h3) (outFrom_set h.2.1 (lt_of_th h.2.1 (by rw [h3]; simp)) _ rfl) hb h2
    · cases h1
  | call t c hc =>
    obtain ⟨q, h1, h2⟩ := Option.bind_eq_some_iff.1 hw
    have hb := (cmdFn_steps h1 h.2.2).2
    simp only [cmdFn] at h1
    split at h1
    · rename_i h3
      cases h1
      exact modOk_good h (.inv t c h3 hc) (outFrom_set h.2.1 (lt_of_th h.2.1 (by rw [h3]; simp)) _ rfl) hb h2
    · cases h1
  | freeEntry x =>
    obtain ⟨q, h1, h2⟩ := Option.bind_eq_some_iff.1 hw
    have hb := (cmdFn_steps h1 h.2.2).2
    simp only [cmdFn] at h1
    split at h1
    · rename_i h3
      cases h1
      exact modOk_good h (.freeEntry x h3.1 (noBlocker_all h3.2.1 fun t ht => ((h.2.2 t ht).2 x).1) h3.2.2) h.2.1 hb h2
    · cases h1
  | freeTable T =>
    obtain ⟨q, h1, h2⟩ := Option.bind_eq_some_iff.1 hw
    have hb := (cmdFn_steps h1 h.2.2).2
    simp only [cmdFn] at h1
    split at h1
    · rename_i h3
      cases h1
      exact modOk_good h (.freeTable T h3.1 (noBlocker_all h3.2.1 fun t ht => ((h.2.2 t ht).2 T).2) h3.2.2) h.2.1 hb h2
    · cases h1

theorem modRun_good {l : List (Cmd K V)} (h : ModGood C n m ps) (hw : modRun C n m l ps = some ps') : ModGood C n m ps' := by
  induction l generalizing ps with
  | nil => cases hw; exact h
  | cons c l ih =>
    obtain ⟨q, h1, h2⟩ := Option.bind_eq_some_iff.1 hw
    exact ih (modCmd_good h h1) h2

/-- Whatever the scheduler reaches is reachable. -/
theorem modMap_reach {l : List (Cmd K V)} (hw : modMap C n m l = some ps) : ModReach C n m ps := by
  obtain ⟨q, h1, h2⟩ := Option.bind_eq_some_iff.1 hw
  obtain ⟨σ, h3, rfl⟩ := Option.map_eq_some_iff.1 h1
  split at h2
  · rename_i hc
    refine (modRun_good (ps := ⟨σ, fun _ => .out, fun _ => 0, fun _ => [], []⟩) ⟨?_, fun _ _ => rfl, initSt_bounded h3⟩ h2).1
    exact .init ⟨h3, rfl, rfl, rfl, rfl⟩ (small_of (fun _ _ => rfl) hc)
  · cases h2

end Papaya
