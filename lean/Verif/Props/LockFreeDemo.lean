import Verif.Props.LockFree
import Verif.Props.Drop
import Verif.Exec.Park

/-! # C58: concrete executions without resizes -/

set_option linter.unusedSectionVars false
set_option linter.unusedVariables false

namespace Papaya

variable {K V : Type} [DecidableEq K] [DecidableEq V] {C : Cfg K} {ps ps' q : PSt K V} {t u : Tid} {R : Nat}

/-- Does the action change a slot? (`none`: not covered) -/
def Act.kind (σ : St K V) : {β : Type} → Act K V β → Option Bool
  | _, .cas _ U i e n => if σ.slot U i = e then (if n = e then none else some true) else some false
  | _, .casNew _ U i e k v => if σ.slot U i = e then (if Slot.untagged ⟨σ.nIds, k, v⟩ = e then none else some true) else some false
  | _, .loadRoot | _, .loadNext _ | _, .tryLock _ | _, .lockWait _ | _, .unlock _ | _, .poison _ | _, .loadMd _ _ | _, .storeMd _ _ _
  | _, .loadSlot _ _ | _, .sameTable _ _ | _, .sameEntry _ _ | _, .deref _ | _, .retire _ | _, .loadShard _ | _, .addCount _ => some false
  | _, _ => none

/-- Does the next step change a slot? -/
def Th.kind (σ : St K V) : Th K V → Option Bool
  | .run _ (.act a _) => a.kind σ
  | .run _ _ => some false
  | _ => none

/-- A step that neither fails spuriously nor starts a resize, and whether it changes a slot. -/
def calmFn (C : Cfg K) (R : Nat) (t : Tid) (ps : PSt K V) : Option (Bool × PSt K V) :=
  match (ps.th t).kind ps.mem, stepFn C t ps with
  | some b, some ps' => if ps'.mem.root = some R ∧ ps'.mem.next R = none then some (b, ps') else none
  | _, _ => none

theorem kind_ok {β : Type} {a : Act K V β} {σ σ' : St K V} {r : β} {b : Bool} (h : execFn C t a σ = some (r, σ')) (hk : a.kind σ = some b) :
    (∀ U i e, a.expects = some (U, i, e) → σ.slot U i = e → σ'.slot U i ≠ e) ∧
    (if b then ∃ U i, σ'.slot U i ≠ σ.slot U i else ∀ U i, σ'.slot U i = σ.slot U i) := by
  cases a
  case cas wk U i e n =>
    simp only [Act.kind] at hk
    simp only [execFn] at h
    by_cases h5 : σ.slot U i = e
    · rw [if_pos h5] at h hk
      by_cases h6 : n = e
      · rw [if_pos h6] at hk; cases hk
      · rw [if_neg h6] at hk
        cases hk
        cases h
        have hsl : (σ.setSlot U i n).slot U i = n := by simp [St.setSlot]
        refine ⟨fun U' i' e' g _ => ?_, U, i, by rw [hsl, h5]; exact h6⟩
        cases g
        rw [hsl]
        exact h6
    · rw [if_neg h5] at h hk
      cases hk
      cases h
      exact ⟨fun U' i' e' g g' => by cases g; exact absurd g' h5, fun _ _ => rfl⟩
  case casNew wk U i e k v =>
    simp only [Act.kind] at hk
    simp only [execFn] at h
    by_cases h5 : σ.slot U i = e
    · rw [if_pos h5] at h hk
      by_cases h6 : Slot.untagged ⟨σ.nIds, k, v⟩ = e
      · rw [if_pos h6] at hk; cases hk
      · rw [if_neg h6] at hk
        cases hk
        cases h
        have hsl : (σ.setSlot U i (Slot.untagged ⟨σ.nIds, k, v⟩)).slot U i = Slot.untagged ⟨σ.nIds, k, v⟩ := by simp [St.setSlot]
        refine ⟨fun U' i' e' g _ => ?_, U, i, ?_⟩
        · cases g
          show (σ.setSlot U i (Slot.untagged ⟨σ.nIds, k, v⟩)).slot U i ≠ e
          rw [hsl]
          exact h6
        · show (σ.setSlot U i (Slot.untagged ⟨σ.nIds, k, v⟩)).slot U i ≠ _
          rw [hsl, h5]
          exact h6
    · rw [if_neg h5] at h hk
      cases hk
      cases h
      exact ⟨fun U' i' e' g g' => by cases g; exact absurd g' h5, fun _ _ => rfl⟩
  all_goals first
    | (simp only [Act.kind, reduceCtorEq] at hk; done)
    | (simp only [Act.kind, Option.some.injEq] at hk
       subst hk
       refine ⟨fun U' i' e' g => by simp [Act.expects] at g, ?_⟩
       simp only [execFn] at h
       first
         | (simp only [Option.some.injEq, Prod.mk.injEq] at h; obtain ⟨_, rfl⟩ := h; exact fun _ _ => rfl)
         | (split at h <;> first | (cases h; done) | (simp only [Option.some.injEq, Prod.mk.injEq] at h; obtain ⟨_, rfl⟩ := h; exact fun _ _ => rfl)))

theorem calmFn_ok {b : Bool} (h : calmFn C R t ps = some (b, ps')) :
    OwnStep C t ps ps' ∧ Calm R ps' ∧ ¬ FailsSpuriously t ps ps' ∧ (if b then ¬ SameSlots ps ps' else SameSlots ps ps') := by
  unfold calmFn at h
  split at h
  · rename_i b' q h1 h2
    split at h
    · rename_i h3
      simp only [Option.some.injEq, Prod.mk.injEq] at h
      obtain ⟨rfl, rfl⟩ := h
      refine ⟨stepFn_own h2, h3, ?_⟩
      unfold stepFn at h2
      cases hth : ps.th t with
      | out => rw [hth] at h1; cases h1
      | idle => rw [hth] at h1; cases h1
      | gone => rw [hth] at h1; cases h1
      | run c p =>
        rw [hth] at h1 h2
        cases p with
        | act a k =>
          have h1 : a.kind ps.mem = some b' := h1
          simp only [Option.map_eq_some_iff] at h2
          obtain ⟨⟨r, σ⟩, h4, h5⟩ := h2
          obtain ⟨g1, g2⟩ := kind_ok h4 h1
          have hm : q.mem = σ := by rw [← h5]
          refine ⟨?_, ?_⟩
          · rintro ⟨U, i, s, f1, f2, f3⟩
            rw [hth] at f1
            exact g1 U i s f1 f2 (by rw [← hm]; exact f3)
          · cases b' with
            | true =>
              obtain ⟨U, i, g2⟩ := g2
              exact fun hs => g2 (by rw [← hm]; exact hs U i)
            | false => exact fun U i => by rw [hm]; exact g2 U i
        | iter body s k =>
          cases h1; cases h2
          exact ⟨(by rintro ⟨U, i, s, f1, f2, f3⟩; rw [hth] at f1; cases f1), fun _ _ => rfl⟩
        | ret r =>
          cases h1; cases h2
          exact ⟨(by rintro ⟨U, i, s, f1, f2, f3⟩; rw [hth] at f1; cases f1), fun _ _ => rfl⟩
        | panic r =>
          cases h1; cases h2
          exact ⟨(by rintro ⟨U, i, s, f1, f2, f3⟩; rw [hth] at f1; cases f1), fun _ _ => rfl⟩
    · cases h
  · cases h

/-- Commands: guard `t` executes `n` steps. -/
def calmGo (C : Cfg K) (R : Nat) (t : Tid) : Nat → Nat × Nat × PSt K V → Option (Nat × Nat × PSt K V)
  | 0, y => some y
  | k + 1, (n, x, ps) => (calmFn C R t ps).bind fun (b, ps') => calmGo C R t k (n + 1, if b then x + 1 else x, ps')

def calmGos (C : Cfg K) (R : Nat) : List (Tid × Nat) → Nat × Nat × PSt K V → Option (Nat × Nat × PSt K V)
  | [], y => some y
  | (t, k) :: l, y => (calmGo C R t k y).bind (calmGos C R l)

theorem calmGo_ok {l : List (Call K V)} {k n x n' x' : Nat} (h : CalmExec C R l n x 0 ps q) (hg : calmGo C R t k (n, x, q) = some (n', x', ps')) :
    CalmExec C R l n' x' 0 ps ps' := by
  induction k generalizing n x q with
  | zero => cases hg; exact h
  | succ k ih =>
    rw [calmGo, Option.bind_eq_some_iff] at hg
    obtain ⟨⟨b, q'⟩, h1, h2⟩ := hg
    obtain ⟨g1, g2, g3, g4⟩ := calmFn_ok h1
    cases b with
    | true => exact ih (.write h t g1 g4 g2) h2
    | false => exact ih (.step h t g1 g3 g4 g2) h2

theorem calmGos_ok {l : List (Call K V)} {c : List (Tid × Nat)} {n x n' x' : Nat} (h : CalmExec C R l n x 0 ps q)
    (hg : calmGos C R c (n, x, q) = some (n', x', ps')) : CalmExec C R l n' x' 0 ps ps' := by
  induction c generalizing n x q with
  | nil => cases hg; exact h
  | cons y c ih =>
    obtain ⟨t, k⟩ := y
    rw [calmGos, Option.bind_eq_some_iff] at hg
    obtain ⟨⟨n1, x1, q1⟩, h1, h2⟩ := hg
    exact ih (calmGo_ok h h1) h2

/-- The same execution seen from guard `t`: its own steps, and the writes of the others. -/
def raceGo (C : Cfg K) (R : Nat) (t u : Tid) : Nat → Nat × Nat × PSt K V → Option (Nat × Nat × PSt K V)
  | 0, y => some y
  | k + 1, (n, m, ps) => (calmFn C R u ps).bind fun (b, ps') =>
    raceGo C R t u k (if u = t then n + 1 else n, if u ≠ t ∧ b = true then m + 1 else m, ps')

def raceGos (C : Cfg K) (R : Nat) (t : Tid) : List (Tid × Nat) → Nat × Nat × PSt K V → Option (Nat × Nat × PSt K V)
  | [], y => some y
  | (u, k) :: l, y => (raceGo C R t u k y).bind (raceGos C R t l)

theorem raceGo_ok {k n m n' m' : Nat} (h : CalmRun C R t n m ps q) (hg : raceGo C R t u k (n, m, q) = some (n', m', ps')) :
    CalmRun C R t n' m' ps ps' := by
  induction k generalizing n m q with
  | zero => cases hg; exact h
  | succ k ih =>
    rw [raceGo, Option.bind_eq_some_iff] at hg
    obtain ⟨⟨b, q'⟩, h1, h2⟩ := hg
    obtain ⟨g1, g2, g3, g4⟩ := calmFn_ok h1
    by_cases hu : u = t
    · subst hu
      simp only [↓reduceIte, ne_eq, not_true_eq_false, false_and] at h2
      exact ih (.own h g1 g3 g2) h2
    · have hth := own_others g1 (Ne.symm hu)
      cases b with
      | true =>
        simp only [hu, ↓reduceIte, ne_eq, not_false_eq_true, and_self] at h2
        exact ih (.race h g1.step hth g4 g2) h2
      | false =>
        simp only [hu, ↓reduceIte, Bool.false_eq_true, and_false] at h2
        exact ih (.other h g1.step hth g4 g2) h2

theorem raceGos_ok {c : List (Tid × Nat)} {n m n' m' : Nat} (h : CalmRun C R t n m ps q)
    (hg : raceGos C R t c (n, m, q) = some (n', m', ps')) : CalmRun C R t n' m' ps ps' := by
  induction c generalizing n m q with
  | nil => cases hg; exact h
  | cons y c ih =>
    obtain ⟨t, k⟩ := y
    rw [raceGos, Option.bind_eq_some_iff] at hg
    obtain ⟨⟨n1, x1, q1⟩, h1, h2⟩ := hg
    exact ih (raceGo_ok h h1) h2

/-! ## Examples -/

theorem CalmExec.start2 {c d : Call K V} (h : Calm R ps) (hc : c.WF) (hd : d.WF) (h0 : ps.th 0 = .idle) (h1 : ps.th 1 = .idle) :
    CalmExec C R [d, c] 0 0 0 ps ((ps.call C 0 c).call C 1 d) :=
  .call (.call (.refl h) 0 c h0 hc) 1 d (by show setTh ps.th 0 (.run c (c.prog C)) 1 = _; unfold setTh; rw [if_neg (by decide)]; exact h1) hd

theorem calm_iff (h : (ps.mem.root == some R && ps.mem.next R == none) = true) : Calm R ps := by
  simp only [Bool.and_eq_true, beq_iff_eq] at h
  exact h

/-- Guard 0 replaces the value of key 0. -/
def racer0 : Call Nat Nat := .insert 0 5

/-- Guard 1 increments the value of key 0. -/
def racer1 : Call Nat Nat := .update 0 (Closure.pure fun v => v + 1)

/-- Guard 1 reads the slot, then guard 0 changes it, then guard 1 must try again. -/
def racing : List (Tid × Nat) := [(1, 7), (0, 10), (1, 8)]

-- the hypotheses of `C58_lock_free` are met: two operations, which interfere, take 25 steps and change a slot twice
example : ∃ ps ps' : PSt Nat Nat, Reach cfgB ps ∧ (∀ t, ¬ Running ps t) ∧ CalmExec cfgB 0 [racer1, racer0] 25 2 0 ps ps' ∧
    ps'.th 0 = .idle ∧ ps'.th 1 = .idle := by
  obtain ⟨ps, h0, h1, h2⟩ := demo_run (C := cfgB) (V := Nat) (l := fill 3)
    (P := fun ps => restB ps && ((ps.mem.root == some 0 && ps.mem.next 0 == none) && ((idleB ps 0 && idleB ps 1) &&
      (calmGos cfgB 0 racing (0, 0, (ps.call cfgB 0 racer0).call cfgB 1 racer1)).any fun y =>
        (y.1 == 25 && y.2.1 == 2) && (idleB y.2.2 0 && idleB y.2.2 1)))) (by decide +kernel)
  obtain ⟨a1, h2⟩ := (Bool.and_eq_true _ _).mp h2
  obtain ⟨a2, h2⟩ := (Bool.and_eq_true _ _).mp h2
  obtain ⟨a34, a5⟩ := (Bool.and_eq_true _ _).mp h2
  obtain ⟨a3, a4⟩ := (Bool.and_eq_true _ _).mp a34
  obtain ⟨⟨n, x, q⟩, b1, b2⟩ := (Option.any_eq_true _ _).1 a5
  simp only [Bool.and_eq_true, beq_iff_eq] at b2
  obtain ⟨⟨rfl, rfl⟩, b3, b4⟩ := b2
  refine ⟨ps, q, h1, fun t ⟨c, p, hr⟩ => ?_, calmGos_ok (.start2 (calm_iff a2) trivial pure_wf (idleB_iff a3) (idleB_iff a4)) b1, idleB_iff b3, idleB_iff b4⟩
  rcases (restB_iff h0 a1).threads t with h | h <;> rw [hr] at h <;> cases h

/-- A reachable state in which the operations `c` (guard 0) and `d` (guard 1) have just been called. -/
theorem race_demo {C : Cfg Nat} {l : List (Cmd Nat Nat)} {d : Call Nat Nat} (hd : d.WF) {s : List (Tid × Nat)} {P : Nat × Nat × PSt Nat Nat → Bool}
    (h : (runMap C l).any (fun ps => (ps.mem.root == some 0 && ps.mem.next 0 == none) && (idleB ps 1 &&
      (raceGos C 0 1 s (0, 0, ps.call C 1 d)).any P)) = true) :
    ∃ (ps ps' : PSt Nat Nat) (n m : Nat), Reach C ps ∧ ps.th 1 = .run d (d.prog C) ∧ CalmRun C 0 1 n m ps ps' ∧ P (n, m, ps') = true := by
  obtain ⟨ps, h0, h1, h2⟩ := demo_run h
  obtain ⟨a1, h2⟩ := (Bool.and_eq_true _ _).mp h2
  obtain ⟨a2, a5⟩ := (Bool.and_eq_true _ _).mp h2
  obtain ⟨⟨n, m, q⟩, b1, b2⟩ := (Option.any_eq_true _ _).1 a5
  refine ⟨ps.call C 1 d, q, n, m, .step h1 (.inv 1 d (idleB_iff a2) hd), ?_, raceGos_ok (.refl (calm_iff (R := 0) a1)) b1, b2⟩
  show setTh ps.th 1 _ 1 = _
  exact setTh_at

-- the hypotheses of `C58_bounded` are met: guard 1 takes 15 steps, and guard 0 interferes once
example : ∃ ps ps' : PSt Nat Nat, Reach cfgB ps ∧ ps.th 1 = .run racer1 (racer1.prog cfgB) ∧ CalmRun cfgB 0 1 15 1 ps ps' ∧ ps'.th 1 = .idle := by
  obtain ⟨ps, ps', n, m, h1, h2, h3, h4⟩ := race_demo (C := cfgB) (l := fill 3 ++ [.call 0 racer0 trivial]) (d := racer1) pure_wf (s := racing)
    (P := fun y => (y.1 == 15 && y.2.1 == 1) && idleB y.2.2 1) (by decide +kernel)
  simp only [Bool.and_eq_true, beq_iff_eq] at h4
  obtain ⟨⟨rfl, rfl⟩, h5⟩ := h4
  exact ⟨ps, ps', h1, h2, h3, idleB_iff h5⟩

-- the hypotheses of `C58_never_waits` are met: guard 1 has read the slot, guard 0 has changed it
example : ∃ ps ps' : PSt Nat Nat, Reach cfgB ps ∧ ps.th 1 = .run racer1 (racer1.prog cfgB) ∧ racer1.neverInserts ∧
    CalmRun cfgB 0 1 7 1 ps ps' ∧ Running ps' 1 := by
  obtain ⟨ps, ps', n, m, h1, h2, h3, h4⟩ := race_demo (C := cfgB) (l := fill 3 ++ [.call 0 racer0 trivial]) (d := racer1) pure_wf (s := [(1, 7), (0, 10)])
    (P := fun y => (y.1 == 7 && y.2.1 == 1) && match y.2.2.th 1 with | .run _ _ => true | _ => false) (by decide +kernel)
  simp only [Bool.and_eq_true, beq_iff_eq] at h4
  obtain ⟨⟨rfl, rfl⟩, h5⟩ := h4
  refine ⟨ps, ps', h1, h2, trivial, h3, ?_⟩
  cases hth : ps'.th 1 with
  | run c p => exact ⟨c, p, hth⟩
  | _ => rw [hth] at h5; cases h5

-- the hypotheses of `C58_waits_for_allocation` are met: guard 0 holds the mutex and is about to start a resize; guard 1 needs a larger table as well
example : ∃ ps ps' : PSt Nat Nat, Reach cfgB ps ∧ ps.th 1 = .run (.insert 9 90) (Call.prog cfgB (.insert 9 90)) ∧
    CalmRun cfgB 0 1 40 0 ps ps' ∧ Waiting cfgB ps' 1 := by
  obtain ⟨ps, ps', n, m, h1, h2, h3, h4⟩ := race_demo (C := cfgB) (l := midResize 40) (d := .insert 9 90) trivial (s := [(1, 40)])
    (P := fun y => (y.1 == 40 && y.2.1 == 0) && waitingB cfgB 1 y.2.2) (by decide +kernel)
  simp only [Bool.and_eq_true, beq_iff_eq] at h4
  obtain ⟨⟨rfl, rfl⟩, h5⟩ := h4
  exact ⟨ps, ps', h1, h2, h3, waitingB_iff h5⟩

end Papaya
