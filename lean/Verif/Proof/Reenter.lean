import Verif.Model.Reenter
import Verif.Proof.Shared

/-! # Closures that do anything: simulation by closures that know their answers in advance -/

set_option linter.unusedSectionVars false
set_option linter.unusedVariables false

namespace Papaya

variable {K V R : Type} [DecidableEq K] {C : Cfg K} {gd : Tid → Tid}

/-- The slot, once the answers are known. -/
def OTh.close (l : List (Ans V R)) : OTh K V R → Th K V
  | .out => .out
  | .run c p => .run (c.fill l) (p l)
  | .gone => .gone

/-- The state, once the answers are known. -/
def OSt.close (G : OpId → List (Ans V R)) (os : OSt K V R) : SSt K V where
  mem := os.mem
  th t := (os.th t).close (G (t, os.seq t))
  seq := os.seq
  held := os.held
  hist := os.hist.map (OHEv.close G)

/-- The operation has returned or panicked. -/
def OSt.Ended (os : OSt K V R) (o : OpId) : Prop := (∃ c r, OHEv.ret o c r ∈ os.hist) ∨ ∃ c w, OHEv.panic o c w ∈ os.hist

/-- Numbers of operations. -/
def OSt.Numbered (os : OSt K V R) : Prop :=
  ∀ o, os.Ended o → o.2 ≤ os.seq o.1 ∧ (o.2 = os.seq o.1 → ∀ c p, os.th o.1 ≠ .run c p)

/-- Answers that agree with those given so far, and complete those of the operations that have not ended. -/
def OSt.Fits (os : OSt K V R) (G : OpId → List (Ans V R)) : Prop :=
  ∀ o, os.given o <+: G o ∧ (os.Ended o → G o = os.given o)

theorem OSt.fits_given (os : OSt K V R) : os.Fits os.given := fun o => ⟨List.prefix_refl _, fun _ => rfl⟩

theorem OTh.close_setOTh {th : Tid → OTh K V R} {t : Tid} {x : OTh K V R} {G : Tid → List (Ans V R)} :
    (fun u => (setOTh th t x u).close (G u)) = setTh (fun u => (th u).close (G u)) t (x.close (G t)) := by
  funext u
  unfold setOTh setTh
  by_cases h : u = t
  · subst h; simp
  · simp [h]

theorem ended_mono {os os' : OSt K V R} {l : List (OHEv K V R)} (h : os'.hist = os.hist ++ l) {o : OpId} (he : os.Ended o) :
    os'.Ended o := by
  rcases he with ⟨c, r, h1⟩ | ⟨c, w, h1⟩
  · exact .inl ⟨c, r, by rw [h]; exact List.mem_append_left _ h1⟩
  · exact .inr ⟨c, w, by rw [h]; exact List.mem_append_left _ h1⟩

theorem ended_congr {os os' : OSt K V R} (h : os'.hist = os.hist) {o : OpId} : os'.Ended o ↔ os.Ended o := by
  unfold OSt.Ended; rw [h]

theorem OSt.Numbered.same {os os' : OSt K V R} (h : os.Numbered) (h1 : os'.hist = os.hist) (h2 : os'.seq = os.seq)
    (h3 : ∀ t c p, os'.th t = .run c p → ∃ c p, os.th t = .run c p) : os'.Numbered := by
  intro o ho
  obtain ⟨h4, h5⟩ := h o ((ended_congr h1).1 ho)
  rw [h2]
  refine ⟨h4, fun h6 c p h7 => ?_⟩
  obtain ⟨c', p', h8⟩ := h3 _ _ _ h7
  exact h5 h6 c' p' h8

theorem run_setOTh {th : Tid → OTh K V R} {t u : Tid} {x : OTh K V R} {c : OCall K V R} {p : OProg K V R c}
    (h : setOTh th t x u = .run c p) (h1 : ∃ c p, th t = .run c p) : ∃ c p, th u = .run c p := by
  unfold setOTh at h
  split at h
  · rename_i hu; subst hu; exact h1
  · exact ⟨c, p, h⟩

theorem OSt.Numbered.ends {os os' : OSt K V R} {t : Tid} {e : OHEv K V R} (h : os.Numbered) (h1 : os'.hist = os.hist ++ [e])
    (h2 : os'.seq = os.seq) (h3 : os'.th = setOTh os.th t .out) (hr : ∃ c p, os.th t = .run c p)
    (he : (∃ c r, e = .ret (t, os.seq t) c r) ∨ ∃ c w, e = .panic (t, os.seq t) c w) : os'.Numbered := by
  have hend : ∀ o, os'.Ended o → os.Ended o ∨ o = (t, os.seq t) := by
    rintro o (⟨c, r, hm⟩ | ⟨c, w, hm⟩)
    · rw [h1, List.mem_append, List.mem_singleton] at hm
      rcases hm with hm | hm
      · exact .inl (.inl ⟨c, r, hm⟩)
      · subst hm
        rcases he with ⟨c', r', h5⟩ | ⟨c', w', h5⟩
        · exact .inr (by injection h5)
        · cases h5
    · rw [h1, List.mem_append, List.mem_singleton] at hm
      rcases hm with hm | hm
      · exact .inl (.inr ⟨c, w, hm⟩)
      · subst hm
        rcases he with ⟨c', r', h5⟩ | ⟨c', w', h5⟩
        · cases h5
        · exact .inr (by injection h5)
  have hnr : ∀ c p, os'.th t ≠ .run c p := by
    intro c p; rw [h3]; unfold setOTh; simp
  intro o ho
  rw [h2]
  rcases hend o ho with h4 | h4
  · refine ⟨(h o h4).1, fun h5 c p h6 => ?_⟩
    rw [h3] at h6
    obtain ⟨c', p', h7⟩ := run_setOTh h6 hr
    exact (h o h4).2 h5 c' p' h7
  · subst h4
    exact ⟨le_refl _, fun _ => hnr⟩

theorem own_numbered {t : Tid} {os os' : OSt K V R} (h : os.Numbered) (hs : OOwn C gd t os os') : os'.Numbered := by
  cases hs with
  | act h1 h2 h3 => exact h.same rfl rfl fun u c p hu => run_setOTh hu ⟨_, _, h1⟩
  | loop h1 h2 => exact h.same rfl rfl fun u c p hu => run_setOTh hu ⟨_, _, h1⟩
  | ret h1 h2 => exact h.ends rfl rfl rfl ⟨_, _, h1⟩ (.inl ⟨_, _, rfl⟩)
  | panic h1 h2 => exact h.ends rfl rfl rfl ⟨_, _, h1⟩ (.inr ⟨_, _, rfl⟩)

theorem step_numbered {os os' : OSt K V R} (h : os.Numbered) (hs : OStep C gd os os') : os'.Numbered := by
  cases hs with
  | pin g h1 => exact h.same rfl rfl fun u c p hu => ⟨c, p, hu⟩
  | unpin g h1 => exact h.same rfl rfl fun u c p hu => ⟨c, p, hu⟩
  | abandon t h1 => exact h.same rfl rfl fun u c p hu => run_setOTh hu ⟨_, _, h1⟩
  | inv t c h1 h2 h3 =>
    intro o ho
    have ho' : os.Ended o := by
      rcases ho with ⟨c', r, hm⟩ | ⟨c', w, hm⟩ <;>
        (have hm := List.mem_append.1 hm; rw [List.mem_singleton] at hm)
      · exact .inl ⟨c', r, hm.resolve_right fun h => by cases h⟩
      · exact .inr ⟨c', w, hm.resolve_right fun h => by cases h⟩
    obtain ⟨h4, h5⟩ := h o ho'
    show o.2 ≤ (if o.1 = t then os.seq t + 1 else os.seq o.1) ∧ _
    by_cases hot : o.1 = t
    · rw [if_pos hot]
      refine ⟨by rw [hot] at h4; omega, fun h6 => ?_⟩
      have h6 : o.2 = (if o.1 = t then os.seq t + 1 else os.seq o.1) := h6
      rw [if_pos hot] at h6
      rw [hot] at h4
      omega
    · rw [if_neg hot]
      refine ⟨h4, fun h6 c' p h7 => ?_⟩
      have h6 : o.2 = (if o.1 = t then os.seq t + 1 else os.seq o.1) := h6
      rw [if_neg hot] at h6
      have h7 : setOTh os.th t _ o.1 = .run c' p := h7
      unfold setOTh at h7
      rw [if_neg hot] at h7
      exact h5 h6 c' p h7
  | own t h1 => exact own_numbered h h1
  | answer t a h1 => exact h.same rfl rfl fun u c p hu => ⟨c, p, hu⟩
  | closurePanics t h1 h2 => exact h.ends rfl rfl rfl ⟨_, _, h1⟩ (.inr ⟨_, _, rfl⟩)
  | freeEntry x h1 h2 h3 => exact h.same rfl rfl fun u c p hu => ⟨c, p, hu⟩
  | freeTable x h1 h2 h3 => exact h.same rfl rfl fun u c p hu => ⟨c, p, hu⟩

theorem OReach.numbered {os : OSt K V R} (h : OReach C gd os) : os.Numbered := by
  induction h with
  | init h =>
    obtain ⟨_, _, _, _, _, h⟩ := h
    rintro o (⟨c, r, hm⟩ | ⟨c, w, hm⟩) <;> (rw [h] at hm; cases hm)
  | step _ hs ih => exact step_numbered ih hs

theorem fill_wf {c : OCall K V R} {l : List (Ans V R)} (h : ∀ d, c = .plain d → d.WF) : (c.fill l).WF := by
  have hr : ∀ {I O : Type} (l : List O), (Closure.replay (I := I) l).WF := by
    intro I O l s i r hs
    cases s with
    | nil => cases hs; rfl
    | cons o s => cases hs
  cases c with
  | plain d => exact h d rfl
  | updateOrInsertWith k => exact ⟨hr _, hr _⟩
  | _ => exact hr _

/-- A step of an operation is the same step of the operation with known answers. -/
theorem own_close {t : Tid} {os os' : OSt K V R} {G : OpId → List (Ans V R)} (hs : OOwn C gd t os os') (hG : os'.Fits G) :
    SStep C gd (os.close G) (os'.close G) := by
  cases hs with
  | @act c p β a k r σ h1 h2 h3 =>
    have h4 : (os.close G).th t = .run (c.fill (G (t, os.seq t))) (.act a (k (G (t, os.seq t)))) := by
      show (os.th t).close _ = _
      rw [h1]; show Th.run _ (p _) = _
      rw [h2 _ (hG (t, os.seq t)).1]
    have h5 := SStep.act (gd := gd) t h4 (he := h3)
    refine Eq.subst (motive := fun x => SStep C gd (os.close G) x) ?_ h5
    unfold OSt.close
    simp only [SSt.mk.injEq, true_and, and_true]
    exact (OTh.close_setOTh (G := fun u => G (u, os.seq u)) (x := .run c fun l => k l r)).symm
  | @loop c p h1 h2 =>
    have h4 : (p (G (t, os.seq t))).isIter := h2 _ (hG (t, os.seq t)).1
    have h5 : (os.close G).th t = .run (c.fill (G (t, os.seq t))) (p (G (t, os.seq t))) := by
      show (os.th t).close _ = _
      rw [h1]; rfl
    cases hp : p (G (t, os.seq t)) with
    | iter body s k =>
      rw [hp] at h5
      have h6 := SStep.loop (C := C) (gd := gd) t h5
      refine Eq.subst (motive := fun x => SStep C gd (os.close G) x) ?_ h6
      unfold OSt.close
      simp only [SSt.mk.injEq, true_and, and_true]
      rw [OTh.close_setOTh (G := fun u => G (u, os.seq u))]
      have : OTh.close (G (t, os.seq t)) (.run c fun l => (p l).unroll) = .run _ (Prog.unfoldIter body s k) := by
        show Th.run _ (p _).unroll = _
        rw [hp]; rfl
      rw [this]
    | _ => rw [hp] at h4; exact h4.elim
  | @ret c p r h1 h2 =>
    have he : G (t, os.seq t) = os.given (t, os.seq t) :=
      (hG (t, os.seq t)).2 (.inl ⟨c, r, List.mem_append_right _ (List.mem_singleton.2 rfl)⟩)
    have h4 : (os.close G).th t = .run (c.fill (G (t, os.seq t))) (.ret (r (G (t, os.seq t)))) := by
      show (os.th t).close _ = _
      rw [h1]; show Th.run _ (p _) = _
      rw [h2 _ (hG (t, os.seq t)).1]
    have h5 := SStep.ret (C := C) (gd := gd) t h4
    refine Eq.subst (motive := fun x => SStep C gd (os.close G) x) ?_ h5
    unfold OSt.close
    simp only [SSt.mk.injEq, true_and, List.map_append]
    refine ⟨(OTh.close_setOTh (G := fun u => G (u, os.seq u)) (x := .out)).symm, ?_, rfl⟩
    funext g
    unfold OSt.now
    rw [he]
  | @panic c p w h1 h2 =>
    have h4 : (os.close G).th t = .run (c.fill (G (t, os.seq t))) (.panic w) := by
      show (os.th t).close _ = _
      rw [h1]; show Th.run _ (p _) = _
      rw [h2 _ (hG (t, os.seq t)).1]
    have h5 := SStep.panic (C := C) (gd := gd) t h4
    refine Eq.subst (motive := fun x => SStep C gd (os.close G) x) ?_ h5
    unfold OSt.close
    simp only [SSt.mk.injEq, true_and, List.map_append]
    exact ⟨(OTh.close_setOTh (G := fun u => G (u, os.seq u)) (x := .out)).symm, rfl⟩

theorem OSt.Fits.back {os os' : OSt K V R} {l : List (OHEv K V R)} {G : OpId → List (Ans V R)} (h : os'.Fits G)
    (h1 : os'.given = os.given) (h2 : os'.hist = os.hist ++ l) : os.Fits G := by
  intro o
  rw [← h1]
  exact ⟨(h o).1, fun he => (h o).2 (ended_mono h2 he)⟩

/-- Every execution with closures that do anything is, whatever answers the closures that have not finished yet will give, an
execution with closures that know their answers in advance. -/
theorem OReach.close {os : OSt K V R} (h : OReach C gd os) (G : OpId → List (Ans V R)) (hG : os.Fits G) :
    SReach C gd (os.close G) := by
  induction h generalizing G with
  | @init os h =>
    obtain ⟨h1, h2, h3, h4, h5, h6⟩ := h
    refine .init ⟨h1, ?_, h3, h5, ?_⟩
    · show (fun t => (os.th t).close _) = _
      rw [h2]; rfl
    · show os.hist.map _ = []
      rw [h6]; rfl
  | @step os os' hr hs ih =>
    have hnum := hr.numbered
    cases hs with
    | pin g h1 => exact .step (ih G (hG.back (l := []) rfl (List.append_nil _).symm)) (.pin g h1)
    | unpin g h1 =>
      refine .step (ih G (hG.back (l := []) rfl (List.append_nil _).symm)) (.unpin g fun t c p hg ht => ?_)
      have ht : (os.th t).close _ = .run c p := ht
      cases hth : os.th t with
      | run c' p' => exact h1 t c' p' hg hth
      | out => rw [hth] at ht; cases ht
      | gone => rw [hth] at ht; cases ht
    | @abandon t c p h1 =>
      have h2 : (os.close G).th t = .run (c.fill (G (t, os.seq t))) (p (G (t, os.seq t))) := by
        show (os.th t).close _ = _
        rw [h1]; rfl
      have h3 := SStep.abandon (C := C) (gd := gd) t h2
      refine .step (ih G (hG.back (l := []) rfl (List.append_nil _).symm)) ?_
      refine Eq.subst (motive := fun x => SStep C gd (os.close G) x) ?_ h3
      unfold OSt.close
      simp only [SSt.mk.injEq, true_and, and_true]
      exact (OTh.close_setOTh (G := fun u => G (u, os.seq u)) (x := .gone)).symm
    | inv t c h1 h2 h3 =>
      have h4 : (os.close G).th t = .out := by
        show (os.th t).close _ = _
        rw [h1]; rfl
      have h5 := SStep.inv (C := C) (gd := gd) (ss := os.close G) t (c.fill (G (t, os.seq t + 1))) h4 h2 (fill_wf h3)
      refine .step (ih G (hG.back rfl rfl)) ?_
      refine Eq.subst (motive := fun x => SStep C gd (os.close G) x) ?_ h5
      unfold OSt.close
      simp only [SSt.mk.injEq, true_and, List.map_append, List.map_cons, List.map_nil, OHEv.close]
      refine ⟨?_, trivial⟩
      funext u
      unfold setTh setOTh
      by_cases hu : u = t
      · subst hu
        simp only [if_true]
        rfl
      · simp [hu]
    | own t h1 =>
      refine .step (ih G ?_) (own_close h1 hG)
      cases h1 with
      | act h1 h2 h3 => exact hG.back (l := []) rfl (List.append_nil _).symm
      | loop h1 h2 => exact hG.back (l := []) rfl (List.append_nil _).symm
      | ret h1 h2 => exact hG.back rfl rfl
      | panic h1 h2 => exact hG.back rfl rfl
    | answer t a h1 =>
      refine ih G fun o => ⟨?_, fun he => ?_⟩
      · refine List.IsPrefix.trans ?_ (hG o).1
        show os.given o <+: if o = (t, os.seq t) then os.given o ++ [a] else os.given o
        split
        · exact List.prefix_append _ _
        · exact List.prefix_refl _
      · have h2 := (hG o).2 he
        have h2 : G o = if o = (t, os.seq t) then os.given o ++ [a] else os.given o := h2
        rw [if_neg] at h2
        · exact h2
        · intro ho
          subst ho
          obtain ⟨c, p, h3, _⟩ := h1
          exact (hnum _ he).2 rfl c p h3
    | @closurePanics t c p h1 h2 =>
      have he : G (t, os.seq t) = os.given (t, os.seq t) :=
        (hG (t, os.seq t)).2 (.inr ⟨c, _, List.mem_append_right _ (List.mem_singleton.2 rfl)⟩)
      have h4 : (os.close G).th t = .run (c.fill (G (t, os.seq t))) (.panic .user) := by
        show (os.th t).close _ = _
        rw [h1]
        show Th.run _ (p _) = _
        generalize G (t, os.seq t) = l at he
        subst he
        have h2 : p (os.given (t, os.seq t)) = _ := h2
        rw [h2]
        rfl
      have h5 := SStep.panic (C := C) (gd := gd) t h4
      refine .step (ih G (hG.back rfl rfl)) ?_
      refine Eq.subst (motive := fun x => SStep C gd (os.close G) x) ?_ h5
      unfold OSt.close
      simp only [SSt.mk.injEq, true_and, List.map_append]
      exact ⟨(OTh.close_setOTh (G := fun u => G (u, os.seq u)) (x := .out)).symm, rfl⟩
    | freeEntry x h1 h2 h3 =>
      exact .step (ih G (hG.back (l := []) rfl (List.append_nil _).symm)) (.freeEntry x h1 h2 h3)
    | freeTable x h1 h2 h3 =>
      exact .step (ih G (hG.back (l := []) rfl (List.append_nil _).symm)) (.freeTable x h1 h2 h3)

end Papaya
