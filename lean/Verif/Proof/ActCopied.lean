import Verif.Proof.ActCopy

/-! # Setting the `COPIED` bit (incremental mode) -/

set_option linter.unusedSectionVars false
set_option linter.unusedVariables false

namespace Papaya

variable {K V : Type} [DecidableEq K]

namespace GSt

variable {C : Cfg K} {S S' : GSt K V}

/-- Setting the `COPIED` bit. -/
def copiedSt (S : GSt K V) (s j : Nat) : GSt K V :=
  S.slSt s j { S.slot s j with copied := true } S.nIds S.info S.cs S.log S.tok

theorem copiedSt_slot (s j T' i' : Nat) : (S.copiedSt s j).slot T' i' = S.slot T' i' ∨
    (T' = s ∧ i' = j ∧ (S.copiedSt s j).slot T' i' = { S.slot T' i' with copied := true }) := by
  rw [copiedSt, slSt_slot]
  split
  · rename_i hh; obtain ⟨rfl, rfl⟩ := hh; exact .inr ⟨rfl, rfl, rfl⟩
  · exact .inl rfl

theorem copiedSt_Inv {t : Tid} {s N j T0 i0 : Nat} {e : Entry K V} (h : S.Inv C) (hi : C.inc = true)
    (hpr : S.CopyPair s N) (hcs : S.cs N j = .placed t T0 i0) (hmd : S.md T0 i0 ≠ EMPTY)
    (hk0 : S.kslot s j e) (hnc : ¬ S.copiedF s j) : (S.copiedSt s j).Inv C := by
  have hsrc : s = S.rt := by
    rcases marked_src h hpr (by rw [hcs]; intro l hl; cases hl) (kslot_idx h.s h.p hk0) with h1 | ⟨h1, _⟩
    · exact h1
    · exact absurd h1 (h.s.incab hi N)
  obtain ⟨hs, hp, hc, he, hl, hM, hN⟩ := h
  set S' := S.copiedSt s j with hS'
  have hsl := copiedSt_slot (S := S) s j
  rw [← hS'] at hsl
  have hk : S'.kslot = S.kslot := by
    funext T' i' e'
    unfold kslot
    rcases hsl T' i' with h1 | ⟨_, _, h1⟩ <;> rw [h1]
  have hcp : S'.copying = S.copying := by
    funext T' i'
    unfold copying
    rcases hsl T' i' with h1 | ⟨_, _, h1⟩ <;> rw [h1]
  have hbo : ∀ T' i', (S'.slot T' i').borrowed = (S.slot T' i').borrowed := by
    intro T' i'
    rcases hsl T' i' with h1 | ⟨_, _, h1⟩ <;> rw [h1]
  have hcdT : S'.copiedF s j := by
    unfold copiedF; rw [hS', copiedSt, slSt_slot, if_pos ⟨rfl, rfl⟩]
  have hcd : ∀ T' i', S'.copiedF T' i' ↔ S.copiedF T' i' ∨ (T' = s ∧ i' = j) := by
    intro T' i'
    by_cases hh : T' = s ∧ i' = j
    · obtain ⟨rfl, rfl⟩ := hh; simp [hcdT]
    · have : S'.slot T' i' = S.slot T' i' := by rw [hS', copiedSt, slSt_slot, if_neg hh]
      unfold copiedF; rw [this]; simp [hh]
  have hmv : ∀ T' i', S'.moved T' i' ↔ S.moved T' i' ∨ (T' = s ∧ i' = j ∧ S.md s j ≠ EMPTY) := by
    intro T' i'
    unfold moved
    rw [hcd]
    constructor
    · rintro ⟨h1 | ⟨rfl, rfl⟩, h2⟩
      · exact .inl ⟨h1, h2⟩
      · exact .inr ⟨rfl, rfl, h2⟩
    · rintro (⟨h1, h2⟩ | ⟨rfl, rfl, h2⟩)
      · exact ⟨.inl h1, h2⟩
      · exact ⟨.inr ⟨rfl, rfl⟩, h2⟩
  have hdead : S'.dead = S.dead := by funext T i k; unfold dead; rw [hk]; rfl
  have hov : S'.over C = S.over C := by funext T k; unfold over; rw [hdead]; rfl
  have hps : ∀ {T' k'}, S.passed C T' k' → S'.passed C T' k' := by
    rintro T' k' (h | ⟨j, e', h1, h2, h3⟩)
    · exact .inl (by rw [hov]; exact h)
    · exact .inr ⟨j, e', by rw [hk]; exact h1, h2, (hmv _ _).2 (.inl h3)⟩
  have hloc : S.loc N j = some (T0, i0) := by unfold loc; rw [hcs]; rfl
  have hNe := pair_inc hs hi hpr
  obtain ⟨e1, g1, g2, g3, g4, g5, g6⟩ := hc.c4 s N j T0 i0 hloc hpr
  have := kslot_inj g1 hk0
  subst this
  have hnm : ¬ S.moved s j := fun h => hnc h.1
  have g7 := g6 hsrc (fun h => hnm h.2)
  -- the only copy beyond the root is the one placed
  have huniq : ∀ T' i', S.rt < T' → S.kslot T' i' e1 → T' = T0 ∧ i' = i0 := by
    intro T' i' hlt h1
    rcases hp.f1 _ _ _ h1 hlt with ⟨j', h3, h4, h5⟩ | ⟨_, h3⟩
    · have := kslot_unique hp hk0 (hsrc ▸ h3) rfl
      subst this
      rw [if_pos hi, ← hsrc, ← hNe, hloc] at h5
      cases h5; exact ⟨rfl, rfl⟩
    · exact absurd (hsrc ▸ passed_kslot hp h3 (hsrc ▸ hk0) rfl) hnm
  have hhid : ∀ T' e', e' ≠ e1 → (S'.hid T' e' ↔ S.hid T' e') := by
    intro T' e' hne
    constructor
    · rintro ⟨h1, j', h2, h3⟩
      rw [hk] at h2
      exact ⟨h1, j', h2, fun h => h3 ((hmv _ _).2 (.inl h))⟩
    · rintro ⟨h1, j', h2, h3⟩
      refine ⟨h1, j', by rw [hk]; exact h2, fun h => ?_⟩
      rcases (hmv _ _).1 h with h | ⟨h4, h5, _⟩
      · exact h3 h
      · have h2' : S.kslot s j e' := by rw [hsrc, ← h5]; exact h2
        exact hne (kslot_inj h2' hk0)
  have hhid' : ∀ T' e', S'.hid T' e' → S.hid T' e' := by
    rintro T' e' ⟨h1, j', h2, h3⟩
    rw [hk] at h2
    exact ⟨h1, j', h2, fun h => h3 ((hmv _ _).2 (.inl h))⟩
  have hnmT : ∀ T' i', S.rt < T' → S.kslot T' i' e1 → ¬ S'.moved T' i' := by
    intro T' i' h1 h2 h3
    rcases (hmv _ _).1 h3 with h3 | ⟨h3, _⟩
    · have := moved_le hp h2 h3.1; omega
    · omega
  have hlive : ∀ k' e', S'.Live k' e' ↔ S.Live k' e' := by
    intro k' e'
    by_cases hne : e' = e1
    · subst hne
      by_cases hE : S.md s j = EMPTY
      · have hmv' : S'.moved = S.moved := by
          funext T' i'; apply propext; rw [hmv]; constructor
          · rintro (h | ⟨_, _, h⟩)
            · exact h
            · exact absurd hE h
          · exact .inl
        have : S'.vis = S.vis := by
          funext T' i' e'; unfold vis hid; rw [hk, hmv']; rfl
        unfold Live; rw [this]; exact Iff.rfl
      · constructor
        · rintro ⟨T', i', ⟨h1, h2, h3, h4, h5⟩, h6, h7⟩
          exact ⟨s, j, ⟨by omega, hpr.2.2.1.2.2, hk0, fun h => by have := h.1; omega, hnm⟩, hE, h7⟩
        · rintro ⟨T', i', _, _, h7⟩
          refine ⟨T0, i0, ⟨?_, hs.incab hi T0, by rw [hk]; exact g7, ?_, hnmT _ _ (by omega) g7⟩, hmd, h7⟩
          · show S.rt ≤ T0; omega
          · rintro ⟨h1, j', h2, h3⟩
            rw [hk] at h2
            have h2' : S.kslot s j' e' := hsrc ▸ h2
            have := kslot_unique hp hk0 h2' rfl
            subst this
            exact h3 ((hmv _ _).2 (.inr ⟨hsrc.symm, rfl, hE⟩))
    · have hmvk : ∀ T' i', S.kslot T' i' e' → (S'.moved T' i' ↔ S.moved T' i') := by
        intro T' i' h1
        rw [hmv]
        constructor
        · rintro (h | ⟨rfl, rfl, _⟩)
          · exact h
          · exact absurd (kslot_inj h1 hk0) hne
        · exact .inl
      have hvis : ∀ T' i', S'.vis T' i' e' ↔ S.vis T' i' e' := by
        intro T' i'
        unfold vis
        rw [hk, hhid _ _ hne]
        constructor
        · rintro ⟨h1, h2, h3, h4, h5⟩
          exact ⟨h1, h2, h3, h4, fun h => h5 ((hmvk _ _ h3).2 h)⟩
        · rintro ⟨h1, h2, h3, h4, h5⟩
          exact ⟨h1, h2, h3, h4, fun h => h5 ((hmvk _ _ h3).1 h)⟩
      constructor
      · rintro ⟨T', i', h1, h2⟩; exact ⟨T', i', (hvis _ _).1 h1, h2⟩
      · rintro ⟨T', i', h1, h2⟩; exact ⟨T', i', (hvis _ _).2 h1, h2⟩
  refine ⟨?_, ?_, ?_, he.congr rfl rfl rfl rfl rfl rfl, ?_, ?_, hN⟩
  · refine ⟨hs.none, hs.some, hs.next, hs.cap, ?_, hs.prom, hs.incab, hs.blkab⟩
    intro T' hT'
    obtain ⟨h1, h2⟩ := hs.out T' hT'
    have hT'' : S.nTabs ≤ T' := hT'
    refine ⟨fun i' => ?_, h2⟩
    rcases hsl T' i' with h3 | ⟨rfl, _, _⟩
    · rw [h3]; exact h1 i'
    · have := hpr.2.2.1.1; omega
  · refine ⟨?_, ?_, ?_, ?_, ?_, ?_, ?_, ?_, ?_⟩
    · intro T' i' h
      rcases hsl T' i' with h1 | ⟨_, _, h1⟩
      · rw [h1] at h; exact hp.p1 _ _ h
      · rw [h1] at h; have := congrArg Slot.copied h; simp [Slot.null] at this
    · rw [hk]; exact hp.p2
    · rw [hk]; exact hp.p3
    · rw [hk, hdead]; exact hp.p4
    · rw [hcp]; exact hp.p5
    · intro T' i' e' h1 h2
      rw [hk] at h1; rw [hcp]
      rcases (hcd _ _).1 h2 with h2 | ⟨rfl, rfl⟩
      · exact hp.p7 _ _ _ h1 h2
      · exact ⟨hi, g2⟩
    · intro _ T1 i1 T2 i2 e' h1 h2 hlt
      rw [hk] at h1 h2
      rw [hbo]; exact hp.b1 hi _ _ _ _ _ h1 h2 hlt
    · intro T' i' e' h1 h2
      rw [hk] at h1 ⊢
      rw [hcp]
      rcases hp.f1 _ _ _ h1 h2 with h3 | ⟨h3, h4⟩
      · exact .inl h3
      · exact .inr ⟨h3, hps h4⟩
    · rw [hk, hov]; exact hp.f2
  · refine ⟨hc.c1, hc.c2, ?_, ?_, ?_, hc.c6, hc.c7, hc.c8, ?_, ?_⟩
    · intro s' N' j' l h1 h2
      rw [hcp, hk]
      obtain ⟨h3, h4⟩ := hc.c3 _ _ _ _ h1 h2
      exact ⟨h3, fun e' h5 => ⟨fun h => (hcd _ _).2 (.inl ((h4 e' h5).1 h)), (h4 e' h5).2⟩⟩
    · intro s' N' j' T' i' h1 h2
      rw [hcp, hk]
      obtain ⟨e', h3, h4, h5, h6, h7, h8⟩ := hc.c4 _ _ _ _ _ h1 h2
      exact ⟨e', h3, h4, h5, h6, h7, fun h9 h10 => h8 h9 fun h => h10 ⟨h.1, (hmv _ _).2 (.inl h.2)⟩⟩
    · intro _ j' e' h1 h2
      rw [hk] at h1
      rcases (hcd _ _).1 h2 with h2 | ⟨_, rfl⟩
      · exact hc.c5 hi j' e' h1 h2
      · refine ⟨T0, i0, ?_, hmd⟩
        show S.loc (S.rt + 1) j' = _
        rw [← hsrc, ← hNe]; exact hloc
    · rw [hcp]; exact hc.c9
    · intro hi'; rw [hi] at hi'; cases hi'
  · refine ⟨?_, ?_, ?_, ?_, hl.d1, hl.d2, hl.d3, hl.d4, ?_, ?_, ?_⟩
    · intro k' e'
      rw [hlive]; exact hl.a k' e'
    · rw [hk]; exact hl.u1
    · intro T' i' e' h1 h2 h3 h4 h5
      rw [hk] at h1
      by_cases hne : e' = e1
      · subst hne
        have h3' : S.rt ≤ T' := h3
        rcases Nat.lt_or_eq_of_le h3' with hlt | heq
        · obtain ⟨rfl, rfl⟩ := huniq _ _ hlt h1
          exact absurd h2 hmd
        · exact hl.u2 _ _ _ h1 h2 h3 h4 fun h => by have := h.1; omega
      · exact hl.u2 _ _ _ h1 h2 h3 h4 fun h => h5 ((hhid _ _ hne).2 h)
    · rw [hk]; exact hl.u3
    · rw [hov, hk]; exact hl.l1
    · rw [hk]; exact hl.l2
    · intro _ T' i' e' h1 h2 h3 h4
      rw [hk] at h2
      rcases (hcd _ _).1 h3 with h3 | ⟨rfl, rfl⟩
      · exact hl.n1 hi _ _ _ h1 h2 h3 h4
      · have := kslot_inj h2 hk0
        subst this
        have h4' : S.md T' i' ≠ EMPTY := by
          rcases h4 with h4 | h4
          · exact h4
          · have : T' < S.rt := h4; omega
        have hv : S.vis T' i' e' := ⟨by omega, hpr.2.2.1.2.2, hk0, fun h => by have := h.1; omega, hnm⟩
        refine ⟨S.log, hl.d4 _ (by have := hpr.2.1; omega), List.prefix_refl _, ?_⟩
        rw [abs_vis hs hp hl hv, if_neg h4']
  · refine ⟨?_, hM.own, hM.m2, hM.m3, hM.m4, hM.m4', hM.m5, hM.m6, hM.m7, hM.m7', hM.m8, hM.m9, hM.m10⟩
    rw [hk]; exact hM.m1

theorem copiedSt_Evo {s j : Nat} : Evo S (S.copiedSt s j) := by
  have hsl := copiedSt_slot (S := S) s j
  set S' := S.copiedSt s j with hS'
  have hptr : ∀ T' i', (S'.slot T' i').ptr = (S.slot T' i').ptr := by
    intro T' i'; rcases hsl T' i' with h | ⟨_, _, h⟩ <;> rw [h]
  exact {
    ev := .same rfl rfl
    root := fun r h => ⟨r, h, Nat.le_refl _⟩
    nTabs := Nat.le_refl _
    cap := fun _ _ => rfl
    aborted := fun _ h => h
    wasRoot := fun _ h => h
    md := fun _ _ h => h
    key := fun _ _ e h => .inr ⟨e, by unfold kslot; rw [hptr]; exact h, rfl⟩
    null := fun _ _ h1 h2 => by rw [hptr]; exact h2
    nnull := fun T' i' h => by
      rcases hsl T' i' with h' | ⟨_, _, h'⟩ <;> rw [h']
      · exact h
      · intro h''; have := congrArg Slot.copied h''; simp [Slot.null] at this
    frozen := fun T' i' h => by
      unfold copying
      rcases hsl T' i' with h' | ⟨_, _, h'⟩ <;> rw [h']
      · exact ⟨rfl, h, rfl⟩
      · exact ⟨rfl, h, rfl⟩
    copied := fun T' i' _ _ h => by
      unfold copiedF
      rcases hsl T' i' with h' | ⟨_, _, h'⟩ <;> rw [h']
      exact h
    log := List.prefix_refl _
    dem := fun _ _ _ => rfl
    nlog := fun _ _ => rfl
    nlog' := fun T h h' => absurd h (by have : T + 1 < S.nTabs := h'; omega)
    info := fun _ _ h' => h'
    ops := fun _ _ => rfl
    seq := fun _ => Nat.le_refl _
    counted := fun N' j' l h => h
    lost := fun N' j' h => h
    claim := fun _ => Nat.le_refl _
    prom := fun _ h => h }

theorem copiedSt_Own {t' : Tid} {s j : Nat} : Own t' S (S.copiedSt s j) where
  seq := rfl
  invPos := rfl
  rInv := rfl
  pr := rfl
  pinned := rfl
  cs _ _ _ := rfl
  cs' _ _ _ := rfl
  lock _ h := ⟨h, rfl⟩
  lock' _ h := h
  info _ _ h _ := h
  evs ev h1 := by simp [copiedSt, slSt] at h1
  pays := ⟨[], by simp [copiedSt, slSt], by simp⟩
  tok _ _ _ h := h
  tok' _ _ _ h := h
  tabTok _ := Iff.rfl
  prot e hp := hp

end GSt

end Papaya
