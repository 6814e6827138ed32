import Verif.Proof.ActE

/-! # Storing metadata -/

set_option linter.unusedSectionVars false
set_option linter.unusedVariables false

namespace Papaya

variable {K V : Type} [DecidableEq K]

namespace GSt

/-- Storing metadata, with a new log. -/
def mdSt (S : GSt K V) (T i m : Nat) (log : List (Ev K V)) : GSt K V :=
  { S with toSt := S.toSt.setMd T i m, log := log }

variable {C : Cfg K} {S : GSt K V} {T i m : Nat} {log : List (Ev K V)}

theorem mdSt_md (T' i' : Nat) : (S.mdSt T i m log).md T' i' = if T' = T ∧ i' = i then m else S.md T' i' := rfl

section
variable (hm : m ≠ EMPTY)
include hm

theorem mdSt_md_ne {T' i' : Nat} (h : S.md T' i' ≠ EMPTY) : (S.mdSt T i m log).md T' i' ≠ EMPTY := by
  rw [mdSt_md]; split <;> assumption

theorem mdSt_md_eq {T' i' : Nat} (h : (S.mdSt T i m log).md T' i' = EMPTY) : S.md T' i' = EMPTY := by
  by_contra h'
  exact mdSt_md_ne hm h' h

theorem mdSt_dead {T' i' : Nat} {k : K} (h : S.dead T' i' k) : (S.mdSt T i m log).dead T' i' k :=
  ⟨mdSt_md_ne hm h.1, h.2⟩

theorem mdSt_over {T' : Nat} {k : K} (h : S.over C T' k) : (S.mdSt T i m log).over C T' k :=
  fun n hn => mdSt_dead hm (h n hn)

theorem mdSt_moved {T' i' : Nat} (h : S.moved T' i') : (S.mdSt T i m log).moved T' i' :=
  ⟨h.1, mdSt_md_ne hm h.2⟩

theorem mdSt_passed {T' : Nat} {k : K} (h : S.passed C T' k) : (S.mdSt T i m log).passed C T' k := by
  rcases h with h | ⟨j, e, h1, h2, h3⟩
  · exact .inl (mdSt_over hm h)
  · exact .inr ⟨j, e, h1, h2, mdSt_moved hm h3⟩

theorem mdSt_P (hp : S.InvP C) (hnn : S.slot T i ≠ Slot.null)
    (hk : ∀ e, S.kslot T i e → m = C.h2 e.key) : (S.mdSt T i m log).InvP C := by
  refine ⟨?_, ?_, hp.p3, ?_, hp.p5, hp.p7, hp.b1, ?_, ?_⟩
  · intro T' i' h
    rw [mdSt_md, if_neg]
    · exact hp.p1 T' i' h
    · rintro ⟨rfl, rfl⟩; exact hnn h
  · intro T' i' e h
    rw [mdSt_md]
    split
    · rename_i he
      obtain ⟨rfl, rfl⟩ := he
      exact .inr (hk e h)
    · exact hp.p2 T' i' e h
  · intro T' i' e h
    obtain ⟨n, h1, h2, h3⟩ := hp.p4 T' i' e h
    exact ⟨n, h1, h2, fun m' hm' => mdSt_dead hm (h3 m' hm')⟩
  · intro T' i' e h hlt
    rcases hp.f1 T' i' e h hlt with h | ⟨h1, h2⟩
    · exact .inl h
    · exact .inr ⟨h1, mdSt_passed hm h2⟩
  · intro hi T' i' e h P h1 h2
    exact mdSt_over hm (hp.f2 hi T' i' e h P h1 h2)

theorem mdSt_C (hc : S.InvC C) : (S.mdSt T i m log).InvC C := by
  refine ⟨hc.c1, hc.c2, ?_, ?_, ?_, hc.c6, hc.c7, hc.c8, hc.c9, hc.c10⟩
  · intro s N j l h1 h2
    obtain ⟨h3, h4⟩ := hc.c3 s N j l h1 h2
    refine ⟨h3, fun e he => ⟨(h4 e he).1, ?_⟩⟩
    obtain ⟨T', i', h5, h6⟩ := (h4 e he).2
    exact ⟨T', i', h5, mdSt_md_ne hm h6⟩
  · intro s N j T' i' h1 h2
    obtain ⟨e, h3, h4, h5, h6, h7, h8⟩ := hc.c4 s N j T' i' h1 h2
    exact ⟨e, h3, h4, h5, h6, h7, fun h9 h10 => h8 h9 fun h11 => h10 ⟨h11.1, mdSt_moved hm h11.2⟩⟩
  · intro hi j e h1 h2
    obtain ⟨T', i', h3, h4⟩ := hc.c5 hi j e h1 h2
    exact ⟨T', i', h3, mdSt_md_ne hm h4⟩

theorem mdSt_S (hs : S.InvS C) (hnn : S.slot T i ≠ Slot.null) : (S.mdSt T i m log).InvS C := by
  refine ⟨hs.none, hs.some, hs.next, hs.cap, ?_, hs.prom, hs.incab, hs.blkab⟩
  intro T' hT
  obtain ⟨h1, h2, h3⟩ := hs.out T' hT
  refine ⟨h1, ?_, h3⟩
  intro i'
  rw [mdSt_md, if_neg]
  · exact h2 i'
  · rintro ⟨rfl, rfl⟩; exact hnn (h1 _)

theorem mdSt_Evo (hl : S.log <+: log) (hs : S.InvS C) : Evo S (S.mdSt T i m log) where
  ev := .same rfl rfl
  root r h := ⟨r, h, Nat.le_refl _⟩
  nTabs := Nat.le_refl _
  cap _ _ := rfl
  aborted _ h := h
  wasRoot _ h := h
  md _ _ h := mdSt_md_ne hm h
  key _ _ e h := .inr ⟨e, h, rfl⟩
  null _ _ _ h := h
  nnull _ _ h := h
  frozen _ _ h := ⟨rfl, h, rfl⟩
  copied _ _ _ _ h := h
  log := hl
  dem _ _ _ := rfl
  nlog _ _ := rfl
  nlog' T h h' := absurd h (by have : T + 1 < S.nTabs := h'; omega)
  info _ _ h := h
  ops _ _ := rfl
  seq _ := Nat.le_refl _
  counted _ _ _ h := h
  lost _ _ h := h
  claim _ := Nat.le_refl _
  prom _ h := h

end

/-- No event: the slot is not visible, or already has metadata. -/
theorem mdSt_quiet (h : S.Inv C) (hnn : S.slot T i ≠ Slot.null) (hm : m ≠ EMPTY)
    (hk : ∀ e, S.kslot T i e → m = C.h2 e.key)
    (hq : ∀ e, S.kslot T i e → S.md T i = EMPTY → S.rt ≤ T → ¬ S.aborted T → S.hid T e) :
    (S.mdSt T i m S.log).Inv C := by
  obtain ⟨hs, hp, hc, he, hl, hM, hn⟩ := h
  have hmv : ∀ T' i' e, S.kslot T' i' e → S.rt ≤ T' → ((S.mdSt T i m S.log).moved T' i' ↔ S.moved T' i') := by
    intro T' i' e h hr
    refine ⟨fun h' => ⟨h'.1, ?_⟩, mdSt_moved hm⟩
    intro hE
    have h2 := h'.2
    rw [mdSt_md] at h2
    split at h2
    · rename_i heq
      obtain ⟨rfl, rfl⟩ := heq
      have hle := moved_le hp h h'.1
      have : T' = S.rt := by omega
      subst this
      have := (hq e h hE (Nat.le_refl _) (wasRoot_rt hs (kslot_lt hs h)).2.2).1
      omega
    · exact h2 hE
  have hhid : ∀ T' e, (S.mdSt T i m S.log).hid T' e ↔ S.hid T' e := by
    intro T' e
    constructor
    · rintro ⟨h1, j, h2, h3⟩
      exact ⟨h1, j, h2, fun h4 => h3 (mdSt_moved hm h4)⟩
    · rintro ⟨h1, j, h2, h3⟩
      exact ⟨h1, j, h2, fun h4 => h3 ((hmv _ _ _ h2 (Nat.le_refl _)).1 h4)⟩
  have hvis : ∀ T' i' e, (S.mdSt T i m S.log).vis T' i' e ↔ S.vis T' i' e := by
    intro T' i' e
    constructor
    · rintro ⟨h1, h2, h3, h4, h5⟩
      exact ⟨h1, h2, h3, fun h => h4 ((hhid _ _).2 h), fun h => h5 (mdSt_moved hm h)⟩
    · rintro ⟨h1, h2, h3, h4, h5⟩
      exact ⟨h1, h2, h3, fun h => h4 ((hhid _ _).1 h), fun h => h5 ((hmv _ _ _ h3 h1).1 h)⟩
  refine ⟨mdSt_S hm hs hnn, mdSt_P hm hp hnn hk, mdSt_C hm hc, he.congr rfl rfl rfl rfl rfl rfl, ?_,
    ⟨hM.m1, hM.own, hM.m2, hM.m3, hM.m4, hM.m4', hM.m5, hM.m6, hM.m7, hM.m7', hM.m8, hM.m9, hM.m10⟩, hn⟩
  refine ⟨?_, ?_, ?_, hl.u3, hl.d1, hl.d2, hl.d3, hl.d4, ?_, hl.l2, ?_⟩
  · intro k e
    refine (hl.a k e).trans ?_
    constructor
    · rintro ⟨T', i', h1, h2, h3⟩
      exact ⟨T', i', (hvis _ _ _).2 h1, mdSt_md_ne hm h2, h3⟩
    · rintro ⟨T', i', h1, h2, h3⟩
      refine ⟨T', i', (hvis _ _ _).1 h1, ?_, h3⟩
      intro hE
      rw [mdSt_md] at h2
      split at h2
      · rename_i heq
        obtain ⟨rfl, rfl⟩ := heq
        have h1' := (hvis _ _ _).1 h1
        exact h1'.2.2.2.1 (hq e h1'.2.2.1 hE h1'.1 h1'.2.1)
      · exact h2 hE
  · intro id x h1 h2
    obtain ⟨T', i', h3, h4, h5, h6, h7, h8⟩ := hl.u1 id x h1 h2
    refine ⟨T', i', h3, h4, ?_, h6, h7, h8⟩
    rw [mdSt_md, if_neg]
    · exact h5
    · rintro ⟨rfl, rfl⟩
      obtain ⟨h9, j, h10, h11⟩ := hq _ h4 h5 h6 h7
      have := hl.u3 _ _ _ _ _ _ h1 h3 h10
      omega
  · intro T' i' e h1 h2 h3 h4 h5
    exact hl.u2 T' i' e h1 (mdSt_md_eq hm h2) h3 h4 fun h => h5 ((hhid _ _).2 h)
  · intro T' k h1 h2 h3
    rcases hl.l1 T' k h1 h2 h3 with h | ⟨i', e, h4, h5, h6⟩
    · exact .inl ⟨h.1, mdSt_over hm h.2⟩
    · exact .inr ⟨i', e, h4, h5, mdSt_md_ne hm h6⟩
  · intro hi T' i' e h1 h2 h3 h4
    refine hl.n1 hi T' i' e h1 h2 h3 ?_
    by_cases hlt : T' < S.rt
    · exact .inr hlt
    · left
      have h4' : (S.mdSt T i m S.log).md T' i' ≠ EMPTY := by
        rcases h4 with h4 | h4
        · exact h4
        · exact absurd h4 hlt
      exact ((hmv T' i' e h2 (by omega)).1 ⟨h3, h4'⟩).2

/-- The slot becomes readable: its entry is inserted in the abstract map. -/
theorem mdSt_event {e : Entry K V} {x : EInfo K V} (h : S.Inv C) (hm : m = C.h2 e.key)
    (hk : S.kslot T i e) (hE : S.md T i = EMPTY) (hr : S.rt ≤ T) (ha : ¬ S.aborted T) (hh : ¬ S.hid T e)
    (hx : S.info e.id = some x) :
    (S.mdSt T i m (S.log ++ [⟨x.op, e.key, none, some e⟩])).Inv C := by
  obtain ⟨hs, hp, hc, he, hl, hM, hn⟩ := h
  have hm' : m ≠ EMPTY := by rw [hm]; exact h2_ne_EMPTY _
  set ev : Ev K V := ⟨x.op, e.key, none, some e⟩ with hev
  set S' := S.mdSt T i m (S.log ++ [ev]) with hS'
  have hnn : S.slot T i ≠ Slot.null := by
    intro h0; unfold kslot at hk; rw [h0] at hk; cases hk
  have hk' : ∀ e, S.kslot T i e → m = C.h2 e.key := fun e' h' => by rw [kslot_inj h' hk]; exact hm
  have hv : S.vis T i e := ⟨hr, ha, hk, hh, fun h => h.2 hE⟩
  have habs : abs S.log e.key = none := by rw [abs_vis hs hp hl hv, if_pos hE]
  obtain ⟨hnl, x', hx', hhome⟩ := hl.u2 T i e hk hE hr ha hh
  rw [hx] at hx'; cases hx'
  have hxe : x.entry = e := by
    obtain ⟨x', h1, h2⟩ := hp.p3 _ _ _ hk
    rw [hx] at h1; cases h1; exact h2
  have hu1 := hl.u1 _ x hx (by rw [hxe]; exact hnl)
  obtain ⟨_, _, _, _, _, _, _, heff⟩ := hu1
  rw [hxe] at heff
  have hnop : ∀ ev' ∈ S.log, ev'.op ≠ x.op := he.e3 _ x hx (by rw [hxe]; exact hnl)
  have hbk : ∀ e', e'.key ≠ e.key → ∀ T' i', S.kslot T' i' e' → ¬ (T' = T ∧ i' = i) := by
    rintro e' hne T' i' h ⟨rfl, rfl⟩
    exact hne (by rw [kslot_inj h hk])
  have hmv : ∀ e', e'.key ≠ e.key → ∀ T' i', S.kslot T' i' e' → (S'.moved T' i' ↔ S.moved T' i') := by
    intro e' hne T' i' h
    have : S'.md T' i' = S.md T' i' := by rw [hS', mdSt_md, if_neg (hbk e' hne T' i' h)]
    unfold moved; rw [this]; exact Iff.rfl
  have hhid : ∀ e', e'.key ≠ e.key → ∀ T', S'.hid T' e' ↔ S.hid T' e' := by
    intro e' hne T'
    constructor
    · rintro ⟨h1, j, h2, h3⟩
      exact ⟨h1, j, h2, fun h4 => h3 (mdSt_moved hm' h4)⟩
    · rintro ⟨h1, j, h2, h3⟩
      exact ⟨h1, j, h2, fun h4 => h3 ((hmv _ hne _ _ h2).1 h4)⟩
  have hvis : ∀ e', e'.key ≠ e.key → ∀ T' i', S'.vis T' i' e' ↔ S.vis T' i' e' := by
    intro e' hne T' i'
    constructor
    · rintro ⟨h1, h2, h3, h4, h5⟩
      exact ⟨h1, h2, h3, fun h => h4 ((hhid _ hne _).2 h), fun h => h5 (mdSt_moved hm' h)⟩
    · rintro ⟨h1, h2, h3, h4, h5⟩
      exact ⟨h1, h2, h3, fun h => h4 ((hhid _ hne _).1 h), fun h => h5 ((hmv _ hne _ _ h3).1 h)⟩
  have hS'S : S'.InvS C := mdSt_S hm' hs hnn
  have hS'P : S'.InvP C := mdSt_P hm' hp hnn hk'
  have hS'C : S'.InvC C := mdSt_C hm' hc
  -- the new visible slot
  have hlive : S'.Live e.key e := by
    have hmdi : S'.md T i ≠ EMPTY := by rw [hS', mdSt_md, if_pos ⟨rfl, rfl⟩]; exact hm'
    by_cases hcp : S.copiedF T i
    · have hle := moved_le hp hk hcp
      have hTr : T = S.rt := by omega
      have hi := (hp.p7 _ _ _ hk hcp).1
      have hnx := (hp.p5 _ _ (hp.p7 _ _ _ hk hcp).2).2
      rw [hTr] at hk hcp hE hnx
      obtain ⟨T', i', h1, h2⟩ := hc.c5 hi _ _ hk hcp
      obtain ⟨e2, h3, h4, h5, h6, h7, h8⟩ := hc.c4 _ _ _ _ _ h1 (pair_rt_succ hs hnx)
      have := kslot_inj h3 hk
      subst this
      have h9 := h8 rfl (fun h => h.2.2 hE)
      refine ⟨T', i', ⟨by show S.rt ≤ T'; omega, hs.incab hi _, h9, ?_, ?_⟩, mdSt_md_ne hm' h2, rfl⟩
      · rintro ⟨h10, j, h11, h12⟩
        have := kslot_unique hp h3 h11 rfl
        subst this
        apply h12
        rw [hTr] at hmdi
        exact ⟨hcp, hmdi⟩
      · intro h10
        have := moved_le hp h9 h10.1
        omega
    · refine ⟨T, i, ⟨hr, ha, hk, ?_, fun h => hcp h.1⟩, hmdi, rfl⟩
      rintro ⟨h1, j, h2, h3⟩
      exact hh ⟨h1, j, h2, fun h => h3 (mdSt_moved hm' h)⟩
  refine ⟨hS'S, hS'P, hS'C, ?_, ?_, ?_, hn⟩
  · refine he.snoc ev rfl rfl rfl (Nat.le_refl _) rfl (fun _ _ h => h) (fun _ _ h => .inl h) ?_ (.inr hnop) ?_ ?_
    · refine ⟨habs.symm, (he.e5 _ _ hx).1, heff, ?_, ?_⟩
      · intro t _; exact he.e6 t
      · intro e' h'
        cases h'
        exact ⟨x, hx, hxe, rfl, rfl, fun ev' hm hn => hnl ⟨ev', hm, hn⟩, fun _ => rfl, (he.e5 _ _ hx).2⟩
    · intro id x' hi ho
      have := he.e4 _ _ _ _ hi hx ho
      subst this
      rw [hx] at hi; cases hi; rw [hxe]
    · intro _; exact (he.e5 _ _ hx).2
  · have hlg : ∀ e', S'.logged e' ↔ S.logged e' ∨ e' = e := by
      intro e'
      constructor
      · rintro ⟨ev', h1, h2⟩
        simp only [hS', mdSt, List.mem_append, List.mem_singleton] at h1
        rcases h1 with h1 | rfl
        · exact .inl ⟨ev', h1, h2⟩
        · right; cases h2; rfl
      · rintro (⟨ev', h1, h2⟩ | rfl)
        · exact ⟨ev', by simp [hS', mdSt, h1], h2⟩
        · exact ⟨ev, by simp [hS', mdSt], rfl⟩
    refine ⟨?_, ?_, ?_, hl.u3, ?_, hl.d2, hl.d3, ?_, ?_, ?_, ?_⟩
    · intro k e'
      show abs (S.log ++ [ev]) k = some e' ↔ _
      rw [abs_snoc]
      split
      · rename_i hke
        subst hke
        constructor
        · intro h; cases h; exact hlive
        · rintro ⟨T', i', h1, h2, h3⟩
          obtain ⟨T2, i2, h4, h5, h6⟩ := hlive
          rw [(vis_unique hS'S hS'P h1 h4 h3).2.2]
      · rename_i hke
        rw [hl.a]
        constructor
        · rintro ⟨T', i', h1, h2, h3⟩
          have : e'.key ≠ e.key := by rw [h3]; exact hke
          exact ⟨T', i', (hvis _ this _ _).2 h1, mdSt_md_ne hm' h2, h3⟩
        · rintro ⟨T', i', h1, h2, h3⟩
          have hne : e'.key ≠ e.key := by rw [h3]; exact hke
          have h1' := (hvis _ hne _ _).1 h1
          refine ⟨T', i', h1', ?_, h3⟩
          rwa [hS', mdSt_md, if_neg (hbk _ hne _ _ h1'.2.2.1)] at h2
    · intro id y h1 h2
      have hne : y.entry ≠ e := fun h => h2 ((hlg _).2 (.inr h))
      obtain ⟨T', i', h3, h4, h5, h6⟩ := hl.u1 id y h1 (fun h => h2 ((hlg _).2 (.inl h)))
      refine ⟨T', i', h3, h4, ?_, h6⟩
      rw [hS', mdSt_md, if_neg]
      · exact h5
      · rintro ⟨rfl, rfl⟩
        exact hne (kslot_inj h4 hk)
    · intro T' i' e' h1 h2 h3 h4 h5
      have h2' := mdSt_md_eq hm' h2
      have hnTi : ¬ (T' = T ∧ i' = i) := by
        rintro ⟨rfl, rfl⟩
        rw [hS', mdSt_md, if_pos ⟨rfl, rfl⟩] at h2
        exact hm' h2
      by_cases hh' : S.hid T' e'
      · -- only the slot (rt, i) can have moved
        exfalso
        obtain ⟨h6, j, h7, h8⟩ := hh'
        have h9 : S'.moved S.rt j := by
          by_contra h9
          exact h5 ⟨h6, j, h7, h9⟩
        have h10 : S.rt = T ∧ j = i := by
          by_contra h10
          apply h8
          refine ⟨h9.1, ?_⟩
          have := h9.2
          rwa [hS', mdSt_md, if_neg h10] at this
        obtain ⟨h11, rfl⟩ := h10
        have := kslot_inj (h11 ▸ h7) hk
        subst this
        have hi := (hp.p7 _ _ _ h7 h9.1).1
        -- the copy has its metadata
        obtain ⟨T2, i2, h12, h13⟩ := hc.c5 hi _ _ h7 h9.1
        have hnx := (hp.p5 _ _ (hp.p7 _ _ _ h7 h9.1).2).2
        obtain ⟨e2, h14, _, h15, _, _, h16⟩ := hc.c4 _ _ _ _ _ h12 (pair_rt_succ hs hnx)
        have := kslot_inj h14 h7
        subst this
        have h17 := h16 rfl (fun h => h8 h.2)
        rcases Nat.lt_trichotomy T' T2 with hlt | heq | hlt
        · exact over_kslot hp (hp.f2 hi _ _ _ h17 T' h6 hlt) h1 rfl
        · subst heq
          have := kslot_unique hp h17 h1 rfl
          subst this
          exact h13 h2'
        · exact over_kslot hp (hp.f2 hi _ _ _ h1 T2 (by omega) hlt) h17 rfl
      · obtain ⟨h6, y, h7, h8⟩ := hl.u2 T' i' e' h1 h2' h3 h4 hh'
        refine ⟨?_, y, h7, h8⟩
        rw [hlg]
        rintro (h9 | rfl)
        · exact h6 h9
        · rw [hx] at h7; cases h7
          rw [hhome] at h8
          cases h8
          exact hnTi ⟨rfl, rfl⟩
    · intro T' h1 h2
      exact (hl.d1 T' h1 h2).trans (List.prefix_append _ _)
    · intro T' h1
      exact (hl.d4 T' h1).trans (List.prefix_append _ _)
    · intro T' k h1 h2 h3
      rcases hl.l1 T' k h1 h2 h3 with h | ⟨i', e, h4, h5, h6⟩
      · exact .inl ⟨h.1, mdSt_over hm' h.2⟩
      · exact .inr ⟨i', e, h4, h5, mdSt_md_ne hm' h6⟩
    · intro hi T' i' e' h1 h2 h3
      obtain ⟨l, h4, h5, h6⟩ := hl.l2 hi T' i' e' h1 h2 h3
      exact ⟨l, h4, h5.trans (List.prefix_append _ _), h6⟩
    · intro hi T' i' e' h1 h2 h3 h4
      by_cases hTi : T' = T ∧ i' = i ∧ S.rt ≤ T'
      · obtain ⟨rfl, rfl, _⟩ := hTi
        have := kslot_inj h2 hk
        subst this
        have hnx := (hp.p5 _ _ (hp.p7 _ _ _ h2 h3).2).2
        refine ⟨S.log ++ [ev], (hl.d4 _ hnx).trans (List.prefix_append _ _), List.prefix_refl _, ?_⟩
        rw [abs_snoc, if_pos rfl]
      · have : S.md T' i' ≠ EMPTY ∨ T' < S.rt := by
          rcases h4 with h4 | h4
          · by_cases hlt : T' < S.rt
            · exact .inr hlt
            · left
              rwa [hS', mdSt_md, if_neg (by rintro ⟨rfl, rfl⟩; exact hTi ⟨rfl, rfl, by omega⟩)] at h4
          · exact .inr h4
        obtain ⟨l, h5, h6, h7⟩ := hl.n1 hi T' i' e' h1 h2 h3 this
        exact ⟨l, h5, h6.trans (List.prefix_append _ _), h7⟩
  · refine ⟨hM.m1, hM.own, hM.m2, hM.m3, hM.m4, hM.m4', hM.m5, hM.m6, hM.m7, hM.m7', ?_, hM.m9, hM.m10⟩
    intro id y h1
    refine (hM.m8 id y h1).trans ?_
    show _ ↔ ¬ (∃ ev' ∈ S.log ++ [ev], ev'.new = some y.entry) ∨ abs (S.log ++ [ev]) y.entry.key = some y.entry
    rw [abs_snoc]
    by_cases hye : y.entry = e
    · rw [hye]
      constructor
      · intro _; right; rw [if_pos rfl]
      · intro _; left; exact hnl
    · have : (¬ ∃ ev' ∈ S.log ++ [ev], ev'.new = some y.entry) ↔ ¬ S.logged y.entry := by
        unfold logged
        simp only [List.mem_append, List.mem_singleton]
        constructor
        · rintro h ⟨ev', h1, h2⟩; exact h ⟨ev', .inl h1, h2⟩
        · rintro h ⟨ev', h1 | rfl, h2⟩
          · exact h ⟨ev', h1, h2⟩
          · cases h2; exact hye rfl
      rw [this]
      split
      · rename_i hke
        constructor
        · rintro (h | h)
          · exact .inl h
          · rw [hke, habs] at h; cases h
        · rintro (h | h)
          · exact .inl h
          · cases h; exact absurd rfl hye
      · rfl

theorem mdSt_Own {t : Tid} (hl : S.log <+: log)
    (hev : ∀ ev, ev ∈ log.drop S.log.length → ev.op.1 = t → ev.old = none ∧
      ∃ e x, ev.new = some e ∧ S.info e.id = some x ∧ x.entry = e ∧ x.op = ev.op ∧ ¬ S.logged e) :
    Own t S (S.mdSt T i m log) where
  seq := rfl
  invPos := rfl
  rInv := rfl
  pr := rfl
  pinned := rfl
  cs _ _ _ := rfl
  cs' _ _ _ := rfl
  lock _ h := ⟨h, rfl⟩
  lock' _ h := h
  info _ _ h _ := h
  evs := hev
  pays := ⟨[], by simp [mdSt], by simp⟩
  tok _ _ _ h := h
  tok' _ _ _ h := h
  tabTok _ := Iff.rfl
  prot _ h := h

end GSt

end Papaya
