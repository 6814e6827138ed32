import Verif.Proof.ActCopied

/-! # Replacing an entry by a new one or by a tombstone -/

set_option linter.unusedSectionVars false
set_option linter.unusedVariables false

namespace Papaya

variable {K V : Type} [DecidableEq K]

namespace GSt

variable {C : Cfg K} {S S' : GSt K V}

/-- The slot written by a replacement. -/
def replSlot (n : Nat) (k : K) : Option V → Slot K V
  | none => Slot.tombstone
  | some v => Slot.untagged ⟨n, k, v⟩

/-- The table below which every remaining occurrence of an unlinked entry is. -/
def unlinkU (C : Cfg K) (S : GSt K V) (T i : Nat) : Nat :=
  if C.inc = true ∧ (S.slot T i).borrowed = false then 0 else T

def replInfo (S : GSt K V) (t : Tid) (k : K) : Option V → Nat → Option (EInfo K V)
  | none => S.info
  | some v => S.updInfo ⟨⟨S.nIds, k, v⟩, (t, S.seq t), none⟩

def replIds (S : GSt K V) : Option V → Nat
  | none => S.nIds
  | some _ => S.nIds + 1

def replTok (C : Cfg K) (S : GSt K V) (t : Tid) (T i : Nat) (e : Entry K V) : Nat → Tok :=
  fun id => if id = e.id then .owned t (S.unlinkU C T i) (decide (S.rt < S.unlinkU C T i)) else S.tok id

def replEv (S : GSt K V) (t : Tid) (k : K) (e : Entry K V) (new : Option V) : Ev K V :=
  ⟨(t, S.seq t), k, some e, new.map fun v => ⟨S.nIds, k, v⟩⟩

/-- Replacement of entry `e` of slot `(T, i)`; `log0` is the log just before. -/
def replSt (C : Cfg K) (S : GSt K V) (t : Tid) (T i : Nat) (k : K) (e : Entry K V) (new : Option V)
    (log0 : List (Ev K V)) : GSt K V :=
  S.slSt T i (replSlot S.nIds k new) (S.replIds new) (S.replInfo t k new) S.cs
    (log0 ++ [S.replEv t k e new]) (S.replTok C t T i e)

variable {t : Tid} {T i : Nat} {k : K} {e : Entry K V} {new : Option V} {log0 : List (Ev K V)}

/-- An operation finds a non-copying entry of its key: it is the visible one. -/
theorem at_vis (h : S.Inv C) (hat : S.AtTable C t k T) (hk : S.kslot T i e) (hek : e.key = k)
    (hncp : ¬ S.copying T i) : S.vis T i e := by
  have hnc : ¬ S.copiedF T i := fun h' => hncp (h.p.p7 _ _ _ hk h').2
  have hnm : ¬ S.moved T i := fun h => hnc h.1
  rcases hat.2.2 with hw | ⟨h1, h2, h3⟩
  · have : T = S.rt := by
      by_contra hne
      have := hw.2.1
      exact hncp (p6 h.s h.c hw (by omega) (kslot_idx h.s h.p hk))
    exact ⟨by omega, hw.2.2, hk, fun h => by have := h.1; omega, hnm⟩
  · refine ⟨by omega, h.s.incab h1 T, hk, ?_, hnm⟩
    rintro ⟨_, j, h4, h5⟩
    exact h5 (passed_kslot h.p (h3 S.rt (Nat.le_refl _) h2) h4 hek)

/-- No occurrence beyond a visible non-copying one. -/
theorem vis_last (h : S.Inv C) (hv : S.vis T i e) (hncp : ¬ S.copying T i) {T' i' : Nat}
    (hk : S.kslot T' i' e) : T' ≤ T := by
  by_contra hlt
  obtain ⟨h1, h2, h3, h4, h5⟩ := hv
  by_cases hi : C.inc = true
  · rcases Nat.lt_or_eq_of_le h1 with hr | hr
    · exact over_kslot h.p (h.p.f2 hi _ _ _ hk T hr (by omega)) h3 rfl
    · rcases h.p.f1 _ _ _ hk (by omega) with ⟨j, h6, h7, _⟩ | ⟨_, h6⟩
      · have := kslot_unique h.p h3 (hr ▸ h6) rfl
        subst this
        exact hncp (hr ▸ h7)
      · rw [hr] at h6; exact h5 (passed_kslot h.p h6 h3 rfl)
  · have hr := vis_blocking h.p (by simpa using hi) ⟨h1, h2, h3, h4, h5⟩
    rcases h.p.f1 _ _ _ hk (by omega) with ⟨j, h6, h7, _⟩ | ⟨h6, _⟩
    · have := kslot_unique h.p h3 (hr ▸ h6) rfl
      subst this
      exact hncp (hr ▸ h7)
    · exact hi h6

theorem replSt_Inv (h : S.Inv C) (hat : S.AtTable C t k T) (hk0 : S.kslot T i e) (hek : e.key = k)
    (hncp : ¬ S.copying T i) (hmd : new.isSome → S.md T i ≠ EMPTY)
    (hpre : S.log <+: log0) (hE0 : ({ S with log := log0 } : GSt K V).InvE)
    (habs : abs log0 k = some e) (habs' : ∀ k', k' ≠ k → abs log0 k' = abs S.log k')
    (hlg0 : ∀ e', (∃ ev ∈ log0, ev.new = some e') ↔ S.logged e' ∨ e' = e)
    (hop : (S.ops (t, S.seq t)).multi = true ∨ ∀ ev ∈ log0, ev.op ≠ (t, S.seq t))
    (hno : ∀ id x, S.info id = some x → x.op ≠ (t, S.seq t))
    (hmul : new.isSome → (S.ops (t, S.seq t)).multi = false)
    (heff : (S.ops (t, S.seq t)).eff k (some e) (new.map fun v => ⟨S.nIds, k, v⟩)) :
    (S.replSt C t T i k e new log0).Inv C := by
  have hv := at_vis h hat hk0 hek hncp
  have hlast := fun T' i' => @vis_last K V _ C S T i e h hv hncp T' i'
  have hlv := vis_live h.s h.p h.l h.m hv
  obtain ⟨hs, hp, hc, he, hl, hM, hN⟩ := h
  set S' := S.replSt C t T i k e new log0 with hS'
  set ev := S.replEv t k e new with hev
  have hlog' : S'.log = log0 ++ [ev] := rfl
  have hpre' : S.log <+: S'.log := hpre.trans (by rw [hlog']; exact List.prefix_append _ _)
  have hnc : ¬ S.copiedF T i := fun h' => hncp (hp.p7 _ _ _ hk0 h').2
  have hnm : ¬ S.moved T i := fun h => hnc h.1
  obtain ⟨xe, hxe, hxe'⟩ := hp.p3 _ _ _ hk0
  have hlt : e.id < S.nIds := (he.e0 _ _ hxe).2
  have hrT := hv.1
  have hT := kslot_lt hs hk0
  -- earlier tables have been passed
  have hpassed : ∀ P, S.rt ≤ P → P < T → S.passed C P k := by
    intro P h1 h2
    rcases hat.2.2 with hw | ⟨_, _, h3⟩
    · have := hw.2.1; omega
    · exact h3 P h1 h2
  have hinc : S.rt < T → C.inc = true := by
    intro h1
    rcases hat.2.2 with hw | ⟨h3, _⟩
    · have := hw.2.1; omega
    · exact h3
  have hover : ∀ P, S.rt < P → P < T → S.over C P k := by
    intro P h1 h2
    rcases hpassed P (by omega) h2 with h3 | ⟨j, e', h3, h4, h5⟩
    · exact h3
    · have := moved_le hp h3 h5.1; omega
  have hsl : ∀ T' i', ¬ (T' = T ∧ i' = i) → S'.slot T' i' = S.slot T' i' := by
    intro T' i' h; rw [hS', replSt, slSt_slot, if_neg h]
  have hslT : S'.slot T i = replSlot S.nIds k new := by rw [hS', replSt, slSt_slot, if_pos ⟨rfl, rfl⟩]
  have hsptr : ∀ e', (replSlot S.nIds k new).ptr = some e' ↔ ∃ v, new = some v ∧ e' = ⟨S.nIds, k, v⟩ := by
    intro e'
    cases new with
    | none => simp [replSlot, Slot.tombstone]
    | some v => simp [replSlot, Slot.untagged, eq_comm]
  have hscp : (replSlot S.nIds k new).copying = false := by cases new <;> rfl
  have hscd : ∀ e', (replSlot S.nIds k new).ptr = some e' → (replSlot S.nIds k new).copied = false := by
    intro e'; cases new <;> simp [replSlot, Slot.tombstone, Slot.untagged]
  have hks : ∀ T' i' e', S'.kslot T' i' e' ↔ (T' = T ∧ i' = i ∧ ∃ v, new = some v ∧ e' = ⟨S.nIds, k, v⟩) ∨
      (¬ (T' = T ∧ i' = i) ∧ S.kslot T' i' e') := by
    intro T' i' e'
    rw [hS', replSt, slSt_kslot, hsptr]
  have hcp : ∀ T' i', S'.copying T' i' ↔ S.copying T' i' := by
    intro T' i'
    by_cases hh : T' = T ∧ i' = i
    · obtain ⟨rfl, rfl⟩ := hh
      constructor
      · intro h; unfold copying at h; rw [hslT, hscp] at h; cases h
      · intro h; exact absurd h hncp
    · unfold copying; rw [hsl _ _ hh]
  have hcd : ∀ T' i', ¬ (T' = T ∧ i' = i) → (S'.copiedF T' i' ↔ S.copiedF T' i') := by
    intro T' i' hh
    unfold copiedF; rw [hsl _ _ hh]
  have hcdT : ∀ e', S'.kslot T i e' → ¬ S'.copiedF T i := by
    intro e' h1 h2
    unfold kslot at h1
    unfold copiedF at h2
    rw [hslT] at h1 h2
    rw [hscd e' h1] at h2; cases h2
  have hmv : ∀ T' i', ¬ (T' = T ∧ i' = i) → (S'.moved T' i' ↔ S.moved T' i') :=
    fun T' i' hh => and_congr_left' (hcd T' i' hh)
  have hdead : ∀ {T' i' k'}, S.dead T' i' k' → S'.dead T' i' k' := by
    intro T' i' k' h
    refine ⟨h.1, fun e' h' => ?_⟩
    rcases (hks _ _ _).1 h' with ⟨rfl, rfl, v, _, rfl⟩ | ⟨_, h'⟩
    · have := h.2 e hk0
      rw [hek] at this; exact this
    · exact h.2 e' h'
  have hov : ∀ {T' k'}, S.over C T' k' → S'.over C T' k' := fun h n hn => hdead (h n hn)
  have hps : ∀ {T' k'}, S.passed C T' k' → S'.passed C T' k' := by
    rintro T' k' (h | ⟨j, e', h1, h2, h3⟩)
    · exact .inl (hov h)
    · have hh : ¬ (T' = T ∧ j = i) := by rintro ⟨rfl, rfl⟩; exact hnm h3
      exact .inr ⟨j, e', (hks _ _ _).2 (.inr ⟨hh, h1⟩), h2, (hmv _ _ hh).2 h3⟩
  have hold : ∀ {T' i' e'}, S.kslot T' i' e' → e'.id ≠ S.nIds := fun h => fresh_kslot hp he h
  -- remaining occurrences of `e`
  have hrem : ∀ {T' i'}, ¬ (T' = T ∧ i' = i) → S.kslot T' i' e → T' < T := by
    intro T' i' hh h1
    rcases Nat.lt_or_eq_of_le (hlast T' i' h1) with h2 | h2
    · exact h2
    · subst h2
      exact absurd ⟨rfl, kslot_unique hp h1 hk0 rfl⟩ hh
  have hrem' : ∀ {T' i'}, ¬ (T' = T ∧ i' = i) → S.kslot T' i' e → S.rt ≤ T' → T' = S.rt ∧ S.rt < T ∧ S.moved T' i' := by
    intro T' i' hh h1 h2
    have h3 := hrem hh h1
    rcases Nat.lt_or_eq_of_le h2 with h4 | h4
    · exact absurd hek (over_kslot hp (hover T' h4 h3) h1)
    · exact ⟨h4.symm, by omega, passed_kslot hp (hpassed T' h2 h3) h1 hek⟩
  have hhid : ∀ T' e', e' ≠ e → e'.id ≠ S.nIds → (S'.hid T' e' ↔ S.hid T' e') := by
    intro T' e' hne hid
    constructor
    · rintro ⟨h1, j, h2, h3⟩
      rcases (hks _ _ _).1 h2 with ⟨_, _, v, _, rfl⟩ | ⟨hh, h2⟩
      · exact absurd rfl hid
      · exact ⟨h1, j, h2, fun h => h3 ((hmv _ _ hh).2 h)⟩
    · rintro ⟨h1, j, h2, h3⟩
      have hh : ¬ (S.rt = T ∧ j = i) := by
        rintro ⟨h4, rfl⟩; exact hne (kslot_inj h2 (h4 ▸ hk0))
      exact ⟨h1, j, (hks _ _ _).2 (.inr ⟨hh, h2⟩), fun h => h3 ((hmv _ _ hh).1 h)⟩
  have hvis : ∀ T' i' e', (S'.vis T' i' e' ↔ (T' = T ∧ i' = i ∧ ∃ v, new = some v ∧ e' = ⟨S.nIds, k, v⟩) ∨
      (e' ≠ e ∧ S.vis T' i' e')) := by
    intro T' i' e'
    constructor
    · rintro ⟨h1, h2, h3, h4, h5⟩
      rcases (hks _ _ _).1 h3 with h3 | ⟨hh, h3⟩
      · exact .inl h3
      · by_cases hne : e' = e
        · obtain ⟨_, h7, h8⟩ := hrem' hh (hne ▸ h3) h1
          exact absurd ((hmv _ _ hh).2 h8) h5
        · right
          exact ⟨hne, h1, h2, h3, fun h => h4 ((hhid _ _ hne (hold h3)).2 h), fun h => h5 ((hmv _ _ hh).2 h)⟩
    · rintro (⟨rfl, rfl, v, hv1, rfl⟩ | ⟨hne, h1, h2, h3, h4, h5⟩)
      · have hkk : S'.kslot T' i' ⟨S.nIds, k, v⟩ := (hks _ _ _).2 (.inl ⟨rfl, rfl, v, hv1, rfl⟩)
        refine ⟨hrT, hv.2.1, hkk, ?_, fun h => hcdT _ hkk h.1⟩
        rintro ⟨h6, j, h7, _⟩
        rcases (hks _ _ _).1 h7 with ⟨h8, _⟩ | ⟨_, h8⟩
        · have : S.rt < T' := h6
          have : S.rt = T' := h8
          omega
        · exact hold h8 rfl
      · have hh : ¬ (T' = T ∧ i' = i) := by rintro ⟨rfl, rfl⟩; exact hne (kslot_inj h3 hk0)
        exact ⟨h1, h2, (hks _ _ _).2 (.inr ⟨hh, h3⟩), fun h => h4 ((hhid _ _ hne (hold h3)).1 h),
          fun h => h5 ((hmv _ _ hh).1 h)⟩
  have habsN : ∀ k', abs S'.log k' = if k' = k then new.map (fun v => (⟨S.nIds, k, v⟩ : Entry K V)) else abs S.log k' := by
    intro k'
    rw [hlog', abs_snoc]
    show (if k' = k then _ else _) = _
    split
    · rfl
    · exact habs' k' (by assumption)
  have hlogd : ∀ e', e'.id ≠ S.nIds → (S'.logged e' ↔ S.logged e' ∨ e' = e) := by
    intro e' hid
    rw [← hlg0]
    unfold logged
    rw [hlog']
    constructor
    · rintro ⟨ev', h1, h2⟩
      rcases List.mem_append.1 h1 with h1 | h1
      · exact ⟨ev', h1, h2⟩
      · rw [List.mem_singleton] at h1
        subst h1
        rw [hev] at h2
        simp only [replEv, Option.map_eq_some_iff] at h2
        obtain ⟨v, _, rfl⟩ := h2
        exact absurd rfl hid
    · rintro ⟨ev', h1, h2⟩
      exact ⟨ev', List.mem_append_left _ h1, h2⟩
  have hlogN : ∀ v, new = some v → S'.logged ⟨S.nIds, k, v⟩ := by
    intro v hv
    exact ⟨ev, by rw [hlog']; simp, by rw [hev]; simp [replEv, hv]⟩
  have hinfo1 : ∀ id x, S.info id = some x → S'.info id = some x := by
    intro id x h
    show S.replInfo t k new id = _
    cases new with
    | none => exact h
    | some v => exact updInfo_old he _ h
  have hinfo2 : ∀ id x, S'.info id = some x → S.info id = some x ∨
      ∃ v, new = some v ∧ id = S.nIds ∧ x = ⟨⟨S.nIds, k, v⟩, (t, S.seq t), none⟩ := by
    intro id x h
    change S.replInfo t k new id = _ at h
    cases new with
    | none => exact .inl h
    | some v =>
      rcases updInfo_cases h with h | ⟨h1, h2⟩
      · exact .inl h
      · exact .inr ⟨v, rfl, h1, h2⟩
  have htok : ∀ id, id ≠ e.id → S'.tok id = S.tok id := fun id h => if_neg h
  have htokE : S'.tok e.id = .owned t (S.unlinkU C T i) (decide (S.rt < S.unlinkU C T i)) := if_pos rfl
  have hpairk : ∀ {s j}, S.copying s j → ¬ (s = T ∧ j = i) := by
    rintro s j h ⟨rfl, rfl⟩; exact hncp h
  refine ⟨?_, ?_, ?_, ?_, ?_, ?_, hN⟩
  · refine ⟨hs.none, hs.some, hs.next, hs.cap, ?_, hs.prom, hs.incab, hs.blkab⟩
    intro T' hT'
    obtain ⟨h1, h2⟩ := hs.out T' hT'
    have hT'' : S.nTabs ≤ T' := hT'
    refine ⟨fun i' => ?_, h2⟩
    rw [hsl]
    · exact h1 i'
    · rintro ⟨rfl, rfl⟩; omega
  · refine ⟨?_, ?_, ?_, ?_, ?_, ?_, ?_, ?_, ?_⟩
    · intro T' i' h
      by_cases hh : T' = T ∧ i' = i
      · obtain ⟨rfl, rfl⟩ := hh
        rw [hslT] at h
        cases new with
        | none => have := congrArg Slot.copied h; simp [Slot.null, replSlot, Slot.tombstone] at this
        | some v => have := congrArg Slot.ptr h; simp [Slot.null, replSlot, Slot.untagged] at this
      · rw [hsl _ _ hh] at h; exact hp.p1 _ _ h
    · intro T' i' e' h
      rcases (hks _ _ _).1 h with ⟨rfl, rfl, v, _, rfl⟩ | ⟨_, h⟩
      · have := hp.p2 _ _ _ hk0
        rw [hek] at this; exact this
      · exact hp.p2 _ _ _ h
    · intro T' i' e' h
      rcases (hks _ _ _).1 h with ⟨rfl, rfl, v, hv1, rfl⟩ | ⟨_, h⟩
      · refine ⟨⟨⟨S.nIds, k, v⟩, (t, S.seq t), none⟩, ?_, rfl⟩
        show S.replInfo t k new S.nIds = _
        rw [hv1]; exact if_pos rfl
      · obtain ⟨x, h1, h2⟩ := hp.p3 _ _ _ h
        exact ⟨x, hinfo1 _ _ h1, h2⟩
    · intro T' i' e' h
      rcases (hks _ _ _).1 h with ⟨rfl, rfl, v, hv1, rfl⟩ | ⟨_, h⟩
      · obtain ⟨n, h1, h2, h3⟩ := hp.p4 _ _ _ hk0
        rw [hek] at h2 h3
        exact ⟨n, h1, h2, fun m hm => hdead (h3 m hm)⟩
      · obtain ⟨n', h1, h2, h3⟩ := hp.p4 _ _ _ h
        exact ⟨n', h1, h2, fun m hm => hdead (h3 m hm)⟩
    · intro T' i' h
      exact hp.p5 _ _ ((hcp _ _).1 h)
    · intro T' i' e' h1 h2
      rcases (hks _ _ _).1 h1 with ⟨rfl, rfl, _⟩ | ⟨hh, h1⟩
      · exact absurd h2 (hcdT _ h1)
      · have := hp.p7 _ _ _ h1 ((hcd _ _ hh).1 h2)
        exact ⟨this.1, (hcp _ _).2 this.2⟩
    · intro hi T1 i1 T2 i2 e' h1 h2 hlt
      rcases (hks _ _ _).1 h2 with ⟨rfl, rfl, v, _, rfl⟩ | ⟨hh2, h2'⟩
      · rcases (hks _ _ _).1 h1 with ⟨rfl, rfl, _⟩ | ⟨hh1, h1'⟩
        · omega
        · exact absurd rfl (hold h1')
      · rcases (hks _ _ _).1 h1 with ⟨rfl, rfl, v, _, rfl⟩ | ⟨hh1, h1'⟩
        · exact absurd rfl (hold h2')
        · rw [hsl _ _ hh2]
          exact hp.b1 hi _ _ _ _ _ h1' h2' hlt
    · intro T' i' e' h1 h2
      rcases (hks _ _ _).1 h1 with ⟨rfl, rfl, v, _, rfl⟩ | ⟨hh, h1⟩
      · right
        exact ⟨hinc h2, hps (hpassed S.rt (Nat.le_refl _) h2)⟩
      · rcases hp.f1 _ _ _ h1 h2 with ⟨j, h3, h4, h5⟩ | ⟨h3, h4⟩
        · exact .inl ⟨j, (hks _ _ _).2 (.inr ⟨hpairk h4, h3⟩), (hcp _ _).2 h4, h5⟩
        · exact .inr ⟨h3, hps h4⟩
    · intro hi T' i' e' h1 P h2 h3
      rcases (hks _ _ _).1 h1 with ⟨rfl, rfl, v, _, rfl⟩ | ⟨_, h1⟩
      · exact hov (hover P h2 h3)
      · exact hov (hp.f2 hi _ _ _ h1 P h2 h3)
  · refine ⟨hc.c1, hc.c2, ?_, ?_, ?_, hc.c6, hc.c7, hc.c8, ?_, ?_⟩
    · intro s N' j l h1 h2
      obtain ⟨h3, h4⟩ := hc.c3 s N' j l h1 h2
      have hh := hpairk h3
      refine ⟨(hcp _ _).2 h3, fun e' h5 => ?_⟩
      rcases (hks _ _ _).1 h5 with ⟨rfl, rfl, _⟩ | ⟨_, h5⟩
      · exact absurd h3 hncp
      · exact ⟨fun hi => (hcd _ _ hh).2 ((h4 e' h5).1 hi), (h4 e' h5).2⟩
    · intro s N' j T' i' h1 h2
      obtain ⟨e', h3, h4, h5, h6, h7, h8⟩ := hc.c4 _ _ _ _ _ h1 h2
      have hh := hpairk h4
      refine ⟨e', (hks _ _ _).2 (.inr ⟨hh, h3⟩), (hcp _ _).2 h4, h5, h6, h7, fun h9 h10 => ?_⟩
      have h9' : s = S.rt := h9
      have h10' : ¬ (C.inc = true ∧ S.moved s j) := fun h => h10 ⟨h.1, (hmv _ _ hh).2 h.2⟩
      have h11 := h8 h9' h10'
      refine (hks _ _ _).2 (.inr ⟨?_, h11⟩)
      rintro ⟨rfl, rfl⟩
      have := kslot_inj h11 hk0
      subst this
      have hrlt : S.rt < T' := by have := h2.1; omega
      subst h9'
      exact h10' ⟨hinc hrlt, passed_kslot hp (hpassed S.rt (Nat.le_refl _) hrlt) h3 hek⟩
    · intro hi j e' h1 h2
      rcases (hks _ _ _).1 h1 with ⟨h3, h4, _⟩ | ⟨hh, h1'⟩
      · exfalso
        have h3' : S.rt = T := h3
        have : S'.rt = T := h3
        rw [this, h4] at h1 h2
        exact hcdT _ h1 h2
      · exact hc.c5 hi j e' h1' ((hcd _ _ hh).1 h2)
    · intro hi s' N' j' h1 h2 h3
      exact hc.c9 hi _ _ _ h1 h2 ((hcp _ _).1 h3)
    · intro hi s' N' i' e' h1 h2 h3
      rcases (hks _ _ _).1 h3 with ⟨h4, h5, h6⟩ | ⟨_, h3⟩
      · rw [h4] at h2; exact absurd h2 hv.2.1
      · obtain ⟨j', g1, g2, g3⟩ := hc.c10 hi s' N' i' e' h1 h2 h3
        exact ⟨j', (hks _ _ _).2 (.inr ⟨hpairk g2, g1⟩), (hcp _ _).2 g2, g3⟩
  · have hids : S.nIds ≤ S'.nIds := by
      show S.nIds ≤ S.replIds new
      cases new <;> simp [replIds]
    refine hE0.snoc (S' := S') ev rfl rfl rfl hids hlog' hinfo1 ?_ ?_ ?_ ?_ ?_
    · intro id x hx
      rcases hinfo2 id x hx with h1 | ⟨v, hv1, h1, rfl⟩
      · exact .inl h1
      · right
        refine ⟨rfl, ?_, h1.symm, ?_, h1, hno⟩
        · rw [hev]; simp [replEv, hv1]
        · rw [h1, hS']; simp [replSt, slSt, replIds, hv1]
    · refine ⟨habs.symm, Nat.le_refl _, heff, ?_, ?_⟩
      · intro t' ht'
        exact hE0.e6 t'
      · intro e' he'
        rw [hev] at he'
        simp only [replEv, Option.map_eq_some_iff] at he'
        obtain ⟨v, hv1, rfl⟩ := he'
        refine ⟨⟨⟨S.nIds, k, v⟩, (t, S.seq t), none⟩, ?_, rfl, rfl, rfl, ?_, fun h => absurd rfl h, ?_⟩
        · show S.replInfo t k new S.nIds = _
          rw [hv1]; exact if_pos rfl
        · intro ev' h1 h2
          rcases (hlg0 _).1 ⟨ev', h1, h2⟩ with h3 | h3
          · have := fresh_logged he h3; simp at this
          · rw [← h3] at hlt; simp at hlt
        · exact hmul (by rw [hv1]; rfl)
    · rcases hop with hop | hop
      · exact .inl hop
      · exact .inr hop
    · intro id x h1 h2
      exact absurd h2 (hno id x h1)
    · rintro ⟨id, x, h1, h2⟩
      rcases hinfo2 id x h1 with h1 | ⟨v, hv1, _, _⟩
      · exact absurd h2 (hno id x h1)
      · exact hmul (by rw [hv1]; rfl)
  · refine ⟨?_, ?_, ?_, ?_, ?_, ?_, ?_, ?_, ?_, ?_, ?_⟩
    · intro k' e'
      rw [habsN]
      constructor
      · intro h1
        split at h1
        · rename_i hkk
          subst hkk
          simp only [Option.map_eq_some_iff] at h1
          obtain ⟨v, hv1, rfl⟩ := h1
          exact ⟨T, i, (hvis _ _ _).2 (.inl ⟨rfl, rfl, v, hv1, rfl⟩), hmd (by rw [hv1]; rfl), rfl⟩
        · rename_i hkk
          obtain ⟨T', i', h2, h3, h4⟩ := (hl.a _ _).1 h1
          refine ⟨T', i', (hvis _ _ _).2 (.inr ⟨?_, h2⟩), h3, h4⟩
          rintro rfl; exact hkk (h4.symm.trans hek)
      · rintro ⟨T', i', h1, h2, h3⟩
        rcases (hvis _ _ _).1 h1 with ⟨rfl, rfl, v, hv1, rfl⟩ | ⟨hne, h1⟩
        · simp only at h3; rw [if_pos h3.symm, hv1]; rfl
        · by_cases hkk : k' = k
          · exfalso
            exact hne (vis_unique hs hp h1 hv (h3.trans (hkk.trans hek.symm))).2.2
          · rw [if_neg hkk]
            exact (hl.a _ _).2 ⟨T', i', h1, h2, h3⟩
    · intro id x h1 h2
      rcases hinfo2 id x h1 with h1 | ⟨v, hv1, _, rfl⟩
      · have hxi := (he.e0 _ _ h1)
        have hx2 : x.entry.id ≠ S.nIds := by omega
        rw [hlogd _ hx2] at h2
        push Not at h2
        obtain ⟨T', i', h3, h4, h5⟩ := hl.u1 _ _ h1 h2.1
        refine ⟨T', i', h3, (hks _ _ _).2 (.inr ⟨?_, h4⟩), h5⟩
        rintro ⟨rfl, rfl⟩; exact h2.2 (kslot_inj h4 hk0)
      · exact absurd (hlogN v hv1) h2
    · intro T' i' e' h1 h2 h3 h4 h5
      rcases (hks _ _ _).1 h1 with ⟨rfl, rfl, v, hv1, rfl⟩ | ⟨hh, h1⟩
      · exact absurd h2 (hmd (by rw [hv1]; rfl))
      · by_cases hne : e' = e
        · obtain ⟨_, _, h8⟩ := hrem' hh (hne ▸ h1) h3
          exact absurd h2 h8.2
        · obtain ⟨h6, x, h7, h8⟩ := hl.u2 _ _ _ h1 h2 h3 h4 fun h => h5 ((hhid _ _ hne (hold h1)).2 h)
          refine ⟨?_, x, hinfo1 _ _ h7, h8⟩
          rw [hlogd _ (hold h1)]; push Not; exact ⟨h6, hne⟩
    · intro id x T1 i1 T2 i2 h1 h2 h3
      rcases hinfo2 id x h1 with h1 | ⟨v, hv1, _, rfl⟩
      · rcases (hks _ _ _).1 h3 with ⟨_, _, v, _, h4⟩ | ⟨_, h3⟩
        · have := he.e0 _ _ h1
          rw [h4] at this; simp only at this; omega
        · exact hl.u3 _ _ _ _ _ _ h1 h2 h3
      · cases h2
    · intro T' h1 h2; exact (hl.d1 T' h1 h2).trans hpre'
    · exact hl.d2
    · exact hl.d3
    · intro T' h1; exact (hl.d4 T' h1).trans hpre'
    · intro T' k' h1 h2 h3
      rcases hl.l1 T' k' h1 h2 h3 with h | ⟨i', e', h4, h5, h6⟩
      · exact .inl ⟨h.1, hov h.2⟩
      · refine .inr ⟨i', e', (hks _ _ _).2 (.inr ⟨?_, h4⟩), h5, h6⟩
        have : T' < S.rt := h2
        rintro ⟨rfl, _⟩; omega
    · intro hi T' i' e' h1 h2 h3
      have h2' : T' < S.rt := h2
      rcases (hks _ _ _).1 h3 with ⟨rfl, rfl, _⟩ | ⟨_, h3⟩
      · omega
      · obtain ⟨l, h4, h5, h6⟩ := hl.l2 hi _ _ _ h1 h2 h3
        exact ⟨l, h4, h5.trans hpre', h6⟩
    · intro hi T' i' e' h1 h2 h3 h4
      rcases (hks _ _ _).1 h2 with ⟨rfl, rfl, _⟩ | ⟨hh, h2'⟩
      · exact absurd h3 (hcdT _ h2)
      · obtain ⟨l, h5, h6, h7⟩ := hl.n1 hi _ _ _ h1 h2' ((hcd _ _ hh).1 h3) h4
        exact ⟨l, h5, h6.trans hpre', h7⟩
  · have hretE : S.retired e.id = false := by
      by_contra h1
      obtain ⟨U, h2⟩ := (hM.m2 e.id).1 (by simpa using h1)
      rw [hlv] at h2; cases h2
    refine ⟨?_, ?_, ?_, ?_, hM.m4, hM.m4', ?_, hM.m6, ?_, hM.m7', ?_, ?_, ?_⟩
    · intro T' i' e' U h1 h2
      rcases (hks _ _ _).1 h1 with ⟨rfl, rfl, v, hv1, rfl⟩ | ⟨hh, h1⟩
      · exfalso
        have h3 : S.info S.nIds = none := by
          cases h4 : S.info S.nIds with
          | none => rfl
          | some x => have := he.e0 _ _ h4; omega
        have h4 := hM.m9 _ h3
        have h5 : S'.tok S.nIds = .live := by rw [htok _ (by omega)]; exact h4
        simp only [h5] at h2
        rcases h2 with ⟨_, _, h2⟩ | h2 | ⟨_, _, h2⟩ <;> cases h2
      · by_cases hid : e'.id = e.id
        · have : e' = e := by
            obtain ⟨x1, h3, h4⟩ := hp.p3 _ _ _ h1
            rw [hid, hxe] at h3; cases h3
            exact h4.symm.trans hxe'
          have h1 : S.kslot T' i' e := this ▸ h1
          rw [this] at h2
          have hU : U = S.unlinkU C T i := by
            rw [htokE] at h2
            rcases h2 with ⟨_, _, h2⟩ | h2 | ⟨_, _, h2⟩ <;> cases h2
            rfl
          have h3 := hrem hh h1
          rw [hU, unlinkU]
          split
          · rename_i hb
            have := hp.b1 hb.1 _ _ _ _ _ h1 hk0 h3
            rw [hb.2] at this; cases this
          · exact h3
        · rw [htok _ hid] at h2
          exact hM.m1 _ _ _ _ h1 h2
    · intro id t' U b h1
      by_cases hid : id = e.id
      · subst hid
        rw [htokE] at h1
        cases h1
        refine ⟨fun h => ?_, fun h => ?_⟩
        · simp only [decide_eq_false_iff_not] at h
          show _ ≤ S.rt
          omega
        · have : S.unlinkU C T i = T := by unfold unlinkU; rw [if_neg]; simp [h]
          have h2 := vis_blocking hp h hv
          rw [this, h2]
          exact ⟨Nat.le_refl _, (wasRoot_rt hs hT : S.wasRoot S.rt)⟩
      · rw [htok _ hid] at h1; exact hM.own _ _ _ _ h1
    · intro id
      by_cases hid : id = e.id
      · subst hid
        rw [htokE]
        constructor
        · intro h; have : S.retired e.id = true := h
          rw [hretE] at this; cases this
        · rintro ⟨U, h⟩; cases h
      · rw [htok _ hid]; exact hM.m2 id
    · intro id U t' h1
      by_cases hid : id = e.id
      · subst hid; rw [htokE] at h1; cases h1
      · rw [htok _ hid] at h1; exact hM.m3 id U t' h1
    · intro id h1
      rcases hM.m5 id h1 with h2 | ⟨P, h2, h3⟩
      · exact .inl h2
      · right
        refine ⟨P, ?_, h3⟩
        rw [htok]
        · exact h2
        · rintro rfl; rw [hlv] at h2; cases h2
    · intro id P
      by_cases hid : id = e.id
      · subst hid
        rw [htokE]
        have := hM.m7 e.id P
        rw [hlv] at this
        constructor
        · intro h; cases h
        · intro h; cases this.2 h
      · rw [htok _ hid]; exact hM.m7 id P
    · intro id x h1
      rcases hinfo2 id x h1 with h1 | ⟨v, hv1, hid, rfl⟩
      · have hx0 := he.e0 _ _ h1
        by_cases hid : id = e.id
        · subst hid
          have : x.entry = e := by rw [hxe] at h1; cases h1; exact hxe'
          rw [this, htokE]
          constructor
          · intro h; cases h
          · rintro (h | h)
            · exact absurd ((hlogd e (by omega)).2 (.inr rfl)) h
            · rw [habsN, if_pos hek] at h
              simp only [Option.map_eq_some_iff] at h
              obtain ⟨v, _, rfl⟩ := h
              simp at hlt
        · rw [htok _ hid]
          have hne : x.entry ≠ e := by rintro h; apply hid; rw [← h, hx0.1]
          have hne' : x.entry.id ≠ S.nIds := by omega
          rw [hM.m8 _ _ h1, hlogd _ hne']
          apply or_congr
          · constructor
            · rintro h (h' | h')
              · exact h h'
              · exact hne h'
            · intro h h'; exact h (.inl h')
          · rw [habsN]
            by_cases hkk : x.entry.key = k
            · rw [if_pos hkk]
              constructor
              · intro h
                rcases (hlg0 e).2 (.inr rfl) with ⟨_, _, _⟩
                have h3 := (hl.a _ _).1 h
                obtain ⟨T', i', h4, _, h5⟩ := h3
                exact absurd (vis_unique hs hp h4 hv (hkk.trans hek.symm)).2.2 hne
              · intro h
                simp only [Option.map_eq_some_iff] at h
                obtain ⟨v, _, h⟩ := h
                rw [← h] at hne'; simp at hne'
            · rw [if_neg hkk]
      · subst hid
        rw [htok _ (by omega)]
        have h3 : S.info S.nIds = none := by
          cases h4 : S.info S.nIds with
          | none => rfl
          | some x => have := he.e0 _ _ h4; omega
        rw [hM.m9 _ h3, habsN]
        simp [hv1]
    · intro id h1
      have h2 : S.info id = none := by
        cases h3 : S.info id with
        | none => rfl
        | some x => rw [hinfo1 _ _ h3] at h1; cases h1
      rw [htok]
      · exact hM.m9 id h2
      · rintro rfl; rw [hxe] at h2; cases h2
    · intro id P h1
      by_cases hid : id = e.id
      · subst hid; rw [htokE] at h1; cases h1
      · rw [htok _ hid] at h1; exact hM.m10 _ _ h1

theorem replSt_Evo (h : S.Inv C) (hat : S.AtTable C t k T) (hk0 : S.kslot T i e) (hek : e.key = k)
    (hncp : ¬ S.copying T i) (hpre : S.log <+: log0) : Evo S (S.replSt C t T i k e new log0) := by
  have hnc : ¬ S.copiedF T i := fun h' => hncp (h.p.p7 _ _ _ hk0 h').2
  set S' := S.replSt C t T i k e new log0 with hS'
  have hlog' : S'.log = log0 ++ [S.replEv t k e new] := rfl
  have hsl : ∀ T' i', ¬ (T' = T ∧ i' = i) → S'.slot T' i' = S.slot T' i' := by
    intro T' i' h; rw [hS', replSt, slSt_slot, if_neg h]
  have hslT : S'.slot T i = replSlot S.nIds k new := by rw [hS', replSt, slSt_slot, if_pos ⟨rfl, rfl⟩]
  exact {
    ev := .same rfl rfl
    root := fun r h => ⟨r, h, Nat.le_refl _⟩
    nTabs := Nat.le_refl _
    cap := fun _ _ => rfl
    aborted := fun _ h => h
    wasRoot := fun _ h => h
    md := fun _ _ h => h
    key := fun T' i' e' h => by
      by_cases hh : T' = T ∧ i' = i
      · obtain ⟨rfl, rfl⟩ := hh
        have := kslot_inj h hk0
        subst this
        unfold kslot
        rw [hslT]
        cases hnew : new with
        | none => left; exact ⟨rfl, by rw [hlog', abs_snoc, hek]; simp [replEv, hnew]⟩
        | some v => right; exact ⟨_, rfl, hek.symm⟩
      · right; exact ⟨e', by unfold kslot; rw [hsl _ _ hh]; exact h, rfl⟩
    null := fun T' i' h1 h2 => by
      by_cases hh : T' = T ∧ i' = i
      · obtain ⟨rfl, rfl⟩ := hh
        unfold kslot at hk0; rw [hk0] at h2; cases h2
      · rw [hsl _ _ hh]; exact h2
    nnull := fun T' i' h => by
      by_cases hh : T' = T ∧ i' = i
      · obtain ⟨rfl, rfl⟩ := hh
        rw [hslT]
        cases new with
        | none => intro h; have := congrArg Slot.copied h; simp [Slot.null, replSlot, Slot.tombstone] at this
        | some v => intro h; have := congrArg Slot.ptr h; simp [Slot.null, replSlot, Slot.untagged] at this
      · rw [hsl _ _ hh]; exact h
    frozen := fun T' i' h => by
      have hh : ¬ (T' = T ∧ i' = i) := by rintro ⟨rfl, rfl⟩; exact hncp h
      unfold copying
      rw [hsl _ _ hh]; exact ⟨rfl, h, rfl⟩
    copied := fun T' i' _ h1 h2 => by
      have hh : ¬ (T' = T ∧ i' = i) := by rintro ⟨rfl, rfl⟩; exact hnc h2
      unfold copiedF; rw [hsl _ _ hh]; exact h2
    log := hpre.trans (by rw [hlog']; exact List.prefix_append _ _)
    dem := fun _ _ _ => rfl
    nlog := fun _ _ => rfl
    nlog' := fun T h h' => absurd h (by have : T + 1 < S.nTabs := h'; omega)
    info := fun id x h' => by
      show S.replInfo t k new id = _
      cases new with
      | none => exact h'
      | some v => exact updInfo_old h.e _ h'
    ops := fun _ _ => rfl
    seq := fun _ => Nat.le_refl _
    counted := fun N' j' l h => h
    lost := fun N' j' h => h
    claim := fun _ => Nat.le_refl _
    prom := fun _ h => h }

theorem replSt_Own {t' : Tid} (ht : t' ≠ t) (h : S.Inv C) (hlv : S.tok e.id = .live) (hpre : S.log <+: log0)
    (hev0 : ∀ ev, ev ∈ log0.drop S.log.length → ev.op.1 = t' → ev.old = none ∧
      ∃ e x, ev.new = some e ∧ S.info e.id = some x ∧ x.entry = e ∧ x.op = ev.op ∧ ¬ S.logged e) :
    Own t' S (S.replSt C t T i k e new log0) where
  seq := rfl
  invPos := rfl
  rInv := rfl
  pr := rfl
  pinned := rfl
  cs _ _ _ := rfl
  cs' _ _ _ := rfl
  lock _ h := ⟨h, rfl⟩
  lock' _ h := h
  info id x h1 h2 := by
    change S.replInfo t k new id = _ at h1
    cases new with
    | none => exact h1
    | some v =>
      rcases updInfo_cases h1 with h1 | ⟨_, rfl⟩
      · exact h1
      · exact absurd h2.symm ht
  evs ev h1 h2 := by
    change ev ∈ (log0 ++ [S.replEv t k e new]).drop S.log.length at h1
    rw [List.drop_append] at h1
    rcases List.mem_append.1 h1 with h1 | h1
    · exact hev0 ev h1 h2
    · have := List.mem_of_mem_drop h1
      rw [List.mem_singleton] at this
      subst this
      exact absurd h2.symm ht
  pays := ⟨[], by simp [replSt, slSt], by simp⟩
  tok id U b h1 := by
    show S.replTok C t T i e id = _
    unfold replTok
    rw [if_neg]
    · exact h1
    · rintro rfl; rw [hlv] at h1; cases h1
  tok' id U b h1 := by
    change S.replTok C t T i e id = _ at h1
    unfold replTok at h1
    split at h1
    · cases h1; exact absurd rfl ht
    · exact h1
  tabTok _ := Iff.rfl
  prot e' hp := by
    obtain ⟨h1, h2, h3⟩ := hp
    refine ⟨h1, ?_, ?_⟩
    · obtain ⟨x, h5, h6⟩ := h2
      refine ⟨x, ?_, h6⟩
      show S.replInfo t k new e'.id = some x
      cases new with
      | none => exact h5
      | some v => exact updInfo_old h.e _ h5
    · show (match S.replTok C t T i e e'.id with
        | .live => True
        | .owned _ U b => b = true → S.pr t' < U
        | .retired _ => S.blockers e'.id t' = true
        | .deferred P => S.pr t' ≤ P)
      unfold replTok
      by_cases hid : e'.id = e.id
      · rw [if_pos hid]
        simp only [decide_eq_true_eq]
        intro h4
        have := h.l.d3 t'
        omega
      · rw [if_neg hid]; exact h3

end GSt

end Papaya
