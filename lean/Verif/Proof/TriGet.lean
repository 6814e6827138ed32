import Verif.Proof.TriRest

/-! # Reads: what probing a table tells about the abstract map -/

set_option linter.unusedSectionVars false
set_option linter.unusedVariables false

namespace Papaya

variable {K V : Type} [DecidableEq K]

open GSt

variable {C : Cfg K} {t : Tid} {Ap : PanicReason → GSt K V → Prop} {S : GSt K V} {k : K} {T : Nat}

/-! ## Absence -/

/-- If probing `T` for `k` ended at an empty slot, any occurrence of `k` in `T` is not initialized yet. -/
theorem empty_key (h : S.Inv C) {n : Nat} (hn : n ≤ S.lim T) (hd : ∀ m, m < n → S.dead T (S.pos C T k m) k)
    (hm : S.md T (S.pos C T k n) = EMPTY) {i : Nat} {e : Entry K V} (hk : S.kslot T i e) (hek : e.key = k) :
    S.md T i = EMPTY := by
  obtain ⟨n', h1, h2, h3⟩ := h.p.p4 T i e hk
  rw [hek] at h2 h3
  rcases Nat.lt_trichotomy n' n with g | g | g
  · have := hd n' g
    rw [h2] at this
    exact absurd hek (this.2 e hk)
  · rw [← h2, g]; exact hm
  · exact absurd hm (h3 n g).1

theorem empty_not_over {n : Nat} (hn : n ≤ S.lim T) (hm : S.md T (S.pos C T k n) = EMPTY) : ¬ S.over C T k :=
  fun ho => (ho n hn).1 hm

theorem empty_not_passed (h : S.Inv C) {n : Nat} (hn : n ≤ S.lim T) (hd : ∀ m, m < n → S.dead T (S.pos C T k m) k)
    (hm : S.md T (S.pos C T k n) = EMPTY) : ¬ S.passed C T k := by
  rintro (ho | ⟨i, e, h1, h2, h3⟩)
  · exact empty_not_over hn hm ho
  · exact h3.2 (empty_key h hn hd hm h1 h2)

/-- A lookup that stops at an empty slot. -/
theorem absent_empty (h : S.Inv C) (ha : S.AtTable C t k T) {n : Nat} (hn : n ≤ S.lim T)
    (hd : ∀ m, m < n → S.dead T (S.pos C T k m) k) (hm : S.md T (S.pos C T k n) = EMPTY) : SeenIn t k none S := by
  rcases ha.2.2 with hw | ⟨hi, hlt, hps⟩
  · rcases Nat.lt_or_eq_of_le hw.2.1 with hr | hr
    · refine ⟨S.demLog T, h.l.d1 T hw hr, h.l.d2 t T hw hr ha.2.1, ?_⟩
      by_contra hne
      rcases h.l.l1 T k hw hr hne with ⟨_, ho⟩ | ⟨i, e, h1, h2, h3⟩
      · exact empty_not_over hn hm ho
      · exact h3 (empty_key h hn hd hm h1 h2)
    · refine SeenIn.now h ((abs_none_iff h.l).2 ?_)
      rintro e ⟨T', i, ⟨g1, g2, g3, g4, g5⟩, g6, g7⟩
      subst hr
      rcases Nat.lt_or_eq_of_le g1 with g | g
      · rcases h.p.f1 _ _ _ g3 g with ⟨j, q1, q2, q3⟩ | ⟨q1, q2⟩
        · exact g4 ⟨g, j, q1, fun hmv => hmv.2 (empty_key h hn hd hm q1 g7)⟩
        · rw [g7] at q2; exact empty_not_passed h hn hd hm q2
      · subst g; exact g6 (empty_key h hn hd hm g3 g7)
  · refine SeenIn.now h ((abs_none_iff h.l).2 ?_)
    rintro e ⟨T', i, ⟨g1, g2, g3, g4, g5⟩, g6, g7⟩
    rcases Nat.lt_trichotomy T' T with g | g | g
    · exact g5 (passed_kslot h.p (hps T' g1 g) g3 g7)
    · subst g; exact g6 (empty_key h hn hd hm g3 g7)
    · have := h.p.f2 hi T' i e g3 T hlt g
      rw [g7] at this
      exact empty_not_over hn hm this

/-- A lookup that exhausted the probe limit, with no further table. -/
theorem absent_over (h : S.Inv C) (ha : S.AtTable C t k T) (ho : S.over C T k)
    (hl : C.inc = false ∨ S.nTabs = T + 1) : SeenIn t k none S := by
  have hnl : ∀ {T' i e}, S.kslot T' i e → e.key = k → T' ≠ T := by
    rintro T' i e hk hek rfl
    exact over_kslot h.p ho hk hek
  rcases ha.2.2 with hw | ⟨hi, hlt, hps⟩
  · rcases Nat.lt_or_eq_of_le hw.2.1 with hr | hr
    · refine ⟨S.demLog T, h.l.d1 T hw hr, h.l.d2 t T hw hr ha.2.1, ?_⟩
      by_contra hne
      rcases h.l.l1 T k hw hr hne with ⟨hi, _⟩ | ⟨i, e, h1, h2, h3⟩
      · rcases hl with hl | hl
        · rw [hi] at hl; cases hl
        · have := rt_lt h.s ha.1; omega
      · exact hnl h1 h2 rfl
    · refine SeenIn.now h ((abs_none_iff h.l).2 ?_)
      rintro e ⟨T', i, hv, g6, g7⟩
      rcases hl with hl | hl
      · exact hnl hv.2.2.1 g7 ((vis_blocking h.p hl hv).trans hr.symm)
      · have h1 := hv.1
        have h2 := kslot_lt h.s hv.2.2.1
        exact hnl hv.2.2.1 g7 (by omega)
  · refine SeenIn.now h ((abs_none_iff h.l).2 ?_)
    rintro e ⟨T', i, ⟨g1, g2, g3, g4, g5⟩, g6, g7⟩
    have hl' : S.nTabs = T + 1 := by
      rcases hl with hl | hl
      · rw [hi] at hl; cases hl
      · exact hl
    have h2 := kslot_lt h.s g3
    have := hnl g3 g7
    exact g5 (passed_kslot h.p (hps T' g1 (by omega)) g3 g7)

/-- The last table has not been passed unless it is full. -/
theorem passed_last (h : S.Inv C) (hp : S.passed C T k) (hl : S.nTabs = T + 1) : S.over C T k := by
  rcases hp with hp | ⟨i, e, h1, h2, h3⟩
  · exact hp
  · have := (h.p.p5 T i (h.p.p7 T i e h1 h3.1).2).2
    omega

/-! ## Presence -/

/-- An entry found in a slot that has not been copied: either visible, or in a table that a blocking resize replaced. -/
theorem found_cases (h : S.Inv C) (ha : S.AtTable C t k T) {i : Nat} {e : Entry K V} (hk : S.kslot T i e)
    (hek : e.key = k) (hc : ¬ S.copiedF T i) :
    S.vis T i e ∨ ∃ l, S.demLog T <+: l ∧ l <+: S.log ∧ abs l k = some e ∧ S.invPos t ≤ l.length := by
  rcases ha.2.2 with hw | ⟨hi, hlt, hps⟩
  · rcases Nat.lt_or_eq_of_le hw.2.1 with hr | hr
    · cases hi : C.inc with
      | true => exact absurd (p8 h.s h.p h.c hi hr hk) hc
      | false =>
        obtain ⟨l, h1, h2, h3⟩ := h.l.l2 hi T i e hw hr hk
        right
        refine ⟨l, h1, h2, hek ▸ h3, ?_⟩
        have := h.l.d2 t T hw hr ha.2.1
        have := h1.length_le
        omega
    · left
      exact ⟨by omega, hw.2.2, hk, fun h => by have := h.1; omega, fun h => hc h.1⟩
  · left
    refine ⟨by omega, h.s.incab hi T, hk, ?_, fun h => hc h.1⟩
    rintro ⟨_, j, h4, h5⟩
    exact h5 (passed_kslot h.p (hps S.rt (Nat.le_refl _) hlt) h4 hek)

theorem found_seenIf (h : S.Inv C) (ha : S.AtTable C t k T) {i : Nat} {e : Entry K V} (hk : S.kslot T i e)
    (hek : e.key = k) (hc : ¬ S.copiedF T i) : SeenIf t k e S := by
  rcases found_cases h ha hk hek hc with hv | ⟨l, h1, h2, h3, h4⟩
  · intro hlg
    by_cases hm : S.md T i = EMPTY
    · exact absurd hlg (h.l.u2 T i e hk hm hv.1 hv.2.1 hv.2.2.2.1).1
    · refine SeenIn.now h ?_
      rw [← hek, abs_vis h.s h.p h.l hv, if_neg hm]
  · exact fun _ => ⟨l, h2, h4, h3⟩

theorem found_seen (h : S.Inv C) (ha : S.AtTable C t k T) {i : Nat} {e : Entry K V} (hk : S.kslot T i e)
    (hek : e.key = k) (hc : ¬ S.copiedF T i) (hm : S.md T i ≠ EMPTY) : SeenIn t k (some e) S := by
  rcases found_cases h ha hk hek hc with hv | ⟨l, h1, h2, h3, h4⟩
  · refine SeenIn.now h ?_
    rw [← hek, abs_vis h.s h.p h.l hv, if_neg hm]
  · exact ⟨l, h2, h4, h3⟩

/-- An operation may continue in the next table. -/
theorem AtTable.next (h : S.Inv C) (hi : C.inc = true) (ha : S.AtTable C t k T) (hp : S.passed C T k)
    (hn : T + 1 < S.nTabs) : S.AtTable C t k (T + 1) := by
  refine ⟨hn, by have := ha.2.1; omega, ?_⟩
  by_cases hr : T + 1 ≤ S.rt
  · exact .inl (inc_wasRoot h.s hi hr hn)
  · refine .inr ⟨hi, by omega, fun P h1 h2 => ?_⟩
    by_cases hP : P = T
    · rw [hP]; exact hp
    · rcases ha.2.2 with hw | ⟨_, h3, h4⟩
      · have := hw.2.1; omega
      · exact h4 P h1 (by omega)

theorem RootAcc.atTable {T : Table} (ha : RootAcc t T S) : S.AtTable C t k T.id := ⟨ha.1.2.1, ha.2.2, .inl ha.2.1⟩

/-! ## `get` -/

/-- Probing table `T` for key `k`. -/
def PCtx (C : Cfg K) (t : Tid) (k : K) (T : Table) (S : GSt K V) : Prop := Acc t T S ∧ S.AtTable C t k T.id

instance {T : Table} : Inert C t (PCtx (V := V) C t k T) := by unfold PCtx; infer_instance

theorem RootAcc.pctx {T : Table} (ha : RootAcc t T S) : PCtx C t k T S := ⟨ha.1, ha.atTable⟩

theorem md_dead (h : S.Inv C) {i : Nat} (hm : S.md T i ≠ C.h2 k) (hm' : S.md T i ≠ EMPTY) : S.dead T i k := by
  refine ⟨hm', fun e hk hek => ?_⟩
  rcases h.p.p2 T i e hk with h1 | h1
  · exact hm' h1
  · rw [hek] at h1; exact hm h1

/-- The value read from a slot whose metadata is set. -/
def Read (C : Cfg K) (t : Tid) (k : K) (T i : Nat) (s : Slot K V) (S : GSt K V) : Prop :=
  (s.ptr = none → S.dead T i k) ∧ ∀ e, s.ptr = some e → S.Prot t e ∧ (e.key ≠ k → S.dead T i k) ∧
    (e.key = k → if s.copied = true then C.inc = true ∧ S.passed C T k else SeenIn t k (some e) S)

instance {i : Nat} {s : Slot K V} : Inert C t (Read C t k T i s) := by
  unfold Read
  have : ∀ e : Entry K V, Inert C t fun S : GSt K V =>
      (if s.copied = true then C.inc = true ∧ S.passed C T k else SeenIn t k (some e) S) := by
    intro e; split <;> infer_instance
  infer_instance

theorem read_slot {T : Table} (h : S.Inv C) (hc : PCtx C t k T S) {i : Nat} (hm : S.md T.id i ≠ EMPTY) :
    Read C t k T.id i (S.slot T.id i) S := by
  refine ⟨fun hn => dead_of_nulled hm ⟨md_nonnull h.p hm, hn⟩, fun e hk => ⟨hc.1.prot h hk, fun hne => ?_, fun hek => ?_⟩⟩
  · exact dead_of_keyed hm (kslot_keyed hk) hne
  · split
    · rename_i hcd
      exact ⟨(h.p.p7 _ _ _ hk hcd).1, .inr ⟨i, e, hk, hek, hcd, hm⟩⟩
    · rename_i hcd
      exact found_seen h hc.2 hk hek hcd hm

theorem tri_getProbe {T : Table} :
    Tri (V := V) C t Ap (Mt t) (PCtx C t k T) (getProbe C k T)
      (fun r S => match r with
        | .found e => SeenIn t k (some e) S ∧ S.Prot t e ∧ e.key = k
        | .absent => SeenIn t k none S
        | .nextTable => PCtx C t k T S ∧ (S.over C T.id k ∨ C.inc = true ∧ S.passed C T.id k)) := by
  have hg := fun S : GSt K V => Mt.refl t S
  unfold getProbe
  refine (Tri.loop (fun probe S => ∃ n, probe = Probe.after (C.h1 k) T.mask n ∧ PCtx C t k T S ∧ DeadTo C T k n S) ?_).pre
    (fun S _ h => ⟨0, rfl, h, DeadTo.zero⟩)
  intro probe
  refine Tri.ex fun n => ?_
  refine Tri.extract (φ := probe = Probe.after (C.h1 k) T.mask n) (fun S _ h => h.1) ?_
  rintro rfl
  refine Tri.pre (P := fun S => PCtx C t k T S ∧ DeadTo C T k n S) ?_ (fun S _ h => h.2)
  rw [after_len]
  refine Tri.extract (φ := (Probe.after (C.h1 k) T.mask n).i < T.len)
    (fun S h hp => hp.1.1.after_len h k n) fun hidx => ?_
  refine Tri.ite (fun hn => ?_) (fun hn => Tri.ret fun S _ h => ⟨h.1, .inl (h.2.over h.1.1 (by omega))⟩)
  refine Tri.bind (fun m S => (PCtx C t k T S ∧ DeadTo C T k n S) ∧
    (m = EMPTY → SeenIn t k none S) ∧
    (m ≠ EMPTY → S.md T.id (Probe.after (C.h1 k) T.mask n).i ≠ EMPTY) ∧
    (m ≠ EMPTY → m ≠ C.h2 k → S.dead T.id (Probe.after (C.h1 k) T.mask n).i k)) ?_ ?_
  · refine tri_loadMd hg (fun S _ h => h.1.1) hidx _ ?_
    intro S h hp
    refine ⟨hp, fun hm => ?_, fun hm => hm, fun h1 h2 => md_dead h h2 h1⟩
    refine absent_empty h hp.1.2 (n := n) (by rw [← hp.1.1.limit]; exact hn) (hp.2.pos hp.1.1) ?_
    rw [← hp.1.1.after]; exact hm
  intro m
  refine Tri.ite (fun hm => ?_) (fun hm => ?_)
  · have hme : m ≠ EMPTY := by rw [hm]; exact h2_ne C k
    refine Tri.bind (fun s S => (PCtx C t k T S ∧ DeadTo C T k n S) ∧
      Read C t k T.id (Probe.after (C.h1 k) T.mask n).i s S) ?_ ?_
    · refine Tri.pre (P := fun S => (PCtx C t k T S ∧ DeadTo C T k n S) ∧
        S.md T.id (Probe.after (C.h1 k) T.mask n).i ≠ EMPTY) ?_ (fun S _ h => ⟨h.1, h.2.2.1 hme⟩)
      refine tri_loadSlot hg (fun S _ h => h.1.1.1) hidx _ ?_
      intro S h hp
      exact ⟨hp.1, read_slot h hp.1.1 hp.2⟩
    intro s
    cases hs : s.ptr with
    | none => exact Tri.ret fun S _ h => ⟨n + 1, rfl, h.1.1, h.1.2.succ (h.2.1 hs)⟩
    | some e =>
      simp only
      refine Tri.bind _ (tri_deref hg (fun S _ h => (h.2.2 e hs).1)) ?_
      intro _
      refine Tri.ite (fun hk => ?_) (fun hk => ?_)
      · refine Tri.ite (fun hcd => Tri.ret fun S _ h => ?_) (fun hcd => Tri.ret fun S _ h => ?_)
        · have := (h.2.2 e hs).2.2 hk
          rw [if_pos hcd] at this
          exact ⟨h.1.1, .inr this⟩
        · have := (h.2.2 e hs).2.2 hk
          rw [if_neg hcd] at this
          exact ⟨this, (h.2.2 e hs).1, hk⟩
      · refine Tri.ite (fun h => absurd h hme) (fun _ => Tri.ret fun S _ h => ?_)
        exact ⟨n + 1, rfl, h.1.1, h.1.2.succ ((h.2.2 e hs).2.1 hk)⟩
  · refine Tri.ite (fun hme => Tri.ret fun S _ h => h.2.1 hme) (fun hme => Tri.ret fun S _ h => ?_)
    exact ⟨n + 1, rfl, h.1.1, h.1.2.succ (h.2.2.2 hme hm)⟩

/-- The map is empty as long as there is no table. -/
theorem absent_noRoot (h : S.Inv C) (hr : S.root = none) : abs S.log k = none := by
  refine (abs_none_iff h.l).2 ?_
  rintro e ⟨T', i, hv, _⟩
  have h1 := kslot_lt h.s hv.2.2.1
  have h2 := (h.s.none hr).1
  omega

theorem tri_get : Tri (V := V) C t Ap (Mt t) (fun S => Pinned t S) (get C k)
    (fun r S => SeenIn t k r S ∧ ∀ e, r = some e → S.Prot t e ∧ e.key = k) := by
  have hg := fun S : GSt K V => Mt.refl t S
  unfold get
  refine Tri.bind (fun r S => match r with | none => SeenIn t k none S | some T => PCtx C t k T S) ?_ ?_
  · refine tri_loadRoot hg (fun S _ h => h) _ ?_ ?_
    · intro S T h hp h1 _; exact h1.pctx
    · intro S h hp hr; exact SeenIn.now h (absent_noRoot h hr)
  rintro (_ | T)
  · exact Tri.ret fun S _ h => ⟨h, by simp⟩
  simp only
  refine Tri.loop (fun T S => PCtx C t k T S) ?_
  intro T
  refine Tri.bind _ tri_getProbe ?_
  rintro (e | _ | _)
  · exact Tri.ret fun S _ h => ⟨h.1, by rintro _ ⟨⟩; exact h.2⟩
  · exact Tri.ret fun S _ h => ⟨h, by simp⟩
  · simp only
    refine Tri.ite (fun hi => ?_) (fun hi => Tri.ret fun S h hp => ?_)
    · refine Tri.bind (fun r S => match r with | some N => PCtx C t k N S | none => SeenIn t k none S) ?_ ?_
      · refine Tri.mt (Tri.pre (P := fun S => PCtx C t k T S ∧ S.passed C T.id k) ?_ ?_)
        · refine tri_loadNext (fun S _ h => h.1.1) _ ?_ ?_
          · intro S N h hp h1 h2
            refine ⟨h1, ?_⟩
            rw [h2]
            exact AtTable.next h hi hp.1.2 hp.2 (by rw [← h2]; exact h1.2.1)
          · intro S h hp h1
            exact absent_over h hp.1.2 (passed_last h hp.2 h1) (.inr h1)
        · intro S _ h
          exact ⟨h.1, h.2.elim .inl fun h => h.2⟩
      · rintro (_ | N)
        · exact Tri.ret fun S _ h => ⟨h, by simp⟩
        · exact Tri.ret fun S _ h => h
    · refine ⟨absent_over h hp.1.2 ?_ (.inl (by simpa using hi)), by simp⟩
      rcases hp.2 with h1 | h1
      · exact h1
      · exact absurd h1.1 hi

end Papaya
