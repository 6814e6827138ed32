import Verif.Proof.ActMem

/-! # Allocation of tables, initial state -/

set_option linter.unusedSectionVars false
set_option linter.unusedVariables false

namespace Papaya

variable {K V : Type} [DecidableEq K]

namespace GSt

variable {C : Cfg K} {S S' : GSt K V}

theorem not_over (hs : S.InvS C) {T : Nat} (h : S.nTabs ≤ T) {k : K} : ¬ S.over C T k := by
  intro ho
  exact (ho 0 (Nat.zero_le _)).1 ((hs.out T h).2.1 _)

/-- Publishing the successor of the last table `T`. -/
def allocSt (S : GSt K V) (T cap : Nat) : GSt K V :=
  { S with
    toSt := { S.toSt.allocTable cap .pending with
              next := fun T' => if T' = T then some S.nTabs else if T' = S.nTabs then none else S.next T' }
    nextLog := fun T' => if T' = T then S.log else S.nextLog T' }

theorem allocSt_same (hs : S.InvS C) {T cap : Nat} :
    (S.allocSt T cap).slot = S.slot ∧ (S.allocSt T cap).md = S.md ∧ (S.allocSt T cap).claim = S.claim ∧
    (S.allocSt T cap).copied = S.copied ∧ (S.allocSt T cap).status = S.status ∧
    (S.allocSt T cap).lock = S.lock ∧ (S.allocSt T cap).deferred = S.deferred := by
  have ho := hs.out S.nTabs (Nat.le_refl _)
  refine ⟨?_, ?_, ?_, ?_, ?_, ?_, ?_⟩
  · funext T' i
    show (if T' = S.nTabs then Slot.null else S.slot T' i) = _
    split
    · rename_i h; subst h; rw [ho.1 i]
    · rfl
  · funext T' i
    show (if T' = S.nTabs then EMPTY else S.md T' i) = _
    split
    · rename_i h; subst h; rw [ho.2.1 i]
    · rfl
  · funext T'
    show (if T' = S.nTabs then 0 else S.claim T') = _
    split
    · rename_i h; subst h; rw [ho.2.2.2.1]
    · rfl
  · funext T'
    show (if T' = S.nTabs then 0 else S.copied T') = _
    split
    · rename_i h; subst h; rw [ho.2.2.2.2.1]
    · rfl
  · funext T'
    show (if T' = S.nTabs then .pending else S.status T') = _
    split
    · rename_i h; subst h; rw [ho.2.2.2.2.2.1]
    · rfl
  · funext T'
    show (if T' = S.nTabs then .free else S.lock T') = _
    split
    · rename_i h; subst h; rw [ho.2.2.2.2.2.2.1]
    · rfl
  · funext T'
    show (if T' = S.nTabs then [] else S.deferred T') = _
    split
    · rename_i h; subst h; rw [ho.2.2.2.2.2.2.2.1]
    · rfl

theorem allocSt_Inv (h : S.Inv C) {T cap : Nat} (hT : T + 1 = S.nTabs) (hc1 : isPow2 cap) (hc2 : 8 ≤ cap)
    (hc3 : C.initialCapacity ≤ cap)
    (hab : C.inc = false → T ≤ S.rt ∨ S.aborted T) :
    (S.allocSt T cap).Inv C := by
  obtain ⟨e1, e2, e3, e4, e5, e6, e7⟩ := allocSt_same h.s (T := T) (cap := cap)
  obtain ⟨hs, hp, hc, he, hl, hM, hN⟩ := h
  set S' := S.allocSt T cap with hS'
  have hn : S'.nTabs = S.nTabs + 1 := rfl
  have hcap : ∀ T', T' < S.nTabs → S'.cap T' = S.cap T' := by
    intro T' h
    show (if T' = S.nTabs then cap else S.cap T') = _
    rw [if_neg (by omega)]
  have hTn : T < S.nTabs := by omega
  have hrl := rt_lt hs hTn
  have hrt : S'.rt = S.rt := rfl
  have haa : S'.aborted = S.aborted := by unfold aborted; rw [e5]
  have hk : S'.kslot = S.kslot := by unfold kslot; rw [e1]
  have hcp : S'.copying = S.copying := by unfold copying; rw [e1]
  have hcd : S'.copiedF = S.copiedF := by unfold copiedF; rw [e1]
  have hmv : S'.moved = S.moved := by unfold moved; rw [hcd, e2]
  have hd : S'.dead = S.dead := by unfold dead; rw [hk, e2]
  have hhid : S'.hid = S.hid := by unfold hid; rw [hk, hmv, hrt]
  have hvis : S'.vis = S.vis := by unfold vis; rw [hk, hmv, hrt, haa, hhid]
  have hlive : S'.Live = S.Live := by unfold Live; rw [hvis, e2]
  have hwr : ∀ T', S'.wasRoot T' ↔ S.wasRoot T' := by
    intro T'
    unfold wasRoot
    rw [haa, hrt, hn]
    constructor
    · rintro ⟨h1, h2, h3⟩; exact ⟨by omega, h2, h3⟩
    · rintro ⟨h1, h2, h3⟩; exact ⟨by omega, h2, h3⟩
  have hpos : ∀ T', T' < S.nTabs → ∀ k n, S'.pos C T' k n = S.pos C T' k n := by
    intro T' h k n; unfold pos; rw [hcap T' h]
  have hlim : ∀ T', T' < S.nTabs → S'.lim T' = S.lim T' := by
    intro T' h; unfold lim; rw [hcap T' h]
  have hov : ∀ T' k, S.over C T' k → S'.over C T' k := by
    intro T' k ho
    have hlt : T' < S.nTabs := by
      by_contra hh; exact not_over hs (by omega) ho
    intro n hn'
    rw [hlim _ hlt] at hn'
    rw [hd, hpos _ hlt]; exact ho n hn'
  have hps : ∀ T' k, S.passed C T' k → S'.passed C T' k := by
    intro T' k ho
    rcases ho with ho | ho
    · exact .inl (hov _ _ ho)
    · right; rw [hk, hmv]; exact ho
  have hpair : ∀ s N, N < S.nTabs → (S'.CopyPair s N ↔ S.CopyPair s N) := by
    intro s N hN'
    unfold CopyPair
    rw [haa, hwr, hn]
    constructor
    · rintro ⟨h1, h2, h3⟩; exact ⟨h1, hN', h3⟩
    · rintro ⟨h1, h2, h3⟩; exact ⟨h1, by omega, h3⟩
  have hcsn : ∀ N j, S.cs N j ≠ .idle → N < S.nTabs := by
    intro N j h
    obtain ⟨s, h1, _⟩ := hc.c2 N j h
    exact h1.2.1
  have hcs : S'.cs = S.cs := rfl
  have hloc : S'.loc = S.loc := rfl
  have hnc : S'.nCounted = S.nCounted := by unfold nCounted; rw [e3, hcs]
  have hlogd : S'.logged = S.logged := rfl
  have hs' : S'.InvS C := by
    refine ⟨?_, ?_, ?_, ?_, ?_, ?_, ?_, ?_⟩
    · intro h; have := (hs.none h).1; omega
    · intro r hr
      have := hs.some r hr
      rw [haa, hn]
      exact ⟨by omega, this.2⟩
    · intro T' hT'
      rw [hn] at hT' ⊢
      show (if T' = T then some S.nTabs else if T' = S.nTabs then none else S.next T') = _
      by_cases h1 : T' = T
      · rw [if_pos h1, if_pos (by omega)]
        congr 1; omega
      · rw [if_neg h1]
        by_cases h2 : T' = S.nTabs
        · rw [if_pos h2, if_neg (by omega)]
        · rw [if_neg h2, hs.next T' (by omega), if_pos (by omega), if_pos (by omega)]
    · intro T' hT'
      rw [hn] at hT'
      by_cases h2 : T' = S.nTabs
      · have : S'.cap T' = cap := if_pos h2
        rw [this]; exact ⟨hc1, hc2, hc3⟩
      · rw [hcap T' (by omega)]; exact hs.cap T' (by omega)
    · intro T' hT'
      rw [hn] at hT'
      rw [e1, e2, e3, e4, e5, e6, e7]
      exact hs.out T' (by omega)
    · intro T' h
      rw [e5] at h
      have := hs.prom T' h
      exact ⟨this.1, by rw [hn]; omega⟩
    · rw [haa]; exact hs.incab
    · intro hi T' h1 h2
      rw [haa]
      rw [hn] at h2
      rw [hrt] at h1
      by_cases h3 : T' = T
      · subst h3
        rcases hab hi with h4 | h4
        · omega
        · exact h4
      · exact hs.blkab hi T' h1 (by omega)
  refine ⟨hs', ?_, ?_, he.congr rfl rfl rfl rfl rfl rfl, ?_, ?_, hN⟩
  · refine ⟨?_, ?_, ?_, ?_, ?_, ?_, ?_, ?_, ?_⟩
    · rw [e1, e2]; exact hp.p1
    · rw [hk, e2]; exact hp.p2
    · rw [hk]; exact hp.p3
    · intro T' i e hke
      rw [hk] at hke
      have hlt := kslot_lt hs hke
      obtain ⟨n, h1, h2, h3⟩ := hp.p4 T' i e hke
      refine ⟨n, by rw [hlim _ hlt]; exact h1, by rw [hpos _ hlt]; exact h2, fun m hm => ?_⟩
      rw [hd, hpos _ hlt]; exact h3 m hm
    · intro T' i h
      rw [hcp] at h
      have := hp.p5 T' i h
      exact ⟨(hwr _).2 this.1, by rw [hn]; omega⟩
    · rw [hk, hcd, hcp]; exact hp.p7
    · rw [hk, e1]; exact hp.b1
    · intro T' i e h1 h2
      rw [hk] at h1
      rw [hk, hcp, hloc, hrt]
      rcases hp.f1 T' i e h1 h2 with h3 | ⟨h3, h4⟩
      · exact .inl h3
      · exact .inr ⟨h3, hps _ _ h4⟩
    · intro hi T' i e h1 P h2 h3
      rw [hk] at h1
      exact hov _ _ (hp.f2 hi T' i e h1 P h2 h3)
  · refine ⟨?_, ?_, ?_, ?_, ?_, ?_, ?_, ?_, ?_, ?_⟩
    · intro N j h; rw [e3] at h; exact hc.c1 N j h
    · intro N j h
      obtain ⟨s, h1, h2⟩ := hc.c2 N j h
      refine ⟨s, (hpair s N (hcsn N j h)).2 h1, ?_⟩
      rw [hcap s h1.2.2.1.1]; exact h2
    · intro s N j l h1 h2
      have hlt := hcsn N j (by rw [show S.cs N j = _ from h1]; intro h; cases h)
      rw [hcp, hk, hcd, e2]
      exact hc.c3 s N j l h1 ((hpair s N hlt).1 h2)
    · intro s N j T' i' h1 h2
      have hlt := hcsn N j (by
        intro h
        rw [hloc] at h1
        unfold loc at h1
        rw [h] at h1; cases h1)
      obtain ⟨e, g1, g2, g3, g4, g5, g6⟩ := hc.c4 s N j T' i' h1 ((hpair s N hlt).1 h2)
      rw [hk, hcp, hmv]
      exact ⟨e, g1, g2, g3, by rw [hn]; omega, g5, g6⟩
    · rw [hk, hcd, hloc, hrt, e2]; exact hc.c5
    · rw [e4, hnc]; exact hc.c6
    · rw [haa]; exact hc.c7
    · intro s N j h1 h2 h3
      rw [hwr] at h2
      have h1 := (hpair s N h2.1).1 h1
      rw [hcap s h1.2.2.1.1] at h3
      exact hc.c8 s N j h1 h2 h3
    · intro hi s N j h1 h2
      rw [hcp]
      by_cases hlt : N < S.nTabs
      · exact hc.c9 hi s N j ((hpair s N hlt).1 h1) h2
      · intro h
        have h3 := pair_inc hs' hi h1
        have h4 := (hp.p5 s j h).2
        omega
    · intro hi s N i e h1 h2 h3
      rw [hk] at h3 ⊢
      rw [hcp, hloc]
      exact hc.c10 hi s N i e ((hpair s N (kslot_lt hs h3)).1 h1) (haa ▸ h2) h3
  · refine ⟨?_, ?_, ?_, ?_, ?_, ?_, hl.d3, ?_, ?_, ?_, ?_⟩
    · rw [hlive]; exact hl.a
    · rw [hlogd, hk, e2, hrt, haa]; exact hl.u1
    · rw [hlogd, hk, e2, hrt, haa, hhid]; exact hl.u2
    · rw [hk]; exact hl.u3
    · intro T' h1 h2; exact hl.d1 T' ((hwr _).1 h1) h2
    · intro t T' h1 h2 h3; exact hl.d2 t T' ((hwr _).1 h1) h2 h3
    · intro T' h
      show (if T' = T then S.log else S.nextLog T') <+: S.log
      split
      · exact List.prefix_refl _
      · rw [hn] at h
        exact hl.d4 T' (by omega)
    · intro T' k h1 h2 h3
      rw [hk, e2]
      rcases hl.l1 T' k ((hwr _).1 h1) h2 h3 with ⟨h4, h5⟩ | h4
      · exact .inl ⟨h4, hov _ _ h5⟩
      · exact .inr h4
    · intro hi T' i e h1 h2 h3
      rw [hk] at h3
      exact hl.l2 hi T' i e ((hwr _).1 h1) h2 h3
    · intro hi T' i e h1 h2 h3 h4
      rw [hk] at h2
      rw [hcd] at h3
      rw [e2, hrt] at h4
      show ∃ l, (if T' = T then S.log else S.nextLog T') <+: l ∧ _
      rw [if_neg]
      · exact hl.n1 hi T' i e ((hwr _).1 h1) h2 h3 h4
      · rintro rfl
        have := (hp.p5 T' i (hp.p7 T' i e h2 h3).2).2
        omega
  · refine ⟨?_, ?_, hM.m2, ?_, hM.m4, hM.m4', hM.m5, hM.m6, ?_, ?_, hM.m8, hM.m9, hM.m10⟩
    · rw [hk]; exact hM.m1
    · intro id t U b h
      have := hM.own id t U b h
      exact ⟨this.1, fun hi => ⟨(this.2 hi).1, (hwr _).2 (this.2 hi).2⟩⟩
    · intro id U t h
      have := hM.m3 id U t h
      exact ⟨this.1, fun hi => (hwr _).2 (this.2.1 hi), this.2.2⟩
    · rw [e7]; exact hM.m7
    · rw [e7]; exact hM.m7'

theorem allocSt_Evo (h : S.Inv C) {T cap : Nat} (hT : T + 1 = S.nTabs) : Evo S (S.allocSt T cap) := by
  obtain ⟨e1, e2, e3, e4, e5, e6, e7⟩ := allocSt_same h.s (T := T) (cap := cap)
  set S' := S.allocSt T cap with hS'
  have hn : S'.nTabs = S.nTabs + 1 := rfl
  have hrt : S'.rt = S.rt := rfl
  refine ⟨?_, by omega, ?_, ?_, ?_, ?_, ?_, ?_, ?_, ?_, ?_, List.prefix_refl _, fun _ _ _ => rfl, ?_, ?_,
    fun _ _ h => h, fun _ _ => rfl, fun _ => Nat.le_refl _, fun _ _ _ h => h, fun _ _ h => h, ?_, ?_, .same rfl e3⟩
  · intro r hr; exact ⟨r, hr, Nat.le_refl _⟩
  · intro T' h
    show (if T' = S.nTabs then cap else S.cap T') = _
    rw [if_neg (by omega)]
  · intro T' h; unfold aborted; rw [e5]; exact h
  · intro T' h
    refine ⟨by have := h.1; omega, h.2.1, ?_⟩
    unfold aborted; rw [e5]; exact h.2.2
  · intro T' i h; rw [e2]; exact h
  · intro T' i e h; right; unfold kslot; rw [e1]; exact ⟨e, h, rfl⟩
  · intro T' i h1 h2; rw [e1]; exact h2
  · intro T' i h1; rw [e1]; exact h1
  · intro T' i h1; unfold copying; rw [e1]; exact ⟨rfl, h1, rfl⟩
  · intro T' i e _ h1; unfold copiedF; rw [e1]; exact h1
  · intro T' h
    show (if T' = T then S.log else S.nextLog T') = _
    rw [if_neg (by omega)]
  · intro T' h1 h2
    show S.log <+: (if T' = T then S.log else S.nextLog T')
    rw [if_pos (by omega)]
  · intro N; rw [e3]
  · intro N h; rw [e5]; exact h

theorem allocSt_Own (h : S.Inv C) {t t' : Tid} (hne : t' ≠ t) {T cap : Nat} (hT : T + 1 = S.nTabs)
    (hlk : S.lock T = .held t) :
    Own t' S (S.allocSt T cap) := by
  obtain ⟨e1, e2, e3, e4, e5, e6, e7⟩ := allocSt_same h.s (T := T) (cap := cap)
  refine ⟨rfl, rfl, rfl, rfl, rfl, fun _ _ _ => rfl, fun _ _ _ => rfl, ?_, ?_, fun _ _ h _ => h, ?_,
    ⟨[], by simp [allocSt], by simp⟩, fun _ _ _ h => h, fun _ _ _ h => h, fun _ => Iff.rfl, fun _ h => h⟩
  · intro T' h'
    rw [e6]
    refine ⟨h', ?_⟩
    show (if T' = T then some S.nTabs else if T' = S.nTabs then none else S.next T') = _
    rw [if_neg, if_neg]
    · rintro rfl
      rw [(h.s.out _ (Nat.le_refl _)).2.2.2.2.2.2.1] at h'; cases h'
    · rintro rfl
      rw [hlk] at h'; cases h'; exact hne rfl
  · intro T' h'; rw [e6] at h'; exact h'
  · intro ev h'
    have : ev ∈ S.log.drop S.log.length := h'
    simp at this

/-- Installing the first table. -/
def rootInitSt (S : GSt K V) (cap : Nat) : GSt K V :=
  { S with toSt := { S.toSt.allocTable cap .promoted with root := some S.nTabs } }

theorem rootInitSt_same (hs : S.InvS C) {cap : Nat} :
    (S.rootInitSt cap).slot = S.slot ∧ (S.rootInitSt cap).md = S.md ∧ (S.rootInitSt cap).claim = S.claim ∧
    (S.rootInitSt cap).copied = S.copied ∧
    (S.rootInitSt cap).lock = S.lock ∧ (S.rootInitSt cap).deferred = S.deferred := by
  have ho := hs.out S.nTabs (Nat.le_refl _)
  refine ⟨?_, ?_, ?_, ?_, ?_, ?_⟩
  · funext T' i
    show (if T' = S.nTabs then Slot.null else S.slot T' i) = _
    split
    · rename_i h; subst h; rw [ho.1 i]
    · rfl
  · funext T' i
    show (if T' = S.nTabs then EMPTY else S.md T' i) = _
    split
    · rename_i h; subst h; rw [ho.2.1 i]
    · rfl
  · funext T'
    show (if T' = S.nTabs then 0 else S.claim T') = _
    split
    · rename_i h; subst h; rw [ho.2.2.2.1]
    · rfl
  · funext T'
    show (if T' = S.nTabs then 0 else S.copied T') = _
    split
    · rename_i h; subst h; rw [ho.2.2.2.2.1]
    · rfl
  · funext T'
    show (if T' = S.nTabs then .free else S.lock T') = _
    split
    · rename_i h; subst h; rw [ho.2.2.2.2.2.2.1]
    · rfl
  · funext T'
    show (if T' = S.nTabs then [] else S.deferred T') = _
    split
    · rename_i h; subst h; rw [ho.2.2.2.2.2.2.2.1]
    · rfl

theorem rootInitSt_Inv (h : S.Inv C) (hr : S.root = none) {cap : Nat} (hc1 : isPow2 cap) (hc2 : 8 ≤ cap)
    (hc3 : C.initialCapacity ≤ cap) :
    (S.rootInitSt cap).Inv C ∧ S.nTabs = 0 := by
  obtain ⟨e1, e2, e3, e4, e6, e7⟩ := rootInitSt_same h.s (cap := cap)
  obtain ⟨hs, hp, hc, he, hl, hM, hN⟩ := h
  have hn0 := (hs.none hr).1
  refine ⟨?_, hn0⟩
  set S' := S.rootInitSt cap with hS'
  have ho := fun T => hs.out T (by omega)
  have hn : S'.nTabs = 1 := by show S.nTabs + 1 = 1; omega
  have hroot : S'.root = some 0 := by show some S.nTabs = some 0; rw [hn0]
  have hrt : S.rt = 0 := by unfold rt; rw [hr]; rfl
  have hrt' : S'.rt = 0 := by unfold rt; rw [hroot]; rfl
  have hk : S'.kslot = S.kslot := by unfold kslot; rw [e1]
  have hnk : ∀ T i e, ¬ S.kslot T i e := fun T i e h => by have := kslot_lt hs h; omega
  have hnk' : ∀ T i e, ¬ S'.kslot T i e := by rw [hk]; exact hnk
  have hst : ∀ T, S'.status T = if T = 0 then .promoted else .pending := by
    intro T
    show (if T = S.nTabs then .promoted else S.status T) = _
    rw [hn0, (ho T).2.2.2.2.2.1]
  have hna : ∀ T, ¬ S'.aborted T := by
    intro T h
    unfold aborted at h
    rw [hst] at h
    split at h <;> cases h
  have hncp : ∀ T i, ¬ S'.copying T i := by
    intro T i h
    unfold copying at h
    rw [e1, (ho T).1 i] at h; cases h
  have hcsid : ∀ N j, S'.cs N j = .idle := fun N j => (ho N).2.2.1 j
  have hnl : ∀ k e, ¬ S'.Live k e := by
    rintro k e ⟨T, i, h1, _⟩
    exact hnk' _ _ _ h1.2.2.1
  have hnl0 : ∀ k e, ¬ S.Live k e := by
    rintro k e ⟨T, i, h1, _⟩
    exact hnk _ _ _ h1.2.2.1
  refine ⟨?_, ?_, ?_, he.congr rfl rfl rfl rfl rfl rfl, ?_, ?_, hN⟩
  · refine ⟨?_, ?_, ?_, ?_, ?_, ?_, ?_, ?_⟩
    · intro h; rw [hroot] at h; cases h
    · intro r h; rw [hroot] at h; cases h
      exact ⟨by omega, hna 0⟩
    · intro T hT
      rw [hn] at hT ⊢
      show (if T = S.nTabs then none else S.next T) = _
      rw [if_pos (by omega), if_neg (by omega)]
    · intro T hT
      rw [hn] at hT
      have : S'.cap T = cap := if_pos (by omega)
      rw [this]; exact ⟨hc1, hc2, hc3⟩
    · intro T hT
      rw [hn] at hT
      rw [e1, e2, e3, e4, e6, e7, hst, if_neg (by omega)]
      obtain ⟨g1, g2, g3, g4, g5, g6, g7⟩ := ho T
      exact ⟨g1, g2, g3, g4, g5, rfl, g7⟩
    · intro T h
      rw [hst] at h
      split at h
      · rename_i h0; subst h0; exact ⟨Nat.zero_le _, by omega⟩
      · cases h
    · intro _; exact hna
    · intro _ T h1 h2
      rw [hn] at h2; omega
  · refine ⟨?_, fun T i e h => absurd h (hnk' _ _ _), fun T i e h => absurd h (hnk' _ _ _),
      fun T i e h => absurd h (hnk' _ _ _), fun T i h => absurd h (hncp _ _), fun T i e h => absurd h (hnk' _ _ _),
      fun _ T i _ _ e h => absurd h (hnk' _ _ _), fun T i e h => absurd h (hnk' _ _ _),
      fun _ T i e h => absurd h (hnk' _ _ _)⟩
    rw [e1, e2]; exact hp.p1
  · refine ⟨fun N j _ => hcsid N j, fun N j h => absurd (hcsid N j) h, ?_, ?_, fun _ j e h => absurd h (hnk' _ _ _), ?_,
      fun N h => absurd h (hna N), ?_, fun _ s N j h1 h2 => hncp _ _, fun _ s N i e _ h => absurd h (hna N)⟩
    · intro s N j l h; rw [hcsid] at h; cases h
    · intro s N j T i h
      unfold loc at h
      rw [hcsid] at h; cases h
    · have : S'.nCounted = S.nCounted := by unfold nCounted; rw [e3]; rfl
      rw [e4, this]; exact hc.c6
    · intro s N j h
      have h1 := h.1
      have h2 := h.2.1
      omega
  · have hrt2 : S'.rt = S.rt := by omega
    refine ⟨?_, ?_, fun T i e h => absurd h (hnk' _ _ _), fun _ _ _ _ _ _ _ _ h => absurd h (hnk' _ _ _),
      fun T _ h => by omega, fun _ T _ h => by omega, ?_, fun T h => by omega, fun T _ _ h => by omega,
      fun _ T _ _ _ h => by omega, fun _ T i e _ h => absurd h (hnk' _ _ _)⟩
    · intro k e
      constructor
      · intro h; exact absurd ((hl.a k e).1 h) (hnl0 k e)
      · intro h; exact absurd h (hnl k e)
    · intro id x h1 h2
      obtain ⟨T, i, _, h3, _⟩ := hl.u1 id x h1 h2
      exact absurd h3 (hnk _ _ _)
    · rw [hrt2]; exact hl.d3
  · have hrt2 : S'.rt = S.rt := by omega
    refine ⟨fun T i e _ h => absurd h (hnk' _ _ _), ?_, hM.m2, ?_, ?_, ?_, hM.m5, hM.m6, ?_, ?_, hM.m8, hM.m9, hM.m10⟩
    · intro id t U b h
      rw [hrt2]
      have := hM.own id t U b h
      refine ⟨this.1, fun hi => ⟨(this.2 hi).1, ?_⟩⟩
      have := (this.2 hi).2.1
      omega
    · intro id U t h
      rw [hrt2]
      have := hM.m3 id U t h
      refine ⟨this.1, fun hi => ?_, this.2.2⟩
      have := (this.2.1 hi).1
      omega
    · rw [hrt2]; exact hM.m4
    · rw [hrt2]; exact hM.m4'
    · rw [e7]; exact hM.m7
    · rw [e7]; exact hM.m7'

theorem rootInitSt_Evo (h : S.Inv C) (hr : S.root = none) {cap : Nat} : Evo S (S.rootInitSt cap) := by
  obtain ⟨e1, e2, e3, e4, e6, e7⟩ := rootInitSt_same h.s (cap := cap)
  have hn0 := (h.s.none hr).1
  have ho := fun T => h.s.out T (by omega)
  set S' := S.rootInitSt cap with hS'
  have hn : S'.nTabs = 1 := by show S.nTabs + 1 = 1; omega
  refine ⟨?_, by omega, ?_, ?_, ?_, ?_, ?_, ?_, ?_, ?_, ?_, List.prefix_refl _, fun _ _ _ => rfl, fun _ _ => rfl, ?_,
    fun _ _ h => h, fun _ _ => rfl, fun _ => Nat.le_refl _, fun _ _ _ h => h, fun _ _ h => h, ?_, ?_, .same rfl e3⟩
  · intro r h; rw [hr] at h; cases h
  · intro T h; omega
  · intro T h'
    unfold aborted at h'
    rw [(ho T).2.2.2.2.2.1] at h'; cases h'
  · intro T h'; have := h'.1; omega
  · intro T' i h; rw [e2]; exact h
  · intro T' i e h; right; unfold kslot; rw [e1]; exact ⟨e, h, rfl⟩
  · intro T' i h1 h2; rw [e1]; exact h2
  · intro T' i h1; rw [e1]; exact h1
  · intro T' i h1; unfold copying; rw [e1]; exact ⟨rfl, h1, rfl⟩
  · intro T' i e _ h1; unfold copiedF; rw [e1]; exact h1
  · intro T' h1 h2; omega
  · intro N; rw [e3]
  · intro N h'; rw [(ho N).2.2.2.2.2.1] at h'; cases h'

theorem rootInitSt_Own (h : S.Inv C) (hr : S.root = none) {t' : Tid} {cap : Nat} : Own t' S (S.rootInitSt cap) := by
  obtain ⟨e1, e2, e3, e4, e6, e7⟩ := rootInitSt_same h.s (cap := cap)
  have hn0 := (h.s.none hr).1
  have ho := fun T => h.s.out T (by omega)
  refine ⟨rfl, rfl, rfl, rfl, rfl, fun _ _ _ => rfl, fun _ _ _ => rfl, ?_, ?_, fun _ _ h _ => h, ?_,
    ⟨[], by simp [rootInitSt], by simp⟩, fun _ _ _ h => h, fun _ _ _ h => h, fun _ => Iff.rfl, fun _ h => h⟩
  · intro T' h'
    rw [(ho T').2.2.2.2.2.2.1] at h'; cases h'
  · intro T' h'; rw [e6] at h'; exact h'
  · intro ev h'
    have : ev ∈ S.log.drop S.log.length := h'
    simp at this

end GSt

end Papaya
