import Verif.Proof.ActRoot
import Mathlib.Order.Interval.Finset.Nat

/-! # Actions on resize states, locks, counters and the collector -/

set_option linter.unusedSectionVars false
set_option linter.unusedVariables false

namespace Papaya

variable {K V : Type} [DecidableEq K]

namespace GSt

variable {C : Cfg K} {S S' : GSt K V}

theorem InvP.re (h : S.InvP C) : S.InvP C := h

/-- Two states that agree on the tables. -/
theorem InvP.same (hp : S.InvP C) (h : S'.slot = S.slot) (h1 : S'.md = S.md) (h2 : S'.cap = S.cap)
    (h3 : S'.root = S.root) (h4 : S'.nTabs = S.nTabs) (h5 : S'.info = S.info)
    (h6 : ∀ T, S.wasRoot T → S'.wasRoot T)
    (h7 : ∀ N j l, S.loc N j = some l → S'.loc N j = some l) : S'.InvP C := by
  have hrt : S'.rt = S.rt := by unfold rt; rw [h3]
  have hk : S'.kslot = S.kslot := by unfold kslot; rw [h]
  have hcp : S'.copying = S.copying := by unfold copying; rw [h]
  have hcd : S'.copiedF = S.copiedF := by unfold copiedF; rw [h]
  have hd : S'.dead = S.dead := by unfold dead; rw [hk, h1]
  have hpos : S'.pos C = S.pos C := by unfold pos; rw [h2]
  have hlim : S'.lim = S.lim := by unfold lim; rw [h2]
  have hov : S'.over C = S.over C := by unfold over; rw [hd, hpos, hlim]
  have hmv : S'.moved = S.moved := by unfold moved; rw [hcd, h1]
  have hps : S'.passed C = S.passed C := by unfold passed; rw [hov, hmv, hk]
  refine ⟨?_, ?_, ?_, ?_, ?_, ?_, ?_, ?_, ?_⟩
  · rw [h, h1]; exact hp.p1
  · rw [hk, h1]; exact hp.p2
  · rw [hk, h5]; exact hp.p3
  · rw [hk, hlim, hpos, hd]; exact hp.p4
  · rw [hcp, h4]; exact fun T i h => ⟨h6 _ (hp.p5 T i h).1, (hp.p5 T i h).2⟩
  · rw [hk, hcd, hcp]; exact hp.p7
  · rw [hk, h]; exact hp.b1
  · rw [hk, hcp, hps, hrt]
    intro T i e g1 g2
    rcases hp.f1 T i e g1 g2 with ⟨j, g3, g4, g5⟩ | g3
    · exact .inl ⟨j, g3, g4, h7 _ _ _ g5⟩
    · exact .inr g3
  · rw [hk, hov, hrt]; exact hp.f2

/-- A step that changes nothing in the tables, the history, and the ghost bookkeeping of entries. -/
theorem Evo.quiet (h1 : S'.slot = S.slot) (h2 : S'.md = S.md) (h3 : S'.cap = S.cap) (h4 : S'.root = S.root)
    (h5 : S'.nTabs = S.nTabs) (h6 : ∀ T, S.aborted T → S'.aborted T) (h7 : ∀ T, S.wasRoot T → S'.wasRoot T)
    (h8 : S'.log = S.log) (h9 : S'.demLog = S.demLog) (h10 : S'.nextLog = S.nextLog) (h11 : S'.info = S.info)
    (h12 : ∀ o : OpId, o.2 ≤ S.seq o.1 → S'.ops o = S.ops o) (h13 : ∀ t, S.seq t ≤ S'.seq t)
    (h14 : ∀ N j l, S.cs N j = .counted l → S'.cs N j = .counted l)
    (h15 : ∀ N j, S.cs N j = .lost → S'.cs N j = .lost) (h16 : ∀ N, S.claim N ≤ S'.claim N)
    (h17 : ∀ T, S.status T = .promoted → S'.status T = .promoted) (h18 : CsEvo S S' := by exact .same rfl rfl) : Evo S S' where
  root r h := ⟨r, by rw [h4]; exact h, Nat.le_refl _⟩
  nTabs := by omega
  cap _ _ := by rw [h3]
  aborted := h6
  wasRoot := h7
  md T i h := by rw [h2]; exact h
  key T i e h := .inr ⟨e, by unfold kslot; rw [h1]; exact h, rfl⟩
  null T i g1 g2 := by rw [h1]; exact g2
  nnull T i h := by rw [h1]; exact h
  frozen T i h := by unfold copying; rw [h1]; exact ⟨rfl, h, rfl⟩
  copied T i _ _ h := by unfold copiedF; rw [h1]; exact h
  log := by rw [h8]
  dem _ _ _ := by rw [h9]
  nlog _ _ := by rw [h10]
  nlog' T g1 g2 := by omega
  info _ _ h := by rw [h11]; exact h
  ops := h12
  seq := h13
  counted := h14
  lost := h15
  claim := h16
  prom := h17
  ev := h18

theorem Own.quiet {t : Tid} (h1 : S'.seq t = S.seq t) (h2 : S'.invPos t = S.invPos t) (h3 : S'.rInv t = S.rInv t)
    (h4 : S'.pr t = S.pr t) (h5 : S'.pinned t = S.pinned t)
    (h6 : ∀ N j, (S.cs N j).owner = some t → S'.cs N j = S.cs N j)
    (h7 : ∀ N j, (S'.cs N j).owner = some t → S'.cs N j = S.cs N j)
    (h8 : ∀ T, S.lock T = .held t → S'.lock T = .held t) (h8' : ∀ T, S'.lock T = .held t → S.lock T = .held t)
    (h9 : S'.next = S.next) (h10 : S'.info = S.info) (h11 : S'.log = S.log)
    (h12 : ∃ l, S'.pays = S.pays ++ l ∧ ∀ p ∈ l, p.1 ≠ t)
    (h13 : ∀ id U b, S.tok id = .owned t U b ↔ S'.tok id = .owned t U b)
    (h14 : ∀ T, S.tabTok T = some t ↔ S'.tabTok T = some t)
    (h15 : ∀ e, S.Prot t e → S'.Prot t e) : Own t S S' where
  seq := h1
  invPos := h2
  rInv := h3
  pr := h4
  pinned := h5
  cs := h6
  cs' := h7
  lock T h := ⟨h8 T h, by rw [h9]⟩
  lock' := h8'
  info _ _ h _ := by rw [h10] at h; exact h
  evs ev h := by rw [h11] at h; simp at h
  pays := h12
  tok id U b h := (h13 id U b).1 h
  tok' id U b h := (h13 id U b).2 h
  tabTok := h14
  prot := h15

/-! ## Locks -/

/-- Changing the state of the lock of a table. -/
def lockSt (S : GSt K V) (T : Nat) (l : Lock) : GSt K V :=
  { S with lock := fun T' => if T' = T then l else S.lock T' }

theorem lockSt_Inv (h : S.Inv C) {T : Nat} {l : Lock} (hT : T < S.nTabs) : (S.lockSt T l).Inv C := by
  obtain ⟨hs, hp, hc, he, hl, hM, hN⟩ := h
  refine ⟨⟨hs.1, hs.2, hs.3, hs.4, ?_, hs.6, hs.7, hs.8⟩, ⟨hp.1, hp.2, hp.3, hp.4, hp.5, hp.6, hp.7, hp.8, hp.9⟩,
    ⟨hc.1, hc.2, hc.3, hc.4, hc.5, hc.6, hc.7, hc.8, hc.9, hc.10⟩, he.congr rfl rfl rfl rfl rfl rfl,
    hl.congr rfl rfl rfl rfl rfl rfl rfl rfl rfl rfl rfl rfl rfl rfl rfl,
    ⟨hM.1, hM.2, hM.3, hM.4, hM.5, hM.6, hM.7, hM.8, hM.9, hM.10, hM.11, hM.12, hM.13⟩, hN⟩
  intro T' hT'
  obtain ⟨h1, h2, h3, h4, h5, h6, h7, h8⟩ := hs.out T' hT'
  refine ⟨h1, h2, h3, h4, h5, h6, ?_, h8⟩
  have : S.nTabs ≤ T' := hT'
  show (if T' = T then l else S.lock T') = _
  rw [if_neg (by omega)]; exact h7

theorem lockSt_Evo {T : Nat} {l : Lock} : Evo S (S.lockSt T l) :=
  Evo.quiet rfl rfl rfl rfl rfl (fun _ h => h) (fun _ h => h) rfl rfl rfl rfl (fun _ _ => rfl)
    (fun _ => Nat.le_refl _) (fun _ _ _ h => h) (fun _ _ h => h) (fun _ => Nat.le_refl _) (fun _ h => h)

theorem lockSt_Own {t : Tid} {T : Nat} {l : Lock} (h1 : S.lock T ≠ .held t) (h2 : l ≠ .held t) :
    Own t S (S.lockSt T l) := by
  refine Own.quiet rfl rfl rfl rfl rfl (fun _ _ _ => rfl) (fun _ _ _ => rfl) ?_ ?_ rfl rfl rfl
    ⟨[], by simp [lockSt], by simp⟩ (fun _ _ _ => Iff.rfl) (fun _ => Iff.rfl) (fun _ h => h)
  · intro T' h
    show (if T' = T then l else S.lock T') = _
    rw [if_neg]
    · exact h
    · rintro rfl; exact h1 h
  · intro T' h
    change (if T' = T then l else S.lock T') = _ at h
    split at h
    · exact absurd h h2
    · exact h

/-! ## Status -/

/-- Marking a table as promoted. -/
def promSt (S : GSt K V) (T : Nat) : GSt K V :=
  { S with status := fun T' => if T' = T then .promoted else S.status T' }

theorem promSt_aborted {T : Nat} (hw : S.wasRoot T) : (S.promSt T).aborted = S.aborted := by
  funext T'
  unfold aborted
  show ((if T' = T then .promoted else S.status T') = _) = _
  split
  · rename_i h
    subst h
    apply propext
    constructor
    · intro h; cases h
    · intro h; exact absurd h hw.2.2
  · rfl

theorem promSt_Inv (h : S.Inv C) {T : Nat} (hw : S.wasRoot T) : (S.promSt T).Inv C := by
  have hab := promSt_aborted hw
  obtain ⟨hs, hp, hc, he, hl, hM, hN⟩ := h
  set S' := S.promSt T with hS'
  have hwr : S'.wasRoot = S.wasRoot := by funext T'; unfold wasRoot; rw [hab]; rfl
  have hpair : S'.CopyPair = S.CopyPair := by funext s N; unfold CopyPair; rw [hab, hwr]; rfl
  have hvis : S'.vis = S.vis := by unfold vis; rw [hab]; rfl
  have hlive : S'.Live = S.Live := by unfold Live; rw [hvis]; rfl
  refine ⟨⟨hs.1, ?_, hs.3, hs.4, ?_, ?_, ?_, ?_⟩,
    hp.same rfl rfl rfl rfl rfl rfl (by rw [hwr]; exact fun _ h => h) (fun _ _ _ h => h), ?_,
    he.congr rfl rfl rfl rfl rfl rfl, ?_, ?_, hN⟩
  · rw [hab]; exact hs.2
  · intro T' hT'
    obtain ⟨h1, h2, h3, h4, h5, h6, h7⟩ := hs.out T' hT'
    refine ⟨h1, h2, h3, h4, h5, ?_, h7⟩
    have h8 : S.nTabs ≤ T' := hT'
    have h9 := hw.1
    show (if T' = T then .promoted else S.status T') = _
    rw [if_neg (by omega)]; exact h6
  · intro T' h1
    change (if T' = T then .promoted else S.status T') = _ at h1
    split at h1
    · rename_i hT; subst hT; exact ⟨hw.2.1, hw.1⟩
    · exact hs.prom T' h1
  · rw [hab]; exact hs.incab
  · rw [hab]; exact hs.blkab
  · refine ⟨hc.c1, ?_, ?_, ?_, hc.c5, hc.c6, ?_, ?_, ?_, ?_⟩
    · rw [hpair]; exact hc.c2
    · rw [hpair]; exact hc.c3
    · rw [hpair]; exact hc.c4
    · rw [hab]; exact hc.c7
    · rw [hpair, hwr]; exact hc.c8
    · rw [hpair]; exact hc.c9
    · rw [hpair, hab]; exact hc.c10
  · refine ⟨?_, ?_, ?_, hl.u3, ?_, ?_, hl.d3, hl.d4, ?_, ?_, ?_⟩
    · rw [hlive]; exact hl.a
    · rw [hab]; exact hl.u1
    · rw [hab]; exact hl.u2
    · rw [hwr]; exact hl.d1
    · rw [hwr]; exact hl.d2
    · rw [hwr]; exact hl.l1
    · rw [hwr]; exact hl.l2
    · rw [hwr]; exact hl.n1
  · refine ⟨hM.1, ?_, hM.3, ?_, hM.5, hM.6, hM.7, hM.8, hM.9, hM.10, hM.11, hM.12, hM.13⟩
    · rw [hwr]; exact hM.own
    · rw [hwr]; exact hM.m3

theorem promSt_Evo {T : Nat} (hw : S.wasRoot T) : Evo S (S.promSt T) := by
  have hab := promSt_aborted hw
  have hwr : (S.promSt T).wasRoot = S.wasRoot := by funext T'; unfold wasRoot; rw [hab]; rfl
  refine Evo.quiet rfl rfl rfl rfl rfl (by rw [hab]; exact fun _ h => h) (by rw [hwr]; exact fun _ h => h)
    rfl rfl rfl rfl (fun _ _ => rfl)
    (fun _ => Nat.le_refl _) (fun _ _ _ h => h) (fun _ _ h => h) (fun _ => Nat.le_refl _) ?_
  intro T' h
  show (if T' = T then .promoted else S.status T') = _
  rw [h]; simp

theorem promSt_Own {t : Tid} {T : Nat} : Own t S (S.promSt T) :=
  Own.quiet rfl rfl rfl rfl rfl (fun _ _ _ => rfl) (fun _ _ _ => rfl) (fun _ h => h) (fun _ h => h) rfl rfl rfl
    ⟨[], by simp [promSt], by simp⟩ (fun _ _ _ => Iff.rfl) (fun _ => Iff.rfl) (fun _ h => h)

/-- Aborting a table: some slot could not be copied into it. -/
def abortSt (S : GSt K V) (N j : Nat) : GSt K V :=
  { S with status := fun T' => if T' = N then .aborted else S.status T', cs := S.setCs N j .lost }

theorem abortSt_Inv (h : S.Inv C) {t : Tid} {N j : Nat} (hi : C.inc = false) (hcs : S.cs N j = .marked t) :
    (S.abortSt N j).Inv C ∧ ¬ S.wasRoot N ∧ S.status N ≠ .promoted := by
  obtain ⟨hs, hp, hc, he, hl, hM, hN⟩ := h
  obtain ⟨s, hpr, hj⟩ := hc.c2 N j (by rw [hcs]; intro h; cases h)
  have hnw : ¬ S.wasRoot N := by
    intro h
    obtain ⟨l, h1⟩ := hc.c8 s N j hpr h hj
    rw [hcs] at h1; cases h1
  have hNlt := hpr.2.1
  have hnp : S.status N ≠ .promoted := by
    intro h
    have h1 := hs.prom N h
    exact hnw ⟨h1.2, h1.1, by unfold aborted; rw [h]; intro h; cases h⟩
  refine ⟨?_, hnw, hnp⟩
  set S' := S.abortSt N j with hS'
  have hab : ∀ T, S'.aborted T ↔ S.aborted T ∨ T = N := by
    intro T
    unfold aborted
    show (if T = N then .aborted else S.status T) = .aborted ↔ _
    split
    · rename_i h; simp [h]
    · rename_i h; simp [h]
  have hwr : ∀ T, S'.wasRoot T ↔ S.wasRoot T := by
    intro T
    constructor
    · rintro ⟨h1, h2, h3⟩; exact ⟨h1, h2, fun h => h3 ((hab _).2 (.inl h))⟩
    · intro h
      refine ⟨h.1, h.2.1, fun h' => ?_⟩
      rcases (hab _).1 h' with h' | rfl
      · exact h.2.2 h'
      · exact hnw h
  have hnr : S.rt < N ∨ S.aborted N := by
    by_contra hh
    push Not at hh
    exact hnw ⟨hNlt, hh.1, hh.2⟩
  have hrt := wasRoot_rt hs hNlt
  have hNr : N ≠ S.rt := by
    rintro rfl; exact hnw hrt
  have hpair : ∀ s M, S'.CopyPair s M ↔ S.CopyPair s M := by
    intro s' M
    constructor
    · rintro ⟨h1, h2, h3, h4⟩
      refine ⟨h1, h2, (hwr _).1 h3, fun P h5 h6 => ?_⟩
      rcases (hab _).1 (h4 P h5 h6) with h7 | rfl
      · exact h7
      · rcases hnr with h8 | h8
        · have : M < S.nTabs := h2
          exact hs.blkab hi P h8 (by omega)
        · exact h8
    · rintro ⟨h1, h2, h3, h4⟩
      exact ⟨h1, h2, (hwr _).2 h3, fun P h5 h6 => (hab _).2 (.inl (h4 P h5 h6))⟩
  have hcs' : ∀ N' j', ¬ (N' = N ∧ j' = j) → S'.cs N' j' = S.cs N' j' := by
    intro N' j' h; exact if_neg h
  have hcsN : S'.cs N j = .lost := if_pos ⟨rfl, rfl⟩
  have hloc : ∀ N' j', S'.loc N' j' = S.loc N' j' := by
    intro N' j'
    unfold loc
    by_cases hh : N' = N ∧ j' = j
    · obtain ⟨rfl, rfl⟩ := hh; rw [hcsN, hcs]; rfl
    · rw [hcs' _ _ hh]
  have hcnt : ∀ N' j' l, S'.cs N' j' = .counted l ↔ S.cs N' j' = .counted l := by
    intro N' j' l
    by_cases hh : N' = N ∧ j' = j
    · obtain ⟨rfl, rfl⟩ := hh; rw [hcsN, hcs]; simp
    · rw [hcs' _ _ hh]
  have hvisb := fun T i e => @vis_blocking K V C S hp hi T i e
  have hvis : ∀ T i e, S'.vis T i e ↔ S.vis T i e := by
    intro T i e
    constructor
    · rintro ⟨h1, h2, h3⟩; exact ⟨h1, fun h => h2 ((hab _).2 (.inl h)), h3⟩
    · intro h
      have := hvisb T i e h
      subst this
      refine ⟨h.1, fun h' => ?_, h.2.2⟩
      rcases (hab _).1 h' with h' | h'
      · exact h.2.1 h'
      · exact hNr h'.symm
  have hnhome : ∀ id x T i, S.info id = some x → x.home = some (T, i) → S.kslot T i x.entry → S.rt ≤ T → T = S.rt := by
    intro id x T i h1 h2 h3 h4
    by_contra hne
    rcases hp.f1 _ _ _ h3 (by omega) with ⟨j', g1, _⟩ | ⟨g1, _⟩
    · rcases hl.u3 _ _ _ _ _ _ h1 h2 g1 with g2 | g2
      · omega
      · omega
    · rw [hi] at g1; cases g1
  refine ⟨⟨hs.1, ?_, hs.3, hs.4, ?_, ?_, ?_, ?_⟩,
    hp.same rfl rfl rfl rfl rfl rfl (fun T h => (hwr T).2 h) (fun _ _ _ h => by rw [hloc]; exact h), ?_,
    he.congr rfl rfl rfl rfl rfl rfl, ?_, ?_, hN⟩
  · intro r hr
    have h1 := hs.some r hr
    refine ⟨h1.1, fun h => ?_⟩
    rcases (hab _).1 h with h | rfl
    · exact h1.2 h
    · apply hNr; unfold rt; change S.root = some r at hr; rw [hr]; rfl
  · intro T' hT'
    obtain ⟨h1, h2, h3, h4, h5, h6, h7⟩ := hs.out T' hT'
    have h8 : S.nTabs ≤ T' := hT'
    refine ⟨h1, h2, ?_, h4, h5, ?_, h7⟩
    · intro i'
      rw [hcs' _ _ (by rintro ⟨rfl, _⟩; omega)]; exact h3 i'
    · show (if T' = N then .aborted else S.status T') = _
      rw [if_neg (by omega)]; exact h6
  · intro T' h1
    change (if T' = N then .aborted else S.status T') = _ at h1
    split at h1
    · cases h1
    · exact hs.prom T' h1
  · intro h; rw [hi] at h; cases h
  · intro _ T h1 h2; exact (hab _).2 (.inl (hs.blkab hi T h1 h2))
  · refine ⟨?_, ?_, ?_, ?_, ?_, ?_, ?_, ?_, ?_, ?_⟩
    · intro N' j' h
      have := hc.c1 N' j' h
      rw [hcs']
      · exact this
      · rintro ⟨rfl, rfl⟩; rw [hcs] at this; cases this
    · intro N' j' h
      by_cases hh : N' = N ∧ j' = j
      · obtain ⟨rfl, rfl⟩ := hh; exact ⟨s, (hpair _ _).2 hpr, hj⟩
      · rw [hcs' _ _ hh] at h
        obtain ⟨s', h1, h2⟩ := hc.c2 _ _ h
        exact ⟨s', (hpair _ _).2 h1, h2⟩
    · intro s' N' j' l h1 h2
      exact hc.c3 _ _ _ _ ((hcnt _ _ _).1 h1) ((hpair _ _).1 h2)
    · intro s' N' j' T' i' h1 h2
      rw [hloc] at h1
      exact hc.c4 _ _ _ _ _ h1 ((hpair _ _).1 h2)
    · intro h; rw [hi] at h; cases h
    · intro N'
      refine (hc.c6 N').trans ?_
      symm
      refine nCounted_congr (S := S) (S' := S') (cs' := S'.cs) (N := N') ?_ rfl rfl
      intro j'
      by_cases hh : N' = N ∧ j' = j
      · obtain ⟨rfl, rfl⟩ := hh; rw [hcsN, hcs]; rfl
      · rw [hcs' _ _ hh]
    · intro N' h
      rcases (hab _).1 h with h | rfl
      · obtain ⟨j', h1⟩ := hc.c7 N' h
        refine ⟨j', ?_⟩
        rw [hcs']
        · exact h1
        · rintro ⟨rfl, rfl⟩; rw [hcs] at h1; cases h1
      · exact ⟨j, hcsN⟩
    · intro s' N' j' h1 h2 h3
      obtain ⟨l, h4⟩ := hc.c8 _ _ _ ((hpair _ _).1 h1) ((hwr _).1 h2) h3
      exact ⟨l, (hcnt _ _ _).2 h4⟩
    · intro h; rw [hi] at h; cases h
    · intro _ s' N' i' e h1 h2 h3
      have h1' := (hpair _ _).1 h1
      have hold : S.aborted N' → ∃ j', S'.kslot s' j' e ∧ S'.copying s' j' ∧ S'.loc N' j' = some (N', i') := by
        intro hab'
        obtain ⟨j', g1, g2, g3⟩ := hc.c10 hi _ _ _ _ h1' hab' h3
        exact ⟨j', g1, g2, by rw [hloc]; exact g3⟩
      rcases (hab _).1 h2 with h4 | rfl
      · exact hold h4
      · rcases hnr with h5 | h5
        · rcases hp.f1 N' i' e h3 h5 with ⟨j', g1, g2, g3⟩ | ⟨g1, _⟩
          · rw [if_neg (by rw [hi]; decide)] at g3
            have hsr : s' = S.rt := by
              by_contra hne
              rcases Nat.lt_or_ge s' S.rt with h6 | h6
              · have := pair_le hs h1' h6; omega
              · have := h1'.2.2.1.2.1; omega
            rw [hsr]
            exact ⟨j', g1, g2, by rw [hloc]; exact g3⟩
          · rw [hi] at g1; cases g1
        · exact hold h5
  · refine ⟨?_, ?_, ?_, hl.u3, ?_, ?_, hl.d3, hl.d4, ?_, ?_, ?_⟩
    · intro k e
      refine (hl.a k e).trans ?_
      constructor
      · rintro ⟨T, i, h1, h2⟩; exact ⟨T, i, (hvis _ _ _).2 h1, h2⟩
      · rintro ⟨T, i, h1, h2⟩; exact ⟨T, i, (hvis _ _ _).1 h1, h2⟩
    · intro id x h1 h2
      obtain ⟨T, i, h3, h4, h5, h6, h7, h8⟩ := hl.u1 _ _ h1 h2
      refine ⟨T, i, h3, h4, h5, h6, fun h => ?_, h8⟩
      rcases (hab _).1 h with h | h
      · exact h7 h
      · exact hNr (by rw [← h]; exact hnhome _ _ _ _ h1 h3 h4 h6)
    · intro T i e h1 h2 h3 h4 h5
      exact hl.u2 _ _ _ h1 h2 h3 (fun h => h4 ((hab _).2 (.inl h))) h5
    · intro T h1 h2; exact hl.d1 T ((hwr _).1 h1) h2
    · intro t T h1 h2; exact hl.d2 t T ((hwr _).1 h1) h2
    · intro T k h1 h2; exact hl.l1 T k ((hwr _).1 h1) h2
    · intro h T i e h1 h2; exact hl.l2 h T i e ((hwr _).1 h1) h2
    · intro h; rw [hi] at h; cases h
  · refine ⟨hM.1, ?_, hM.3, ?_, hM.5, hM.6, hM.7, hM.8, hM.9, hM.10, hM.11, hM.12, hM.13⟩
    · intro id t U b h1
      have := hM.own id t U b h1
      exact ⟨this.1, fun h => ⟨(this.2 h).1, (hwr _).2 (this.2 h).2⟩⟩
    · intro id U t h1
      have := hM.m3 id U t h1
      exact ⟨this.1, fun h => (hwr _).2 (this.2.1 h), this.2.2⟩

theorem abortSt_Evo {t : Tid} {N j : Nat} (hcs : S.cs N j = .marked t)
    (hnw : ¬ S.wasRoot N) (hnp : S.status N ≠ .promoted) : Evo S (S.abortSt N j) := by
  have hcs' : ∀ N' j', ¬ (N' = N ∧ j' = j) → (S.abortSt N j).cs N' j' = S.cs N' j' := by
    intro N' j' h; exact if_neg h
  have hab : ∀ T, (S.abortSt N j).aborted T ↔ S.aborted T ∨ T = N := by
    intro T
    unfold aborted
    show (if T = N then .aborted else S.status T) = .aborted ↔ _
    split
    · rename_i h; simp [h]
    · rename_i h; simp [h]
  refine Evo.quiet rfl rfl rfl rfl rfl (fun T h => (hab T).2 (.inl h)) ?_
    rfl rfl rfl rfl (fun _ _ => rfl)
    (fun _ => Nat.le_refl _) ?_ ?_ (fun _ => Nat.le_refl _) ?_
    (.upd hcs' (by rw [hcs]; exact fun h => nomatch h) (by rw [show (S.abortSt N j).cs N j = .lost from if_pos ⟨rfl, rfl⟩]; exact fun h => nomatch h)
      (fun _ => (hab N).2 (.inr rfl)) rfl)
  · intro T h
    refine ⟨h.1, h.2.1, fun h' => ?_⟩
    rcases (hab _).1 h' with h' | rfl
    · exact h.2.2 h'
    · exact hnw h
  · intro N' j' l h
    rw [hcs']
    · exact h
    · rintro ⟨rfl, rfl⟩; rw [hcs] at h; cases h
  · intro N' j' h
    rw [hcs']
    · exact h
    · rintro ⟨rfl, rfl⟩; rw [hcs] at h; cases h
  · intro T' h
    show (if T' = N then .aborted else S.status T') = _
    rw [if_neg]
    · exact h
    · rintro rfl; exact hnp h

theorem abortSt_Own {t t' : Tid} (ht : t' ≠ t) {N j : Nat} (hcs : S.cs N j = .marked t) : Own t' S (S.abortSt N j) := by
  have hcs' : ∀ N' j', ¬ (N' = N ∧ j' = j) → (S.abortSt N j).cs N' j' = S.cs N' j' := by
    intro N' j' h; exact if_neg h
  have hcsN : (S.abortSt N j).cs N j = .lost := if_pos ⟨rfl, rfl⟩
  refine Own.quiet rfl rfl rfl rfl rfl ?_ ?_ (fun _ h => h) (fun _ h => h) rfl rfl rfl
    ⟨[], by simp [abortSt], by simp⟩ (fun _ _ _ => Iff.rfl) (fun _ => Iff.rfl) (fun _ h => h)
  · intro N' j' h
    apply hcs'
    rintro ⟨rfl, rfl⟩
    rw [hcs] at h; cases h; exact ht rfl
  · intro N' j' h
    by_cases hh : N' = N ∧ j' = j
    · obtain ⟨rfl, rfl⟩ := hh; rw [hcsN] at h; cases h
    · exact hcs' _ _ hh

/-! ## Claims -/

/-- Claiming `n` more slots to copy into `N` (from `s`). -/
def claimSt (S : GSt K V) (t : Tid) (s N n : Nat) : GSt K V :=
  { S with
    claim := fun T' => if T' = N then S.claim N + n else S.claim T'
    cs := fun N' j' => if N' = N ∧ S.claim N ≤ j' ∧ j' < S.claim N + n ∧ j' < S.cap s then .claimed t else S.cs N' j' }

theorem claimSt_cs (hc : S.InvC C) {t : Tid} {s N n : Nat} (N' j' : Nat) :
    (S.claimSt t s N n).cs N' j' = S.cs N' j' ∨ (N' = N ∧ S.claim N ≤ j' ∧ j' < S.claim N + n ∧ j' < S.cap s ∧
      S.cs N' j' = .idle ∧ (S.claimSt t s N n).cs N' j' = .claimed t) := by
  show (if _ then _ else _) = _ ∨ (_ ∧ _ ∧ _ ∧ _ ∧ _ ∧ (if _ then _ else _) = _)
  split
  · rename_i h
    exact .inr ⟨h.1, h.2.1, h.2.2.1, h.2.2.2, by rw [h.1]; exact hc.c1 _ _ h.2.1, rfl⟩
  · exact .inl rfl

theorem claimSt_Inv (h : S.Inv C) {t : Tid} {s N n : Nat} (hpr : S.CopyPair s N) : (S.claimSt t s N n).Inv C := by
  obtain ⟨hs, hp, hc, he, hl, hM, hN⟩ := h
  have hcs := fun N' j' => @claimSt_cs K V _ C S hc t s N n N' j'
  set S' := S.claimSt t s N n with hS'
  have hloc : ∀ N' j', S'.loc N' j' = S.loc N' j' := by
    intro N' j'
    unfold loc
    rcases hcs N' j' with h | ⟨_, _, _, _, h1, h2⟩
    · rw [h]
    · rw [h1, h2]; rfl
  have hcnt : ∀ N' j' l, S'.cs N' j' = .counted l ↔ S.cs N' j' = .counted l := by
    intro N' j' l
    rcases hcs N' j' with h | ⟨_, _, _, _, h1, h2⟩
    · rw [h]
    · rw [h1, h2]; simp
  have hclaim : ∀ N', S'.claim N' = if N' = N then S.claim N + n else S.claim N' := fun N' => rfl
  refine ⟨⟨hs.1, hs.2, hs.3, hs.4, ?_, hs.6, hs.7, hs.8⟩,
    hp.same rfl rfl rfl rfl rfl rfl (fun T h => h) (fun _ _ _ h => by rw [hloc]; exact h), ?_,
    he.congr rfl rfl rfl rfl rfl rfl, hl.congr rfl rfl rfl rfl rfl rfl rfl rfl rfl rfl rfl rfl rfl rfl rfl,
    ⟨hM.1, hM.2, hM.3, hM.4, hM.5, hM.6, hM.7, hM.8, hM.9, hM.10, hM.11, hM.12, hM.13⟩, hN⟩
  · intro T' hT'
    obtain ⟨h1, h2, h3, h4, h5⟩ := hs.out T' hT'
    have h6 : S.nTabs ≤ T' := hT'
    have h7 := hpr.2.1
    refine ⟨h1, h2, ?_, ?_, h5⟩
    · intro j'
      rcases hcs T' j' with h | ⟨h, _⟩
      · rw [h]; exact h3 j'
      · omega
    · rw [hclaim, if_neg (by omega)]; exact h4
  · refine ⟨?_, ?_, ?_, ?_, ?_, ?_, ?_, ?_, ?_, ?_⟩
    · intro N' j' h
      rw [hclaim] at h
      rcases hcs N' j' with h1 | ⟨h1, h2, h3, _⟩
      · rw [h1]
        apply hc.c1
        split at h
        · rename_i hN; subst hN; omega
        · exact h
      · rw [if_pos h1] at h; omega
    · intro N' j' h
      rcases hcs N' j' with h1 | ⟨h1, h2, h3, h4, _⟩
      · rw [h1] at h; exact hc.c2 _ _ h
      · subst h1; exact ⟨s, hpr, h4⟩
    · intro s' N' j' l h1 h2
      exact hc.c3 _ _ _ _ ((hcnt _ _ _).1 h1) h2
    · intro s' N' j' T' i' h1 h2
      rw [hloc] at h1
      exact hc.c4 _ _ _ _ _ h1 h2
    · intro hi j e h1 h2
      obtain ⟨T', i', h3, h4⟩ := hc.c5 hi j e h1 h2
      exact ⟨T', i', by rw [hloc]; exact h3, h4⟩
    · intro N'
      refine (hc.c6 N').trans ?_
      unfold nCounted
      congr 1
      ext j'
      simp only [Finset.mem_filter, Finset.mem_range]
      have hiff : ((S'.cs N' j').isCounted = true) ↔ ((S.cs N' j').isCounted = true) := by
        rcases hcs N' j' with h1 | ⟨_, _, _, _, h1, h2⟩
        · rw [h1]
        · rw [h1, h2]; simp [CS.isCounted]
      constructor
      · rintro ⟨h1, h2⟩
        refine ⟨?_, hiff.2 h2⟩
        rw [hclaim]; split
        · rename_i hN; subst hN; omega
        · exact h1
      · rintro ⟨h1, h2⟩
        have h2' := hiff.1 h2
        refine ⟨?_, h2'⟩
        by_contra h3
        rw [hc.c1 N' j' (by omega)] at h2'; cases h2'
    · intro N' h
      obtain ⟨j', h1⟩ := hc.c7 N' h
      refine ⟨j', ?_⟩
      rcases hcs N' j' with h2 | ⟨_, _, _, _, h2, _⟩
      · rw [h2]; exact h1
      · rw [h2] at h1; cases h1
    · intro s' N' j' h1 h2 h3
      obtain ⟨l, h4⟩ := hc.c8 _ _ _ h1 h2 h3
      exact ⟨l, (hcnt _ _ _).2 h4⟩
    · intro hi s' N' j' h1 h2 h3
      refine hc.c9 hi s' N' j' h1 ?_ h3
      rcases hcs N' j' with h4 | ⟨_, _, _, _, h4, _⟩
      · rw [← h4]; exact h2
      · exact .inl h4
    · intro hi s' N' i' e h1 h2 h3
      obtain ⟨j', g1, g2, g3⟩ := hc.c10 hi s' N' i' e h1 h2 h3
      exact ⟨j', g1, g2, by rw [hloc]; exact g3⟩

theorem claimSt_Evo (h : S.Inv C) {t : Tid} {s N n : Nat} (hpr : S.CopyPair s N) : Evo S (S.claimSt t s N n) := by
  have hcs := fun N' j' => @claimSt_cs K V _ C S h.c t s N n N' j'
  refine Evo.quiet rfl rfl rfl rfl rfl (fun T h => h) (fun T h => h)
    rfl rfl rfl rfl (fun _ _ => rfl)
    (fun _ => Nat.le_refl _) ?_ ?_ ?_ (fun _ h => h) ⟨fun N' j' g => ?_, fun N' j' g => ?_, fun N' j' g1 g2 => ?_, fun N' j' g => ?_⟩
  · intro N' j' l h
    rcases hcs N' j' with h1 | ⟨_, _, _, _, h1, _⟩
    · rw [h1]; exact h
    · rw [h1] at h; cases h
  · intro N' j' h
    rcases hcs N' j' with h1 | ⟨_, _, _, _, h1, _⟩
    · rw [h1]; exact h
    · rw [h1] at h; cases h
  · intro N'
    show _ ≤ if N' = N then S.claim N + n else S.claim N'
    split
    · rename_i h; subst h; omega
    · exact Nat.le_refl _
  · rcases hcs N' j' with h1 | ⟨h1, h2, h3, _, _, _⟩
    · rw [h1]; exact .inl g
    · subst h1
      refine .inr ⟨h2, ?_⟩
      show _ < if N' = N' then S.claim N' + n else S.claim N'
      rw [if_pos rfl]; exact h3
  · rcases hcs N' j' with h1 | ⟨_, _, _, _, h1, h2⟩
    · rw [h1]; exact g
    · rw [h2]; exact fun h => nomatch h
  · have g2 : _ < if N' = N then S.claim N + n else S.claim N' := g2
    split at g2
    · rename_i hN
      subst hN
      refine ⟨s, hpr, fun hj => ?_⟩
      have : (S.claimSt t s N' n).cs N' j' = .claimed t := if_pos ⟨rfl, g1, g2, hj⟩
      rw [this]; exact fun h => nomatch h
    · omega
  · rcases hcs N' j' with h1 | ⟨_, _, _, _, h1, h2⟩
    · rw [h1] at g; exact .inl g
    · rw [h2] at g; cases g

theorem claimSt_Own (h : S.Inv C) {t t' : Tid} (ht : t' ≠ t) {s N n : Nat} : Own t' S (S.claimSt t s N n) := by
  have hcs := fun N' j' => @claimSt_cs K V _ C S h.c t s N n N' j'
  refine Own.quiet rfl rfl rfl rfl rfl ?_ ?_ (fun _ h => h) (fun _ h => h) rfl rfl rfl
    ⟨[], by simp [claimSt], by simp⟩ (fun _ _ _ => Iff.rfl) (fun _ => Iff.rfl) (fun _ h => h)
  · intro N' j' h
    rcases hcs N' j' with h1 | ⟨_, _, _, _, h1, _⟩
    · exact h1
    · rw [h1] at h; cases h
  · intro N' j' h
    rcases hcs N' j' with h1 | ⟨_, _, _, _, _, h1⟩
    · exact h1
    · rw [h1] at h; cases h; exact absurd rfl ht

/-! ## Counting copied slots -/

/-- Slot `j` of `s` has been copied into `N` by `t`. -/
def DoneCopy (C : Cfg K) (S : GSt K V) (t : Tid) (s N j : Nat) : Prop :=
  (∃ T i, S.cs N j = .placed t T i ∧ S.md T i ≠ EMPTY ∧ (C.inc = true → S.copiedF s j)) ∨
  (S.cs N j = .marked t ∧ (S.slot s j).ptr = none ∧ S.copying s j)

/-- Adding `n` to the counter of copied slots. -/
def countSt (S : GSt K V) (N a n : Nat) : GSt K V :=
  { S with
    copied := fun T' => if T' = N then S.copied N + n else S.copied T'
    cs := fun N' j' => if N' = N ∧ a ≤ j' ∧ j' < a + n then .counted (S.loc N j') else S.cs N' j' }

theorem countSt_cs {N a n : Nat} (N' j' : Nat) :
    (¬ (N' = N ∧ a ≤ j' ∧ j' < a + n) ∧ (S.countSt N a n).cs N' j' = S.cs N' j') ∨
    (N' = N ∧ a ≤ j' ∧ j' < a + n ∧ (S.countSt N a n).cs N' j' = .counted (S.loc N' j')) := by
  show (_ ∧ (if _ then _ else _) = _) ∨ (_ ∧ _ ∧ _ ∧ (if _ then _ else _) = _)
  split
  · rename_i h
    exact .inr ⟨h.1, h.2.1, h.2.2, by rw [h.1]⟩
  · rename_i h
    exact .inl ⟨h, rfl⟩

theorem DoneCopy.owner {t : Tid} {s N j : Nat} (h : S.DoneCopy C t s N j) : (S.cs N j).owner = some t := by
  rcases h with ⟨T, i, h, _⟩ | ⟨h, _⟩ <;> rw [h] <;> rfl

theorem countSt_Inv (h : S.Inv C) {t : Tid} {s N a n : Nat} (hpr : S.CopyPair s N)
    (hd : ∀ j, a ≤ j → j < a + n → S.DoneCopy C t s N j) : (S.countSt N a n).Inv C := by
  obtain ⟨hs, hp, hc, he, hl, hM, hN⟩ := h
  have hcs := fun N' j' => @countSt_cs K V _ S N a n N' j'
  set S' := S.countSt N a n with hS'
  have hloc : ∀ N' j', S'.loc N' j' = S.loc N' j' := by
    intro N' j'
    show (S'.cs N' j').loc = _
    rcases hcs N' j' with ⟨_, h⟩ | ⟨_, _, _, h⟩
    · rw [h]; rfl
    · rw [h]; rfl
  have hown : ∀ j, a ≤ j → j < a + n → S.cs N j ≠ .idle ∧ (∀ l, S.cs N j ≠ .counted l) ∧ S.cs N j ≠ .lost := by
    intro j h1 h2
    have h3 := (hd j h1 h2).owner
    refine ⟨?_, ?_, ?_⟩
    · intro h; rw [h] at h3; cases h3
    · intro l h; rw [h] at h3; cases h3
    · intro h; rw [h] at h3; cases h3
  refine ⟨⟨hs.1, hs.2, hs.3, hs.4, ?_, hs.6, hs.7, hs.8⟩,
    hp.same rfl rfl rfl rfl rfl rfl (fun T h => h) (fun _ _ _ h => by rw [hloc]; exact h), ?_,
    he.congr rfl rfl rfl rfl rfl rfl, hl.congr rfl rfl rfl rfl rfl rfl rfl rfl rfl rfl rfl rfl rfl rfl rfl,
    ⟨hM.1, hM.2, hM.3, hM.4, hM.5, hM.6, hM.7, hM.8, hM.9, hM.10, hM.11, hM.12, hM.13⟩, hN⟩
  · intro T' hT'
    obtain ⟨h1, h2, h3, h4, h5, h6⟩ := hs.out T' hT'
    have h7 : S.nTabs ≤ T' := hT'
    have h8 := hpr.2.1
    refine ⟨h1, h2, ?_, h4, ?_, h6⟩
    · intro j'
      rcases hcs T' j' with ⟨_, h⟩ | ⟨h, _⟩
      · rw [h]; exact h3 j'
      · omega
    · show (if T' = N then _ else _) = _
      rw [if_neg (by omega)]; exact h5
  · refine ⟨?_, ?_, ?_, ?_, ?_, ?_, ?_, ?_, ?_, ?_⟩
    · intro N' j' h
      rcases hcs N' j' with ⟨_, h1⟩ | ⟨rfl, h2, h3, _⟩
      · rw [h1]; exact hc.c1 _ _ h
      · exact absurd (hc.c1 _ _ h) (hown j' h2 h3).1
    · intro N' j' h
      rcases hcs N' j' with ⟨_, h1⟩ | ⟨rfl, h2, h3, _⟩
      · rw [h1] at h; exact hc.c2 _ _ h
      · exact hc.c2 _ _ (hown j' h2 h3).1
    · intro s' N' j' l h1 h2
      rcases hcs N' j' with ⟨_, h3⟩ | ⟨rfl, h3, h4, h5⟩
      · rw [h3] at h1; exact hc.c3 _ _ _ _ h1 h2
      · have h2' : S.CopyPair s' N' := h2
        have := pair_src hpr h2'
        subst this
        rw [h5] at h1
        cases h1
        rcases hd j' h3 h4 with ⟨T, i, g1, g2, g3⟩ | ⟨g1, g2, g3⟩
        · have hlo : S.loc N' j' = some (T, i) := by unfold loc; rw [g1]; rfl
          obtain ⟨e, f1, f2, _⟩ := hc.c4 _ _ _ _ _ hlo hpr
          exact ⟨f2, fun e' _ => ⟨g3, T, i, hlo, g2⟩⟩
        · refine ⟨g3, fun e' h => ?_⟩
          have h' : (S.slot s j').ptr = some e' := h
          rw [g2] at h'; cases h'
    · intro s' N' j' T' i' h1 h2
      rw [hloc] at h1
      exact hc.c4 _ _ _ _ _ h1 h2
    · intro hi j e h1 h2
      obtain ⟨T', i', h3, h4⟩ := hc.c5 hi j e h1 h2
      exact ⟨T', i', by rw [hloc]; exact h3, h4⟩
    · intro N'
      have h6 := hc.c6 N'
      show (if N' = N then S.copied N + n else S.copied N') = _
      by_cases hNN : N' = N
      · subst hNN
        rw [if_pos rfl, h6]
        unfold nCounted
        have hun : ((Finset.range (S'.claim N')).filter fun j => (S'.cs N' j).isCounted) =
            ((Finset.range (S.claim N')).filter fun j => (S.cs N' j).isCounted) ∪ Finset.Ico a (a + n) := by
          ext j'
          simp only [Finset.mem_filter, Finset.mem_range, Finset.mem_union, Finset.mem_Ico]
          rcases hcs N' j' with ⟨h0, h1⟩ | ⟨_, h2, h3, h1⟩
          · rw [h1]
            have : S'.claim N' = S.claim N' := rfl
            rw [this]
            constructor
            · exact fun h => .inl h
            · rintro (h | h)
              · exact h
              · exact absurd ⟨rfl, h.1, h.2⟩ h0
          · rw [h1]
            constructor
            · intro _; exact .inr ⟨h2, h3⟩
            · intro _
              refine ⟨?_, rfl⟩
              by_contra h4
              have h4' : S.claim N' ≤ j' := by
                have : S'.claim N' = S.claim N' := rfl
                omega
              exact (hown j' h2 h3).1 (hc.c1 _ _ h4')
        rw [hun, Finset.card_union_of_disjoint, Nat.card_Ico]
        · omega
        · rw [Finset.disjoint_left]
          intro j' h1 h2
          rw [Finset.mem_filter] at h1
          rw [Finset.mem_Ico] at h2
          have h3 := hown j' h2.1 h2.2
          have h4 : (S.cs N' j').isCounted = true := h1.2
          cases h5 : S.cs N' j' with
          | counted l => exact h3.2.1 l h5
          | _ => rw [h5] at h4; cases h4
      · rw [if_neg hNN, h6]
        symm
        refine nCounted_congr (S := S) (S' := S') (cs' := S'.cs) (N := N') ?_ rfl rfl
        intro j'
        rcases hcs N' j' with ⟨_, h1⟩ | ⟨h1, _⟩
        · rw [h1]
        · exact absurd h1 hNN
    · intro N' h
      obtain ⟨j', h1⟩ := hc.c7 N' h
      refine ⟨j', ?_⟩
      rcases hcs N' j' with ⟨_, h2⟩ | ⟨rfl, h2, h3, _⟩
      · rw [h2]; exact h1
      · exact absurd h1 (hown j' h2 h3).2.2
    · intro s' N' j' h1 h2 h3
      obtain ⟨l, h4⟩ := hc.c8 _ _ _ h1 h2 h3
      rcases hcs N' j' with ⟨_, h5⟩ | ⟨rfl, h5, h6, h7⟩
      · exact ⟨l, h5.trans h4⟩
      · exact ⟨_, h7⟩
    · intro hi s' N' j' h1 h2 h3
      rcases hcs N' j' with ⟨_, h5⟩ | ⟨rfl, h5, h6, h7⟩
      · rw [h5] at h2; exact hc.c9 hi _ _ _ h1 h2 h3
      · rw [h7] at h2
        rcases h2 with h2 | ⟨_, h2⟩ <;> cases h2
    · intro hi s' N' i' e h1 h2 h3
      obtain ⟨j', g1, g2, g3⟩ := hc.c10 hi s' N' i' e h1 h2 h3
      exact ⟨j', g1, g2, by rw [hloc]; exact g3⟩

theorem countSt_Evo {t : Tid} {s N a n : Nat} (hd : ∀ j, a ≤ j → j < a + n → S.DoneCopy C t s N j) :
    Evo S (S.countSt N a n) := by
  have hcs := fun N' j' => @countSt_cs K V _ S N a n N' j'
  refine Evo.quiet rfl rfl rfl rfl rfl (fun T h => h) (fun T h => h)
    rfl rfl rfl rfl (fun _ _ => rfl)
    (fun _ => Nat.le_refl _) ?_ ?_ (fun _ => Nat.le_refl _) (fun _ h => h)
    ⟨fun N' j' g => ?_, fun N' j' g => ?_, fun N' j' g1 g2 => absurd g2 (Nat.not_lt.2 g1), fun N' j' g => ?_⟩
  · intro N' j' l h
    rcases hcs N' j' with ⟨_, h1⟩ | ⟨rfl, h2, h3, _⟩
    · rw [h1]; exact h
    · have := (hd j' h2 h3).owner
      rw [h] at this; cases this
  · intro N' j' h
    rcases hcs N' j' with ⟨_, h1⟩ | ⟨rfl, h2, h3, _⟩
    · rw [h1]; exact h
    · have := (hd j' h2 h3).owner
      rw [h] at this; cases this

  · rcases hcs N' j' with ⟨_, h1⟩ | ⟨rfl, h2, h3, _⟩
    · rw [h1]; exact .inl g
    · have := (hd j' h2 h3).owner
      rw [g] at this; cases this
  · rcases hcs N' j' with ⟨_, h1⟩ | ⟨rfl, h2, h3, h4⟩
    · rw [h1]; exact g
    · rw [h4]; exact fun h => nomatch h
  · rcases hcs N' j' with ⟨_, h1⟩ | ⟨rfl, h2, h3, h4⟩
    · rw [h1] at g; exact .inl g
    · rw [h4] at g; cases g

theorem countSt_Own {t t' : Tid} (ht : t' ≠ t) {s N a n : Nat} (hd : ∀ j, a ≤ j → j < a + n → S.DoneCopy C t s N j) :
    Own t' S (S.countSt N a n) := by
  have hcs := fun N' j' => @countSt_cs K V _ S N a n N' j'
  refine Own.quiet rfl rfl rfl rfl rfl ?_ ?_ (fun _ h => h) (fun _ h => h) rfl rfl rfl
    ⟨[], by simp [countSt], by simp⟩ (fun _ _ _ => Iff.rfl) (fun _ => Iff.rfl) (fun _ h => h)
  · intro N' j' h
    rcases hcs N' j' with ⟨_, h1⟩ | ⟨rfl, h2, h3, _⟩
    · exact h1
    · have := (hd j' h2 h3).owner
      rw [h] at this; cases this; exact absurd rfl ht
  · intro N' j' h
    rcases hcs N' j' with ⟨_, h1⟩ | ⟨_, _, _, h1⟩
    · exact h1
    · rw [h1] at h; cases h

end GSt

end Papaya
