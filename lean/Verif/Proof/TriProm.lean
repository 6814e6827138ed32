import Verif.Proof.TriHelp

/-! # Triples of promotion and of the copy loops -/

set_option linter.unusedSectionVars false
set_option linter.unusedVariables false

namespace Papaya

variable {K V : Type} [DecidableEq K]

open GSt

variable {C : Cfg K} {t : Tid} {Ap : PanicReason → GSt K V → Prop}

/-! ## Promotion -/

/-- Every slot of `T` has been copied to `N`. -/
def AllCounted (T : Table) (N : Nat) (S : GSt K V) : Prop := ∀ j, j < T.len → ∃ l, S.cs N j = .counted l

instance {T : Table} {N : Nat} : Inert C t (AllCounted (K := K) (V := V) T N) :=
  Inert.mono fun S S' h1 h2 h3 h j hj => by
    obtain ⟨l, hl⟩ := h j hj
    exact ⟨l, h3.counted N j l hl⟩

theorem AllCounted.copied {S : GSt K V} {T : Table} {N : Nat} (h : S.Inv C) (ha : Acc t T S)
    (hpr : S.CopyPair T.id N) (hc : AllCounted T N S) : S.copied N = S.cap T.id := by
  rw [h.c.c6 N]
  unfold nCounted
  have : ((Finset.range (S.claim N)).filter fun j => (S.cs N j).isCounted) = Finset.range (S.cap T.id) := by
    ext j
    rw [Finset.mem_filter, Finset.mem_range, Finset.mem_range]
    constructor
    · rintro ⟨_, h2⟩
      obtain ⟨s', h3, h4⟩ := h.c.c2 N j (by intro h'; rw [h'] at h2; cases h2)
      rw [pair_src hpr h3]; exact h4
    · intro hj
      obtain ⟨l, hl⟩ := hc j (by rw [ha.len h]; exact hj)
      refine ⟨?_, by rw [hl]; rfl⟩
      by_contra hn
      rw [h.c.c1 N j (by omega)] at hl; cases hl
  rw [this, Finset.card_range]

/-- If everything was copied to `N` and the root moved on, `N` became the root. -/
theorem AllCounted.wasRoot {S : GSt K V} {T : Table} {N : Nat} (h : S.Inv C) (ha : Acc t T S)
    (hpr : S.CopyPair T.id N) (hc : AllCounted T N S) (hlt : T.id < S.rt) : S.wasRoot N := by
  have hcap := hc.copied h ha hpr
  have hna := counted_not_aborted h.c hpr hcap
  obtain ⟨M, h1, h2⟩ := succRoot hpr.2.2.1 hlt (wasRoot_rt h.s ha.2.1)
  have : M = N := by
    rcases Nat.lt_trichotomy M N with g | g | g
    · exact absurd (hpr.2.2.2 M h1.1 g) h2.2.2
    · exact g
    · exact absurd (h1.2.2.2 N hpr.1 g) hna
  rw [← this]; exact h2

def TabTok (t : Tid) (T : Nat) (S : GSt K V) : Prop := S.tabTok T = some t

instance {T : Nat} : Kept C t (TabTok (K := K) (V := V) t T) :=
  ⟨fun S S' _ _ _ h4 h => (h4.tabTok T).1 h⟩

theorem countSt_Own0 {S : GSt K V} {N a n : Nat} : Own0 t S (S.countSt N a n) :=
  Own0.quiet rfl rfl rfl rfl rfl rfl rfl rfl rfl rfl

theorem retTabSt_Own0 {S : GSt K V} {T : Nat} : Own0 t S (S.retTabSt T) :=
  Own0.quiet rfl rfl rfl rfl rfl rfl rfl rfl rfl rfl

theorem promSt_OwnQ {S : GSt K V} {T : Nat} : OwnQ t S (S.promSt T) := (promSt_Own (t := t)).ownQ

abbrev Pair (t : Tid) (T N : Table) (S : GSt K V) : Prop := Acc t T S ∧ Acc t N S ∧ S.CopyPair T.id N.id

/-- Thread `t` may refer to table `R`. -/
def AccId (t : Tid) (R : Nat) (S : GSt K V) : Prop := S.pinned t = true ∧ R < S.nTabs ∧ S.pr t ≤ R

theorem AccId.acc {R : Nat} {S : GSt K V} (h : AccId t R S) : Acc t (S.handle R) S := ⟨h.1, h.2.1, rfl, h.2.2⟩

instance {R : Nat} : Inert (V := V) C t (AccId (K := K) t R) := ⟨fun S S' h1 h2 h3 h4 h => by
  have := Inert.inert (C := C) (t := t) (P := Acc t (S.handle R)) S S' h1 h2 h3 h4 h.acc
  exact ⟨this.1, this.2.1, this.2.2.2⟩⟩

theorem root_tabOk {S : GSt K V} {T : Table} (h : S.Inv C) (ha : Acc t T S) : ∀ r, S.root = some r → S.TabOk r := by
  intro r hr
  refine ⟨(h.s.some r hr).1, ?_⟩
  by_contra hf
  have hf : S.tabFreed r = true := by simpa using hf
  have h1 := (h.m.m4 r t (h.m.m6 r hf).1).1
  have : S.rt = r := by unfold rt; rw [hr]; rfl
  omega

theorem tri_tryPromote {T N : Table} {a copied : Nat} :
    Tri (V := V) C t Ap (Mt t)
      (fun S => Pair t T N S ∧ ∀ j', a ≤ j' → j' < a + copied → Done C t T.id N.id j' S)
      (tryPromote T N copied) (fun b S => b = true → S.wasRoot N.id) := by
  have hg := fun S : GSt K V => Mt.refl t S
  unfold tryPromote
  refine Tri.bind (fun c S => Pair t T N S ∧ (c = T.len → AllCounted T N.id S)) ?_ ?_
  · refine Tri.ite (fun hc => ?_) (fun hc => ?_)
    · refine Tri.bind (fun old S => Pair t T N S ∧ (old + copied = T.len → AllCounted T N.id S)) ?_
        (fun _ => Tri.ret fun S _ h => h)
      have hst : Stable (rg K V C) t (fun S : GSt K V => Pair t T N S ∧ ∀ j', a ≤ j' → j' < a + copied → Done C t T.id N.id j' S) :=
        Stable.of_step fun S S' h1 h2 h3 h4 h => by
          have hp := Inert.inert (C := C) (t := t) (P := fun S => Pair t T N S) S S' h1 h2 h3 h4.own0 h.1
          refine ⟨hp, fun j' g1 g2 => ⟨hp.2.2, ?_⟩⟩
          have := h.2 j' g1 g2
          exact doneCopy_mono h1 this.1 h3 (h4.cs _ _ this.2.owner) this.2
      refine Tri.act (hst := hst) (fun S h hp => ⟨hp.1.2.1.tabOk h, hp.1.2.2, hp.1.1.len h⟩) ?_
      intro S r σ'' h hp he
      obtain ⟨rfl, rfl⟩ := he
      have hd : ∀ j, a ≤ j → j < a + copied → S.DoneCopy C t T.id N.id j := fun j g1 g2 => (hp.2 j g1 g2).2
      have hinv : (S.countSt N.id a copied).Inv C := countSt_Inv h hp.1.2.2 hd
      have hev := countSt_Evo hd
      have hpair := Inert.inert (C := C) (t := t) (P := fun S => Pair t T N S) S _ h hinv hev countSt_Own0 hp.1
      refine ⟨S.countSt N.id a copied, rfl, hinv, hev, fun t' ht => countSt_Own ht hd, ⟨hev, countSt_Own0⟩, hpair, ?_⟩
      intro hlen j hj
      have hcp : (S.countSt N.id a copied).copied N.id = (S.countSt N.id a copied).cap T.id := by
        show (if N.id = N.id then S.copied N.id + copied else _) = S.cap T.id
        rw [if_pos rfl, ← hp.1.1.len h]; exact hlen
      exact all_counted hinv.c hpair.2.2 hcp (by rw [← hpair.1.len hinv]; exact hj)
    · refine Tri.pre (P := fun S => Pair t T N S) ?_ (fun S _ h => h.1)
      refine Tri.load (fun c S => Pair t T N S ∧ (c = T.len → AllCounted T N.id S)) hg (fun S h hp => hp.2.1.tabOk h)
        (fun _ _ _ h => h.2) ?_
      intro S r h hp he
      refine ⟨hp, fun hlen j hj => ?_⟩
      rw [he.1, hp.1.len h] at hlen
      exact all_counted h.c hp.2.2 hlen (by rw [← hp.1.len h]; exact hj)
  intro c
  refine Tri.ite (fun hc => ?_) (fun hc => Tri.ret fun S _ _ h => by cases h)
  refine Tri.bind (fun r S => Pair t T N S ∧ AllCounted T N.id S ∧ ∀ R, r = some R → AccId t R S ∧ (T.id = R → T.id ≤ S.rt)) ?_ ?_
  · refine Tri.pre (P := fun S => Pair t T N S ∧ AllCounted T N.id S) ?_ (fun S _ h => ⟨h.1, h.2 hc⟩)
    refine Tri.load _ hg (fun _ _ _ => trivial) (fun _ _ _ h => h.2) ?_
    intro S r h hp he
    refine ⟨hp.1, hp.2, fun R hR => ?_⟩
    have hroot : S.root = some R := he.1.symm.trans hR
    have hrt : S.rt = R := by unfold rt; rw [hroot]; rfl
    have hlt := (h.s.some R hroot).1
    have hd := h.l.d3 t
    exact ⟨⟨hp.1.1.1, hlt, by omega⟩, fun h3 => by omega⟩
  rintro (_ | R)
  · exact Tri.ret fun S _ _ h => by cases h
  simp only
  refine tri_sameTable hg (fun S h hp => ⟨hp.1.1.tabOk h, (hp.2.2 R rfl).1.acc.tabOk h⟩) (fun hr => ?_)
    (fun hr => Tri.ret fun S _ _ h => by cases h)
  refine Tri.bind (fun b S => (Pair t T N S ∧ S.wasRoot N.id) ∧ (b = true → TabTok t T.id S)) ?_ ?_
  · refine Tri.pre (P := fun S => Pair t T N S ∧ AllCounted T N.id S ∧ T.id ≤ S.rt) ?_
      (fun S _ h => ⟨h.1, h.2.1, (h.2.2 R rfl).2 hr⟩)
    refine Tri.act (fun S h hp => ⟨hp.1.1.tabOk h, root_tabOk h hp.1.1, fun _ => ⟨hp.1.2.2.1, hp.1.2.2.2.2.2⟩⟩) ?_
    intro S b σ'' h hp he
    rcases he with ⟨hroot, rfl, rfl⟩ | ⟨hroot, rfl, rfl⟩
    · have hrt : S.rt = T.id := by unfold rt; rw [hroot]; rfl
      have hpr : S.CopyPair S.rt N.id := by rw [hrt]; exact hp.1.2.2
      have hcap : S.copied N.id = S.cap S.rt := by rw [hrt]; exact hp.2.1.copied h hp.1.1 hp.1.2.2
      have hinv : (S.rootSt t N.id).Inv C := rootSt_Inv h hpr hcap
      have hev : Evo S (S.rootSt t N.id) := rootSt_Evo h hpr
      refine ⟨S.rootSt t N.id, rfl, hinv, hev, fun t' ht => rootSt_Own ht h hpr, ⟨hev, rootSt_Own0 h hpr⟩, ⟨?_, ?_⟩, ?_⟩
      · exact Inert.inert (C := C) (t := t) (P := fun S => Pair t T N S) S _ h hinv hev (rootSt_Own0 h hpr) hp.1
      · have : (S.rootSt t N.id).rt = N.id := rfl
        have hw := wasRoot_rt hinv.s (T := N.id) hpr.2.1
        rw [this] at hw; exact hw
      · intro _
        show (if T.id = S.rt then some t else S.tabTok T.id) = some t
        rw [if_pos hrt.symm]
    · refine ⟨S, rfl, h, Evo.refl S, fun t' _ => Own.refl t' S, Mt.refl t S, ⟨hp.1, ?_⟩, by simp⟩
      refine hp.2.1.wasRoot h hp.1.1 hp.1.2.2 ?_
      rcases Nat.lt_or_eq_of_le hp.2.2 with h1 | h1
      · exact h1
      · exact absurd (by rw [h1]; exact root_eq h.s hp.1.1.2.1) hroot
  intro b
  have hunp : Tri (V := V) C t Ap (Mt t) (fun S => Pair t T N S ∧ S.wasRoot N.id) (A.unparkStatus N.id)
      (fun _ S => S.wasRoot N.id) :=
    Tri.load _ hg (fun S h hp => ⟨hp.1.2.1.tabOk h, hp.2⟩) (fun _ _ _ h => h.2) fun _ _ _ hp _ => hp.2
  refine Tri.ite (fun hb => ?_) (fun hb => ?_)
  rotate_left
  · exact Tri.bind _ (hunp.pre fun S _ h => h.1) fun _ => Tri.ret fun S _ h _ => h
  refine Tri.bind (fun _ S => (Pair t T N S ∧ S.wasRoot N.id) ∧ TabTok t T.id S) ?_ ?_
  · refine Tri.pre (P := fun S => (Pair t T N S ∧ S.wasRoot N.id) ∧ TabTok t T.id S) ?_
      (fun S _ h => ⟨h.1, h.2 hb⟩)
    refine Tri.act (fun S h hp => ⟨hp.1.1.2.1.tabOk h, by simp⟩) ?_
    intro S u σ'' h hp he
    have hw := hp.1.2
    refine ⟨S.promSt N.id, he.symm, promSt_Inv h hw, promSt_Evo hw, fun t' _ => promSt_Own,
      ⟨promSt_Evo hw, promSt_OwnQ.toOwn0⟩, ?_⟩
    exact Kept.kept (C := C) (t := t) (P := fun S => (Pair t T N S ∧ S.wasRoot N.id) ∧ TabTok t T.id S) S _ h
      (promSt_Inv h hw) (promSt_Evo hw) promSt_OwnQ hp
  intro _
  refine Tri.bind (fun _ S => Pair t T N S ∧ S.wasRoot N.id) ?_
    (fun _ => Tri.bind _ hunp fun _ => Tri.ret fun S _ h _ => h)
  refine Tri.act (fun S h hp => ⟨hp.1.1.1.tabOk h, ?_, h.m.m4' _ _ hp.2, hp.1.1.2.2.2.2.1⟩) ?_
  · cases htr : S.tabRetired T.id with
    | false => rfl
    | true =>
      have := (h.m.m4 _ t htr).2.1
      rw [show S.tabTok T.id = _ from hp.2] at this; cases this
  · intro S u σ'' h hp he
    have hinv := retTabSt_Inv h hp.2
    refine ⟨S.retTabSt T.id, he.symm, hinv, retTabSt_Evo, fun t' ht => retTabSt_Own ht hp.2,
      ⟨retTabSt_Evo, retTabSt_Own0⟩, ?_, retTabSt_Evo.wasRoot _ hp.1.2⟩
    exact Inert.inert (C := C) (t := t) (P := fun S => Pair t T N S) S _ h hinv retTabSt_Evo retTabSt_Own0 hp.1.1

theorem tri_tryPromote' {T N : Table} {a copied : Nat} :
    Tri (V := V) C t Ap (Mt t)
      (fun S => Pair t T N S ∧ ∀ j', a ≤ j' → j' < a + copied → Done C t T.id N.id j' S)
      (tryPromote T N copied) (fun b S => Pair t T N S ∧ (b = true → S.wasRoot N.id)) :=
  (tri_tryPromote.frame (Pair t T N)).conseq (fun S _ h => ⟨h, h.1⟩) (fun _ S _ h => ⟨h.2, h.1⟩)

theorem tri_tryPromote0 {T N : Table} :
    Tri (V := V) C t Ap (Mt t) (fun S => Pair t T N S) (tryPromote T N 0)
      (fun b S => Pair t T N S ∧ (b = true → S.wasRoot N.id)) :=
  (tri_tryPromote' (a := 0)).pre fun S _ h => ⟨h, fun j' _ h => by omega⟩

/-! ## Claiming -/

theorem claimSt_Own0 {S : GSt K V} {s N n : Nat} : Own0 t S (S.claimSt t s N n) :=
  Own0.quiet rfl rfl rfl rfl rfl rfl rfl rfl rfl rfl

theorem tri_addClaim {T N : Table} {chunk : Nat} :
    Tri (V := V) C t Ap (Mt t) (fun S => Pair t T N S) (A.addClaim N.id chunk T)
      (fun start => ChunkI C t T N start chunk 0) := by
  refine Tri.act (fun S h hp => ⟨hp.2.1.tabOk h, hp.2.2, hp.1.len h⟩) ?_
  intro S r σ'' h hp he
  obtain ⟨rfl, rfl⟩ := he
  have hinv : (S.claimSt t T.id N.id chunk).Inv C := claimSt_Inv h hp.2.2
  have hev : Evo S (S.claimSt t T.id N.id chunk) := claimSt_Evo h hp.2.2
  refine ⟨S.claimSt t T.id N.id chunk, rfl, hinv, hev, fun t' ht => claimSt_Own h ht, ⟨hev, claimSt_Own0⟩, ?_, ?_, ?_⟩
  · exact Inert.inert (C := C) (t := t) (P := fun S => Pair t T N S) S _ h hinv hev claimSt_Own0 hp
  · intro j' g1 g2; omega
  · intro j' g1 g2 g3
    show (if N.id = N.id ∧ S.claim N.id ≤ j' ∧ j' < S.claim N.id + chunk ∧ j' < S.cap T.id then _ else _) = _
    rw [if_pos ⟨rfl, by omega, g2, by rw [← hp.1.len h]; exact g3⟩]

theorem abortSt_Own0 {S : GSt K V} {N j : Nat} : Own0 t S (S.abortSt N j) :=
  Own0.quiet rfl rfl rfl rfl rfl rfl rfl rfl rfl rfl

theorem pair_next {S : GSt K V} {s N : Nat} (hpr : S.CopyPair s N) (ha : S.aborted N) (hn : N + 1 < S.nTabs) :
    S.CopyPair s (N + 1) := by
  refine ⟨by have := hpr.1; omega, hn, hpr.2.2.1, fun P h1 h2 => ?_⟩
  by_cases hP : P = N
  · rw [hP]; exact ha
  · exact hpr.2.2.2 P h1 (by omega)

theorem tri_allocAfterAbort [hA : SysA C Ap] {T N : Table} :
    Tri (V := V) C t Ap (Mt t) (fun S => Pair t T N S ∧ S.aborted N.id) (getOrAllocNext C none N)
      (fun N' S => Pair t T N' S) := by
  refine Tri.mt (((tri_getOrAllocNext (capacity := none) (by simp)).frameQ
    (fun S => Pair t T N S ∧ S.aborted N.id)).conseq (fun S h hp => ⟨⟨hp.1.2.1, fun _ => .inr hp.2⟩, hp⟩) ?_)
  rintro N' S h ⟨⟨h1, h2⟩, ⟨h3, h4, h5⟩, h6⟩
  refine ⟨h3, h1, ?_⟩
  rw [h2]
  exact pair_next h5 h6 (by rw [← h2]; exact h1.2.1)

theorem tri_storeAborted (hb : C.inc = false) {T N : Table} :
    Tri (V := V) C t Ap (Mt t) (fun S => Pair t T N S ∧ ∃ j, Marked t N.id j S) (A.storeStatus N.id .aborted)
      (fun _ S => Pair t T N S ∧ S.aborted N.id) := by
  refine Tri.act (fun S h hp => ⟨hp.1.2.1.tabOk h, fun _ => ?_⟩) ?_
  · obtain ⟨hp, j, hm⟩ := hp
    exact (abortSt_Inv h hb hm).2.1
  intro S u σ'' h hp he
  obtain ⟨hp, j, hm⟩ := hp
  obtain ⟨hinv, h1, h2⟩ := abortSt_Inv h hb hm
  have hev := abortSt_Evo hm h1 h2
  refine ⟨S.abortSt N.id j, he.symm, hinv, hev, fun t' ht => abortSt_Own ht hm, ⟨hev, abortSt_Own0⟩, ?_, ?_⟩
  · exact Inert.inert (C := C) (t := t) (P := fun S => Pair t T N S) S _ h hinv hev abortSt_Own0 hp
  · show (if N.id = N.id then Status.aborted else _) = _
    rw [if_pos rfl]

/-! ## Copy loops -/

theorem tri_loadStatus {T N : Table} :
    Tri (V := V) C t Ap (Mt t) (fun S => Pair t T N S) (A.loadStatus N.id)
      (fun r S => Pair t T N S ∧ (r = .aborted → S.aborted N.id) ∧ (r = .promoted → S.wasRoot N.id)) := by
  refine Tri.load _ (Mt.refl t) (fun S h hp => hp.2.1.tabOk h) (fun _ _ _ h => h.2) ?_
  intro S r h hp he
  rw [he.1]
  refine ⟨hp, fun h' => h', fun h' => ?_⟩
  have := h.s.prom _ h'
  exact ⟨this.2, this.1, by unfold aborted; rw [h']; simp⟩

/-- All the slots of `T` are claimed by those who copy to `N`. -/
def AllClaimed (T N : Table) (S : GSt K V) : Prop := T.len ≤ S.claim N.id

instance {T N : Table} : Inert C t (AllClaimed (K := K) (V := V) T N) :=
  Inert.mono fun S S' _ _ h3 h => Nat.le_trans h (h3.claim N.id)

/-- Parking until the state of the copy changes. -/
theorem tri_parkStatus {T N : Table} :
    Tri (V := V) C t Ap (Mt t) (fun S => Pair t T N S ∧ AllClaimed T N S) (A.parkStatus N.id)
      (fun _ S => Pair t T N S ∧ AllClaimed T N S) :=
  Tri.load _ (Mt.refl t) (fun S h hp => ⟨hp.1.2.1.tabOk h, T.id, hp.1.2.2, by rw [← hp.1.1.len h]; exact hp.2⟩)
    (fun _ _ _ h => h.2) fun _ _ _ hp _ => hp

/-- The copy target is not known to be aborted. -/
theorem tri_helpCopyBlocking [hA : SysA C Ap] (hb : C.inc = false) {T : Table} :
    Tri (V := V) C t Ap (Mt t) (fun S => Acc t T S ∧ S.wasRoot T.id ∧ T.id + 1 < S.nTabs) (helpCopyBlocking C T)
      (fun n S => Acc t n S ∧ S.wasRoot n.id ∧ T.id < n.id) := by
  have hg := fun S : GSt K V => Mt.refl t S
  unfold helpCopyBlocking
  refine Tri.bind (fun r S => match r with | none => False | some N => Pair t T N S) ?_ ?_
  · refine Tri.mt (tri_loadNext (fun S _ h => h.1) _ ?_ ?_)
    · intro S N h hp h1 h2
      exact ⟨hp.1, h1, by rw [h2]; exact pair_wasRoot_succ h.s hp.2.1 hp.2.2⟩
    · intro S h hp h1; have := hp.2.2; omega
  rintro (_ | N)
  · exact Tri.false fun S _ h => h
  simp only
  have hdone : ∀ {S : GSt K V} {n : Table}, Pair t T n S → S.wasRoot n.id → Acc t n S ∧ S.wasRoot n.id ∧ T.id < n.id :=
    fun hp hw => ⟨hp.2.1, hw, hp.2.2.1⟩
  refine Tri.loop (fun N S => Pair t T N S) ?_
  intro N
  refine Tri.bind (fun N S => Pair t T N S) ?_ ?_
  · refine Tri.loop (fun N S => Pair t T N S) ?_
    intro N
    refine Tri.bind _ tri_loadStatus ?_
    intro st
    refine Tri.ite (fun h => ?_) (fun h => Tri.ret fun S _ h => h.1)
    refine Tri.bind (fun N S => Pair t T N S) (tri_allocAfterAbort.pre fun S _ hp => ⟨hp.1, hp.2.1 h⟩) ?_
    intro n
    exact Tri.ret fun S _ h => h
  clear N
  intro N
  refine Tri.bind _ tri_tryPromote0 ?_
  intro b
  refine Tri.ite (fun hbt => Tri.ret fun S _ h => hdone h.1 (h.2 hbt)) (fun _ => ?_)
  refine Tri.bind (fun out S => match out with
    | .brk => Pair t T N S ∧ AllClaimed T N S
    | .retry n => Pair t T n S
    | .done n => Acc t n S ∧ S.wasRoot n.id ∧ T.id < n.id) ?_ ?_
  · refine (Tri.loop (fun _ S => Pair t T N S) ?_).pre fun S _ h => h.1
    intro _
    refine Tri.bind (fun cl S => Pair t T N S ∧ cl ≤ S.claim N.id) ?_ ?_
    · haveI := fun cl : Nat => (⟨fun S S' h1 h2 h3 h4 h => Nat.le_trans h (h3.claim N.id)⟩ : Inert C t (fun S : GSt K V => cl ≤ S.claim N.id))
      exact Tri.load _ hg (fun S h hp => hp.2.1.tabOk h) (fun _ _ _ h => h.2) (fun S r _ hp he => ⟨hp, Nat.le_of_eq he.1⟩)
    intro cl
    refine Tri.ite (fun hcl => Tri.ret fun S _ h => ⟨h.1, Nat.le_trans hcl h.2⟩) (fun _ => ?_)
    refine Tri.bind _ (tri_addClaim.pre fun S _ h => h.1) ?_
    intro start
    refine Tri.bind _ (((tri_copyChunkBlocking hb).frame (Pair t T N)).pre fun S _ h => ⟨h, h.1⟩) ?_
    rintro (_ | copied)
    · simp only
      refine Tri.bind _ ((tri_storeAborted hb).pre fun S _ h => ⟨h.2, h.1⟩) ?_
      intro _
      refine Tri.bind _ tri_allocAfterAbort ?_
      intro n
      refine Tri.bind (fun _ S => Pair t T n S)
        (Tri.load _ hg (fun S h hp => ⟨hp.1.tabOk h, hp.2.2.2.2.1⟩) (fun _ _ _ h => h.2) fun _ _ _ hp _ => hp) ?_
      intro _
      exact Tri.ret fun S _ h => h
    · simp only
      refine Tri.bind _ ((tri_tryPromote' (a := start)).pre fun S _ h => ⟨h.2, h.1⟩) ?_
      intro b
      refine Tri.ite (fun hbt => Tri.ret fun S _ h => hdone h.1 (h.2 hbt)) (fun _ => ?_)
      refine Tri.bind _ (tri_loadStatus.pre fun S _ h => h.1) ?_
      intro st
      exact Tri.ite (fun h => Tri.ret fun S _ h => h.1) (fun h => Tri.ret fun S _ h => h.1)
  · rintro (_ | n | n)
    · simp only
      refine Tri.bind (fun ok S => Pair t T N S ∧ (ok = true → S.wasRoot N.id)) ?_ ?_
      · refine Tri.loop (fun _ S => Pair t T N S ∧ AllClaimed T N S) ?_
        intro _
        refine Tri.bind _ (tri_loadStatus.frame (AllClaimed T N)) ?_
        intro st
        cases st
        · refine Tri.ite (fun _ => Tri.ret fun S _ h => ⟨h.1.1, h.2⟩) fun _ => ?_
          exact Tri.bind _ (tri_parkStatus.pre fun S _ h => ⟨h.1.1, h.2⟩) fun _ => Tri.ret fun S _ h => h
        · exact Tri.ret fun S _ h => ⟨h.1.1, by simp⟩
        · exact Tri.ret fun S _ h => ⟨h.1.1, fun _ => h.1.2.2 rfl⟩
      · intro ok
        exact Tri.ite (fun h => Tri.ret fun S _ hp => hdone hp.1 (hp.2 h)) (fun h => Tri.ret fun S _ hp => hp.1)
    · exact Tri.ret fun S _ h => h
    · exact Tri.ret fun S _ h => h

end Papaya
