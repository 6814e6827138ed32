import Verif.Proof.ActPub

/-! # Actions of the copier on slots: marking, placing the copy, marking as copied -/

set_option linter.unusedSectionVars false
set_option linter.unusedVariables false

namespace Papaya

variable {K V : Type} [DecidableEq K]

namespace GSt

variable {C : Cfg K} {S S' : GSt K V}

/-- `InvL` only depends on pointers, `copied` bits and metadata of slots. -/
theorem InvL.congr (hl : S.InvL C) (hk : S'.kslot = S.kslot) (hcd : S'.copiedF = S.copiedF)
    (hmd : S'.md = S.md) (hcap : S'.cap = S.cap) (hroot : S'.root = S.root) (hn : S'.nTabs = S.nTabs)
    (hst : S'.status = S.status) (hlog : S'.log = S.log) (hinfo : S'.info = S.info) (hops : S'.ops = S.ops)
    (hdem : S'.demLog = S.demLog) (hnx : S'.nextLog = S.nextLog) (hr : S'.rInv = S.rInv) (hpr : S'.pr = S.pr)
    (hip : S'.invPos = S.invPos) : S'.InvL C := by
  have hrt : S'.rt = S.rt := by unfold rt; rw [hroot]
  have hab : S'.aborted = S.aborted := by funext T; unfold aborted; rw [hst]
  have hwr : S'.wasRoot = S.wasRoot := by funext T; unfold wasRoot; rw [hrt, hn, hab]
  have hmv : S'.moved = S.moved := by funext T i; unfold moved; rw [hcd, hmd]
  have hhid : S'.hid = S.hid := by funext T e; unfold hid; rw [hrt, hk, hmv]
  have hvis : S'.vis = S.vis := by funext T i e; unfold vis; rw [hrt, hk, hmv, hhid, hab]
  have hlive : S'.Live = S.Live := by funext k e; unfold Live; rw [hvis, hmd]
  have hlg : S'.logged = S.logged := by funext e; unfold logged; rw [hlog]
  have hdead : S'.dead = S.dead := by funext T i k; unfold dead; rw [hk, hmd]
  have hov : S'.over C = S.over C := by funext T k; unfold over lim pos; rw [hdead, hcap]
  refine ⟨?_, ?_, ?_, ?_, ?_, ?_, ?_, ?_, ?_, ?_, ?_⟩
  · rw [hlog, hlive]; exact hl.a
  · rw [hinfo, hlg, hk, hmd, hrt, hab, hops]; exact hl.u1
  · rw [hinfo, hlg, hk, hmd, hrt, hab, hhid]; exact hl.u2
  · rw [hinfo, hk]; exact hl.u3
  · rw [hwr, hrt, hdem, hlog]; exact hl.d1
  · rw [hwr, hrt, hdem, hr, hip]; exact hl.d2
  · rw [hr, hrt, hpr]; exact hl.d3
  · rw [hn, hnx, hlog]; exact hl.d4
  · rw [hwr, hrt, hdem, hov, hk, hmd]; exact hl.l1
  · rw [hwr, hrt, hdem, hk, hlog]; exact hl.l2
  · rw [hwr, hrt, hnx, hk, hlog, hcd, hmd]; exact hl.n1

variable {T i : Nat} {s : Slot K V} {nIds : Nat} {info : Nat → Option (EInfo K V)}
  {cs : Nat → Nat → CS} {log : List (Ev K V)} {tok : Nat → Tok}

/-- change of one copy state -/
def setCs (S : GSt K V) (N j : Nat) (c : CS) : Nat → Nat → CS :=
  fun N' j' => if N' = N ∧ j' = j then c else S.cs N' j'

/-- Setting the `COPYING` bit. -/
def markSt (S : GSt K V) (t : Tid) (s N j : Nat) : GSt K V :=
  S.slSt s j { S.slot s j with copying := true } S.nIds S.info (S.setCs N j (.marked t)) S.log S.tok

theorem nCounted_congr {cs' : Nat → Nat → CS} {N : Nat}
    (h : ∀ j, (cs' N j).isCounted = (S.cs N j).isCounted) (hcs : S'.cs = cs') (hcl : S'.claim N = S.claim N) :
    S'.nCounted N = S.nCounted N := by
  unfold nCounted
  rw [hcs, hcl]
  simp only [h]

theorem markSt_Inv {t : Tid} {s N j : Nat} (h : S.Inv C) (hpr : S.CopyPair s N) (hj : j < S.cap s)
    (hcs : S.cs N j = .claimed t) : (S.markSt t s N j).Inv C := by
  obtain ⟨hs, hp, hc, he, hl, hM, hN⟩ := h
  set S' := S.markSt t s N j with hS'
  have hsl : ∀ T' i', ¬ (T' = s ∧ i' = j) → S'.slot T' i' = S.slot T' i' := by
    intro T' i' h; rw [hS', markSt, slSt_slot, if_neg h]
  have hslT : S'.slot s j = { S.slot s j with copying := true } := by
    rw [hS', markSt, slSt_slot, if_pos ⟨rfl, rfl⟩]
  have hk : S'.kslot = S.kslot := by
    funext T' i' e
    unfold kslot
    by_cases hh : T' = s ∧ i' = j
    · obtain ⟨rfl, rfl⟩ := hh; rw [hslT]
    · rw [hsl _ _ hh]
  have hcd : S'.copiedF = S.copiedF := by
    funext T' i'
    unfold copiedF
    by_cases hh : T' = s ∧ i' = j
    · obtain ⟨rfl, rfl⟩ := hh; rw [hslT]
    · rw [hsl _ _ hh]
  have hcp : ∀ T' i', S'.copying T' i' ↔ S.copying T' i' ∨ (T' = s ∧ i' = j) := by
    intro T' i'
    unfold copying
    by_cases hh : T' = s ∧ i' = j
    · obtain ⟨rfl, rfl⟩ := hh; rw [hslT]; simp
    · rw [hsl _ _ hh]; simp [hh]
  have hcs' : ∀ N' j', ¬ (N' = N ∧ j' = j) → S'.cs N' j' = S.cs N' j' := by
    intro N' j' h; exact if_neg h
  have hcsN : S'.cs N j = .marked t := if_pos ⟨rfl, rfl⟩
  have hloc : ∀ N' j', S'.loc N' j' = S.loc N' j' := by
    intro N' j'
    unfold loc
    by_cases hh : N' = N ∧ j' = j
    · obtain ⟨rfl, rfl⟩ := hh; rw [hcsN, hcs]; rfl
    · rw [hcs' _ _ hh]
  have hcnt : ∀ N' j' l, S'.cs N' j' = .counted l ↔ S.cs N' j' = .counted l := by
    intro N' j' l
    by_cases hh : N' = N ∧ j' = j
    · obtain ⟨rfl, rfl⟩ := hh; rw [hcsN, hcs]; simp
    · rw [hcs' _ _ hh]
  have hmv : S'.moved = S.moved := by
    funext T' i'; unfold moved; rw [hcd]; rfl
  have hdead : S'.dead = S.dead := by funext T i k; unfold dead; rw [hk]; rfl
  have hov : S'.over C = S.over C := by funext T k; unfold over; rw [hdead]; rfl
  have hps : S'.passed C = S.passed C := by funext T k; unfold passed; rw [hov, hk, hmv]
  have hwr : S'.wasRoot = S.wasRoot := rfl
  have hpair : S'.CopyPair = S.CopyPair := rfl
  have hs1 : s < S.nTabs := by have := hpr.1; have := hpr.2.1; omega
  refine ⟨?_, ?_, ?_, he.congr rfl rfl rfl rfl rfl rfl, ?_, ?_, hN⟩
  · refine ⟨hs.none, hs.some, hs.next, hs.cap, ?_, hs.prom, hs.incab, hs.blkab⟩
    intro T' hT'
    obtain ⟨h1, h2, h3, h4⟩ := hs.out T' hT'
    have hT'' : S.nTabs ≤ T' := hT'
    refine ⟨fun i' => ?_, h2, fun i' => ?_, h4⟩
    · rw [hsl]
      · exact h1 i'
      · rintro ⟨rfl, rfl⟩; omega
    · rw [hcs']
      · exact h3 i'
      · rintro ⟨rfl, rfl⟩; have := hpr.2.1; omega
  · refine ⟨?_, ?_, ?_, ?_, ?_, ?_, ?_, ?_, ?_⟩
    · intro T' i' h
      by_cases hh : T' = s ∧ i' = j
      · obtain ⟨rfl, rfl⟩ := hh; rw [hslT] at h; have := congrArg Slot.copying h; simp [Slot.null] at this
      · rw [hsl _ _ hh] at h; exact hp.p1 _ _ h
    · rw [hk]; exact hp.p2
    · rw [hk]; exact hp.p3
    · rw [hk, hdead]; exact hp.p4
    · intro T' i' h
      rcases (hcp _ _).1 h with h | ⟨rfl, rfl⟩
      · exact hp.p5 _ _ h
      · exact ⟨hpr.2.2.1, by have h1 := hpr.1; have h2 := hpr.2.1; show T' + 1 < S.nTabs; omega⟩
    · intro T' i' e h1 h2
      rw [hk] at h1; rw [hcd] at h2
      have := hp.p7 _ _ _ h1 h2
      exact ⟨this.1, (hcp _ _).2 (.inl this.2)⟩
    · intro hi T1 i1 T2 i2 e h1 h2 hlt
      rw [hk] at h1 h2
      have := hp.b1 hi _ _ _ _ _ h1 h2 hlt
      by_cases hh : T2 = s ∧ i2 = j
      · obtain ⟨rfl, rfl⟩ := hh; rw [hslT]; exact this
      · rw [hsl _ _ hh]; exact this
    · intro T' i' e h1 h2
      rw [hk] at h1 ⊢
      rw [hps]
      rcases hp.f1 _ _ _ h1 h2 with ⟨j', h3, h4, h5⟩ | h3
      · exact .inl ⟨j', h3, (hcp _ _).2 (.inl h4), by rw [hloc]; exact h5⟩
      · exact .inr h3
    · rw [hk, hov]; exact hp.f2
  · refine ⟨?_, ?_, ?_, ?_, ?_, ?_, ?_, ?_, ?_, ?_⟩
    · intro N' j' h
      have := hc.c1 N' j' h
      rw [hcs']
      · exact this
      · rintro ⟨rfl, rfl⟩; rw [hcs] at this; cases this
    · intro N' j' h
      by_cases hh : N' = N ∧ j' = j
      · obtain ⟨rfl, rfl⟩ := hh; exact ⟨s, hpr, hj⟩
      · rw [hcs' _ _ hh] at h; exact hc.c2 _ _ h
    · intro s' N' j' l h1 h2
      rw [hcnt] at h1
      obtain ⟨h3, h4⟩ := hc.c3 _ _ _ _ h1 h2
      refine ⟨(hcp _ _).2 (.inl h3), ?_⟩
      rw [hk, hcd]; exact h4
    · intro s' N' j' T' i' h1 h2
      rw [hloc] at h1
      obtain ⟨e, h3, h4, h5⟩ := hc.c4 _ _ _ _ _ h1 h2
      refine ⟨e, ?_, (hcp _ _).2 (.inl h4), ?_⟩
      · rw [hk]; exact h3
      · rw [hk, hmv]; exact h5
    · intro hi j' e h1 h2
      rw [hk] at h1; rw [hcd] at h2
      rw [hloc]; exact hc.c5 hi j' e h1 h2
    · intro N'
      refine (hc.c6 N').trans ?_
      symm
      refine nCounted_congr (S := S) (S' := S') (cs' := S'.cs) (N := N') ?_ rfl rfl
      intro j'
      by_cases hh : N' = N ∧ j' = j
      · obtain ⟨rfl, rfl⟩ := hh; rw [hcsN, hcs]; rfl
      · rw [hcs' _ _ hh]
    · intro N' h
      obtain ⟨j', h1⟩ := hc.c7 N' h
      refine ⟨j', ?_⟩
      rw [hcs']
      · exact h1
      · rintro ⟨rfl, rfl⟩; rw [hcs] at h1; cases h1
    · intro s' N' j' h1 h2 h3
      obtain ⟨l, h4⟩ := hc.c8 _ _ _ h1 h2 h3
      exact ⟨l, (hcnt _ _ _).2 h4⟩
    · intro hi s' N' j' h1 h2 h3
      by_cases hh : N' = N ∧ j' = j
      · obtain ⟨rfl, rfl⟩ := hh
        rw [hcsN] at h2
        rcases h2 with h2 | ⟨_, h2⟩ <;> cases h2
      · rw [hcs' _ _ hh] at h2
        rcases (hcp _ _).1 h3 with h3 | ⟨rfl, rfl⟩
        · exact hc.c9 hi _ _ _ h1 h2 h3
        · have e1 := pair_inc hs hi h1
          have e2 := pair_inc hs hi hpr
          exact hh ⟨by omega, rfl⟩
    · intro hi s' N' i' e h1 h2 h3
      rw [hk] at h3 ⊢
      obtain ⟨j', g1, g2, g3⟩ := hc.c10 hi s' N' i' e h1 h2 h3
      exact ⟨j', g1, (hcp _ _).2 (.inl g2), by rw [hloc]; exact g3⟩
  · exact hl.congr hk hcd rfl rfl rfl rfl rfl rfl rfl rfl rfl rfl rfl rfl rfl
  · refine ⟨?_, hM.own, hM.m2, hM.m3, hM.m4, hM.m4', hM.m5, hM.m6, hM.m7, hM.m7', hM.m8, hM.m9, hM.m10⟩
    rw [hk]; exact hM.m1

theorem markSt_Evo {t : Tid} {s N j : Nat} (h : S.Inv C) (hcs : S.cs N j = .claimed t) :
    Evo S (S.markSt t s N j) := by
  set S' := S.markSt t s N j with hS'
  have hsl : ∀ T' i', S'.slot T' i' = S.slot T' i' ∨ S'.slot T' i' = { S.slot T' i' with copying := true } := by
    intro T' i'; rw [hS', markSt, slSt_slot]
    split
    · rename_i hh; obtain ⟨rfl, rfl⟩ := hh; exact .inr rfl
    · exact .inl rfl
  have hptr : ∀ T' i', (S'.slot T' i').ptr = (S.slot T' i').ptr := by
    intro T' i'; rcases hsl T' i' with h | h <;> rw [h]
  have hcs' : ∀ N' j', ¬ (N' = N ∧ j' = j) → S'.cs N' j' = S.cs N' j' := by
    intro N' j' h; exact if_neg h
  exact {
    ev := .upd hcs' (by rw [hcs]; exact fun h => nomatch h) (by rw [show S'.cs N j = .marked t from if_pos ⟨rfl, rfl⟩]; exact fun h => nomatch h)
      (by rw [show S'.cs N j = .marked t from if_pos ⟨rfl, rfl⟩]; exact fun h => nomatch h) rfl
    root := fun r h => ⟨r, h, Nat.le_refl _⟩
    nTabs := Nat.le_refl _
    cap := fun _ _ => rfl
    aborted := fun _ h => h
    wasRoot := fun _ h => h
    md := fun _ _ h => h
    key := fun _ _ e h => .inr ⟨e, by unfold kslot; rw [hptr]; exact h, rfl⟩
    null := fun _ _ h1 h2 => by rw [hptr]; exact h2
    nnull := fun T' i' h => by
      rcases hsl T' i' with h' | h' <;> rw [h']
      · exact h
      · intro h''; have := congrArg Slot.copying h''; simp [Slot.null] at this
    frozen := fun T' i' h => by
      unfold copying
      rcases hsl T' i' with h' | h' <;> rw [h']
      · exact ⟨rfl, h, rfl⟩
      · exact ⟨rfl, rfl, rfl⟩
    copied := fun T' i' _ _ h => by
      unfold copiedF
      rcases hsl T' i' with h' | h' <;> rw [h'] <;> exact h
    log := List.prefix_refl _
    dem := fun _ _ _ => rfl
    nlog := fun _ _ => rfl
    nlog' := fun T h h' => absurd h (by have : T + 1 < S.nTabs := h'; omega)
    info := fun _ _ h' => h'
    ops := fun _ _ => rfl
    seq := fun _ => Nat.le_refl _
    counted := fun N' j' l h => by
      rw [hcs']
      · exact h
      · rintro ⟨rfl, rfl⟩; rw [hcs] at h; cases h
    lost := fun N' j' h => by
      rw [hcs']
      · exact h
      · rintro ⟨rfl, rfl⟩; rw [hcs] at h; cases h
    claim := fun _ => Nat.le_refl _
    prom := fun _ h => h }

/-- Changing a slot and a copy state owned by `t`, nothing else. -/
theorem slSt_Own {t t' : Tid} (ht : t' ≠ t) {N j : Nat} {c : CS} (hown : (S.cs N j).owner = some t)
    (hc : c.owner = some t ∨ c.owner = none) :
    Own t' S (S.slSt T i s S.nIds S.info (S.setCs N j c) S.log S.tok) where
  seq := rfl
  invPos := rfl
  rInv := rfl
  pr := rfl
  pinned := rfl
  cs N' j' h := by
    apply if_neg
    rintro ⟨rfl, rfl⟩
    rw [hown] at h; cases h; exact ht rfl
  cs' N' j' h := by
    change (if N' = N ∧ j' = j then c else S.cs N' j').owner = some t' at h
    apply if_neg
    intro hh
    rw [if_pos hh] at h
    rcases hc with hc | hc
    · rw [hc] at h; cases h; exact ht rfl
    · rw [hc] at h; cases h
  lock _ h := ⟨h, rfl⟩
  lock' _ h := h
  info _ _ h _ := h
  evs ev h1 := by simp [slSt] at h1
  pays := ⟨[], by simp [slSt], by simp⟩
  tok _ _ _ h := h
  tok' _ _ _ h := h
  tabTok _ := Iff.rfl
  prot e hp := hp

/-- The copy of a slot that is being copied is never already placed. -/
theorem marked_src (h : S.Inv C) {s N j : Nat} (hpr : S.CopyPair s N)
    (hcs : ∀ l, S.cs N j ≠ .counted l) (hj : j < S.cap s) : s = S.rt ∨ (S.aborted N ∧ s < S.rt ∧ N < S.rt) := by
  by_cases hsr : s = S.rt
  · exact .inl hsr
  right
  have hlt : s < S.rt := by have := hpr.2.2.1.2.1; omega
  have hle := pair_le h.s hpr hlt
  have hab : S.aborted N := by
    by_contra hna
    obtain ⟨l, hl⟩ := h.c.c8 s N j hpr ⟨hpr.2.1, hle, hna⟩ hj
    exact hcs l hl
  refine ⟨hab, hlt, ?_⟩
  rcases Nat.lt_or_eq_of_le hle with h1 | h1
  · exact h1
  · exact absurd (h1 ▸ hab) (wasRoot_rt h.s hpr.2.1).2.2

/-- Writing the copy of slot `(s, j)` into the empty slot `(T, i)`. -/
def placeSt (S : GSt K V) (t : Tid) (N j T i : Nat) (sl : Slot K V) : GSt K V :=
  S.slSt T i sl S.nIds S.info (S.setCs N j (.placed t T i)) S.log S.tok

theorem placeSt_Inv {t : Tid} {s0 N j : Nat} {sl : Slot K V} {e : Entry K V} {n : Nat} (h : S.Inv C)
    (hpr : S.CopyPair s0 N) (hcs : S.cs N j = .marked t) (hk0 : S.kslot s0 j e) (hcp0 : S.copying s0 j)
    (hnull : S.slot T i = Slot.null) (hNT : N ≤ T) (hT : T < S.nTabs) (hblk : C.inc = false → T = N)
    (hov0 : ∀ P, N ≤ P → P < T → S.over C P e.key)
    (hn : n ≤ S.lim T) (hpos : S.pos C T e.key n = i)
    (hdead : ∀ m, m < n → S.dead T (S.pos C T e.key m) e.key)
    (hp1 : sl.ptr = some e) (hp2 : sl.copying = false) (hp3 : sl.copied = false)
    (hp4 : C.inc = true → sl.borrowed = true) : (S.placeSt t N j T i sl).Inv C := by
  have hsrc := marked_src h hpr (by rw [hcs]; intro l hl; cases hl) (kslot_idx h.s h.p hk0)
  have hvl := @vis_live K V C S _ h.s h.p h.l h.m
  obtain ⟨hs, hp, hc, he, hl, hM, hN⟩ := h
  set S' := S.placeSt t N j T i sl with hS'
  have hnk : ∀ e', ¬ S.kslot T i e' := by intro e' h; unfold kslot at h; rw [hnull] at h; cases h
  have hncp : ¬ S.copying T i := by intro h; unfold copying at h; rw [hnull] at h; cases h
  have hnc : ¬ S.copiedF T i := by intro h; unfold copiedF at h; rw [hnull] at h; cases h
  have hmE : S.md T i = EMPTY := hp.p1 _ _ hnull
  have hks : ∀ T' i' e', S'.kslot T' i' e' ↔ (T' = T ∧ i' = i ∧ e' = e) ∨ S.kslot T' i' e' := by
    intro T' i' e'
    rw [hS', placeSt, slSt_kslot]
    constructor
    · rintro (⟨h1, h2, h3⟩ | ⟨_, h⟩)
      · left; exact ⟨h1, h2, by rw [hp1] at h3; cases h3; rfl⟩
      · exact .inr h
    · rintro (⟨h1, h2, h3⟩ | h)
      · left; exact ⟨h1, h2, by rw [h3]; exact hp1⟩
      · right; refine ⟨?_, h⟩; rintro ⟨rfl, rfl⟩; exact hnk _ h
  have hko : ∀ {T' i' e'}, S.kslot T' i' e' → S'.kslot T' i' e' := fun h => (hks _ _ _).2 (.inr h)
  have hsl : ∀ T' i', ¬ (T' = T ∧ i' = i) → S'.slot T' i' = S.slot T' i' := by
    intro T' i' h; rw [hS', placeSt, slSt_slot, if_neg h]
  have hslT : S'.slot T i = sl := by rw [hS', placeSt, slSt_slot, if_pos ⟨rfl, rfl⟩]
  have hcp : ∀ T' i', S'.copying T' i' ↔ S.copying T' i' := by
    intro T' i'
    by_cases hh : T' = T ∧ i' = i
    · obtain ⟨rfl, rfl⟩ := hh
      constructor
      · intro h; unfold copying at h; rw [hslT, hp2] at h; cases h
      · intro h; exact absurd h hncp
    · unfold copying; rw [hsl _ _ hh]
  have hcd : ∀ T' i', S'.copiedF T' i' ↔ S.copiedF T' i' := by
    intro T' i'
    by_cases hh : T' = T ∧ i' = i
    · obtain ⟨rfl, rfl⟩ := hh
      constructor
      · intro h; unfold copiedF at h; rw [hslT, hp3] at h; cases h
      · intro h; exact absurd h hnc
    · unfold copiedF; rw [hsl _ _ hh]
  have hmv : ∀ T' i', S'.moved T' i' ↔ S.moved T' i' := fun T' i' => and_congr_left' (hcd T' i')
  have hdd : ∀ {T' i' k'}, S.dead T' i' k' → S'.dead T' i' k' := by
    intro T' i' k' h
    refine ⟨h.1, fun e' h' => ?_⟩
    rcases (hks _ _ _).1 h' with ⟨rfl, rfl, _⟩ | h'
    · exact absurd hmE h.1
    · exact h.2 e' h'
  have hov : ∀ {T' k'}, S.over C T' k' → S'.over C T' k' := fun h n hn => hdd (h n hn)
  have hps : ∀ {T' k'}, S.passed C T' k' → S'.passed C T' k' := by
    rintro T' k' (h | ⟨j, e', h1, h2, h3⟩)
    · exact .inl (hov h)
    · exact .inr ⟨j, e', hko h1, h2, (hmv _ _).2 h3⟩
  have hTr : T ≠ S.rt := by
    rcases hsrc with h | ⟨h1, h2, h3⟩
    · have := hpr.1; omega
    · have : T = N := by
        apply hblk
        by_contra hi
        exact hs.incab (by simpa using hi) N h1
      omega
  have hrtT : S.rt < T → s0 = S.rt := by
    intro hlt
    rcases hsrc with h | ⟨h1, h2, h3⟩
    · exact h
    · have : T = N := by
        apply hblk
        by_contra hi
        exact hs.incab (by simpa using hi) N h1
      omega
  have hnloc : S.loc N j = none := by unfold loc; rw [hcs]; rfl
  -- the source has not been moved
  have hnmv : s0 = S.rt → ¬ S.moved S.rt j := by
    rintro rfl h1
    have hi := (hp.p7 _ _ _ hk0 h1.1).1
    obtain ⟨T', i', h2, _⟩ := hc.c5 hi _ _ hk0 h1.1
    rw [← pair_inc hs hi hpr, hnloc] at h2
    cases h2
  have hnocopy : C.inc = true → s0 = S.rt → ∀ T' i', S.rt < T' → ¬ S.kslot T' i' e := by
    rintro hi rfl T' i' hlt h1
    rcases hp.f1 _ _ _ h1 hlt with ⟨j', h3, h4, h5⟩ | ⟨_, h3⟩
    · have := kslot_unique hp hk0 h3 rfl
      subst this
      rw [if_pos hi, ← pair_inc hs hi hpr, hnloc] at h5
      cases h5
    · exact hnmv rfl (passed_kslot hp h3 hk0 rfl)
  have hcs' : ∀ N' j', ¬ (N' = N ∧ j' = j) → S'.cs N' j' = S.cs N' j' := by
    intro N' j' h; exact if_neg h
  have hcsN : S'.cs N j = .placed t T i := if_pos ⟨rfl, rfl⟩
  have hloc : ∀ {N' j' l}, S.loc N' j' = some l → S'.loc N' j' = some l := by
    intro N' j' l h
    unfold loc
    rw [hcs']
    · exact h
    · rintro ⟨rfl, rfl⟩; rw [hnloc] at h; cases h
  have hcnt : ∀ N' j' l, S'.cs N' j' = .counted l ↔ S.cs N' j' = .counted l := by
    intro N' j' l
    by_cases hh : N' = N ∧ j' = j
    · obtain ⟨rfl, rfl⟩ := hh; rw [hcsN, hcs]; simp
    · rw [hcs' _ _ hh]
  have hhid : ∀ T' e', (S'.hid T' e' ↔ S.hid T' e') := by
    intro T' e'
    constructor
    · rintro ⟨h1, j, h2, h3⟩
      rcases (hks _ _ _).1 h2 with ⟨h4, _⟩ | h2
      · exact absurd h4.symm hTr
      · exact ⟨h1, j, h2, fun h => h3 ((hmv _ _).2 h)⟩
    · rintro ⟨h1, j, h2, h3⟩
      exact ⟨h1, j, hko h2, fun h => h3 ((hmv _ _).1 h)⟩
  have hhidT : S.rt < T → S.hid T e := by
    intro hlt
    have h1 := hrtT hlt
    have h2 := hnmv h1
    subst h1
    exact ⟨hlt, j, hk0, h2⟩
  have habT : S.rt ≤ T → ¬ S.hid T e → False := by
    intro h1 h2
    exact h2 (hhidT (by omega))
  have hvis : ∀ T' i' e', (S'.vis T' i' e' ↔ S.vis T' i' e') := by
    intro T' i' e'
    constructor
    · rintro ⟨h1, h2, h3, h4, h5⟩
      rcases (hks _ _ _).1 h3 with ⟨rfl, rfl, rfl⟩ | h3
      · exact absurd (fun h => h4 ((hhid _ _).2 h)) (habT h1)
      · exact ⟨h1, h2, h3, fun h => h4 ((hhid _ _).2 h), fun h => h5 ((hmv _ _).2 h)⟩
    · rintro ⟨h1, h2, h3, h4, h5⟩
      exact ⟨h1, h2, hko h3, fun h => h4 ((hhid _ _).1 h), fun h => h5 ((hmv _ _).1 h)⟩
  refine ⟨?_, ?_, ?_, he.congr rfl rfl rfl rfl rfl rfl, ?_, ?_, hN⟩
  · refine ⟨hs.none, hs.some, hs.next, hs.cap, ?_, hs.prom, hs.incab, hs.blkab⟩
    intro T' hT'
    obtain ⟨h1, h2, h3, h4⟩ := hs.out T' hT'
    have hT'' : S.nTabs ≤ T' := hT'
    refine ⟨fun i' => ?_, h2, fun i' => ?_, h4⟩
    · rw [hsl]
      · exact h1 i'
      · rintro ⟨rfl, rfl⟩; omega
    · rw [hcs']
      · exact h3 i'
      · rintro ⟨rfl, rfl⟩; have := hpr.2.1; omega
  · refine ⟨?_, ?_, ?_, ?_, ?_, ?_, ?_, ?_, ?_⟩
    · intro T' i' h
      by_cases hh : T' = T ∧ i' = i
      · obtain ⟨rfl, rfl⟩ := hh; exact hmE
      · rw [hsl _ _ hh] at h; exact hp.p1 _ _ h
    · intro T' i' e' h
      rcases (hks _ _ _).1 h with ⟨rfl, rfl, _⟩ | h
      · exact .inl hmE
      · exact hp.p2 _ _ _ h
    · intro T' i' e' h
      rcases (hks _ _ _).1 h with ⟨rfl, rfl, rfl⟩ | h
      · exact hp.p3 _ _ _ hk0
      · exact hp.p3 _ _ _ h
    · intro T' i' e' h
      rcases (hks _ _ _).1 h with ⟨rfl, rfl, rfl⟩ | h
      · exact ⟨n, hn, hpos, fun m hm => hdd (hdead m hm)⟩
      · obtain ⟨n', h1, h2, h3⟩ := hp.p4 _ _ _ h
        exact ⟨n', h1, h2, fun m hm => hdd (h3 m hm)⟩
    · intro T' i' h
      exact hp.p5 _ _ ((hcp _ _).1 h)
    · intro T' i' e' h1 h2
      rcases (hks _ _ _).1 h1 with ⟨rfl, rfl, rfl⟩ | h1
      · exact absurd ((hcd _ _).1 h2) hnc
      · have := hp.p7 _ _ _ h1 ((hcd _ _).1 h2)
        exact ⟨this.1, (hcp _ _).2 this.2⟩
    · intro hi T1 i1 T2 i2 e' h1 h2 hlt
      rcases (hks _ _ _).1 h2 with ⟨rfl, rfl, rfl⟩ | h2'
      · rw [hslT]; exact hp4 hi
      · rcases (hks _ _ _).1 h1 with ⟨rfl, rfl, rfl⟩ | h1'
        · rcases hsrc with h3 | ⟨h3, _⟩
          · exact absurd h2' (hnocopy hi h3 _ _ (by have := hpr.1; omega))
          · exact absurd h3 (hs.incab hi _)
        · rw [hsl _ _ (by rintro ⟨rfl, rfl⟩; exact hnk _ h2')]
          exact hp.b1 hi _ _ _ _ _ h1' h2' hlt
    · intro T' i' e' h1 h2
      rcases (hks _ _ _).1 h1 with ⟨rfl, rfl, rfl⟩ | h1
      · left
        have h3 := hrtT h2
        subst h3
        refine ⟨j, hko hk0, (hcp _ _).2 hcp0, ?_⟩
        have : (if C.inc = true then S'.rt + 1 else T') = N := by
          split
          · rename_i hi
            exact (pair_inc hs hi hpr).symm
          · rename_i hi
            exact hblk (by simpa using hi)
        rw [this]
        unfold loc; rw [hcsN]; rfl
      · rcases hp.f1 _ _ _ h1 h2 with ⟨j, h3, h4, h5⟩ | ⟨h3, h4⟩
        · exact .inl ⟨j, hko h3, (hcp _ _).2 h4, hloc h5⟩
        · exact .inr ⟨h3, hps h4⟩
    · intro hi T' i' e' h1 P h2 h3
      rcases (hks _ _ _).1 h1 with ⟨rfl, rfl, rfl⟩ | h1
      · have h2' : S.rt < P := h2
        have h4 := hrtT (by omega)
        have h5 := pair_inc hs hi hpr
        exact hov (hov0 P (by omega) h3)
      · exact hov (hp.f2 hi _ _ _ h1 P h2 h3)
  · refine ⟨?_, ?_, ?_, ?_, ?_, ?_, ?_, ?_, ?_, ?_⟩
    · intro N' j' h
      have := hc.c1 N' j' h
      rw [hcs']
      · exact this
      · rintro ⟨rfl, rfl⟩; rw [hcs] at this; cases this
    · intro N' j' h
      by_cases hh : N' = N ∧ j' = j
      · obtain ⟨rfl, rfl⟩ := hh; exact ⟨s0, hpr, kslot_idx hs hp hk0⟩
      · rw [hcs' _ _ hh] at h; exact hc.c2 _ _ h
    · intro s N' j l h1 h2
      rw [hcnt] at h1
      obtain ⟨h3, h4⟩ := hc.c3 s N' j l h1 h2
      refine ⟨(hcp _ _).2 h3, fun e' h5 => ?_⟩
      rcases (hks _ _ _).1 h5 with ⟨rfl, rfl, _⟩ | h5
      · exact absurd h3 hncp
      · exact ⟨fun hi => (hcd _ _).2 ((h4 e' h5).1 hi), (h4 e' h5).2⟩
    · intro s N' j' T' i' h1 h2
      by_cases hh : N' = N ∧ j' = j
      · obtain ⟨rfl, rfl⟩ := hh
        unfold loc at h1
        rw [hcsN] at h1
        cases h1
        have := pair_src hpr h2
        subst this
        exact ⟨e, hko hk0, (hcp _ _).2 hcp0, hNT, hT, hblk, fun _ _ => (hks _ _ _).2 (.inl ⟨rfl, rfl, rfl⟩)⟩
      · have h1' : S.loc N' j' = some (T', i') := by
          unfold loc at h1; rw [hcs' _ _ hh] at h1; exact h1
        obtain ⟨e', h3, h4, h5, h6, h7, h8⟩ := hc.c4 s N' j' T' i' h1' h2
        exact ⟨e', hko h3, (hcp _ _).2 h4, h5, h6, h7,
          fun h9 h10 => hko (h8 h9 fun h11 => h10 ⟨h11.1, (hmv _ _).2 h11.2⟩)⟩
    · intro hi j e' h1 h2
      rcases (hks _ _ _).1 h1 with ⟨h3, _⟩ | h1
      · exact absurd h3.symm hTr
      · obtain ⟨T', i', h3, h4⟩ := hc.c5 hi _ _ h1 ((hcd _ _).1 h2)
        exact ⟨T', i', hloc h3, h4⟩
    · intro N'
      refine (hc.c6 N').trans ?_
      symm
      refine nCounted_congr (S := S) (S' := S') (cs' := S'.cs) (N := N') ?_ rfl rfl
      intro j'
      by_cases hh : N' = N ∧ j' = j
      · obtain ⟨rfl, rfl⟩ := hh; rw [hcsN, hcs]; rfl
      · rw [hcs' _ _ hh]
    · intro N' h
      obtain ⟨j', h1⟩ := hc.c7 N' h
      refine ⟨j', ?_⟩
      rw [hcs']
      · exact h1
      · rintro ⟨rfl, rfl⟩; rw [hcs] at h1; cases h1
    · intro s' N' j' h1 h2 h3
      obtain ⟨l, h4⟩ := hc.c8 _ _ _ h1 h2 h3
      exact ⟨l, (hcnt _ _ _).2 h4⟩
    · intro hi s' N' j' h1 h2 h3
      by_cases hh : N' = N ∧ j' = j
      · obtain ⟨rfl, rfl⟩ := hh
        rw [hcsN] at h2
        rcases h2 with h2 | ⟨_, h2⟩ <;> cases h2
      · rw [hcs' _ _ hh] at h2
        exact hc.c9 hi _ _ _ h1 h2 ((hcp _ _).1 h3)
    · intro hi s' N' i' e' h1 h2 h3
      rcases (hks _ _ _).1 h3 with ⟨h4, h5, h6⟩ | h3
      · have h7 : N' = N := by rw [h4]; exact hblk hi
        rw [h7] at h1
        have h8 := pair_src h1 hpr
        refine ⟨j, by rw [h8, h6]; exact hko hk0, by rw [h8]; exact (hcp _ _).2 hcp0, ?_⟩
        rw [h7, h5]
        unfold loc; rw [hcsN]
        show some (T, i) = some (N, i)
        rw [hblk hi]
      · obtain ⟨j', g1, g2, g3⟩ := hc.c10 hi s' N' i' e' h1 h2 h3
        exact ⟨j', hko g1, (hcp _ _).2 g2, hloc g3⟩
  · refine ⟨?_, ?_, ?_, ?_, hl.d1, hl.d2, hl.d3, hl.d4, ?_, ?_, ?_⟩
    · intro k' e'
      refine (hl.a k' e').trans ?_
      constructor
      · rintro ⟨T', i', h1, h2⟩
        exact ⟨T', i', (hvis _ _ _).2 h1, h2⟩
      · rintro ⟨T', i', h1, h2⟩
        exact ⟨T', i', (hvis _ _ _).1 h1, h2⟩
    · intro id x h1 h2
      obtain ⟨T', i', h3, h4, h5⟩ := hl.u1 _ _ h1 h2
      exact ⟨T', i', h3, hko h4, h5⟩
    · intro T' i' e' h1 h2 h3 h4 h5
      rcases (hks _ _ _).1 h1 with ⟨rfl, rfl, rfl⟩ | h1
      · exact absurd (fun h => h5 ((hhid _ _).2 h)) (habT h3)
      · exact hl.u2 _ _ _ h1 h2 h3 h4 (fun h => h5 ((hhid _ _).2 h))
    · intro id x T1 i1 T2 i2 h1 h2 h3
      rcases (hks _ _ _).1 h3 with ⟨rfl, rfl, h4⟩ | h3
      · have := hl.u3 _ _ _ _ _ _ h1 h2 (by rw [h4]; exact hk0)
        have := hpr.1
        left; omega
      · exact hl.u3 _ _ _ _ _ _ h1 h2 h3
    · intro T' k' h1 h2 h3
      rcases hl.l1 T' k' h1 h2 h3 with h | ⟨i', e', h4, h5, h6⟩
      · exact .inl ⟨h.1, hov h.2⟩
      · exact .inr ⟨i', e', hko h4, h5, h6⟩
    · intro hi T' i' e' h1 h2 h3
      rcases (hks _ _ _).1 h3 with ⟨rfl, rfl, rfl⟩ | h3
      · have h4 : T' < S.rt := h2
        rcases hsrc with h5 | ⟨h5, _⟩
        · have := hpr.1; omega
        · have := hblk hi; subst this; exact absurd h5 h1.2.2
      · exact hl.l2 hi _ _ _ h1 h2 h3
    · intro hi T' i' e' h1 h2 h3 h4
      rcases (hks _ _ _).1 h2 with ⟨rfl, rfl, rfl⟩ | h2
      · exact absurd ((hcd _ _).1 h3) hnc
      · exact hl.n1 hi _ _ _ h1 h2 ((hcd _ _).1 h3) h4
  · refine ⟨?_, hM.own, hM.m2, hM.m3, hM.m4, hM.m4', hM.m5, hM.m6, hM.m7, hM.m7', hM.m8, hM.m9, hM.m10⟩
    intro T' i' e' U h1 h2
    rcases (hks _ _ _).1 h1 with ⟨rfl, rfl, rfl⟩ | h1
    · rcases hsrc with h3 | ⟨h3, h4, h5⟩
      · have hv : S.vis s0 j e' := by
          subst h3
          refine ⟨Nat.le_refl _, hpr.2.2.1.2.2, hk0, ?_, hnmv rfl⟩
          rintro ⟨h6, _⟩; omega
        have h6 := hvl hv
        change (∃ t b, S.tok e'.id = .owned t U b) ∨ S.tok e'.id = .retired U ∨
          (∃ P, U = P + 1 ∧ S.tok e'.id = .deferred P) at h2
        rw [h6] at h2
        rcases h2 with ⟨_, _, h2⟩ | h2 | ⟨_, _, h2⟩ <;> cases h2
      · have hi : C.inc = false := by
          by_contra hi
          exact hs.incab (by simpa using hi) N h3
        have hTN := hblk hi
        subst hTN
        have h6 := hM.m1 _ _ _ _ hk0 h2
        have hw : S.wasRoot U := by
          rcases h2 with ⟨_, _, h2⟩ | h2 | ⟨_, _, h2⟩
          · exact ((hM.own _ _ _ _ h2).2 hi).2
          · exact (hM.m3 _ _ 0 h2).2.1 hi
          · have := hM.m10 _ _ h2
            rw [hi] at this; cases this
        by_contra hge
        rcases Nat.lt_or_eq_of_le (Nat.le_of_not_lt hge) with h7 | h7
        · exact hw.2.2 (hpr.2.2.2 U h6 h7)
        · subst h7; exact hw.2.2 h3
    · exact hM.m1 _ _ _ _ h1 h2

theorem placeSt_Evo {t : Tid} {N j : Nat} {sl : Slot K V} (h : S.Inv C)
    (hnull : S.slot T i = Slot.null) (hcs : S.cs N j = .marked t) (hsl0 : sl ≠ Slot.null) :
    Evo S (S.placeSt t N j T i sl) := by
  have hsl : ∀ T' i', S.slot T' i' ≠ Slot.null → (S.placeSt t N j T i sl).slot T' i' = S.slot T' i' := by
    intro T' i' h
    rw [placeSt, slSt_slot, if_neg]
    rintro ⟨rfl, rfl⟩; exact h hnull
  have hks : ∀ {T' i' e}, S.kslot T' i' e → S.slot T' i' ≠ Slot.null := by
    intro T' i' e h h'; unfold kslot at h; rw [h'] at h; cases h
  have hcp : ∀ {T' i'}, S.copying T' i' → S.slot T' i' ≠ Slot.null := by
    intro T' i' h h'; unfold copying at h; rw [h'] at h; cases h
  have hcs' : ∀ N' j', ¬ (N' = N ∧ j' = j) → (S.placeSt t N j T i sl).cs N' j' = S.cs N' j' := by
    intro N' j' h; exact if_neg h
  exact {
    ev := by
      have hN : (S.placeSt t N j T i sl).cs N j = .placed t T i := if_pos ⟨rfl, rfl⟩
      exact .upd hcs' (by rw [hcs]; exact fun h => nomatch h) (by rw [hN]; exact fun h => nomatch h)
        (by rw [hN]; exact fun h => nomatch h) rfl
    root := fun r h => ⟨r, h, Nat.le_refl _⟩
    nTabs := Nat.le_refl _
    cap := fun _ _ => rfl
    aborted := fun _ h => h
    wasRoot := fun _ h => h
    md := fun _ _ h => h
    key := fun _ _ e h => .inr ⟨e, by unfold kslot; rw [hsl _ _ (hks h)]; exact h, rfl⟩
    null := fun _ _ h1 h2 => by rw [hsl _ _ h1]; exact h2
    nnull := fun _ _ h => by rw [hsl _ _ h]; exact h
    frozen := fun _ _ h => by
      unfold copying
      rw [hsl _ _ (hcp h)]; exact ⟨rfl, h, rfl⟩
    copied := fun _ _ _ h1 h2 => by unfold copiedF; rw [hsl _ _ (hks h1)]; exact h2
    log := List.prefix_refl _
    dem := fun _ _ _ => rfl
    nlog := fun _ _ => rfl
    nlog' := fun T h h' => absurd h (by have : T + 1 < S.nTabs := h'; omega)
    info := fun _ _ h' => h'
    ops := fun _ _ => rfl
    seq := fun _ => Nat.le_refl _
    counted := fun N' j' l h => by
      rw [hcs']
      · exact h
      · rintro ⟨rfl, rfl⟩; rw [hcs] at h; cases h
    lost := fun N' j' h => by
      rw [hcs']
      · exact h
      · rintro ⟨rfl, rfl⟩; rw [hcs] at h; cases h
    claim := fun _ => Nat.le_refl _
    prom := fun _ h => h }

end GSt

end Papaya
