import Verif.Proof.ActMd

/-! # Publishing a new entry in an empty slot -/

set_option linter.unusedSectionVars false
set_option linter.unusedVariables false

namespace Papaya

variable {K V : Type} [DecidableEq K]

namespace GSt

/-- Where an operation on key `k` by thread `t` may look. -/
def AtTable (C : Cfg K) (S : GSt K V) (t : Tid) (k : K) (T : Nat) : Prop :=
  T < S.nTabs ∧ S.rInv t ≤ T ∧
    (S.wasRoot T ∨ (C.inc = true ∧ S.rt < T ∧ ∀ P, S.rt ≤ P → P < T → S.passed C P k))

/-- The current operation of `t` has neither taken effect nor published anything. -/
def FreshOp (S : GSt K V) (t : Tid) : Prop :=
  (∀ ev ∈ S.log, ev.op ≠ (t, S.seq t)) ∧ ∀ id x, S.info id = some x → x.op ≠ (t, S.seq t)

/-- Changing one slot, and some of the ghost state. -/
def slSt (S : GSt K V) (T i : Nat) (s : Slot K V) (nIds : Nat) (info : Nat → Option (EInfo K V))
    (cs : Nat → Nat → CS) (log : List (Ev K V)) (tok : Nat → Tok) : GSt K V :=
  { S with toSt := { S.toSt.setSlot T i s with nIds := nIds }, info := info, cs := cs, log := log, tok := tok }

variable {C : Cfg K} {S : GSt K V} {T i : Nat} {s : Slot K V} {nIds : Nat} {info : Nat → Option (EInfo K V)}
  {cs : Nat → Nat → CS} {log : List (Ev K V)} {tok : Nat → Tok}

theorem slSt_slot (T' i' : Nat) : (S.slSt T i s nIds info cs log tok).slot T' i' =
    if T' = T ∧ i' = i then s else S.slot T' i' := rfl

theorem slSt_kslot (T' i' : Nat) (e : Entry K V) : (S.slSt T i s nIds info cs log tok).kslot T' i' e ↔
    (T' = T ∧ i' = i ∧ s.ptr = some e) ∨ (¬ (T' = T ∧ i' = i) ∧ S.kslot T' i' e) := by
  unfold kslot
  rw [slSt_slot]
  split
  · rename_i h; obtain ⟨rfl, rfl⟩ := h; simp
  · rename_i h
    constructor
    · intro h'; exact .inr ⟨h, h'⟩
    · rintro (⟨h1, h2, _⟩ | ⟨_, h'⟩)
      · exact absurd ⟨h1, h2⟩ h
      · exact h'

def updInfo (S : GSt K V) (x : EInfo K V) : Nat → Option (EInfo K V) :=
  fun id => if id = S.nIds then some x else S.info id

theorem fresh_kslot (hp : S.InvP C) (he : S.InvE) {T i : Nat} {e : Entry K V} (h : S.kslot T i e) :
    e.id ≠ S.nIds := by
  obtain ⟨x, h1, _⟩ := hp.p3 _ _ _ h
  have := (he.e0 _ _ h1).2
  omega

theorem fresh_logged (he : S.InvE) {e : Entry K V} (h : S.logged e) : e.id < S.nIds := by
  obtain ⟨ev, h1, h2⟩ := h
  obtain ⟨l1, l2, h3⟩ := List.append_of_mem h1
  obtain ⟨x, h4, _⟩ := (he.e1 l1 ev ⟨l2, by rw [h3]; simp⟩).new e h2
  exact (he.e0 _ _ h4).2

theorem updInfo_old (he : S.InvE) (x0 : EInfo K V) {id : Nat} {x : EInfo K V} (h : S.info id = some x) :
    S.updInfo x0 id = some x := by
  have := (he.e0 _ _ h).2
  unfold updInfo
  rw [if_neg (by omega)]; exact h

theorem updInfo_cases {x0 : EInfo K V} {id : Nat} {x : EInfo K V} (h : S.updInfo x0 id = some x) :
    S.info id = some x ∨ (id = S.nIds ∧ x = x0) := by
  unfold updInfo at h
  split at h
  · cases h; right; exact ⟨by assumption, rfl⟩
  · exact .inl h

/-- Publication of a fresh entry in an empty slot. -/
def pubSt (S : GSt K V) (t : Tid) (T i : Nat) (k : K) (v : V) : GSt K V :=
  S.slSt T i (Slot.untagged ⟨S.nIds, k, v⟩) (S.nIds + 1)
    (S.updInfo ⟨⟨S.nIds, k, v⟩, (t, S.seq t), some (T, i)⟩) S.cs S.log S.tok

variable {t : Tid} {k : K} {v : V}

theorem pub_T (h : S.Inv C) (hnull : S.slot T i = Slot.null) (hat : S.AtTable C t k T) (hi : i < S.cap T) :
    S.rt ≤ T ∧ ¬ S.aborted T := by
  rcases hat.2.2 with hw | ⟨h1, h2, _⟩
  · refine ⟨?_, hw.2.2⟩
    by_contra hlt
    have := p6 h.s h.c hw (by omega) hi
    unfold copying at this
    rw [hnull] at this
    cases this
  · exact ⟨by omega, h.s.incab h1 T⟩

theorem pubSt_Inv (h : S.Inv C) (hnull : S.slot T i = Slot.null) (hat : S.AtTable C t k T)
    {n : Nat} (hn : n ≤ S.lim T) (hpos : S.pos C T k n = i)
    (hdead : ∀ m, m < n → S.dead T (S.pos C T k m) k) (hfr : S.FreshOp t)
    (hmul : (S.ops (t, S.seq t)).multi = false)
    (heff : (S.ops (t, S.seq t)).eff k none (some ⟨S.nIds, k, v⟩)) : (S.pubSt t T i k v).Inv C := by
  have hidx : i < S.cap T := by rw [← hpos]; exact pos_lt h.s hat.1 k n
  obtain ⟨hrT, haT⟩ := pub_T h hnull hat hidx
  obtain ⟨hs, hp, hc, he, hl, hM, hN⟩ := h
  set S' := S.pubSt t T i k v with hS'
  set e : Entry K V := ⟨S.nIds, k, v⟩ with hedef
  have hnk : ∀ e', ¬ S.kslot T i e' := by intro e' h; unfold kslot at h; rw [hnull] at h; cases h
  have hncp : ¬ S.copying T i := by intro h; unfold copying at h; rw [hnull] at h; cases h
  have hnc : ¬ S.copiedF T i := by intro h; unfold copiedF at h; rw [hnull] at h; cases h
  have hmE : S.md T i = EMPTY := hp.p1 _ _ hnull
  have hks : ∀ T' i' e', S'.kslot T' i' e' ↔ (T' = T ∧ i' = i ∧ e' = e) ∨ S.kslot T' i' e' := by
    intro T' i' e'
    rw [hS', pubSt, slSt_kslot]
    constructor
    · rintro (⟨h1, h2, h3⟩ | ⟨_, h⟩)
      · left; exact ⟨h1, h2, by cases h3; rfl⟩
      · exact .inr h
    · rintro (⟨h1, h2, h3⟩ | h)
      · left; exact ⟨h1, h2, by rw [h3]; rfl⟩
      · right; refine ⟨?_, h⟩; rintro ⟨rfl, rfl⟩; exact hnk _ h
  have hko : ∀ {T' i' e'}, S.kslot T' i' e' → S'.kslot T' i' e' := fun h => (hks _ _ _).2 (.inr h)
  have hsl : ∀ T' i', ¬ (T' = T ∧ i' = i) → S'.slot T' i' = S.slot T' i' := by
    intro T' i' h; rw [hS', pubSt, slSt_slot, if_neg h]
  have hslT : S'.slot T i = Slot.untagged e := by rw [hS', pubSt, slSt_slot, if_pos ⟨rfl, rfl⟩]
  have hcp : ∀ T' i', S'.copying T' i' ↔ S.copying T' i' := by
    intro T' i'
    by_cases hh : T' = T ∧ i' = i
    · obtain ⟨rfl, rfl⟩ := hh
      constructor
      · intro h; unfold copying at h; rw [hslT] at h; cases h
      · intro h; exact absurd h hncp
    · unfold copying; rw [hsl _ _ hh]
  have hcd : ∀ T' i', S'.copiedF T' i' ↔ S.copiedF T' i' := by
    intro T' i'
    by_cases hh : T' = T ∧ i' = i
    · obtain ⟨rfl, rfl⟩ := hh
      constructor
      · intro h; unfold copiedF at h; rw [hslT] at h; cases h
      · intro h; exact absurd h hnc
    · unfold copiedF; rw [hsl _ _ hh]
  have hmv : ∀ T' i', S'.moved T' i' ↔ S.moved T' i' := fun T' i' => and_congr_left' (hcd T' i')
  have hne : ∀ {T' i' e'}, S.kslot T' i' e' → e' ≠ e := by
    rintro T' i' e' h rfl
    exact fresh_kslot hp he h rfl
  have hdd : ∀ {T' i' k'}, S.dead T' i' k' → S'.dead T' i' k' := by
    intro T' i' k' h
    refine ⟨h.1, fun e' h' => ?_⟩
    rcases (hks _ _ _).1 h' with ⟨rfl, rfl, _⟩ | h'
    · exact absurd hmE h.1
    · exact h.2 e' h'
  have hov : ∀ {T' k'}, S.over C T' k' → S'.over C T' k' := fun h n hn => hdd (h n hn)
  have hps : ∀ {T' k'}, S.passed C T' k' → S'.passed C T' k' := by
    rintro T' k' (h | ⟨j, e', h1, h2, h3⟩)
    · exact .inl (hov h)
    · exact .inr ⟨j, e', hko h1, h2, (hmv _ _).2 h3⟩
  have hhid : ∀ T' e', e' ≠ e → (S'.hid T' e' ↔ S.hid T' e') := by
    intro T' e' hee
    constructor
    · rintro ⟨h1, j, h2, h3⟩
      rcases (hks _ _ _).1 h2 with ⟨_, _, h4⟩ | h2
      · exact absurd h4 hee
      · exact ⟨h1, j, h2, fun h => h3 ((hmv _ _).2 h)⟩
    · rintro ⟨h1, j, h2, h3⟩
      exact ⟨h1, j, hko h2, fun h => h3 ((hmv _ _).1 h)⟩
  have hvis : ∀ T' i' e', e' ≠ e → (S'.vis T' i' e' ↔ S.vis T' i' e') := by
    intro T' i' e' hee
    constructor
    · rintro ⟨h1, h2, h3, h4, h5⟩
      rcases (hks _ _ _).1 h3 with ⟨_, _, h6⟩ | h3
      · exact absurd h6 hee
      · exact ⟨h1, h2, h3, fun h => h4 ((hhid _ _ hee).2 h), fun h => h5 ((hmv _ _).2 h)⟩
    · rintro ⟨h1, h2, h3, h4, h5⟩
      exact ⟨h1, h2, hko h3, fun h => h4 ((hhid _ _ hee).1 h), fun h => h5 ((hmv _ _).1 h)⟩
  have hinfo1 : ∀ {id x}, S.info id = some x → S'.info id = some x := fun h => updInfo_old he _ h
  have hinfo2 : ∀ {id x}, S'.info id = some x → S.info id = some x ∨
      (id = S.nIds ∧ x = ⟨e, (t, S.seq t), some (T, i)⟩) := fun h => updInfo_cases h
  have hnlog : ¬ S.logged e := fun h => by have := fresh_logged he h; simp [hedef] at this
  have htok : S.tok S.nIds = .live := by
    apply hM.m9
    by_contra hx
    obtain ⟨x, hx⟩ := Option.ne_none_iff_exists'.1 hx
    have := (he.e0 _ _ hx).2
    omega
  refine ⟨?_, ?_, ?_, ?_, ?_, ?_, hN⟩
  · refine ⟨hs.none, hs.some, hs.next, hs.cap, ?_, hs.prom, hs.incab, hs.blkab⟩
    intro T' hT'
    obtain ⟨h1, h2⟩ := hs.out T' hT'
    refine ⟨fun i' => ?_, h2⟩
    rw [hsl]
    · exact h1 i'
    · rintro ⟨rfl, rfl⟩; have : S.nTabs ≤ T' := hT'; have := hat.1; omega
  · refine ⟨?_, ?_, ?_, ?_, ?_, ?_, ?_, ?_, ?_⟩
    · intro T' i' h
      by_cases hh : T' = T ∧ i' = i
      · obtain ⟨rfl, rfl⟩ := hh; exact hmE
      · rw [hsl _ _ hh] at h; exact hp.p1 _ _ h
    · intro T' i' e' h
      rcases (hks _ _ _).1 h with ⟨rfl, rfl, _⟩ | h
      · exact .inl hmE
      · exact hp.p2 _ _ _ h
    · intro T' i' e' h
      rcases (hks _ _ _).1 h with ⟨rfl, rfl, rfl⟩ | h
      · exact ⟨⟨e, (t, S.seq t), some (T', i')⟩, by simp [hS', pubSt, slSt, updInfo, hedef], rfl⟩
      · obtain ⟨x, h1, h2⟩ := hp.p3 _ _ _ h
        exact ⟨x, hinfo1 h1, h2⟩
    · intro T' i' e' h
      rcases (hks _ _ _).1 h with ⟨rfl, rfl, rfl⟩ | h
      · exact ⟨n, hn, hpos, fun m hm => hdd (hdead m hm)⟩
      · obtain ⟨n', h1, h2, h3⟩ := hp.p4 _ _ _ h
        exact ⟨n', h1, h2, fun m hm => hdd (h3 m hm)⟩
    · intro T' i' h
      exact hp.p5 _ _ ((hcp _ _).1 h)
    · intro T' i' e' h1 h2
      rcases (hks _ _ _).1 h1 with ⟨rfl, rfl, rfl⟩ | h1
      · exact absurd ((hcd _ _).1 h2) hnc
      · have := hp.p7 _ _ _ h1 ((hcd _ _).1 h2)
        exact ⟨this.1, (hcp _ _).2 this.2⟩
    · intro hi T1 i1 T2 i2 e' h1 h2 hlt
      rcases (hks _ _ _).1 h1 with ⟨rfl, rfl, rfl⟩ | h1'
      · rcases (hks _ _ _).1 h2 with ⟨rfl, rfl, _⟩ | h2'
        · omega
        · exact absurd rfl (hne h2')
      · rcases (hks _ _ _).1 h2 with ⟨rfl, rfl, rfl⟩ | h2'
        · exact absurd rfl (hne h1')
        · rw [hsl _ _ (by rintro ⟨rfl, rfl⟩; exact hnk _ h2')]
          exact hp.b1 hi _ _ _ _ _ h1' h2' hlt
    · intro T' i' e' h1 h2
      rcases (hks _ _ _).1 h1 with ⟨rfl, rfl, rfl⟩ | h1
      · right
        rcases hat.2.2 with hw | ⟨h3, h4, h5⟩
        · have : S.rt < T' := h2
          have := hw.2.1
          omega
        · exact ⟨h3, hps (h5 _ (Nat.le_refl _) h4)⟩
      · rcases hp.f1 _ _ _ h1 h2 with ⟨j, h3, h4, h5⟩ | ⟨h3, h4⟩
        · exact .inl ⟨j, hko h3, (hcp _ _).2 h4, h5⟩
        · exact .inr ⟨h3, hps h4⟩
    · intro hi T' i' e' h1 P h2 h3
      rcases (hks _ _ _).1 h1 with ⟨rfl, rfl, rfl⟩ | h1
      · rcases hat.2.2 with hw | ⟨h4, h5, h6⟩
        · have := hw.2.1
          have : S.rt < P := h2
          omega
        · have h2' : S.rt < P := h2
          rcases h6 P (by omega) h3 with h7 | ⟨j, e', h7, h8, h9⟩
          · exact hov h7
          · have := moved_le hp h7 h9.1
            omega
      · exact hov (hp.f2 hi _ _ _ h1 P h2 h3)
  · refine ⟨hc.c1, hc.c2, ?_, ?_, ?_, hc.c6, hc.c7, hc.c8, ?_, ?_⟩
    · intro s N j l h1 h2
      obtain ⟨h3, h4⟩ := hc.c3 s N j l h1 h2
      refine ⟨(hcp _ _).2 h3, fun e' h5 => ?_⟩
      rcases (hks _ _ _).1 h5 with ⟨rfl, rfl, _⟩ | h5
      · exact absurd h3 hncp
      · exact ⟨fun hi => (hcd _ _).2 ((h4 e' h5).1 hi), (h4 e' h5).2⟩
    · intro s N j T' i' h1 h2
      obtain ⟨e', h3, h4, h5, h6, h7, h8⟩ := hc.c4 s N j T' i' h1 h2
      exact ⟨e', hko h3, (hcp _ _).2 h4, h5, h6, h7,
        fun h9 h10 => hko (h8 h9 fun h11 => h10 ⟨h11.1, (hmv _ _).2 h11.2⟩)⟩
    · intro hi j e' h1 h2
      rcases (hks _ _ _).1 h1 with ⟨h3, rfl, _⟩ | h1
      · have h2' := (hcd _ _).1 h2
        change S.rt = T at h3
        rw [show S'.rt = T from h3] at h2'
        exact absurd h2' hnc
      · exact hc.c5 hi _ _ h1 ((hcd _ _).1 h2)
    · intro hi s N j h1 h2 h3
      exact hc.c9 hi s N j h1 h2 ((hcp _ _).1 h3)
    · intro hi s' N' i' e' h1 h2 h3
      rcases (hks _ _ _).1 h3 with ⟨h4, h5, h6⟩ | h3
      · rw [h4] at h2; exact absurd h2 haT
      · obtain ⟨j', g1, g2, g3⟩ := hc.c10 hi s' N' i' e' h1 h2 h3
        exact ⟨j', hko g1, (hcp _ _).2 g2, g3⟩
  · refine he.publish ⟨e, (t, S.seq t), some (T, i)⟩ rfl rfl rfl rfl rfl rfl rfl hfr.2 hfr.1 (Nat.le_refl _) hmul
  · refine ⟨?_, ?_, ?_, ?_, hl.d1, hl.d2, hl.d3, hl.d4, ?_, ?_, ?_⟩
    · intro k' e'
      refine (hl.a k' e').trans ?_
      constructor
      · rintro ⟨T', i', h1, h2, h3⟩
        exact ⟨T', i', (hvis _ _ _ (hne h1.2.2.1)).2 h1, h2, h3⟩
      · rintro ⟨T', i', h1, h2, h3⟩
        by_cases hee : e' = e
        · subst hee
          rcases (hks _ _ _).1 h1.2.2.1 with ⟨rfl, rfl, _⟩ | h4
          · exact absurd hmE h2
          · exact absurd rfl (hne h4)
        · exact ⟨T', i', (hvis _ _ _ hee).1 h1, h2, h3⟩
    · intro id x h1 h2
      rcases hinfo2 h1 with h1 | ⟨_, rfl⟩
      · obtain ⟨T', i', h3, h4, h5⟩ := hl.u1 _ _ h1 h2
        exact ⟨T', i', h3, hko h4, h5⟩
      · exact ⟨T, i, rfl, (hks _ _ _).2 (.inl ⟨rfl, rfl, rfl⟩), hmE, hrT, haT, heff⟩
    · intro T' i' e' h1 h2 h3 h4 h5
      rcases (hks _ _ _).1 h1 with ⟨rfl, rfl, rfl⟩ | h1
      · exact ⟨hnlog, ⟨e, (t, S.seq t), some (T', i')⟩, by simp [hS', pubSt, slSt, updInfo, hedef], rfl⟩
      · obtain ⟨h6, x, h7, h8⟩ := hl.u2 _ _ _ h1 h2 h3 h4 (fun h => h5 ((hhid _ _ (hne h1)).2 h))
        exact ⟨h6, x, hinfo1 h7, h8⟩
    · intro id x T1 i1 T2 i2 h1 h2 h3
      rcases hinfo2 h1 with h1' | ⟨_, rfl⟩
      · rcases (hks _ _ _).1 h3 with ⟨rfl, rfl, h4⟩ | h3
        · have h5 := he.e0 _ _ h1'
          have h6 := congrArg Entry.id h4
          rw [h5.1] at h6
          have : id = S.nIds := h6
          omega
        · exact hl.u3 _ _ _ _ _ _ h1' h2 h3
      · cases h2
        rcases (hks _ _ _).1 h3 with ⟨rfl, rfl, h4⟩ | h3
        · exact .inr ⟨rfl, rfl⟩
        · exact absurd rfl (hne h3)
    · intro T' k' h1 h2 h3
      rcases hl.l1 T' k' h1 h2 h3 with h | ⟨i', e', h4, h5, h6⟩
      · exact .inl ⟨h.1, hov h.2⟩
      · exact .inr ⟨i', e', hko h4, h5, h6⟩
    · intro hi T' i' e' h1 h2 h3
      rcases (hks _ _ _).1 h3 with ⟨rfl, rfl, rfl⟩ | h3
      · have : T' < S.rt := h2
        omega
      · exact hl.l2 hi _ _ _ h1 h2 h3
    · intro hi T' i' e' h1 h2 h3 h4
      rcases (hks _ _ _).1 h2 with ⟨rfl, rfl, rfl⟩ | h2
      · exact absurd ((hcd _ _).1 h3) hnc
      · exact hl.n1 hi _ _ _ h1 h2 ((hcd _ _).1 h3) h4
  · refine ⟨?_, hM.own, hM.m2, hM.m3, hM.m4, hM.m4', hM.m5, hM.m6, hM.m7, hM.m7', ?_, ?_, hM.m10⟩
    · intro T' i' e' U h1 h2
      rcases (hks _ _ _).1 h1 with ⟨rfl, rfl, rfl⟩ | h1
      · change (∃ t b, S.tok S.nIds = .owned t U b) ∨ S.tok S.nIds = .retired U ∨
          (∃ P, U = P + 1 ∧ S.tok S.nIds = .deferred P) at h2
        rw [htok] at h2
        rcases h2 with ⟨_, _, h2⟩ | h2 | ⟨_, _, h2⟩ <;> cases h2
      · exact hM.m1 _ _ _ _ h1 h2
    · intro id x h1
      rcases hinfo2 h1 with h1 | ⟨rfl, rfl⟩
      · exact hM.m8 _ _ h1
      · exact ⟨fun _ => .inl hnlog, fun _ => htok⟩
    · intro id h1
      apply hM.m9
      change S.updInfo _ id = none at h1
      unfold updInfo at h1
      split at h1
      · cases h1
      · exact h1

theorem pubSt_Evo (h : S.Inv C) (hnull : S.slot T i = Slot.null) : Evo S (S.pubSt t T i k v) := by
  have hsl : ∀ T' i', S.slot T' i' ≠ Slot.null → (S.pubSt t T i k v).slot T' i' = S.slot T' i' := by
    intro T' i' h
    rw [pubSt, slSt_slot, if_neg]
    rintro ⟨rfl, rfl⟩; exact h hnull
  have hks : ∀ {T' i' e}, S.kslot T' i' e → S.slot T' i' ≠ Slot.null := by
    intro T' i' e h h'; unfold kslot at h; rw [h'] at h; cases h
  have hcp : ∀ {T' i'}, S.copying T' i' → S.slot T' i' ≠ Slot.null := by
    intro T' i' h h'; unfold copying at h; rw [h'] at h; cases h
  exact {
    ev := .same rfl rfl
    root := fun r h => ⟨r, h, Nat.le_refl _⟩
    nTabs := Nat.le_refl _
    cap := fun _ _ => rfl
    aborted := fun _ h => h
    wasRoot := fun _ h => h
    md := fun _ _ h => h
    key := fun _ _ e h => .inr ⟨e, by unfold kslot; rw [hsl _ _ (hks h)]; exact h, rfl⟩
    null := fun _ _ h1 h2 => by rw [hsl _ _ h1]; exact h2
    nnull := fun _ _ h => by rw [hsl _ _ h]; exact h
    frozen := fun _ _ h => by
      unfold copying
      rw [hsl _ _ (hcp h)]; exact ⟨rfl, h, rfl⟩
    copied := fun _ _ _ h1 h2 => by unfold copiedF; rw [hsl _ _ (hks h1)]; exact h2
    log := List.prefix_refl _
    dem := fun _ _ _ => rfl
    nlog := fun _ _ => rfl
    nlog' := fun T h h' => absurd h (by have : T + 1 < S.nTabs := h'; omega)
    info := fun _ _ h' => updInfo_old h.e _ h'
    ops := fun _ _ => rfl
    seq := fun _ => Nat.le_refl _
    counted := fun _ _ _ h => h
    lost := fun _ _ h => h
    claim := fun _ => Nat.le_refl _
    prom := fun _ h => h }

theorem pubSt_Own (h : S.Inv C) {t' : Tid} (ht : t' ≠ t) : Own t' S (S.pubSt t T i k v) where
  seq := rfl
  invPos := rfl
  rInv := rfl
  pr := rfl
  pinned := rfl
  cs _ _ _ := rfl
  cs' _ _ _ := rfl
  lock _ h := ⟨h, rfl⟩
  lock' _ h := h
  info id x h1 h2 := by
    rcases updInfo_cases h1 with h1 | ⟨_, rfl⟩
    · exact h1
    · exact absurd h2.symm ht
  evs ev h1 := by simp [pubSt, slSt] at h1
  pays := ⟨[], by simp [pubSt, slSt], by simp⟩
  tok _ _ _ h := h
  tok' _ _ _ h := h
  tabTok _ := Iff.rfl
  prot e hp := by
    refine ⟨hp.1, ?_, hp.2.2⟩
    obtain ⟨x, hx, he⟩ := hp.2.1
    exact ⟨x, updInfo_old h.e ⟨⟨S.nIds, k, v⟩, (t, S.seq t), some (T, i)⟩ hx, he⟩

end GSt

end Papaya
