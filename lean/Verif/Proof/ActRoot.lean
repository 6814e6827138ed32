import Verif.Proof.ActRepl

/-! # Promotion of a table to the root -/

set_option linter.unusedSectionVars false
set_option linter.unusedVariables false

namespace Papaya

variable {K V : Type} [DecidableEq K]

namespace GSt

variable {C : Cfg K} {S S' : GSt K V}

/-- The insertion event of an entry that was published in an empty slot. -/
def insEv (x : EInfo K V) : Ev K V := ⟨x.op, x.entry.key, none, some x.entry⟩

theorem abs_ins (l : List (Ev K V)) (xs : List (EInfo K V)) (hd : xs.Pairwise fun a b => a.entry.key ≠ b.entry.key)
    (k : K) : (∃ x ∈ xs, x.entry.key = k ∧ abs (l ++ xs.map insEv) k = some x.entry) ∨
      ((∀ x ∈ xs, x.entry.key ≠ k) ∧ abs (l ++ xs.map insEv) k = abs l k) := by
  induction xs generalizing l with
  | nil => right; simp
  | cons x xs ih =>
    rw [List.pairwise_cons] at hd
    have := ih (l ++ [insEv x]) hd.2
    rw [List.append_assoc] at this
    simp only [List.map_cons]
    change (∃ x ∈ xs, _) ∨ _ at this
    rw [List.singleton_append] at this
    rcases this with ⟨y, h1, h2, h3⟩ | ⟨h1, h2⟩
    · exact .inl ⟨y, List.mem_cons_of_mem _ h1, h2, h3⟩
    · rw [abs_snoc] at h2
      by_cases hk : x.entry.key = k
      · left
        refine ⟨x, List.mem_cons_self, hk, ?_⟩
        rw [h2]; exact if_pos hk.symm
      · right
        refine ⟨?_, ?_⟩
        · intro y hy
          rcases List.mem_cons.1 hy with rfl | hy
          · exact hk
          · exact h1 y hy
        · rw [h2, if_neg]
          intro h; exact hk h.symm

theorem InvE.inserts (xs : List (EInfo K V)) {S : GSt K V} (h : S.InvE)
    (hd : xs.Pairwise fun a b => a.entry.key ≠ b.entry.key)
    (hx : ∀ x ∈ xs, S.info x.entry.id = some x ∧ ¬ S.logged x.entry ∧ abs S.log x.entry.key = none ∧
      (S.ops x.op).eff x.entry.key none (some x.entry)) :
    ({ S with log := S.log ++ xs.map insEv } : GSt K V).InvE := by
  induction xs generalizing S with
  | nil => simpa using h
  | cons x xs ih =>
    rw [List.pairwise_cons] at hd
    obtain ⟨h1, h2, h3, h4⟩ := hx x List.mem_cons_self
    have h5 := h.e5 _ _ h1
    have hE1 : ({ S with log := S.log ++ [insEv x] } : GSt K V).InvE := by
      refine h.snoc (S' := { S with log := S.log ++ [insEv x] }) (insEv x) rfl rfl rfl (Nat.le_refl _) rfl
        (fun _ _ h => h) (fun _ _ h => .inl h) ?_ (.inr (h.e3 _ _ h1 h2)) ?_ ?_
      · refine ⟨h3.symm, h5.1, h4, fun t ht => h.e6 t, ?_⟩
        intro e he
        have : x.entry = e := by injection he
        subst this
        refine ⟨x, h1, rfl, rfl, rfl, ?_, fun _ => rfl, h5.2⟩
        intro ev' h6 h7
        exact h2 ⟨ev', h6, h7⟩
      · intro id y h6 h7
        have := h.e4 _ _ _ _ h6 h1 h7
        subst this
        rw [h1] at h6; cases h6; rfl
      · intro _; exact h5.2
    have := ih hE1 hd.2 (by
      intro y hy
      obtain ⟨g1, g2, g3, g4⟩ := hx y (List.mem_cons_of_mem _ hy)
      have hne := hd.1 y hy
      refine ⟨g1, ?_, ?_, g4⟩
      · rintro ⟨ev, g5, g6⟩
        rcases List.mem_append.1 g5 with g5 | g5
        · exact g2 ⟨ev, g5, g6⟩
        · rw [List.mem_singleton] at g5
          subst g5
          have : x.entry = y.entry := by injection g6
          exact hne (by rw [this])
      · show abs (S.log ++ [insEv x]) _ = _
        rw [abs_snoc, if_neg]
        · exact g3
        · intro h; exact hne h.symm)
    simpa using this

/-- Entries of the root that are published but not yet inserted in the abstract map. -/
noncomputable def late (S : GSt K V) (T : Nat) : List (EInfo K V) :=
  (List.range (S.cap T)).filterMap fun j =>
    if S.md T j = EMPTY then (S.slot T j).ptr.bind fun e => S.info e.id else none

theorem mem_late (hs : S.InvS C) (hp : S.InvP C) {T : Nat} {x : EInfo K V} :
    x ∈ S.late T ↔ ∃ j, S.kslot T j x.entry ∧ S.md T j = EMPTY ∧ S.info x.entry.id = some x := by
  unfold late
  rw [List.mem_filterMap]
  constructor
  · rintro ⟨j, h1, h2⟩
    split at h2
    · rename_i hE
      cases hpt : (S.slot T j).ptr with
      | none => rw [hpt] at h2; cases h2
      | some e =>
        rw [hpt] at h2
        change S.info e.id = some x at h2
        obtain ⟨x', h3, h4⟩ := hp.p3 T j e hpt
        rw [h2] at h3; cases h3
        subst h4
        exact ⟨j, hpt, hE, h2⟩
    · cases h2
  · rintro ⟨j, h1, h2, h3⟩
    refine ⟨j, List.mem_range.2 (kslot_idx hs hp h1), ?_⟩
    rw [if_pos h2]
    unfold kslot at h1
    rw [h1]; exact h3

theorem late_pairwise (hs : S.InvS C) (hp : S.InvP C) (T : Nat) :
    (S.late T).Pairwise fun a b => a.entry.key ≠ b.entry.key := by
  have key : ∀ j x, (if S.md T j = EMPTY then (S.slot T j).ptr.bind fun e => S.info e.id else none) = some x →
      S.kslot T j x.entry := by
    intro j x h2
    split at h2
    · cases hpt : (S.slot T j).ptr with
      | none => rw [hpt] at h2; cases h2
      | some e =>
        rw [hpt] at h2
        change S.info e.id = some x at h2
        obtain ⟨x', h3, h4⟩ := hp.p3 T j e hpt
        rw [h2] at h3; cases h3
        subst h4
        exact hpt
    · cases h2
  unfold late
  rw [List.pairwise_filterMap]
  refine (List.nodup_range (n := S.cap T)).imp ?_
  intro a b hab x hx y hy hk
  have h1 := key a x hx
  have h2 := key b y hy
  exact hab (kslot_unique hp h1 h2 hk)

/-- Promotion of `N`. -/
noncomputable def rootSt (S : GSt K V) (t : Tid) (N : Nat) : GSt K V :=
  { S with
    root := some N
    log := S.log ++ (S.late S.rt).map insEv
    demLog := fun T => if T = S.rt then S.log else S.demLog T
    tabTok := fun T => if T = S.rt then some t else S.tabTok T }

/-- Every slot has been counted. -/
theorem all_counted (hc : S.InvC C) {s N : Nat} (hpr : S.CopyPair s N) (hcap : S.copied N = S.cap s) {j : Nat}
    (hj : j < S.cap s) : ∃ l, S.cs N j = .counted l := by
  by_contra hno
  have hsub : ((Finset.range (S.claim N)).filter fun j => (S.cs N j).isCounted) ⊆ (Finset.range (S.cap s)).erase j := by
    intro x hx
    rw [Finset.mem_filter] at hx
    have hx2 : (S.cs N x).isCounted = true := hx.2
    have h1 : S.cs N x ≠ .idle := by intro h; rw [h] at hx2; cases hx2
    obtain ⟨s', h2, h3⟩ := hc.c2 N x h1
    have := pair_src hpr h2
    subst this
    rw [Finset.mem_erase, Finset.mem_range]
    refine ⟨?_, h3⟩
    rintro rfl
    cases h4 : S.cs N x with
    | counted l => exact hno ⟨l, h4⟩
    | _ => rw [h4] at hx2; cases hx2
  have h1 := Finset.card_le_card hsub
  rw [Finset.card_erase_of_mem (Finset.mem_range.2 hj), Finset.card_range] at h1
  have h2 := hc.c6 N
  unfold nCounted at h2
  omega

theorem counted_not_aborted (hc : S.InvC C) {s N : Nat} (hpr : S.CopyPair s N)
    (hcap : S.copied N = S.cap s) : ¬ S.aborted N := by
  intro ha
  obtain ⟨j, hj⟩ := hc.c7 N ha
  obtain ⟨s', h2, h3⟩ := hc.c2 N j (by rw [hj]; intro h; cases h)
  have := pair_src hpr h2
  subst this
  obtain ⟨l, h4⟩ := all_counted hc hpr hcap h3
  rw [hj] at h4; cases h4

/-- Where an entry of the root went. -/
theorem root_copy (h : S.Inv C) {N : Nat} (hpr : S.CopyPair S.rt N) (hcap : S.copied N = S.cap S.rt)
    {j : Nat} {e : Entry K V} (hk : S.kslot S.rt j e) (hnm : ¬ S.moved S.rt j) :
    ∃ T i, S.loc N j = some (T, i) ∧ S.kslot T i e ∧ S.md T i ≠ EMPTY ∧ N ≤ T ∧ ¬ S.aborted T := by
  have hna := counted_not_aborted h.c hpr hcap
  obtain ⟨hs, hp, hc, he, hl, hM, hN⟩ := h
  obtain ⟨l, h1⟩ := all_counted hc hpr hcap (kslot_idx hs hp hk)
  obtain ⟨h2, h3⟩ := hc.c3 _ _ _ _ h1 hpr
  obtain ⟨h4, T, i, rfl, h5⟩ := h3 e hk
  have hloc : S.loc N j = some (T, i) := by unfold loc; rw [h1]; rfl
  obtain ⟨e', g1, g2, g3, g4, g5, g6⟩ := hc.c4 _ _ _ _ _ hloc hpr
  have := kslot_inj g1 hk
  subst this
  refine ⟨T, i, hloc, g6 rfl (fun h => hnm h.2), h5, g3, ?_⟩
  by_cases hi : C.inc = true
  · exact hs.incab hi T
  · rw [g5 (by simpa using hi)]; exact hna

theorem rootSt_Inv {t : Tid} {N : Nat} (h : S.Inv C) (hpr : S.CopyPair S.rt N)
    (hcap : S.copied N = S.cap S.rt) : (S.rootSt t N).Inv C := by
  have hna := counted_not_aborted h.c hpr hcap
  have hcopy := fun j e => @root_copy K V _ C S h N hpr hcap j e
  have hallc := fun j => @all_counted K V _ C S h.c S.rt N hpr hcap j
  obtain ⟨hs, hp, hc, he, hl, hM, hN⟩ := h
  set S' := S.rootSt t N with hS'
  have hrt' : S'.rt = N := rfl
  have hab : S'.aborted = S.aborted := rfl
  have hkk : S'.kslot = S.kslot := rfl
  have hNlt := hpr.2.1
  have hrN := hpr.1
  have hge : ∀ T, S.rt < T → ¬ S.aborted T → N ≤ T := by
    intro T h1 h2
    by_contra h3
    exact h2 (hpr.2.2.2 T h1 (by omega))
  have hlastN : C.inc = false → ∀ T, N ≤ T → T < S.nTabs → T = N := by
    intro hi T h1 h2
    by_contra hne
    exact hna (hs.blkab hi N hrN (by omega))
  have hwr : ∀ T, S'.wasRoot T ↔ S.wasRoot T ∨ T = N := by
    intro T
    constructor
    · rintro ⟨h1, h2, h3⟩
      have h2' : T ≤ N := h2
      by_cases hle : T ≤ S.rt
      · exact .inl ⟨h1, hle, h3⟩
      · right
        have := hge T (by omega) h3
        omega
    · rintro (⟨h1, h2, h3⟩ | rfl)
      · exact ⟨h1, by show T ≤ N; omega, h3⟩
      · exact ⟨hNlt, Nat.le_refl _, hna⟩
  have hnwN : ¬ S.wasRoot N := fun h => by have := h.2.1; omega
  have hpair : ∀ s M, S'.CopyPair s M ↔ S.CopyPair s M ∨ (s = N ∧ S'.CopyPair s M) := by
    intro s M
    constructor
    · intro h
      rcases (hwr s).1 h.2.2.1 with h1 | h1
      · exact .inl ⟨h.1, h.2.1, h1, h.2.2.2⟩
      · exact .inr ⟨h1, h⟩
    · rintro (h | h)
      · exact ⟨h.1, h.2.1, (hwr s).2 (.inl h.2.2.1), h.2.2.2⟩
      · exact h.2
  have hpairN : ∀ M, S'.CopyPair N M → ∀ j, S.cs M j = .idle := by
    intro M h1 j
    by_contra h2
    obtain ⟨s, h3, _⟩ := hc.c2 M j h2
    have h4 : S'.CopyPair s M := (hpair s M).2 (.inl h3)
    have := pair_src h1 h4
    subst this
    exact hnwN h3.2.2.1
  have hncpN : ∀ T i, S.rt < T → ¬ S.copying T i := by
    intro T i h1 h2
    have := (hp.p5 T i h2).1.2.1
    omega
  have hnmT : ∀ T i e, S.rt < T → S.kslot T i e → ¬ S.copiedF T i := by
    intro T i e h1 h2 h3
    exact hncpN T i h1 (hp.p7 _ _ _ h2 h3).2
  have hoverN : ∀ T i e, N < T → S.kslot T i e → C.inc = true ∧ S.over C N e.key := by
    intro T i e h1 h2
    have hT := kslot_lt hs h2
    by_cases hi : C.inc = true
    · exact ⟨hi, hp.f2 hi _ _ _ h2 N hrN h1⟩
    · have := hlastN (by simpa using hi) T (by omega) hT
      omega
  have hhid' : ∀ T i e, S.kslot T i e → ¬ S'.hid T e := by
    rintro T i e h1 ⟨h2, j, h3, _⟩
    exact over_kslot hp (hoverN T i e h2 h1).2 h3 rfl
  have hvis' : ∀ T i e, S'.vis T i e ↔ N ≤ T ∧ ¬ S.aborted T ∧ S.kslot T i e := by
    intro T i e
    constructor
    · rintro ⟨h1, h2, h3, _⟩; exact ⟨h1, h2, h3⟩
    · rintro ⟨h1, h2, h3⟩
      exact ⟨h1, h2, h3, hhid' T i e h3, fun h => hnmT T i e (by omega) h3 h.1⟩
  -- pending entries of the root
  have hlatev : ∀ j e, S.kslot S.rt j e → ¬ S.moved S.rt j → S.vis S.rt j e := fun j e h1 h2 =>
    ⟨Nat.le_refl _, hpr.2.2.1.2.2, h1, fun h => by have := h.1; omega, h2⟩
  have hlate : ∀ x, x ∈ S.late S.rt → S.info x.entry.id = some x ∧ ¬ S.logged x.entry ∧
      abs S.log x.entry.key = none ∧ (S.ops x.op).eff x.entry.key none (some x.entry) := by
    intro x hx
    obtain ⟨j, h1, h2, h3⟩ := (mem_late hs hp).1 hx
    have hv := hlatev j _ h1 (fun h => h.2 h2)
    obtain ⟨h4, _⟩ := hl.u2 _ _ _ h1 h2 (Nat.le_refl _) hpr.2.2.1.2.2 hv.2.2.2.1
    refine ⟨h3, h4, by rw [abs_vis hs hp hl hv, if_pos h2], ?_⟩
    obtain ⟨_, _, _, _, _, _, _, h5⟩ := hl.u1 _ _ h3 h4
    exact h5
  have habs := fun k => abs_ins S.log (S.late S.rt) (late_pairwise hs hp S.rt) k
  have hlog' : S'.log = S.log ++ (S.late S.rt).map insEv := rfl
  rw [← hlog'] at habs
  have hpre : S.log <+: S'.log := by rw [hlog']; exact List.prefix_append _ _
  have hlogd : ∀ e, S'.logged e ↔ S.logged e ∨ ∃ x ∈ S.late S.rt, x.entry = e := by
    intro e
    unfold logged
    rw [hlog']
    constructor
    · rintro ⟨ev, h1, h2⟩
      rcases List.mem_append.1 h1 with h1 | h1
      · exact .inl ⟨ev, h1, h2⟩
      · obtain ⟨x, h3, rfl⟩ := List.mem_map.1 h1
        right
        exact ⟨x, h3, by injection h2⟩
    · rintro (⟨ev, h1, h2⟩ | ⟨x, h1, rfl⟩)
      · exact ⟨ev, List.mem_append_left _ h1, h2⟩
      · exact ⟨insEv x, List.mem_append_right _ (List.mem_map.2 ⟨x, h1, rfl⟩), rfl⟩
  have hmemlate : ∀ j e, S.kslot S.rt j e → S.md S.rt j = EMPTY → ∃ x ∈ S.late S.rt, x.entry = e := by
    intro j e h1 h2
    obtain ⟨x, h3, h4⟩ := hp.p3 _ _ _ h1
    subst h4
    exact ⟨x, (mem_late hs hp).2 ⟨j, h1, h2, h3⟩, rfl⟩
  have habs1 : ∀ x ∈ S.late S.rt, abs S'.log x.entry.key = some x.entry := by
    intro x hx
    rcases habs x.entry.key with ⟨y, h1, h2, h3⟩ | ⟨h1, _⟩
    · rw [h3]
      obtain ⟨j, g1, g2, g3⟩ := (mem_late hs hp).1 hx
      obtain ⟨j', g1', g2', g3'⟩ := (mem_late hs hp).1 h1
      have := kslot_unique hp g1 g1' h2.symm
      subst this
      rw [kslot_inj g1' g1]
    · exact absurd rfl (h1 x hx)
  -- every entry of the root that was not moved is now in the abstract map
  have habsr : ∀ j e, S.kslot S.rt j e → ¬ S.moved S.rt j → abs S'.log e.key = some e := by
    intro j e h1 h2
    by_cases hE : S.md S.rt j = EMPTY
    · obtain ⟨x, h3, rfl⟩ := hmemlate j e h1 hE
      exact habs1 x h3
    · have h3 := abs_vis hs hp hl (hlatev j e h1 h2)
      rw [if_neg hE] at h3
      rcases habs e.key with ⟨y, h4, h5, _⟩ | ⟨_, h4⟩
      · have := (hlate y h4).2.2.1
        rw [h5, h3] at this; cases this
      · rw [h4, h3]
  have hlive : ∀ k e, abs S'.log k = some e ↔ S'.Live k e := by
    intro k e
    constructor
    · intro h1
      have h2 : (S.Live k e) ∨ (∃ x ∈ S.late S.rt, x.entry = e ∧ e.key = k) := by
        rcases habs k with ⟨x, h3, h4, h5⟩ | ⟨_, h3⟩
        · rw [h5] at h1; cases h1
          exact .inr ⟨x, h3, rfl, h4⟩
        · rw [h3] at h1; exact .inl ((hl.a _ _).1 h1)
      have h3 : e.key = k ∧ ((∃ T i, S.rt < T ∧ S.vis T i e ∧ S.md T i ≠ EMPTY) ∨
          ∃ j, S.kslot S.rt j e ∧ ¬ S.moved S.rt j) := by
        rcases h2 with ⟨T, i, h4, h5, h6⟩ | ⟨x, h4, rfl, h6⟩
        · refine ⟨h6, ?_⟩
          rcases Nat.lt_or_eq_of_le h4.1 with h7 | h7
          · exact .inl ⟨T, i, h7, h4, h5⟩
          · subst h7; exact .inr ⟨i, h4.2.2.1, h4.2.2.2.2⟩
        · obtain ⟨j, g1, g2, g3⟩ := (mem_late hs hp).1 h4
          exact ⟨h6, .inr ⟨j, g1, fun h => h.2 g2⟩⟩
      obtain ⟨h4, ⟨T, i, h5, h6, h7⟩ | ⟨j, h5, h6⟩⟩ := h3
      · exact ⟨T, i, (hvis' _ _ _).2 ⟨hge T h5 h6.2.1, h6.2.1, h6.2.2.1⟩, h7, h4⟩
      · obtain ⟨T, i, _, g2, g3, g4, g5⟩ := hcopy j e h5 h6
        exact ⟨T, i, (hvis' _ _ _).2 ⟨g4, g5, g2⟩, g3, h4⟩
    · rintro ⟨T, i, h1, h2, rfl⟩
      obtain ⟨h3, h4, h5⟩ := (hvis' _ _ _).1 h1
      by_cases hh : S.hid T e
      · obtain ⟨h6, j, h7, h8⟩ := hh
        exact habsr j e h7 h8
      · have hv : S.vis T i e := ⟨by omega, h4, h5, hh, fun h => hnmT T i e (by omega) h5 h.1⟩
        have h6 := abs_vis hs hp hl hv
        have h2' : S.md T i ≠ EMPTY := h2
        rw [if_neg h2'] at h6
        rcases habs e.key with ⟨y, h7, h8, _⟩ | ⟨_, h7⟩
        · have := (hlate y h7).2.2.1
          rw [h8, h6] at this; cases this
        · rw [h7, h6]
  refine ⟨?_, ?_, ?_, ?_, ?_, ?_, hN⟩
  · refine ⟨fun h => (by cases h), ?_, hs.next, hs.cap, ?_, ?_, hs.incab, ?_⟩
    · intro r hr
      cases hr
      exact ⟨hNlt, hna⟩
    · intro T' hT'
      obtain ⟨h1, h2, h3, h4, h5, h6, h7, h8, h9, h10, h11⟩ := hs.out T' hT'
      have hT'' : S.nTabs ≤ T' := hT'
      refine ⟨h1, h2, h3, h4, h5, h6, h7, h8, h9, h10, ?_⟩
      show (if T' = S.rt then some t else S.tabTok T') = none
      rw [if_neg (by omega)]; exact h11
    · intro T hT
      have := hs.prom T hT
      exact ⟨by show T ≤ N; omega, this.2⟩
    · intro hi T h1 h2
      have : N < T := h1
      exact hs.blkab hi T (by omega) h2
  · refine ⟨hp.p1, hp.p2, hp.p3, hp.p4, ?_, hp.p7, hp.b1, ?_, ?_⟩
    · intro T i h1
      have := hp.p5 T i h1
      exact ⟨(hwr T).2 (.inl this.1), this.2⟩
    · intro T i e h1 h2
      obtain ⟨h3, h4⟩ := hoverN T i e h2 h1
      exact .inr ⟨h3, .inl h4⟩
    · intro hi T i e h1 P h2 h3
      have : N < P := h2
      exact hp.f2 hi T i e h1 P (by omega) h3
  · refine ⟨hc.c1, ?_, ?_, ?_, ?_, hc.c6, hc.c7, ?_, ?_, ?_⟩
    · intro M j h1
      obtain ⟨s, h2, h3⟩ := hc.c2 M j h1
      exact ⟨s, (hpair _ _).2 (.inl h2), h3⟩
    · intro s M j l h1 h2
      rcases (hpair _ _).1 h2 with h3 | ⟨rfl, h3⟩
      · exact hc.c3 _ _ _ _ h1 h3
      · have := hpairN M h3 j
        have h1' : S.cs M j = .counted l := h1
        rw [this] at h1'; cases h1'
    · intro s M j T' i' h1 h2
      rcases (hpair _ _).1 h2 with h3 | ⟨rfl, h3⟩
      · obtain ⟨e, g1, g2, g3, g4, g5, _⟩ := hc.c4 _ _ _ _ _ h1 h3
        refine ⟨e, g1, g2, g3, g4, g5, fun h4 => ?_⟩
        have h4' : s = N := h4
        subst h4'
        exact absurd h3.2.2.1 hnwN
      · have := hpairN M h3 j
        have h1' : (S.cs M j).loc = some (T', i') := h1
        rw [this] at h1'; cases h1'
    · intro hi j e h1 h2
      exact absurd h2 (hnmT N j e hrN h1)
    · intro s M j h1 h2 h3
      rcases (hwr M).1 h2 with h4 | rfl
      · rcases (hpair _ _).1 h1 with h5 | ⟨rfl, h5⟩
        · exact hc.c8 _ _ _ h5 h4 h3
        · have := h5.1; have := h4.2.1; omega
      · have h5 : S'.CopyPair S.rt M := (hpair _ _).2 (.inl hpr)
        have := pair_src h1 h5
        subst this
        exact hallc j h3
    · intro hi s M j h1 h2 h3
      rcases (hpair _ _).1 h1 with h5 | ⟨rfl, h5⟩
      · exact hc.c9 hi _ _ _ h5 h2 h3
      · exact hncpN s j hrN h3
    · intro hi s M i e h1 h2 h3
      rcases (hpair _ _).1 h1 with h5 | ⟨rfl, h5⟩
      · exact hc.c10 hi _ _ _ _ h5 h2 h3
      · exfalso
        have h6 := h5.1
        have h7 : M < S.nTabs := h5.2.1
        exact hna (hs.blkab hi s hrN (by omega))
  · have := InvE.inserts (S.late S.rt) he (late_pairwise hs hp S.rt) hlate
    exact this.congr rfl rfl rfl rfl rfl rfl
  · refine ⟨hlive, ?_, ?_, hl.u3, ?_, ?_, ?_, ?_, ?_, ?_, ?_⟩
    · intro id x h1 h2
      rw [hlogd] at h2
      push Not at h2
      obtain ⟨T, i, h3, h4, h5, h6, h7, h8⟩ := hl.u1 _ _ h1 h2.1
      refine ⟨T, i, h3, h4, h5, ?_, h7, h8⟩
      rcases Nat.lt_or_eq_of_le h6 with h9 | h9
      · exact hge T h9 h7
      · subst h9
        obtain ⟨y, g1, g2⟩ := hmemlate i _ h4 h5
        exact absurd g2 (h2.2 y g1)
    · intro T i e h1 h2 h3 h4 _
      have h3' : N ≤ T := h3
      by_cases hh : S.hid T e
      · exfalso
        obtain ⟨h6, j, h7, h8⟩ := hh
        obtain ⟨T2, i2, g1, g2, g3, g4, g5⟩ := hcopy j e h7 h8
        rcases hp.f1 _ _ _ h1 (by omega) with ⟨j', h9, h10, h11⟩ | ⟨_, h9⟩
        · have := kslot_unique hp h7 h9 rfl
          subst this
          have : (if C.inc = true then S.rt + 1 else T) = N := by
            split
            · rename_i hi
              exact (pair_inc hs hi hpr).symm
            · rename_i hi
              exact hlastN (by simpa using hi) T h3' (kslot_lt hs h1)
          rw [this, g1] at h11
          cases h11
          exact g3 h2
        · exact h8 (passed_kslot hp h9 h7 rfl)
      · obtain ⟨h5, x, h6, h7⟩ := hl.u2 _ _ _ h1 h2 (by omega) h4 hh
        refine ⟨?_, x, h6, h7⟩
        rw [hlogd]
        rintro (h8 | ⟨y, h8, h9⟩)
        · exact h5 h8
        · obtain ⟨j, g1, g2, g3⟩ := (mem_late hs hp).1 h8
          rw [h9] at g1
          exact hh ⟨by omega, j, g1, fun h => h.2 g2⟩
    · intro T h1 h2
      show (if T = S.rt then S.log else S.demLog T) <+: _
      split
      · exact hpre
      · rename_i hne
        rcases (hwr T).1 h1 with h3 | h3
        · have := h3.2.1
          exact (hl.d1 T h3 (by omega)).trans hpre
        · have : T < N := h2
          omega
    · intro t' T h1 h2 h3
      show _ ≤ (if T = S.rt then S.log else S.demLog T).length
      split
      · exact he.e6 t'
      · rename_i hne
        rcases (hwr T).1 h1 with h4 | h4
        · have := h4.2.1
          exact hl.d2 t' T h4 (by omega) h3
        · have : T < N := h2
          omega
    · intro t'
      have := hl.d3 t'
      exact ⟨by show S.rInv t' ≤ N; omega, this.2⟩
    · intro T h1; exact (hl.d4 T h1).trans hpre
    · intro T k h1 h2 h3
      change abs (if T = S.rt then S.log else S.demLog T) k ≠ none at h3
      split at h3
      · rename_i hT
        subst hT
        cases h4 : abs S.log k with
        | none => exact absurd h4 h3
        | some e =>
          obtain ⟨T', i', h5, h6, h7⟩ := (hl.a _ _).1 h4
          rcases Nat.lt_or_eq_of_le h5.1 with h8 | h8
          · rcases hp.f1 _ _ _ h5.2.2.1 h8 with ⟨j, g1, g2, g3⟩ | ⟨g1, g2⟩
            · right
              have : S.moved S.rt j := by
                by_contra hnm
                exact h5.2.2.2.1 ⟨h8, j, g1, hnm⟩
              exact ⟨j, e, g1, h7, this.2⟩
            · rw [h7] at g2
              rcases g2 with g2 | ⟨j, e', g3, g4, g5⟩
              · exact .inl ⟨g1, g2⟩
              · exact .inr ⟨j, e', g3, g4, g5.2⟩
          · subst h8
            exact .inr ⟨i', e, h5.2.2.1, h7, h6⟩
      · rename_i hne
        rcases (hwr T).1 h1 with h4 | h4
        · have := h4.2.1
          exact hl.l1 T k h4 (by omega) h3
        · have : T < N := h2
          omega
    · intro hi T i e h1 h2 h3
      show ∃ l, (if T = S.rt then S.log else S.demLog T) <+: l ∧ _
      split
      · rename_i hT
        subst hT
        refine ⟨S'.log, hpre, List.prefix_refl _, habsr i e h3 fun h => ?_⟩
        have := (hp.p7 _ _ _ h3 h.1).1
        rw [hi] at this; cases this
      · rename_i hne
        rcases (hwr T).1 h1 with h4 | h4
        · have := h4.2.1
          obtain ⟨l, g1, g2, g3⟩ := hl.l2 hi T i e h4 (by omega) h3
          exact ⟨l, g1, g2.trans hpre, g3⟩
        · have : T < N := h2
          omega
    · intro hi T i e h1 h2 h3 h4
      rcases (hwr T).1 h1 with h5 | h5
      · by_cases hlt : S.md T i ≠ EMPTY ∨ T < S.rt
        · obtain ⟨l, g1, g2, g3⟩ := hl.n1 hi T i e h5 h2 h3 hlt
          exact ⟨l, g1, g2.trans hpre, g3⟩
        · push Not at hlt
          have hT : T = S.rt := by have := h5.2.1; omega
          subst hT
          refine ⟨S'.log, (hl.d4 _ (by omega)).trans hpre, List.prefix_refl _, habsr i e h2 fun h => h.2 hlt.1⟩
      · subst h5
        exact absurd h3 (hnmT T i e hrN h2)
  · refine ⟨hM.m1, ?_, hM.m2, ?_, ?_, ?_, hM.m5, hM.m6, hM.m7, hM.m7', ?_, hM.m9, hM.m10⟩
    · intro id t' U b h1
      obtain ⟨h2, h3⟩ := hM.own id t' U b h1
      refine ⟨fun h => ?_, fun h => ?_⟩
      · have := h2 h; show U ≤ N; omega
      · exact ⟨by have := (h3 h).1; show U ≤ N; omega, (hwr U).2 (.inl (h3 h).2)⟩
    · intro id U t' h1
      obtain ⟨h2, h3, h4⟩ := hM.m3 id U t' h1
      exact ⟨by show U ≤ N; omega, fun h => (hwr U).2 (.inl (h3 h)), h4⟩
    · intro P t' h1
      obtain ⟨h2, h3, h4⟩ := hM.m4 P t' h1
      refine ⟨by show P < N; omega, ?_, h4⟩
      show (if P = S.rt then some t else S.tabTok P) = none
      rw [if_neg (by omega)]; exact h3
    · intro P t' h1
      change (if P = S.rt then some t else S.tabTok P) = some t' at h1
      show P < N
      split at h1
      · omega
      · have := hM.m4' P t' h1; omega
    · intro id x h1
      have h1' : S.info id = some x := h1
      have hx0 := (he.e0 _ _ h1').1
      refine (hM.m8 id x h1').trans ?_
      rw [hlogd]
      by_cases hlx : ∃ y ∈ S.late S.rt, y.entry = x.entry
      · obtain ⟨y, g1, g2⟩ := hlx
        have g3 := hlate y g1
        rw [g2] at g3
        have g4 := habs1 y g1
        rw [g2] at g4
        constructor
        · intro _; exact .inr g4
        · intro _; exact .inl g3.2.1
      · constructor
        · rintro (h2 | h2)
          · left
            rintro (h3 | h3)
            · exact h2 h3
            · exact hlx h3
          · right
            rcases habs x.entry.key with ⟨y, h7, h8, _⟩ | ⟨_, h7⟩
            · have := (hlate y h7).2.2.1
              rw [h8, h2] at this; cases this
            · rw [h7, h2]
        · rintro (h2 | h2)
          · left
            intro h3; exact h2 (.inl h3)
          · rcases habs x.entry.key with ⟨y, h7, h8, h9⟩ | ⟨_, h7⟩
            · rw [h9] at h2
              exact absurd ⟨y, h7, by injection h2⟩ hlx
            · right; rw [← h7]; exact h2

theorem rootSt_Evo {t : Tid} {N : Nat} (h : S.Inv C) (hpr : S.CopyPair S.rt N) : Evo S (S.rootSt t N) where
  ev := .same rfl rfl
  root r hr := ⟨N, rfl, by have := hpr.1; unfold rt at this; rw [hr] at this; simp at this; omega⟩
  nTabs := Nat.le_refl _
  cap _ _ := rfl
  aborted _ h := h
  wasRoot T h := ⟨h.1, by have := h.2.1; have := hpr.1; show T ≤ N; omega, h.2.2⟩
  md _ _ h := h
  key _ _ e h := .inr ⟨e, h, rfl⟩
  null _ _ h1 h2 := h2
  nnull _ _ h := h
  frozen _ _ h := ⟨rfl, h, rfl⟩
  copied _ _ _ _ h := h
  log := List.prefix_append _ _
  dem T h1 h2 := if_neg (by omega)
  nlog _ _ := rfl
  nlog' T h h' := absurd h (by have : T + 1 < S.nTabs := h'; omega)
  info _ _ h := h
  ops _ _ := rfl
  seq _ := Nat.le_refl _
  counted _ _ _ h := h
  lost _ _ h := h
  claim _ := Nat.le_refl _
  prom _ h := h

theorem rootSt_Own {t t' : Tid} {N : Nat} (ht : t' ≠ t) (h : S.Inv C) (hpr : S.CopyPair S.rt N) :
    Own t' S (S.rootSt t N) where
  seq := rfl
  invPos := rfl
  rInv := rfl
  pr := rfl
  pinned := rfl
  cs _ _ _ := rfl
  cs' _ _ _ := rfl
  lock _ h := ⟨h, rfl⟩
  lock' _ h := h
  info _ _ h _ := h
  evs ev h1 h2 := by
    change ev ∈ (S.log ++ (S.late S.rt).map insEv).drop S.log.length at h1
    rw [List.drop_left] at h1
    obtain ⟨x, h3, rfl⟩ := List.mem_map.1 h1
    obtain ⟨j, g1, g2, g3⟩ := (mem_late h.s h.p).1 h3
    obtain ⟨h4, _⟩ := h.l.u2 _ _ _ g1 g2 (Nat.le_refl _) hpr.2.2.1.2.2 (fun h => by have := h.1; omega)
    exact ⟨rfl, x.entry, x, rfl, g3, rfl, rfl, h4⟩
  pays := ⟨[], by simp [rootSt], by simp⟩
  tok _ _ _ h := h
  tok' _ _ _ h := h
  tabTok T := by
    show _ ↔ (if T = S.rt then some t else S.tabTok T) = some t'
    split
    · rename_i hT
      subst hT
      constructor
      · intro h1; have := h.m.m4' _ _ h1; omega
      · intro h1; cases h1; exact absurd rfl ht
    · exact Iff.rfl
  prot _ h := h

end GSt

end Papaya
