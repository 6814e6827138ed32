import Verif.Proof.ActMisc

/-! # Actions on the collector, the counters, and invocations -/

set_option linter.unusedSectionVars false
set_option linter.unusedVariables false

namespace Papaya

variable {K V : Type} [DecidableEq K]

namespace GSt

variable {C : Cfg K} {S S' : GSt K V}

/-! ## What protection gives -/

theorem Prot.not_freed (h : S.Inv C) {t : Tid} {e : Entry K V} (hp : S.Prot t e) : S.freed e.id = false := by
  by_contra hf
  have hf : S.freed e.id = true := by simpa using hf
  obtain ⟨h1, h2, h3⟩ := hp
  rcases h.m.m5 _ hf with ⟨g1, g2⟩ | ⟨P, g1, g2⟩
  · obtain ⟨U, g3⟩ := (h.m.m2 _).1 g1
    rw [g3] at h3
    have h3 : S.blockers e.id t = true := h3
    rw [g2 t] at h3; cases h3
  · rw [g1] at h3
    have h3 : S.pr t ≤ P := h3
    obtain ⟨g3, g4⟩ := h.m.m6 P g2
    obtain ⟨_, _, g5⟩ := h.m.m4 P t g3
    rcases g5 h1 with g6 | g6
    · rw [g4 t] at g6; cases g6
    · omega

theorem tab_not_freed (h : S.Inv C) {t : Tid} {T : Nat} (hp : S.pinned t = true) (hT : S.pr t ≤ T) :
    S.tabFreed T = false := by
  by_contra hf
  have hf : S.tabFreed T = true := by simpa using hf
  obtain ⟨g3, g4⟩ := h.m.m6 T hf
  obtain ⟨_, _, g5⟩ := h.m.m4 T t g3
  rcases g5 hp with g6 | g6
  · rw [g4 t] at g6; cases g6
  · omega

/-! ## Retiring an entry -/

/-- Retiring an entry unlinked by `t`. -/
def retireSt (S : GSt K V) (e : Entry K V) (U : Nat) : GSt K V :=
  { S with
    toSt := S.toSt.retireEntry e
    tok := fun id => if id = e.id then .retired U else S.tok id }

theorem retireSt_Inv (h : S.Inv C) {t : Tid} {e : Entry K V} {U : Nat} {b : Bool}
    (ht : S.tok e.id = .owned t U b) (hU : U ≤ S.rt) : (S.retireSt e U).Inv C := by
  obtain ⟨hs, hp, hc, he, hl, hM, hN⟩ := h
  set S' := S.retireSt e U with hS'
  have htk : ∀ id, S'.tok id = if id = e.id then .retired U else S.tok id := fun _ => rfl
  have hrd : ∀ id, S'.retired id = if id = e.id then true else S.retired id := fun _ => rfl
  have hbl : ∀ id u, S'.blockers id u = if id = e.id then S.pinned u else S.blockers id u := fun _ _ => rfl
  refine ⟨⟨hs.1, hs.2, hs.3, hs.4, hs.5, hs.6, hs.7, hs.8⟩,
    ⟨hp.1, hp.2, hp.3, hp.4, hp.5, hp.6, hp.7, hp.8, hp.9⟩,
    ⟨hc.1, hc.2, hc.3, hc.4, hc.5, hc.6, hc.7, hc.8, hc.9, hc.10⟩, he.congr rfl rfl rfl rfl rfl rfl,
    hl.congr rfl rfl rfl rfl rfl rfl rfl rfl rfl rfl rfl rfl rfl rfl rfl, ?_, hN⟩
  refine ⟨?_, ?_, ?_, ?_, hM.m4, hM.m4', ?_, hM.m6, ?_, hM.m7', ?_, ?_, ?_⟩
  · intro T i e' U' hk hor
    by_cases hid : e'.id = e.id
    · simp only [htk, if_pos hid] at hor
      rcases hor with ⟨t', b', h⟩ | h | ⟨P, _, h⟩
      · cases h
      · cases h
        exact hM.m1 T i e' U hk (.inl ⟨t, b, by rw [hid]; exact ht⟩)
      · cases h
    · simp only [htk, if_neg hid] at hor
      exact hM.m1 T i e' U' hk hor
  · intro id t' U' b' h
    simp only [htk] at h
    split at h
    · cases h
    · exact hM.own id t' U' b' h
  · intro id
    rw [hrd, htk]
    split
    · exact ⟨fun _ => ⟨U, rfl⟩, fun _ => rfl⟩
    · exact hM.m2 id
  · intro id U' t' h
    rw [hbl]
    simp only [htk] at h
    split at h
    · rename_i hid
      cases h
      rw [if_pos hid]
      exact ⟨hU, fun hi => ((hM.own _ _ _ _ ht).2 hi).2, fun h => .inl h⟩
    · rename_i hid
      rw [if_neg hid]
      exact hM.m3 id U' t' h
  · intro id hf
    have hf : S.freed id = true := hf
    by_cases hid : id = e.id
    · subst hid
      rcases hM.m5 _ hf with ⟨g1, _⟩ | ⟨P, g1, _⟩
      · obtain ⟨U', g2⟩ := (hM.m2 _).1 g1
        rw [ht] at g2; cases g2
      · rw [ht] at g1; cases g1
    · rw [hrd, htk, if_neg hid, if_neg hid]
      simp only [hbl, if_neg hid]
      exact hM.m5 id hf
  · intro id P
    rw [htk]
    split
    · rename_i hid
      subst hid
      rw [show ((Tok.retired U = Tok.deferred P) ↔ _) ↔ _ from ⟨fun h => h, fun h => h⟩]
      constructor
      · intro h; cases h
      · intro h
        have := (hM.m7 _ _).2 h
        rw [ht] at this; cases this
    · exact hM.m7 id P
  · intro id x hx
    rw [htk]
    split
    · rename_i hid
      subst hid
      have := hM.m8 _ x hx
      rw [ht] at this
      constructor
      · intro h; cases h
      · intro h; cases this.2 h
    · exact hM.m8 id x hx
  · intro id hx
    rw [htk, if_neg]
    · exact hM.m9 id hx
    · rintro rfl
      have := hM.m9 _ hx
      rw [ht] at this; cases this
  · intro id P h
    simp only [htk] at h
    split at h
    · cases h
    · exact hM.m10 id P h

theorem retireSt_Evo {e : Entry K V} {U : Nat} : Evo S (S.retireSt e U) :=
  Evo.quiet rfl rfl rfl rfl rfl (fun _ h => h) (fun _ h => h) rfl rfl rfl rfl (fun _ _ => rfl)
    (fun _ => Nat.le_refl _) (fun _ _ _ h => h) (fun _ _ h => h) (fun _ => Nat.le_refl _) (fun _ h => h)

theorem retireSt_Own {t t' : Tid} (hne : t' ≠ t) {e : Entry K V} {U : Nat} {b : Bool}
    (ht : S.tok e.id = .owned t U b) : Own t' S (S.retireSt e U) := by
  have htk : ∀ id, (S.retireSt e U).tok id = if id = e.id then .retired U else S.tok id := fun _ => rfl
  refine Own.quiet rfl rfl rfl rfl rfl (fun _ _ _ => rfl) (fun _ _ _ => rfl) (fun _ h => h) (fun _ h => h)
    rfl rfl rfl ⟨[], by simp [retireSt, St.retireEntry], by simp⟩ ?_ (fun _ => Iff.rfl) ?_
  · intro id U' b'
    rw [htk]
    split
    · rename_i hid; subst hid
      rw [ht]
      constructor
      · intro h; cases h; exact absurd rfl hne
      · intro h; cases h
    · rfl
  · intro e' hp
    obtain ⟨h1, h2, h3⟩ := hp
    refine ⟨h1, h2, ?_⟩
    rw [htk]
    by_cases hid : e'.id = e.id
    · rw [if_pos hid]
      show (if e'.id = e.id then S.pinned t' else S.blockers e'.id t') = true
      rw [if_pos hid]; exact h1
    · rw [if_neg hid]
      revert h3
      cases S.tok e'.id with
      | retired U' =>
        intro h3
        show (if e'.id = e.id then S.pinned t' else S.blockers e'.id t') = true
        rw [if_neg hid]; exact h3
      | live => exact fun h => h
      | owned _ _ _ => exact fun h => h
      | deferred _ => exact fun h => h

/-! ## Retiring a table -/

/-- Retiring a table demoted by `t`. -/
def retTabSt (S : GSt K V) (T : Nat) : GSt K V :=
  { S with
    tabRetired := fun x => if x = T then true else S.tabRetired x
    tabBlockers := fun x u => if x = T then S.pinned u else S.tabBlockers x u
    tabTok := fun x => if x = T then none else S.tabTok x }

theorem retTabSt_Inv (h : S.Inv C) {t : Tid} {T : Nat} (ht : S.tabTok T = some t) : (S.retTabSt T).Inv C := by
  obtain ⟨hs, hp, hc, he, hl, hM, hN⟩ := h
  have hTn : T < S.nTabs := by
    by_contra hh
    have := (hs.out T (by omega)).2.2.2.2.2.2.2.2.2.2
    rw [ht] at this; cases this
  refine ⟨⟨hs.1, hs.2, hs.3, hs.4, ?_, hs.6, hs.7, hs.8⟩,
    ⟨hp.1, hp.2, hp.3, hp.4, hp.5, hp.6, hp.7, hp.8, hp.9⟩,
    ⟨hc.1, hc.2, hc.3, hc.4, hc.5, hc.6, hc.7, hc.8, hc.9, hc.10⟩, he.congr rfl rfl rfl rfl rfl rfl,
    hl.congr rfl rfl rfl rfl rfl rfl rfl rfl rfl rfl rfl rfl rfl rfl rfl,
    ⟨hM.1, hM.2, hM.3, hM.4, ?_, ?_, hM.7, ?_, hM.9, hM.10, hM.11, hM.12, hM.13⟩, hN⟩
  · intro T' hT'
    obtain ⟨h1, h2, h3, h4, h5, h6, h7, h8, h9, h10, h11⟩ := hs.out T' hT'
    have hT' : S.nTabs ≤ T' := hT'
    have hne : T' ≠ T := by omega
    refine ⟨h1, h2, h3, h4, h5, h6, h7, h8, ?_, h10, ?_⟩
    · show (if T' = T then true else S.tabRetired T') = _
      rw [if_neg hne]; exact h9
    · show (if T' = T then none else S.tabTok T') = _
      rw [if_neg hne]; exact h11
  · intro P u hr
    by_cases hP : P = T
    · subst hP
      refine ⟨hM.m4' _ _ ht, if_pos rfl, fun hu => .inl ?_⟩
      show (if P = P then S.pinned u else S.tabBlockers P u) = true
      rw [if_pos rfl]; exact hu
    · change (if P = T then true else S.tabRetired P) = true at hr
      rw [if_neg hP] at hr
      obtain ⟨h1, h2, h3⟩ := hM.m4 P u hr
      refine ⟨h1, ?_, ?_⟩
      · show (if P = T then none else S.tabTok P) = _
        rw [if_neg hP]; exact h2
      · show _ → (if P = T then S.pinned u else S.tabBlockers P u) = true ∨ _
        rw [if_neg hP]; exact h3
  · intro P u hr
    change (if P = T then none else S.tabTok P) = some u at hr
    split at hr
    · cases hr
    · exact hM.m4' P u hr
  · intro P hf
    obtain ⟨h1, h2⟩ := hM.m6 P hf
    have hne : P ≠ T := by
      rintro rfl
      have := (hM.m4 _ t h1).2.1
      rw [ht] at this; cases this
    constructor
    · show (if P = T then true else S.tabRetired P) = true
      rw [if_neg hne]; exact h1
    · intro u
      show (if P = T then S.pinned u else S.tabBlockers P u) = _
      rw [if_neg hne]; exact h2 u

theorem retTabSt_Evo {T : Nat} : Evo S (S.retTabSt T) :=
  Evo.quiet rfl rfl rfl rfl rfl (fun _ h => h) (fun _ h => h) rfl rfl rfl rfl (fun _ _ => rfl)
    (fun _ => Nat.le_refl _) (fun _ _ _ h => h) (fun _ _ h => h) (fun _ => Nat.le_refl _) (fun _ h => h)

theorem retTabSt_Own {t t' : Tid} (hne : t' ≠ t) {T : Nat} (ht : S.tabTok T = some t) : Own t' S (S.retTabSt T) := by
  refine Own.quiet rfl rfl rfl rfl rfl (fun _ _ _ => rfl) (fun _ _ _ => rfl) (fun _ h => h) (fun _ h => h)
    rfl rfl rfl ⟨[], by simp [retTabSt], by simp⟩ (fun _ _ _ => Iff.rfl) ?_ (fun _ h => h)
  intro P
  show _ ↔ (if P = T then none else S.tabTok P) = some t'
  split
  · rename_i hP; subst hP
    rw [ht]
    constructor
    · intro h; cases h; exact absurd rfl hne
    · intro h; cases h
  · rfl

/-! ## Deferring -/

/-- Pushing an entry on the deferred list of table `P`. -/
def pushSt (S : GSt K V) (P : Nat) (e : Entry K V) : GSt K V :=
  { S with
    deferred := fun T' => if T' = P then e :: S.deferred P else S.deferred T'
    tok := fun id => if id = e.id then .deferred P else S.tok id }

theorem pushSt_Inv (h : S.Inv C) {t : Tid} {e : Entry K V} {P : Nat} {b : Bool} (hi : C.inc = true)
    (ht : S.tok e.id = .owned t (P + 1) b) (hP : P < S.nTabs) : (S.pushSt P e).Inv C := by
  obtain ⟨hs, hp, hc, he, hl, hM, hN⟩ := h
  set S' := S.pushSt P e with hS'
  have htk : ∀ id, S'.tok id = if id = e.id then .deferred P else S.tok id := fun _ => rfl
  have hdf : ∀ T, S'.deferred T = if T = P then e :: S.deferred P else S.deferred T := fun _ => rfl
  refine ⟨⟨hs.1, hs.2, hs.3, hs.4, ?_, hs.6, hs.7, hs.8⟩,
    ⟨hp.1, hp.2, hp.3, hp.4, hp.5, hp.6, hp.7, hp.8, hp.9⟩,
    ⟨hc.1, hc.2, hc.3, hc.4, hc.5, hc.6, hc.7, hc.8, hc.9, hc.10⟩, he.congr rfl rfl rfl rfl rfl rfl,
    hl.congr rfl rfl rfl rfl rfl rfl rfl rfl rfl rfl rfl rfl rfl rfl rfl, ?_, hN⟩
  · intro T' hT'
    obtain ⟨h1, h2, h3, h4, h5, h6, h7, h8, h9⟩ := hs.out T' hT'
    have hT' : S.nTabs ≤ T' := hT'
    refine ⟨h1, h2, h3, h4, h5, h6, h7, ?_, h9⟩
    rw [hdf, if_neg (by omega)]; exact h8
  refine ⟨?_, ?_, ?_, ?_, hM.m4, hM.m4', ?_, hM.m6, ?_, ?_, ?_, ?_, ?_⟩
  · intro T i e' U' hk hor
    by_cases hid : e'.id = e.id
    · simp only [htk, if_pos hid] at hor
      rcases hor with ⟨t', b', h⟩ | h | ⟨P', hU, h⟩
      · cases h
      · cases h
      · cases h
        rw [hU]
        exact hM.m1 T i e' (P + 1) hk (.inl ⟨t, b, by rw [hid]; exact ht⟩)
    · simp only [htk, if_neg hid] at hor
      exact hM.m1 T i e' U' hk hor
  · intro id t' U' b' h
    simp only [htk] at h
    split at h
    · cases h
    · exact hM.own id t' U' b' h
  · intro id
    rw [htk]
    split
    · rename_i hid
      subst hid
      constructor
      · intro h
        obtain ⟨U, h'⟩ := (hM.m2 _).1 h
        rw [ht] at h'; cases h'
      · rintro ⟨U, h⟩; cases h
    · exact hM.m2 id
  · intro id U' t' h
    simp only [htk] at h
    split at h
    · cases h
    · exact hM.m3 id U' t' h
  · intro id hf
    have hf : S.freed id = true := hf
    by_cases hid : id = e.id
    · subst hid
      rcases hM.m5 _ hf with ⟨g1, _⟩ | ⟨P, g1, _⟩
      · obtain ⟨U', g2⟩ := (hM.m2 _).1 g1
        rw [ht] at g2; cases g2
      · rw [ht] at g1; cases g1
    · rw [htk, if_neg hid]
      exact hM.m5 id hf
  · intro id P'
    rw [htk, hdf]
    by_cases hid : id = e.id
    · rw [if_pos hid]
      constructor
      · intro h; cases h
        rw [if_pos rfl]
        exact ⟨e, List.mem_cons_self .., hid.symm⟩
      · intro h
        split at h
        · rename_i hP'; rw [hP']
        · have := (hM.m7 _ _).2 h
          rw [hid, ht] at this; cases this
    · rw [if_neg hid, hM.m7 id P']
      split
      · rename_i hP'
        subst hP'
        constructor
        · rintro ⟨e', h1, h2⟩; exact ⟨e', List.mem_cons_of_mem _ h1, h2⟩
        · rintro ⟨e', h1, h2⟩
          rcases List.mem_cons.1 h1 with rfl | h1
          · exact absurd h2.symm hid
          · exact ⟨e', h1, h2⟩
      · rfl
  · intro P'
    rw [hdf]
    split
    · rw [List.map_cons, List.nodup_cons]
      refine ⟨fun hm => ?_, hM.m7' P⟩
      obtain ⟨e', h1, h2⟩ := List.mem_map.1 hm
      have := (hM.m7 _ _).2 ⟨e', h1, h2⟩
      rw [ht] at this; cases this
    · exact hM.m7' P'
  · intro id x hx
    rw [htk]
    split
    · rename_i hid
      subst hid
      have := hM.m8 _ x hx
      rw [ht] at this
      constructor
      · intro h; cases h
      · intro h; cases this.2 h
    · exact hM.m8 id x hx
  · intro id hx
    rw [htk, if_neg]
    · exact hM.m9 id hx
    · rintro rfl
      have := hM.m9 _ hx
      rw [ht] at this; cases this
  · intro id P' h
    exact hi

theorem pushSt_Evo {P : Nat} {e : Entry K V} : Evo S (S.pushSt P e) :=
  Evo.quiet rfl rfl rfl rfl rfl (fun _ h => h) (fun _ h => h) rfl rfl rfl rfl (fun _ _ => rfl)
    (fun _ => Nat.le_refl _) (fun _ _ _ h => h) (fun _ _ h => h) (fun _ => Nat.le_refl _) (fun _ h => h)

theorem pushSt_Own {t t' : Tid} (hne : t' ≠ t) {e : Entry K V} {P : Nat}
    (ht : S.tok e.id = .owned t (P + 1) true) : Own t' S (S.pushSt P e) := by
  have htk : ∀ id, (S.pushSt P e).tok id = if id = e.id then .deferred P else S.tok id := fun _ => rfl
  refine Own.quiet rfl rfl rfl rfl rfl (fun _ _ _ => rfl) (fun _ _ _ => rfl) (fun _ h => h) (fun _ h => h)
    rfl rfl rfl ⟨[], by simp [pushSt], by simp⟩ ?_ (fun _ => Iff.rfl) ?_
  · intro id U' b'
    rw [htk]
    split
    · rename_i hid; subst hid
      rw [ht]
      constructor
      · intro h; cases h; exact absurd rfl hne
      · intro h; cases h
    · rfl
  · intro e' hp
    obtain ⟨h1, h2, h3⟩ := hp
    refine ⟨h1, h2, ?_⟩
    rw [htk]
    by_cases hid : e'.id = e.id
    · rw [if_pos hid]
      rw [hid, ht] at h3
      have := h3 rfl
      show S.pr t' ≤ P
      omega
    · rw [if_neg hid]
      exact h3

/-! ## Counters -/

/-- A contribution to the element counter. -/
def paySt (C : Cfg K) (S : GSt K V) (t : Tid) (d : Int) : GSt K V :=
  { S with
    shard := fun j => if j = C.shardOf t % (C.shards + 1) then S.shard j + d else S.shard j
    pays := S.pays ++ [(t, d)] }

theorem sum_bump (f : Nat → Int) (d : Int) (n j : Nat) :
    ((List.range n).map fun i => if i = j then f i + d else f i).sum =
      ((List.range n).map f).sum + if j < n then d else 0 := by
  induction n with
  | zero => simp
  | succ n ih =>
    rw [List.range_succ, List.map_append, List.map_append, List.sum_append, List.sum_append, ih]
    by_cases hj : j < n
    · have h1 : n ≠ j := by omega
      have h2 : j < n + 1 := by omega
      simp [hj, h1, h2]; omega
    · by_cases hjn : n = j
      · subst hjn; simp; omega
      · have h2 : ¬ j < n + 1 := by omega
        simp [hj, hjn, h2]

theorem paySt_Inv (h : S.Inv C) {t : Tid} {d : Int} : (S.paySt C t d).Inv C := by
  obtain ⟨hs, hp, hc, he, hl, hM, hN⟩ := h
  refine ⟨⟨hs.1, hs.2, hs.3, hs.4, hs.5, hs.6, hs.7, hs.8⟩,
    ⟨hp.1, hp.2, hp.3, hp.4, hp.5, hp.6, hp.7, hp.8, hp.9⟩,
    ⟨hc.1, hc.2, hc.3, hc.4, hc.5, hc.6, hc.7, hc.8, hc.9, hc.10⟩, he.congr rfl rfl rfl rfl rfl rfl,
    hl.congr rfl rfl rfl rfl rfl rfl rfl rfl rfl rfl rfl rfl rfl rfl rfl,
    ⟨hM.1, hM.2, hM.3, hM.4, hM.5, hM.6, hM.7, hM.8, hM.9, hM.10, hM.11, hM.12, hM.13⟩, ?_⟩
  refine ⟨?_, fun j => ?_⟩
  · show ((List.range (C.shards + 1)).map fun j =>
      if j = C.shardOf t % (C.shards + 1) then S.shard j + d else S.shard j).sum =
        ((S.pays ++ [(t, d)]).map Prod.snd).sum
    rw [sum_bump, if_pos (Nat.mod_lt _ (by omega)), hN.1]
    simp
  · show (if j = C.shardOf t % (C.shards + 1) then S.shard j + d else S.shard j) =
      (((S.pays ++ [(t, d)]).filter fun p => C.shardOf p.1 % (C.shards + 1) = j).map Prod.snd).sum
    rw [List.filter_append, List.map_append, List.sum_append, ← hN.2 j]
    by_cases hj : j = C.shardOf t % (C.shards + 1)
    · rw [if_pos hj]; simp [hj]
    · have hj' : ¬ C.shardOf t % (C.shards + 1) = j := fun h => hj h.symm
      rw [if_neg hj]; simp [hj']

theorem paySt_Evo {t : Tid} {d : Int} : Evo S (S.paySt C t d) :=
  Evo.quiet rfl rfl rfl rfl rfl (fun _ h => h) (fun _ h => h) rfl rfl rfl rfl (fun _ _ => rfl)
    (fun _ => Nat.le_refl _) (fun _ _ _ h => h) (fun _ _ h => h) (fun _ => Nat.le_refl _) (fun _ h => h)

theorem paySt_Own {t t' : Tid} (hne : t' ≠ t) {d : Int} : Own t' S (S.paySt C t d) :=
  Own.quiet rfl rfl rfl rfl rfl (fun _ _ _ => rfl) (fun _ _ _ => rfl) (fun _ h => h) (fun _ h => h) rfl rfl rfl
    ⟨[(t, d)], rfl, by simp; exact fun h => hne h.symm⟩ (fun _ _ _ => Iff.rfl) (fun _ => Iff.rfl) (fun _ h => h)

/-! ## Invocations and guards -/

/-- Thread `t` starts a new operation. -/
def invSt (S : GSt K V) (t : Tid) (o : OpI K V) : GSt K V :=
  { S with
    seq := fun u => if u = t then S.seq t + 1 else S.seq u
    invPos := fun u => if u = t then S.log.length else S.invPos u
    rInv := fun u => if u = t then S.rt else S.rInv u
    ops := fun x => if x = (t, S.seq t + 1) then o else S.ops x }

theorem invSt_ops {t : Tid} {o : OpI K V} {x : OpId} (h : x.2 ≤ S.seq x.1) : (S.invSt t o).ops x = S.ops x := by
  show (if x = (t, S.seq t + 1) then o else S.ops x) = _
  rw [if_neg]
  rintro rfl
  simp at h

theorem invSt_seq {t : Tid} {o : OpI K V} (u : Tid) : S.seq u ≤ (S.invSt t o).seq u := by
  show _ ≤ (if u = t then S.seq t + 1 else S.seq u)
  split
  · rename_i h; subst h; omega
  · omega

theorem invSt_Inv (h : S.Inv C) {t : Tid} {o : OpI K V} : (S.invSt t o).Inv C := by
  obtain ⟨hs, hp, hc, he, hl, hM, hN⟩ := h
  set S' := S.invSt t o with hS'
  have hrI : ∀ u, S'.rInv u = if u = t then S.rt else S.rInv u := fun _ => rfl
  have hiP : ∀ u, S'.invPos u = if u = t then S.log.length else S.invPos u := fun _ => rfl
  refine ⟨⟨hs.1, hs.2, hs.3, hs.4, hs.5, hs.6, hs.7, hs.8⟩,
    ⟨hp.1, hp.2, hp.3, hp.4, hp.5, hp.6, hp.7, hp.8, hp.9⟩,
    ⟨hc.1, hc.2, hc.3, hc.4, hc.5, hc.6, hc.7, hc.8, hc.9, hc.10⟩, ?_, ?_,
    ⟨hM.1, hM.2, hM.3, hM.4, hM.5, hM.6, hM.7, hM.8, hM.9, hM.10, hM.11, hM.12, hM.13⟩, hN⟩
  · refine ⟨he.e0, ?_, ?_, he.e3, he.e4, ?_, ?_⟩
    · intro l ev hpre
      have hk := he.e1 l ev hpre
      have ho : S'.ops ev.op = S.ops ev.op := invSt_ops hk.seq
      refine ⟨hk.old, hk.seq.trans (invSt_seq _), by rw [ho]; exact hk.eff, ?_, ?_⟩
      · intro u hu
        rw [hiP]
        by_cases hut : u = t
        · exfalso
          subst hut
          have h1 := hk.seq
          rw [hu] at h1
          have h2 : S'.seq u = S.seq u + 1 := if_pos rfl
          simp only at h1
          omega
        · rw [if_neg hut]
          apply hk.pos
          rw [hu]
          show (u, if u = t then S.seq t + 1 else S.seq u) = _
          rw [if_neg hut]
      · intro e hnew
        obtain ⟨x, h1, h2, h3, h4, h5, h6, h7⟩ := hk.new e hnew
        exact ⟨x, h1, h2, h3, h4, h5, h6, by rw [ho]; exact h7⟩
    · have h2 := he.e2
      show S.log.Pairwise _
      refine List.Pairwise.imp_of_mem ?_ h2
      intro a b ha hb hab hop
      obtain ⟨l1, l2, h3⟩ := List.append_of_mem ha
      have := (he.e1 l1 a ⟨l2, by rw [h3]; simp⟩).seq
      rw [invSt_ops this]; exact hab hop
    · intro id x hx
      have := he.e5 id x hx
      exact ⟨this.1.trans (invSt_seq _), by rw [invSt_ops this.1]; exact this.2⟩
    · intro u
      rw [hiP]
      split
      · exact Nat.le_refl _
      · exact he.e6 u
  · refine ⟨hl.a, ?_, hl.u2, hl.u3, hl.d1, ?_, ?_, hl.d4, hl.l1, hl.l2, hl.n1⟩
    · intro id x hx hnl
      have := hl.u1 id x hx hnl
      rw [invSt_ops (he.e5 id x hx).1]; exact this
    · intro u T h1 h2 h3
      rw [hrI] at h3
      rw [hiP]
      split at h3
      · have h2 : T < S.rt := h2
        omega
      · rename_i hut
        rw [if_neg hut]
        exact hl.d2 u T h1 h2 h3
    · intro u
      rw [hrI]
      split
      · have := hl.d3 u
        exact ⟨Nat.le_refl _, this.2.trans this.1⟩
      · exact hl.d3 u

theorem invSt_Evo {t : Tid} {o : OpI K V} : Evo S (S.invSt t o) :=
  Evo.quiet rfl rfl rfl rfl rfl (fun _ h => h) (fun _ h => h) rfl rfl rfl rfl (fun _ h => invSt_ops h)
    invSt_seq (fun _ _ _ h => h) (fun _ _ h => h) (fun _ => Nat.le_refl _) (fun _ h => h)

theorem invSt_Own {t t' : Tid} (hne : t' ≠ t) {o : OpI K V} : Own t' S (S.invSt t o) :=
  Own.quiet (if_neg hne) (if_neg hne) (if_neg hne) rfl rfl (fun _ _ _ => rfl) (fun _ _ _ => rfl) (fun _ h => h)
    (fun _ h => h) rfl rfl rfl ⟨[], by simp [invSt], by simp⟩ (fun _ _ _ => Iff.rfl) (fun _ => Iff.rfl) (fun _ h => h)

/-- Thread `t` creates its guard. -/
def pinSt (S : GSt K V) (t : Tid) : GSt K V :=
  { S with
    pinned := fun u => if u = t then true else S.pinned u
    pr := fun u => if u = t then S.rt else S.pr u
    rInv := fun u => if u = t then S.rt else S.rInv u }

theorem pinSt_Inv (h : S.Inv C) {t : Tid} : (S.pinSt t).Inv C := by
  obtain ⟨hs, hp, hc, he, hl, hM, hN⟩ := h
  set S' := S.pinSt t with hS'
  have hrI : ∀ u, S'.rInv u = if u = t then S.rt else S.rInv u := fun _ => rfl
  have hpr : ∀ u, S'.pr u = if u = t then S.rt else S.pr u := fun _ => rfl
  have hpn : ∀ u, S'.pinned u = if u = t then true else S.pinned u := fun _ => rfl
  refine ⟨⟨hs.1, hs.2, hs.3, hs.4, hs.5, hs.6, hs.7, hs.8⟩,
    ⟨hp.1, hp.2, hp.3, hp.4, hp.5, hp.6, hp.7, hp.8, hp.9⟩,
    ⟨hc.1, hc.2, hc.3, hc.4, hc.5, hc.6, hc.7, hc.8, hc.9, hc.10⟩, he.congr rfl rfl rfl rfl rfl rfl, ?_, ?_, hN⟩
  · refine ⟨hl.a, hl.u1, hl.u2, hl.u3, hl.d1, ?_, ?_, hl.d4, hl.l1, hl.l2, hl.n1⟩
    · intro u T h1 h2 h3
      rw [hrI] at h3
      split at h3
      · have h2 : T < S.rt := h2
        omega
      · exact hl.d2 u T h1 h2 h3
    · intro u
      rw [hrI, hpr]
      split
      · exact ⟨Nat.le_refl _, Nat.le_refl _⟩
      · exact hl.d3 u
  · refine ⟨hM.1, hM.2, hM.3, ?_, ?_, hM.6, hM.7, hM.8, hM.9, hM.10, hM.11, hM.12, hM.13⟩
    · intro id U u htk
      obtain ⟨h1, h2, h3⟩ := hM.m3 id U u htk
      refine ⟨h1, h2, ?_⟩
      rw [hpr, hpn]
      split
      · exact fun _ => .inr h1
      · exact h3
    · intro P u hr
      obtain ⟨h1, h2, h3⟩ := hM.m4 P u hr
      refine ⟨h1, h2, ?_⟩
      rw [hpr, hpn]
      split
      · exact fun _ => .inr h1
      · exact h3

theorem pinSt_Evo {t : Tid} : Evo S (S.pinSt t) :=
  Evo.quiet rfl rfl rfl rfl rfl (fun _ h => h) (fun _ h => h) rfl rfl rfl rfl (fun _ _ => rfl)
    (fun _ => Nat.le_refl _) (fun _ _ _ h => h) (fun _ _ h => h) (fun _ => Nat.le_refl _) (fun _ h => h)

theorem pinSt_Own {t t' : Tid} (hne : t' ≠ t) : Own t' S (S.pinSt t) := by
  refine Own.quiet rfl rfl (if_neg hne) (if_neg hne) (if_neg hne) (fun _ _ _ => rfl) (fun _ _ _ => rfl) (fun _ h => h)
    (fun _ h => h) rfl rfl rfl ⟨[], by simp [pinSt], by simp⟩ (fun _ _ _ => Iff.rfl) (fun _ => Iff.rfl) ?_
  intro e h
  obtain ⟨h1, h2, h3⟩ := h
  refine ⟨(if_neg hne).trans h1, h2, ?_⟩
  have hpr : (S.pinSt t).pr t' = S.pr t' := if_neg hne
  rw [hpr]; exact h3

/-- Thread `t` drops its guard. -/
def unpinSt (S : GSt K V) (t : Tid) : GSt K V :=
  { S with
    pinned := fun u => if u = t then false else S.pinned u
    blockers := fun id u => if u = t then false else S.blockers id u
    tabBlockers := fun T u => if u = t then false else S.tabBlockers T u }

theorem unpinSt_Inv (h : S.Inv C) {t : Tid} : (S.unpinSt t).Inv C := by
  obtain ⟨hs, hp, hc, he, hl, hM, hN⟩ := h
  set S' := S.unpinSt t with hS'
  have hpn : ∀ u, S'.pinned u = if u = t then false else S.pinned u := fun _ => rfl
  have hbl : ∀ id u, S'.blockers id u = if u = t then false else S.blockers id u := fun _ _ => rfl
  have htb : ∀ id u, S'.tabBlockers id u = if u = t then false else S.tabBlockers id u := fun _ _ => rfl
  refine ⟨⟨hs.1, hs.2, hs.3, hs.4, hs.5, hs.6, hs.7, hs.8⟩,
    ⟨hp.1, hp.2, hp.3, hp.4, hp.5, hp.6, hp.7, hp.8, hp.9⟩,
    ⟨hc.1, hc.2, hc.3, hc.4, hc.5, hc.6, hc.7, hc.8, hc.9, hc.10⟩, he.congr rfl rfl rfl rfl rfl rfl,
    hl.congr rfl rfl rfl rfl rfl rfl rfl rfl rfl rfl rfl rfl rfl rfl rfl,
    ⟨hM.1, hM.2, hM.3, ?_, ?_, hM.6, ?_, ?_, hM.9, hM.10, hM.11, hM.12, hM.13⟩, hN⟩
  · intro id U u htk
    obtain ⟨h1, h2, h3⟩ := hM.m3 id U u htk
    refine ⟨h1, h2, ?_⟩
    rw [hpn, hbl]
    split
    · intro h; cases h
    · exact h3
  · intro P u hr
    obtain ⟨h1, h2, h3⟩ := hM.m4 P u hr
    refine ⟨h1, h2, ?_⟩
    rw [hpn, htb]
    split
    · intro h; cases h
    · exact h3
  · intro id hf
    rcases hM.m5 id hf with ⟨h1, h2⟩ | h
    · refine .inl ⟨h1, fun u => ?_⟩
      rw [hbl, h2 u]; simp
    · exact .inr h
  · intro P hf
    obtain ⟨h1, h2⟩ := hM.m6 P hf
    refine ⟨h1, fun u => ?_⟩
    rw [htb, h2 u]; simp

theorem unpinSt_Evo {t : Tid} : Evo S (S.unpinSt t) :=
  Evo.quiet rfl rfl rfl rfl rfl (fun _ h => h) (fun _ h => h) rfl rfl rfl rfl (fun _ _ => rfl)
    (fun _ => Nat.le_refl _) (fun _ _ _ h => h) (fun _ _ h => h) (fun _ => Nat.le_refl _) (fun _ h => h)

theorem unpinSt_Own {t t' : Tid} (hne : t' ≠ t) : Own t' S (S.unpinSt t) := by
  refine Own.quiet rfl rfl rfl rfl (if_neg hne) (fun _ _ _ => rfl) (fun _ _ _ => rfl) (fun _ h => h)
    (fun _ h => h) rfl rfl rfl ⟨[], by simp [unpinSt], by simp⟩ (fun _ _ _ => Iff.rfl) (fun _ => Iff.rfl) ?_
  intro e h
  obtain ⟨h1, h2, h3⟩ := h
  refine ⟨(if_neg hne).trans h1, h2, ?_⟩
  have hbl : (S.unpinSt t).blockers e.id t' = S.blockers e.id t' := if_neg hne
  rw [hbl]; exact h3

/-! ## The collector -/

/-- The collector frees a retired entry. -/
def freeSt (S : GSt K V) (id : Nat) : GSt K V :=
  { S with freed := fun x => if x = id then true else S.freed x }

theorem freeSt_Inv (h : S.Inv C) {id : Nat} (h1 : S.retired id = true) (h2 : ∀ t, S.blockers id t = false) :
    (S.freeSt id).Inv C := by
  obtain ⟨hs, hp, hc, he, hl, hM, hN⟩ := h
  refine ⟨⟨hs.1, hs.2, hs.3, hs.4, hs.5, hs.6, hs.7, hs.8⟩,
    ⟨hp.1, hp.2, hp.3, hp.4, hp.5, hp.6, hp.7, hp.8, hp.9⟩,
    ⟨hc.1, hc.2, hc.3, hc.4, hc.5, hc.6, hc.7, hc.8, hc.9, hc.10⟩, he.congr rfl rfl rfl rfl rfl rfl,
    hl.congr rfl rfl rfl rfl rfl rfl rfl rfl rfl rfl rfl rfl rfl rfl rfl,
    ⟨hM.1, hM.2, hM.3, hM.4, hM.5, hM.6, ?_, hM.8, hM.9, hM.10, hM.11, hM.12, hM.13⟩, hN⟩
  intro x hf
  change (if x = id then true else S.freed x) = true at hf
  split at hf
  · rename_i hx; subst hx; exact .inl ⟨h1, h2⟩
  · exact hM.m5 x hf

theorem freeSt_Evo {id : Nat} : Evo S (S.freeSt id) :=
  Evo.quiet rfl rfl rfl rfl rfl (fun _ h => h) (fun _ h => h) rfl rfl rfl rfl (fun _ _ => rfl)
    (fun _ => Nat.le_refl _) (fun _ _ _ h => h) (fun _ _ h => h) (fun _ => Nat.le_refl _) (fun _ h => h)

theorem freeSt_Own {t' : Tid} {id : Nat} : Own t' S (S.freeSt id) :=
  Own.quiet rfl rfl rfl rfl rfl (fun _ _ _ => rfl) (fun _ _ _ => rfl) (fun _ h => h) (fun _ h => h) rfl rfl rfl
    ⟨[], by simp [freeSt], by simp⟩ (fun _ _ _ => Iff.rfl) (fun _ => Iff.rfl) (fun _ h => h)

open Classical in
/-- The collector frees a retired table together with the entries deferred to it. -/
noncomputable def freeTabSt (S : GSt K V) (P : Nat) : GSt K V :=
  { S with
    tabFreed := fun x => if x = P then true else S.tabFreed x
    freed := fun x => if ∃ e ∈ S.deferred P, e.id = x then true else S.freed x }

theorem freeTabSt_Inv (h : S.Inv C) {P : Nat} (h1 : S.tabRetired P = true) (h2 : ∀ t, S.tabBlockers P t = false) :
    (S.freeTabSt P).Inv C := by
  obtain ⟨hs, hp, hc, he, hl, hM, hN⟩ := h
  have hPn : P < S.nTabs := by
    by_contra hh
    have := (hs.out P (by omega)).2.2.2.2.2.2.2.2.1
    rw [h1] at this; cases this
  refine ⟨⟨hs.1, hs.2, hs.3, hs.4, ?_, hs.6, hs.7, hs.8⟩,
    ⟨hp.1, hp.2, hp.3, hp.4, hp.5, hp.6, hp.7, hp.8, hp.9⟩,
    ⟨hc.1, hc.2, hc.3, hc.4, hc.5, hc.6, hc.7, hc.8, hc.9, hc.10⟩, he.congr rfl rfl rfl rfl rfl rfl,
    hl.congr rfl rfl rfl rfl rfl rfl rfl rfl rfl rfl rfl rfl rfl rfl rfl,
    ⟨hM.1, hM.2, hM.3, hM.4, hM.5, hM.6, ?_, ?_, hM.9, hM.10, hM.11, hM.12, hM.13⟩, hN⟩
  · intro T' hT'
    obtain ⟨g1, g2, g3, g4, g5, g6, g7, g8, g9, g10, g11⟩ := hs.out T' hT'
    have hT' : S.nTabs ≤ T' := hT'
    refine ⟨g1, g2, g3, g4, g5, g6, g7, g8, g9, ?_, g11⟩
    show (if T' = P then true else S.tabFreed T') = _
    rw [if_neg (by omega)]; exact g10
  · intro x hf
    unfold freeTabSt at hf
    simp only at hf
    split at hf
    · rename_i hx
      refine .inr ⟨P, (hM.m7 _ _).2 hx, ?_⟩
      show (if P = P then true else S.tabFreed P) = true
      rw [if_pos rfl]
    · rcases hM.m5 x hf with h | ⟨P', g1, g2⟩
      · exact .inl h
      · refine .inr ⟨P', g1, ?_⟩
        show (if P' = P then true else S.tabFreed P') = true
        rw [g2]; simp
  · intro P' hf
    change (if P' = P then true else S.tabFreed P') = true at hf
    split at hf
    · rename_i hx; subst hx; exact ⟨h1, h2⟩
    · exact hM.m6 P' hf

theorem freeTabSt_Evo {P : Nat} : Evo S (S.freeTabSt P) :=
  Evo.quiet rfl rfl rfl rfl rfl (fun _ h => h) (fun _ h => h) rfl rfl rfl rfl (fun _ _ => rfl)
    (fun _ => Nat.le_refl _) (fun _ _ _ h => h) (fun _ _ h => h) (fun _ => Nat.le_refl _) (fun _ h => h)

theorem freeTabSt_Own {t' : Tid} {P : Nat} : Own t' S (S.freeTabSt P) :=
  Own.quiet rfl rfl rfl rfl rfl (fun _ _ _ => rfl) (fun _ _ _ => rfl) (fun _ h => h) (fun _ h => h) rfl rfl rfl
    ⟨[], by simp [freeTabSt], by simp⟩ (fun _ _ _ => Iff.rfl) (fun _ => Iff.rfl) (fun _ h => h)

end GSt

end Papaya
