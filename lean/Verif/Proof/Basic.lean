import Verif.Proof.Ghost

/-! # Consequences of the invariant -/

set_option linter.unusedSectionVars false
set_option linter.unusedVariables false

namespace Papaya

variable {K V : Type}

/-! ## The abstract map -/
section Abs
variable [DecidableEq K]

theorem absS_append (l l' : List (Ev K V)) (m : K → Option (Entry K V)) :
    absS (l ++ l') m = absS l' (absS l m) := by
  induction l generalizing m with
  | nil => rfl
  | cons ev l ih => exact ih _

theorem abs_snoc (l : List (Ev K V)) (ev : Ev K V) (k : K) :
    abs (l ++ [ev]) k = if k = ev.key then ev.new else abs l k := by
  unfold abs; rw [absS_append]; rfl

@[simp] theorem abs_nil (k : K) : abs ([] : List (Ev K V)) k = none := rfl

theorem Seen.now {p : Nat} {log : List (Ev K V)} {k : K} {x : Option (Entry K V)} (h : abs log k = x)
    (hp : p ≤ log.length) : Seen p log k x := ⟨log, List.prefix_refl _, hp, h⟩

theorem Seen.mono {p : Nat} {log log' : List (Ev K V)} {k : K} {x : Option (Entry K V)} (h : Seen p log k x)
    (hl : log <+: log') : Seen p log' k x := by
  obtain ⟨l, h1, h2, h3⟩ := h
  exact ⟨l, h1.trans hl, h2, h3⟩

theorem abs_mem {l : List (Ev K V)} {k : K} {e : Entry K V} (h : abs l k = some e) :
    ∃ ev ∈ l, ev.new = some e ∧ ev.key = k := by
  induction l using List.reverseRecOn with
  | nil => simp at h
  | append_singleton l ev ih =>
    rw [abs_snoc] at h
    split at h
    · exact ⟨ev, by simp, h, by simp_all⟩
    · obtain ⟨ev', h1, h2⟩ := ih h
      exact ⟨ev', by simp [h1], h2⟩

end Abs

theorem prefix_snoc_snoc {α : Type} {l m : List α} {a b : α} :
    l ++ [a] <+: m ++ [b] ↔ (l = m ∧ a = b) ∨ l ++ [a] <+: m := by
  rw [List.prefix_concat_iff]
  constructor
  · rintro (h | h)
    · left; simpa using h
    · right; exact h
  · rintro (⟨rfl, rfl⟩ | h)
    · left; rfl
    · right; exact h

namespace GSt

variable {C : Cfg K} {S : GSt K V}

theorem pos_lt (hs : S.InvS C) {T : Nat} (hT : T < S.nTabs) (k : K) (n : Nat) : S.pos C T k n < S.cap T := by
  obtain ⟨⟨a, ha⟩, _⟩ := hs.cap T hT
  unfold pos
  rw [ha, after_i]
  exact Nat.mod_lt _ (by positivity)

theorem kslot_lt (hs : S.InvS C) {T i : Nat} {e : Entry K V} (h : S.kslot T i e) : T < S.nTabs := by
  by_contra hn
  have := (hs.out T (by omega)).1 i
  unfold kslot at h
  rw [this] at h
  cases h

theorem slot_lt (hs : S.InvS C) {T i : Nat} (h : S.slot T i ≠ Slot.null) : T < S.nTabs := by
  by_contra hn
  exact h ((hs.out T (by omega)).1 i)

theorem kslot_idx (hs : S.InvS C) (hp : S.InvP C) {T i : Nat} {e : Entry K V} (h : S.kslot T i e) :
    i < S.cap T := by
  obtain ⟨n, _, rfl, _⟩ := hp.p4 T i e h
  exact pos_lt hs (kslot_lt hs h) _ _

theorem kslot_inj {T i : Nat} {e e' : Entry K V} (h : S.kslot T i e) (h' : S.kslot T i e') : e = e' := by
  unfold kslot at *; rw [h] at h'; exact Option.some.inj h'

theorem kslot_unique (hp : S.InvP C) {T i j : Nat} {e e' : Entry K V} (h : S.kslot T i e)
    (h' : S.kslot T j e') (hk : e.key = e'.key) : i = j := by
  obtain ⟨n, _, hn, hd⟩ := hp.p4 T i e h
  obtain ⟨n', _, hn', hd'⟩ := hp.p4 T j e' h'
  rw [← hk] at hn' hd'
  rcases Nat.lt_trichotomy n n' with hlt | heq | hlt
  · have := hd' n hlt
    rw [hn] at this
    exact absurd rfl (this.2 e h)
  · subst heq; omega
  · have := hd n' hlt
    rw [hn'] at this
    exact absurd hk.symm (this.2 e' h')

theorem over_kslot (hp : S.InvP C) {T i : Nat} {e : Entry K V} {k : K} (ho : S.over C T k)
    (h : S.kslot T i e) : e.key ≠ k := by
  rintro rfl
  obtain ⟨n, hl, hn, _⟩ := hp.p4 T i e h
  have := ho n hl
  rw [hn] at this
  exact this.2 e h rfl

theorem passed_kslot (hp : S.InvP C) {T i : Nat} {e : Entry K V} {k : K} (ho : S.passed C T k)
    (h : S.kslot T i e) (hk : e.key = k) : S.moved T i := by
  rcases ho with ho | ⟨j, e', h1, h2, h3⟩
  · exact absurd hk (over_kslot hp ho h)
  · have := kslot_unique hp h h1 (hk.trans h2.symm)
    subst this; exact h3

theorem root_eq (hs : S.InvS C) {T : Nat} (h : T < S.nTabs) : S.root = some S.rt := by
  unfold rt
  cases hr : S.root with
  | none => have := (hs.none hr).1; omega
  | some r => rfl

theorem wasRoot_rt (hs : S.InvS C) {T : Nat} (h : T < S.nTabs) : S.wasRoot S.rt := by
  have hr := root_eq hs h
  have := hs.some _ hr
  exact ⟨this.1, Nat.le_refl _, this.2⟩

theorem rt_lt (hs : S.InvS C) {T : Nat} (h : T < S.nTabs) : S.rt < S.nTabs := (wasRoot_rt hs h).1

/-- The next root after a stale one. -/
theorem succRoot {T : Nat} (hw : S.wasRoot T) (hlt : T < S.rt) (hr : S.wasRoot S.rt) :
    ∃ N, S.CopyPair T N ∧ S.wasRoot N := by
  classical
  have hex : ∃ N, T < N ∧ S.wasRoot N := ⟨S.rt, hlt, hr⟩
  refine ⟨Nat.find hex, ⟨(Nat.find_spec hex).1, (Nat.find_spec hex).2.1, hw, ?_⟩, (Nat.find_spec hex).2⟩
  intro P h1 h2
  have := Nat.find_min hex h2
  by_contra hna
  have h3 := (Nat.find_spec hex).2
  exact this ⟨h1, by have := h3.1; omega, by have := h3.2.1; omega, hna⟩

theorem pair_src {s s' N : Nat} (h : S.CopyPair s N) (h' : S.CopyPair s' N) : s = s' := by
  rcases Nat.lt_trichotomy s s' with hlt | heq | hlt
  · exact absurd (h.2.2.2 s' hlt h'.1) h'.2.2.1.2.2
  · exact heq
  · exact absurd (h'.2.2.2 s hlt h.1) h.2.2.1.2.2

theorem pair_le (hs : S.InvS C) {s N : Nat} (h : S.CopyPair s N) (hlt : s < S.rt) : N ≤ S.rt := by
  by_contra hn
  exact (wasRoot_rt hs h.2.1).2.2 (h.2.2.2 _ hlt (by omega))

theorem pair_inc (hs : S.InvS C) (hi : C.inc = true) {s N : Nat} (h : S.CopyPair s N) : N = s + 1 := by
  by_contra hn
  have := h.1
  exact hs.incab hi _ (h.2.2.2 (s + 1) (by omega) (by omega))

theorem pair_rt_succ (hs : S.InvS C) (hn : S.rt + 1 < S.nTabs) : S.CopyPair S.rt (S.rt + 1) :=
  ⟨by omega, hn, wasRoot_rt hs hn, fun P h1 h2 => by omega⟩

theorem pair_wasRoot_succ (hs : S.InvS C) {T : Nat} (hw : S.wasRoot T) (hn : T + 1 < S.nTabs) :
    S.CopyPair T (T + 1) := ⟨by omega, hn, hw, fun P h1 h2 => by omega⟩

theorem p6 (hs : S.InvS C) (hc : S.InvC C) {T i : Nat} (hw : S.wasRoot T) (hlt : T < S.rt)
    (hi : i < S.cap T) : S.copying T i := by
  obtain ⟨N, hp, hN⟩ := succRoot hw hlt (wasRoot_rt hs hw.1)
  obtain ⟨l, hl⟩ := hc.c8 T N i hp hN hi
  exact (hc.c3 T N i l hl hp).1

theorem inc_wasRoot (hs : S.InvS C) (hi : C.inc = true) {T : Nat} (h : T ≤ S.rt) (hn : T < S.nTabs) :
    S.wasRoot T := ⟨hn, h, hs.incab hi T⟩

theorem p8 (hs : S.InvS C) (hp : S.InvP C) (hc : S.InvC C) (hi : C.inc = true) {T i : Nat} {e : Entry K V}
    (hlt : T < S.rt) (h : S.kslot T i e) : S.copiedF T i := by
  have hT := kslot_lt hs h
  have hw := inc_wasRoot hs hi (by omega) hT
  obtain ⟨N, hpr, hN⟩ := succRoot hw hlt (wasRoot_rt hs hT)
  obtain ⟨l, hl⟩ := hc.c8 T N i hpr hN (kslot_idx hs hp h)
  exact ((hc.c3 T N i l hl hpr).2 e h).1 hi

theorem moved_le (hp : S.InvP C) {T i : Nat} {e : Entry K V} (h : S.kslot T i e) (hm : S.copiedF T i) :
    T ≤ S.rt := (hp.p5 T i (hp.p7 T i e h hm).2).1.2.1

/-- In blocking mode only root slots are visible. -/
theorem vis_blocking (hp : S.InvP C) (hi : C.inc = false) {T i : Nat} {e : Entry K V}
    (h : S.vis T i e) : T = S.rt := by
  obtain ⟨h1, h2, h3, h4, h5⟩ := h
  by_contra hne
  have hlt : S.rt < T := by omega
  rcases hp.f1 T i e h3 hlt with ⟨j, hj, hcp, _⟩ | ⟨h, _⟩
  · apply h4
    refine ⟨hlt, j, hj, ?_⟩
    intro hm
    have := (hp.p7 _ _ _ hj hm.1).1
    simp [this] at hi
  · simp [h] at hi

/-- A key has at most one visible slot. -/
theorem vis_unique (hs : S.InvS C) (hp : S.InvP C) {T i T' i' : Nat} {e e' : Entry K V}
    (h : S.vis T i e) (h' : S.vis T' i' e') (hk : e.key = e'.key) : T = T' ∧ i = i' ∧ e = e' := by
  suffices hT : T = T' by
    subst hT
    have := kslot_unique hp h.2.2.1 h'.2.2.1 hk
    subst this
    exact ⟨rfl, rfl, kslot_inj h.2.2.1 h'.2.2.1⟩
  have key : ∀ {T i T' i' : Nat} {e e' : Entry K V}, S.vis T i e → S.vis T' i' e' → e.key = e'.key →
      ¬ T < T' := by
    intro T i T' i' e e' h h' hk hlt
    obtain ⟨h1, h2, h3, h4, h5⟩ := h
    have hv' := h'
    obtain ⟨h1', h2', h3', h4', h5'⟩ := h'
    have hi : C.inc = true := by
      by_contra hi
      have := vis_blocking hp (by simpa using hi) hv'
      omega
    by_cases hr : T = S.rt
    · subst hr
      rcases hp.f1 T' i' e' h3' hlt with ⟨j, hj, _, _⟩ | ⟨_, hps⟩
      · have := kslot_unique hp h3 hj hk
        subst this
        have := kslot_inj h3 hj
        subst this
        exact h4' ⟨hlt, _, hj, h5⟩
      · exact h5 (passed_kslot hp hps h3 hk)
    · exact over_kslot hp (hp.f2 hi T' i' e' h3' T (by omega) hlt) h3 hk
  rcases Nat.lt_trichotomy T T' with hlt | heq | hlt
  · exact absurd hlt (key h h' hk)
  · exact heq
  · exact absurd hlt (key h' h hk.symm)

section
variable [DecidableEq K]

theorem abs_vis (hs : S.InvS C) (hp : S.InvP C) (hl : S.InvL C) {T i : Nat} {e : Entry K V}
    (h : S.vis T i e) : abs S.log e.key = if S.md T i = EMPTY then none else some e := by
  split
  · rename_i hm
    cases ha : abs S.log e.key with
    | none => rfl
    | some e' =>
      obtain ⟨T', i', hv, hmd, hk⟩ := (hl.a _ _).1 ha
      obtain ⟨rfl, rfl, _⟩ := vis_unique hs hp h hv hk.symm
      exact absurd hm hmd
  · rename_i hm
    exact (hl.a _ _).2 ⟨T, i, h, hm, rfl⟩

theorem abs_none_iff (hl : S.InvL C) {k : K} : abs S.log k = none ↔ ∀ e, ¬ S.Live k e := by
  constructor
  · intro h e hv
    rw [(hl.a k e).2 hv] at h
    cases h
  · intro h
    cases ha : abs S.log k with
    | none => rfl
    | some e => exact absurd ((hl.a k e).1 ha) (h e)

theorem logged_of_abs {k : K} {e : Entry K V} (h : abs S.log k = some e) : S.logged e := by
  obtain ⟨ev, h1, h2, _⟩ := abs_mem h
  exact ⟨ev, h1, h2⟩

theorem abs_key (hl : S.InvL C) {k : K} {e : Entry K V} (h : abs S.log k = some e) : e.key = k := by
  obtain ⟨_, _, _, _, hk⟩ := (hl.a _ _).1 h
  exact hk

/-- a visible entry has not been unlinked -/
theorem vis_live (hs : S.InvS C) (hp : S.InvP C) (hl : S.InvL C) (hm : S.InvM C) {T i : Nat} {e : Entry K V}
    (h : S.vis T i e) : S.tok e.id = .live := by
  obtain ⟨x, hx, rfl⟩ := hp.p3 _ _ _ h.2.2.1
  rw [hm.m8 _ _ hx]
  by_cases hmd : S.md T i = EMPTY
  · left; exact (hl.u2 _ _ _ h.2.2.1 hmd h.1 h.2.1 h.2.2.2.1).1
  · right; rw [abs_vis hs hp hl h, if_neg hmd]

end

end GSt

end Papaya
