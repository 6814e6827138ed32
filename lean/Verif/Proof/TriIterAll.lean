import Verif.Proof.TriLen

/-! # Triples of `iter` and `reserve` -/

set_option linter.unusedSectionVars false
set_option linter.unusedVariables false

namespace Papaya

variable {K V : Type} [DecidableEq K]

open GSt

variable {C : Cfg K} {t : Tid} {Ap : PanicReason → GSt K V → Prop} {S S' : GSt K V} {k : K}

/-- Key `k` was absent at some instant or has been yielded. -/
def Yielded (t : Tid) (acc : List (Entry K V)) (k : K) (S : GSt K V) : Prop :=
  SeenIn t k none S ∨ ∃ e ∈ acc, e.key = k

instance {acc : List (Entry K V)} : Inert C t (Yielded t acc k) := by unfold Yielded; infer_instance

/-- Every yielded entry was current at some instant and is still protected; a key yielded twice was absent at some
instant. -/
def YieldOk (t : Tid) (acc : List (Entry K V)) (S : GSt K V) : Prop :=
  (∀ e, e ∈ acc → SeenIn t e.key (some e) S ∧ S.Prot t e) ∧ acc.Pairwise (fun a b => a.key = b.key → SeenIn t a.key none S)

instance {acc : List (Entry K V)} : Inert C t (YieldOk t acc) := by
  have h1 : Inert C t (fun S : GSt K V => acc.Pairwise (fun a b => a.key = b.key → SeenIn t a.key none S)) :=
    ⟨fun S S' h1 h2 h3 h4 h => h.imp fun {a b} g hk => Inert.inert (C := C) (t := t) S S' h1 h2 h3 h4 (g hk)⟩
  unfold YieldOk; infer_instance

/-- Invariant of the iterator at index `i` of table `T`. -/
def IterI (C : Cfg K) (t : Tid) (T : Table) (i : Nat) (acc : List (Entry K V)) (S : GSt K V) : Prop :=
  (RootAcc t T S ∧ (C.inc = true → LinTab t T.id S)) ∧ Covers t (Yielded t acc) T.id i S ∧ YieldOk t acc S ∧
    ∀ e, e ∈ acc → ∃ j, j < i ∧ GoneOr t T.id j e.key S

instance {T : Table} {i : Nat} {acc : List (Entry K V)} : Inert C t (IterI C t T i acc) := by
  unfold IterI; infer_instance

/-- An entry found by the iterator was current at some instant. -/
theorem iter_seen (h : S.Inv C) {T : Table} (ha : RootAcc t T S) (hl : C.inc = true → LinTab t T.id S) {i : Nat}
    {e : Entry K V} (hk : S.kslot T.id i e) (hm : S.md T.id i ≠ EMPTY) : SeenIn t e.key (some e) S := by
  by_cases hc : S.copiedF T.id i
  · have h7 := h.p.p7 _ _ _ hk hc
    obtain ⟨l, g1, g2, g3⟩ := h.l.n1 h7.1 _ _ _ ha.2.1 hk hc (.inl hm)
    have := hl h7.1 (h.p.p5 _ _ h7.2).2
    exact ⟨l, g2, by have := g1.length_le; omega, g3⟩
  · exact found_seen (C := C) h ha.atTable hk rfl hc hm

theorem IterI.skip {T : Table} {i : Nat} {acc : List (Entry K V)} (hp : IterI C t T i acc S)
    (hn : ∀ k, GoneOr t T.id i k S → S.md T.id i ≠ EMPTY → Yielded t acc k S) : IterI C t T (i + 1) acc S := by
  obtain ⟨h1, h2, h3, h4⟩ := hp
  refine ⟨h1, fun k => ?_, h3, fun e he => ?_⟩
  · rcases h2 k with g | ⟨j, g1, g2, g3⟩
    · exact .inl g
    · by_cases hj : j = i
      · subst hj; exact .inl (hn k g2 g3)
      · exact .inr ⟨j, by omega, g2, g3⟩
  · obtain ⟨j, g1, g2⟩ := h4 e he
    exact ⟨j, by omega, g2⟩

theorem IterI.snoc {T : Table} {i : Nat} {acc : List (Entry K V)} {e : Entry K V} (h : S.Inv C) (hp : IterI C t T i acc S)
    (hk : S.kslot T.id i e) (hm : S.md T.id i ≠ EMPTY) : IterI C t T (i + 1) (acc ++ [e]) S := by
  have hs := iter_seen h hp.1.1 hp.1.2 hk hm
  obtain ⟨h1, h2, h3, h4⟩ := hp
  refine ⟨h1, fun k => ?_, ⟨?_, ?_⟩, ?_⟩
  · rcases h2 k with g | ⟨j, g1, g2, g3⟩
    · refine .inl (g.imp id ?_)
      rintro ⟨e', g1, g2⟩
      exact ⟨e', List.mem_append_left _ g1, g2⟩
    · by_cases hj : j = i
      · subst hj
        rcases g2 with ⟨e', q1, q2⟩ | g2
        · rw [kslot_inj q1 hk] at q2
          exact .inl (.inr ⟨e, by simp, q2⟩)
        · exact .inl (.inl g2)
      · exact .inr ⟨j, by omega, g2, g3⟩
  · intro e' he'
    rcases List.mem_append.1 he' with g | g
    · exact h3.1 e' g
    · rw [List.mem_singleton.1 g]; exact ⟨hs, h1.1.1.prot h hk⟩
  · rw [List.pairwise_append]
    refine ⟨h3.2, List.pairwise_singleton _ _, fun a ha b hb hab => ?_⟩
    rw [List.mem_singleton.1 hb] at hab
    obtain ⟨j, g1, g2⟩ := h4 a ha
    rcases g2 with ⟨e', q1, q2⟩ | g2
    · have := kslot_unique h.p q1 hk (q2.trans hab)
      omega
    · exact g2
  · intro e' he'
    rcases List.mem_append.1 he' with g | g
    · obtain ⟨j, g1, g2⟩ := h4 e' g
      exact ⟨j, by omega, g2⟩
    · rw [List.mem_singleton.1 g]; exact ⟨i, by omega, .inl ⟨e, hk, rfl⟩⟩

theorem tri_iterUpTo {lim : Option Nat} [hA : SysA C Ap] :
    Tri (V := V) C t Ap (Mt t) (fun S => Pinned t S) (iterUpTo C lim)
      (fun acc S => YieldOk t acc S ∧ (∀ n, lim = some n → acc.length ≤ n) ∧ (iterStop lim acc = false → ∀ k, Yielded t acc k S)) := by
  have hg := fun S : GSt K V => Mt.refl t S
  unfold iterUpTo
  refine Tri.bind (fun r S => match r with | none => ∀ k, SeenIn t k none S | some T => RootAcc t T S) ?_ ?_
  · refine tri_loadRoot hg (fun S _ h => h) _ ?_ ?_
    · intro S T h hp h1 _; exact h1
    · intro S h hp hr; exact fun k => SeenIn.now h (absent_noRoot h hr)
  rintro (_ | T)
  · exact Tri.ret fun S _ h => ⟨⟨by simp, by simp⟩, fun n _ => Nat.zero_le _, fun _ k => .inl (h k)⟩
  simp only
  refine Tri.bind _ (tri_linearizeC (Res := Yielded t []) (fun k S h => .inl h)) ?_
  intro T
  refine (Tri.loop (s := (0, [])) (fun (x : Nat × List (Entry K V)) S => (∀ n, lim = some n → x.2.length ≤ n) ∧ IterI C t T x.1 x.2 S) ?_).pre
    (fun S _ h => ⟨fun n _ => Nat.zero_le _, h.1, h.2, ⟨by simp, by simp⟩, by simp⟩)
  rintro ⟨i, acc⟩
  refine Tri.extract (fun S _ h => h.1) fun hlen => ?_
  refine Tri.pre (P := fun S => IterI C t T i acc S) ?_ (fun S _ h => h.2)
  refine Tri.ite (fun hst => Tri.ret fun S h hp => ⟨hp.2.2.1, hlen, fun h => by rw [hst] at h; cases h⟩) fun hst => ?_
  have hst' : iterStop lim acc = false := by simpa using hst
  have hlen' : ∀ (e : Entry K V) n, lim = some n → (acc ++ [e]).length ≤ n := by
    rintro e n rfl
    have := of_decide_eq_false hst'
    simp only [List.length_append, List.length_singleton]; omega
  refine Tri.ite (fun hi => ?_) (fun hi => Tri.ret fun S h hp => ⟨hp.2.2.1, hlen, fun _ => hp.2.1.done h hp.1.1.1 (fun _ => .inl) (by omega)⟩)
  refine Tri.bind (fun m S => IterI C t T i acc S ∧ (m = EMPTY ∨ m = TOMBSTONE → IterI C t T (i + 1) acc S) ∧
    (¬ (m = EMPTY ∨ m = TOMBSTONE) → S.md T.id i ≠ EMPTY)) ?_ ?_
  · refine tri_loadMd hg (fun S _ h => h.1.1.1) hi _ ?_
    intro S h hp
    refine ⟨hp, fun hm => hp.skip fun k hgo hne => ?_, fun hm h' => hm (.inl h')⟩
    rcases hgo with ⟨e, g1, g2⟩ | g
    · exfalso
      rcases hm with hm | hm
      · exact hne hm
      · rcases h.p.p2 _ _ _ g1 with g | g
        · exact hne g
        · rw [g] at hm
          exact h2_ne_TOMBSTONE _ hm
    · exact .inl g
  intro m
  refine Tri.ite (fun hm => Tri.ret fun S _ h => ⟨hlen, h.2.1 hm⟩) (fun hm => ?_)
  refine Tri.bind (fun s S => match s.ptr with
    | none => IterI C t T (i + 1) acc S
    | some e => IterI C t T (i + 1) (acc ++ [e]) S) ?_ ?_
  · refine Tri.pre (P := fun S => IterI C t T i acc S ∧ S.md T.id i ≠ EMPTY) ?_ (fun S _ h => ⟨h.1, h.2.2 hm⟩)
    refine tri_loadSlot hg (fun S _ h => h.1.1.1.1) hi _ ?_
    intro S h hp
    cases hs : (S.slot T.id i).ptr with
    | none =>
      refine hp.1.skip fun k hgo hne => ?_
      rcases hgo with ⟨e, g1, g2⟩ | g
      · rw [kslot, hs] at g1; cases g1
      · exact .inl g
    | some e => exact hp.1.snoc h hs hp.2
  intro s
  simp only
  cases hs : s.ptr with
  | none => exact Tri.ret fun S _ h => ⟨hlen, h⟩
  | some e =>
    simp only
    refine Tri.bind (fun _ S => IterI C t T (i + 1) (acc ++ [e]) S) ?_ (fun _ => Tri.ret fun S _ h => ⟨hlen' e, h⟩)
    exact (tri_deref hg (fun S _ h => (h.2.2.1.1 e (by simp)).2))

/-! ## `reserve` -/

theorem entriesFor_pow2 {c n : Nat} (h : entriesFor c = some n) : isPow2 n := by
  unfold entriesFor at h
  split at h
  · injection h with h
    rw [← h]
    unfold nextPowerOfTwo
    split <;> first | exact ⟨0, rfl⟩ | exact ⟨_, rfl⟩
  · cases h

/-- When `reserve` returns, there is a table that was the root at some instant of the call and whose length is
`entries_for(n + additional)` at least, where `n` is a length the call read. -/
theorem tri_reserve [hA : SysA C Ap] {additional : Nat} {p0 : List (Tid × Int)} (hpan : ∀ S, Ap .capacityOverflow S) :
    Tri (V := V) C t Ap (Mt t) (fun S => Pinned t S ∧ PaysFrom p0 S) (reserve C additional)
      (fun _ S => ∃ T : Table, RootAcc t T S ∧ ∃ n c, LenIs p0 n S ∧ entriesFor (n + additional) = some c ∧ c ≤ T.len) := by
  have hg := fun S : GSt K V => Mt.refl t S
  unfold reserve
  refine Tri.bind (fun T S => RootAcc t T S ∧ PaysFrom p0 S) (Tri.frame (PaysFrom p0) ?_) ?_
  · refine Tri.bind (fun r S => match r with | none => Pinned t S ∧ C.capacity = 0 | some T => RootAcc t T S) ?_ ?_
    · refine tri_loadRoot hg (fun S _ h => h) _ ?_ ?_
      · intro S T h hp h1 _; exact h1
      · intro S h hp hr; exact ⟨hp, (h.s.none hr).2⟩
    rintro (_ | T)
    · simp only
      cases he : entriesFor additional with
      | none => exact Tri.panic fun _ _ _ => hpan _
      | some n =>
        refine Tri.extract (φ := C.capacity = 0) (fun S _ h => h.2) fun hc => ?_
        refine (tri_initTable hc (capacity := some n) ?_).pre fun S _ h => h.1
        rintro _ ⟨⟩
        exact entriesFor_pow2 he
    · exact Tri.ret fun S _ h => h
  intro T
  refine Tri.loop (fun T S => RootAcc t T S ∧ PaysFrom p0 S) ?_
  intro T
  refine Tri.bind (fun n S => LenIs p0 n S ∧ RootAcc t T S) (((tri_lenIs (t := t) (Ap := Ap) hg).frame (RootAcc t T)).pre
    fun S _ h => ⟨h.2, h.1⟩) ?_
  intro n
  refine Tri.ite (fun hn => ?_) (fun hn => Tri.panic fun _ _ _ => hpan _)
  cases he : entriesFor (n + additional) with
  | none => exact Tri.panic fun _ _ _ => hpan _
  | some c =>
    simp only
    refine Tri.ite (fun hle => Tri.ret fun S _ h => ⟨T, h.2, n, c, h.1, he, hle⟩) (fun hle => ?_)
    refine Tri.pre (P := fun S => RootAcc t T S ∧ PaysFrom p0 S) ?_ fun S _ h => ⟨h.2, h.1.from⟩
    refine Tri.extract (φ := C.initialCapacity ≤ c) (fun S h hp => ?_) fun hcap => ?_
    · have h1 := (h.s.cap T.id hp.1.1.2.1).2.2
      rw [← hp.1.1.len h] at h1
      omega
    refine Tri.bind _ (((tri_getOrAllocNext (capacity := some c) (T := T) (fun c' h' => by cases h'; exact ⟨hcap, entriesFor_pow2 he⟩)).mt.frame
      (fun S => RootAcc t T S ∧ PaysFrom p0 S)).pre fun S _ h => ⟨⟨h.1.1, fun _ => .inl h.1.2.1.2.1⟩, h⟩) ?_
    intro N
    refine Tri.bind _ ((tri_helpCopyAll.frame (PaysFrom p0)).pre fun S _ h => ⟨⟨h.2.1, by rw [← h.1.2]; exact h.1.1.2.1⟩, h.2.2⟩) ?_
    exact fun n => Tri.ret fun S _ h => h

end Papaya
