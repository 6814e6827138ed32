import Verif.Spec.ClientIn
import Verif.Props.Client

/-! # C67: cloning, serialising, comparing and extending a map that other threads are using -/

set_option linter.unusedSectionVars false
set_option linter.unusedVariables false

namespace Papaya

variable {ι K V α : Type} [DecidableEq K] [DecidableEq ι]

variable {C : ι → Cfg K} {own : ι → Bool} {ps ps' : ι → PSt K V}

theorem Client.RunsIn.steps {p : Client ι K V α} {a : α} (h : p.RunsIn C own ps a ps') (i : ι) : Steps (C i) (ps i) (ps' i) := by
  induction h with
  | ret h => exact (h i).1
  | shared hi h hc hr hk ih => exact (h i).1.trans ih
  | lazy hi hit h hc hq hk hr ih => exact (h i).1.trans ih
  | @mine ps i' c k a ps' o q r hi h hr hk ih =>
    by_cases hii : i = i'
    · subst hii
      rw [Function.update_self] at ih
      exact h.steps.trans ih
    · rwa [Function.update_of_ne hii] at ih

theorem Client.RunsIn.hist {p : Client ι K V α} {a : α} (h : p.RunsIn C own ps a ps') (i : ι) : (ps i).hist <+: (ps' i).hist :=
  steps_hist (h.steps i)

/-- A call on a map that others are using. -/
theorem Client.RunsIn.call_inv {i : ι} {c : Call K V} {k : c.Res → Client ι K V α} {a : α} (h : (Client.call i c k).RunsIn C own ps a ps')
    (hi : own i = false) : ∃ (q : ι → PSt K V) (o : OpId) (r : c.Res), OthersMove C own ps q ∧ HEv.inv o c ∉ (ps i).hist ∧
      (c.isIterator = false → HEv.ret o c r ∈ (q i).hist) ∧ HEv.ret o c r ∈ (ps' i).hist ∧ (k r).RunsIn C own q a ps' := by
  cases h with
  | mine hi' => rw [hi] at hi'; cases hi'
  | shared _ h hc hr hk => exact ⟨_, _, _, h, hc, fun _ => hr, (hk.hist i).subset hr, hk⟩
  | lazy _ hit h hc hq hk hr => exact ⟨_, _, _, h, hc, (fun h => by rw [hit] at h; cases h), hr, hk⟩

/-- Consuming an iterator before going on is a special case of consuming it lazily. -/
theorem Client.RunsIn.lazy_of_shared {i : ι} {c : Call K V} {k : c.Res → Client ι K V α} {a : α} {q : ι → PSt K V} {o : OpId} {r : c.Res}
    (hi : own i = false) (hit : c.isIterator = true) (h : OthersMove C own ps q) (hc : HEv.inv o c ∉ (ps i).hist) (hr : Reach (C i) (ps i))
    (hret : HEv.ret o c r ∈ (q i).hist) (hk : (k r).RunsIn C own q a ps') : (Client.call i c k).RunsIn C own ps a ps' :=
  .lazy hi hit h hc ((C01_history_wf (hr.steps (h i).1)).ret_inv' hret) hk ((hk.hist i).subset hret)

/-- Filling a map that nobody else knows. -/
theorem inserts_mine {j : ι} {l : List (K × V)} {u : Unit} (h : (Client.inserts j l).RunsIn C own ps u ps') (hj : own j = true)
    {x : AMap K V} (hx : Contents (ps j).mem x) : Contents (ps' j).mem (lastBound l x) := by
  induction l generalizing ps x with
  | nil =>
    cases h with
    | ret h =>
      rw [(h j).2 hj]
      have : lastBound ([] : List (K × V)) x = x := by funext k; simp [lastBound]
      rw [this]; exact hx
  | cons y l ih =>
    cases h with
    | shared hi => rw [hj] at hi; cases hi
    | lazy hi => rw [hj] at hi; cases hi
    | mine hi h hr hk =>
      obtain ⟨x', h2, h1⟩ := C46_sequential h hr hx
      have h3 : x' = x.put y.1 (some y.2) := h1.2
      subst h3
      rw [lastBound_cons]
      refine ih hk ?_
      rw [Function.update_self]; exact h2

theorem fresh_mono {H H' : List (HEv K V)} {e : HEv K V} (h : H <+: H') (he : e ∉ H') : e ∉ H := fun h' => he (h.subset h')

theorem prefix_split {H H' : List (HEv K V)} {e : HEv K V} (h : H <+: H') (h1 : e ∈ H') (h2 : e ∉ H) : ∃ B, H' = H ++ B ∧ e ∈ B := by
  obtain ⟨B, rfl⟩ := h
  exact ⟨B, rfl, (List.mem_append.1 h1).resolve_left h2⟩

/-- Filling a map that others are using: the calls, in order. -/
theorem inserts_shared {i : ι} {l : List (K × V)} {u : Unit} (h : (Client.inserts i l).RunsIn C own ps u ps') (hi : own i = false)
    (hr : Reach (C i) (ps i)) : ∃ os : List OpId,
      List.Forall₂ (fun o x => HEv.inv o (.insert x.1 x.2) ∉ (ps i).hist ∧ ∃ r, HEv.ret o (.insert x.1 x.2) r ∈ (ps' i).hist) os l ∧
      os.Pairwise (Precedes (ps' i).hist) := by
  induction l generalizing ps with
  | nil => exact ⟨[], .nil, .nil⟩
  | cons x l ih =>
    obtain ⟨q, o, r, h', hc, hr', _, hk⟩ := Client.RunsIn.call_inv h hi
    clear h
    have h := h'
    clear h'
    have hr' := hr' rfl
    have hs := (h i).1
    obtain ⟨os, h1, h2⟩ := ih hk (hr.steps hs)
    have hp : (q i).hist <+: (ps' i).hist := hk.hist i
    have hwf := C01_history_wf ((hr.steps hs).steps (hk.steps i))
    refine ⟨o :: os, .cons ⟨hc, r, hp.subset hr'⟩ (h1.imp fun o x h => ⟨fresh_mono (steps_hist hs) h.1, h.2⟩), List.pairwise_cons.2 ⟨?_, h2⟩⟩
    intro o' ho'
    obtain ⟨y, hy1, r', hy2⟩ : ∃ y : K × V, HEv.inv o' (.insert y.1 y.2) ∉ (q i).hist ∧ ∃ r, HEv.ret o' (.insert y.1 y.2) r ∈ (ps' i).hist := by
      clear h2 hk ih
      induction h1 with
      | nil => cases ho'
      | @cons a b l1 l2 hab _ ih' =>
        rcases List.mem_cons.1 ho' with rfl | ho'
        · exact ⟨b, hab⟩
        · exact ih' ho'
    obtain ⟨B, h3, h4⟩ := prefix_split hp (hwf.ret_inv' hy2) hy1
    exact ⟨_, B, h3, .inl ⟨_, _, hr'⟩, _, h4⟩

/-- **C67** `extend` on a map that other threads are using: the pairs are inserted one after the other, each of them atomically, during
the call. -/
theorem C67_extend {i : ι} {hint : Nat} {l : List (K × V)} {u : Unit} (h : (Client.extend i hint l).RunsIn C own ps u ps')
    (hi : own i = false) (hr : Reach (C i) (ps i)) : ∃ L m os, Linearization (ps' i).hist L m ∧
      List.Forall₂ (fun o x => HEv.inv o (.insert x.1 x.2) ∉ (ps i).hist ∧
        ∃ m1, EffectAt (ps' i).hist L o m1 (m1.put x.1 (some x.2))) os l ∧
      os.Pairwise (Precedes (ps' i).hist) := by
  have hr' := hr.steps (h.steps i)
  obtain ⟨q1, _, _, a1, _, _, _, h⟩ := h.call_inv hi
  obtain ⟨q2, _, _, a2, _, _, _, h⟩ := h.call_inv hi
  have hs := (a1 i).1.trans (a2 i).1
  obtain ⟨os, h1, h2⟩ := inserts_shared h hi (hr.steps hs)
  obtain ⟨L, m, hL, _⟩ := C01_linearizable hr'
  refine ⟨L, m, os, hL, h1.imp fun o x hx => ⟨fresh_mono (steps_hist hs) hx.1, ?_⟩, h2⟩
  obtain ⟨r, hx⟩ := hx.2
  obtain ⟨m1, m2, h3, h4⟩ := hL.effect hx rfl
  obtain rfl : m2 = m1.put x.1 (some x.2) := h4.2
  exact ⟨m1, h3⟩

/-- What an iterator over a map that others are using has yielded, at the end of the code that called it. -/
theorem iter_run {p' p : PSt K V} {o : OpId} {r : List (Entry K V)} (hc : HEv.inv o .iter ∉ p.hist) (hret' : HEv.ret o .iter r ∈ p'.hist)
    {L : List (Item K V)} {m : AMap K V} (hL : Linearization p'.hist L m) :
    (∀ e ∈ r, DuringRun p p' L fun m => m e.key = some e.val) ∧
    ∀ k, (¬ DuringRun p p' L fun m => m k = none) → ∃ e ∈ r, e.key = k := by
  obtain ⟨h3, h4, _⟩ := hL.bulk o .iter r hret'
  exact ⟨fun e he => ⟨o, .iter, r, hc, hret', h3 e he⟩,
    fun k hk => (h4 k).resolve_right fun h => hk ⟨o, .iter, r, hc, hret', h⟩⟩

/-- **C67** `serialize` (and `keys`, `values`, `iter().collect()`) of a map that other threads are using: every pair handed out was in
the map at some instant of the call, and every key that was in the map during the whole call is handed out. -/
theorem C67_serialize {i : ι} {l : List (K × V)} (h : (Client.serialize i).RunsIn C own ps l ps') (hi : own i = false)
    (hr : Reach (C i) (ps i)) : ∃ L m, Linearization (ps' i).hist L m ∧
      (∀ x ∈ l, DuringRun (ps i) (ps' i) L fun m => m x.1 = some x.2) ∧
      ∀ k, (¬ DuringRun (ps i) (ps' i) L fun m => m k = none) → ∃ v, (k, v) ∈ l := by
  obtain ⟨L, m, hL, _⟩ := C01_linearizable (hr.steps (h.steps i))
  refine ⟨L, m, hL, ?_⟩
  obtain ⟨q, o, r, a1, hc, _, hret, h⟩ := h.call_inv hi
  cases h
  obtain ⟨h1, h2⟩ := iter_run hc hret hL
  refine ⟨fun x hx => ?_, fun k hk => ?_⟩
  · obtain ⟨e, he, rfl⟩ := List.mem_map.1 hx
    exact h1 e he
  · obtain ⟨e, he, rfl⟩ := h2 k hk
    exact ⟨e.val, List.mem_map.2 ⟨e, he, rfl⟩⟩

theorem lastBound_mem {l : List (K × V)} {k : K} {v : V} (h : lastBound l AMap.empty k = some v) : (k, v) ∈ l := by
  unfold lastBound at h
  split at h
  · rename_i x hx
    have h1 := List.mem_of_find?_eq_some hx
    have h2 := List.find?_some hx
    have h2 : x.1 = k := by simpa using h2
    have h3 : x.2 = v := by simpa using h
    rw [← h2, ← h3]
    exact List.mem_reverse.1 h1
  · cases h

theorem lastBound_bound {l : List (K × V)} {k : K} {v : V} {x : AMap K V} (h : (k, v) ∈ l) : ∃ w, lastBound l x k = some w := by
  unfold lastBound
  split
  · exact ⟨_, rfl⟩
  · rename_i hn
    have := List.find?_eq_none.1 hn (k, v) (List.mem_reverse.2 h)
    simp at this

/-- **C67** `clone` of a map that other threads are using: every binding of the new map is (the clone of) a binding that the original had
at some instant of the call, and every key that was in the original during the whole call is in the new map — with the value it had, if
that was not changed during the call either. -/
theorem C67_clone {i j : ι} {clK : K → K} {clV : V → V} (hK : ∀ k, clK k = k) {u : Unit}
    (h : (Client.clone i j clK clV).RunsIn C own ps u ps') (hi : own i = false) (hj : own j = true)
    (hr : Reach (C i) (ps i)) (hj0 : IsInit (C j) (ps j)) : ∃ L m x, Linearization (ps' i).hist L m ∧ Contents (ps' j).mem x ∧
      (∀ k v, x k = some v → ∃ w, v = clV w ∧ DuringRun (ps i) (ps' i) L fun m => m k = some w) ∧
      (∀ k, (¬ DuringRun (ps i) (ps' i) L fun m => m k = none) → ∃ v, x k = some v) ∧
      ∀ k v, (¬ DuringRun (ps i) (ps' i) L fun m => m k ≠ some v) → x k = some (clV v) := by
  obtain ⟨L, m, hL, _⟩ := C01_linearizable (hr.steps (h.steps i))
  obtain ⟨q, o, r, a1, hc, _, hret, h⟩ := h.call_inv hi
  obtain ⟨h1, h2⟩ := iter_run hc hret hL
  have hq : Contents (q j).mem AMap.empty := by rw [(a1 j).2 hj]; exact contents_init hj0
  have hx := inserts_mine h hj hq
  refine ⟨L, m, _, hL, hx, ?_⟩
  have g1 : ∀ k v, lastBound (List.map (fun e : Entry K V => (clK e.key, clV e.val)) r) AMap.empty k = some v →
      ∃ w, v = clV w ∧ DuringRun (ps i) (ps' i) L fun m => m k = some w := by
    intro k v hv
    obtain ⟨e, he, h3⟩ := List.mem_map.1 (lastBound_mem hv)
    cases h3
    exact ⟨e.val, rfl, by rw [hK]; exact h1 e he⟩
  have g2 : ∀ k, (¬ DuringRun (ps i) (ps' i) L fun m => m k = none) →
      ∃ v, lastBound (List.map (fun e : Entry K V => (clK e.key, clV e.val)) r) AMap.empty k = some v := by
    intro k hk
    obtain ⟨e, he, rfl⟩ := h2 k hk
    exact lastBound_bound (v := clV e.val) (List.mem_map.2 ⟨e, he, by rw [hK]⟩)
  refine ⟨g1, g2, fun k v hk => ?_⟩
  obtain ⟨v', h3⟩ := g2 k fun ⟨o, c, r, d1, d2, L1, L2, m', d3, d4, d5, d6, d7⟩ =>
    hk ⟨o, c, r, d1, d2, L1, L2, m', d3, d4, d5, d6, by show m' k ≠ _; rw [show m' k = none from d7]; simp⟩
  obtain ⟨w, rfl, o, c, r, d1, d2, L1, L2, m', d3, d4, d5, d6, d7⟩ := g1 k v' h3
  by_cases hw : w = v
  · rw [h3, hw]
  · exact absurd ⟨o, c, r, d1, d2, L1, L2, m', d3, d4, d5, d6, by show m' k ≠ _; rw [show m' k = some w from d7]; simpa using hw⟩ hk

theorem DuringRun.mono {p q p' : PSt K V} {L : List (Item K V)} {P : AMap K V → Prop} (h : DuringRun q p' L P) (hp : p.hist <+: q.hist) :
    DuringRun p p' L P := by
  obtain ⟨o, c, r, d1, d⟩ := h
  exact ⟨o, c, r, fresh_mono hp d1, d⟩

/-- The calls of `all` in `==`. -/
theorem allEq_run {j : ι} {veq : V → V → Bool} {l : List (Entry K V)} {b : Bool} (h : (Client.allEq j veq l).RunsIn C own ps b ps')
    (hj : own j = false) (hr : Reach (C j) (ps j)) {L : List (Item K V)} {m : AMap K V} (hL : Linearization (ps' j).hist L m) :
    (b = true → ∀ e ∈ l, DuringRun (ps j) (ps' j) L fun m => ∃ w, m e.key = some w ∧ veq e.val w = true) ∧
    (b = false → ∃ e ∈ l, DuringRun (ps j) (ps' j) L fun m => ∀ w, m e.key = some w → veq e.val w = false) := by
  induction l generalizing ps with
  | nil => cases h; exact ⟨fun _ e he => absurd he List.not_mem_nil, fun h => by cases h⟩
  | cons e l ih =>
    obtain ⟨q, o, r, a1, hc, _, hret', h⟩ := h.call_inv hj
    have hs := (a1 j).1
    have hwf := C01_history_wf ((hr.steps hs).steps (h.steps j))
    obtain ⟨m1, m2, h1, h2, _⟩ := hL.effect hret' rfl
    obtain ⟨h3, h4⟩ := kv_at h2
    split at h
    · rename_i hb
      obtain ⟨e', he', hv⟩ := (Option.any_eq_true _ _).1 hb
      obtain ⟨i1, i2⟩ := ih h (hr.steps hs)
      refine ⟨fun hb x hx => ?_, fun hb => ?_⟩
      · rcases List.mem_cons.1 hx with rfl | hx
        · exact ⟨o, _, r, hc, hret', h1.during hwf ⟨e'.val, (h3 e' he').2, hv⟩⟩
        · exact (i1 hb x hx).mono (steps_hist hs)
      · obtain ⟨x, hx, d⟩ := i2 hb
        exact ⟨x, List.mem_cons_of_mem _ hx, d.mono (steps_hist hs)⟩
    · rename_i hb
      cases h
      refine ⟨(fun h => by cases h), fun _ => ⟨e, by simp, o, _, r, hc, hret', h1.during hwf fun w hw => ?_⟩⟩
      cases r with
      | none => rw [h4 rfl] at hw; cases hw
      | some e' =>
        rw [(h3 e' rfl).2] at hw
        cases hw
        simpa using hb

/-- **C67** `a == b` for maps that other threads are using. If it is true, every key that was in `a` during the whole call had, at some
instants of the call, equal values in `a` and in `b`. If it is false, the two maps reported different lengths, or some key had a value in
`a` at some instant, and no equal value in `b` at some instant. -/
theorem C67_eq {i j : ι} {veq : V → V → Bool} {b : Bool} (h : (Client.eq i j veq).RunsIn C own ps b ps') (hi : own i = false)
    (hj : own j = false) (hri : Reach (C i) (ps i)) (hrj : Reach (C j) (ps j)) : ∃ L m L' m', Linearization (ps' i).hist L m ∧
      Linearization (ps' j).hist L' m' ∧
      (b = true → ∀ k, (¬ DuringRun (ps i) (ps' i) L fun m => m k = none) →
        ∃ v, (DuringRun (ps i) (ps' i) L fun m => m k = some v) ∧
          DuringRun (ps j) (ps' j) L' fun m => ∃ w, m k = some w ∧ veq v w = true) ∧
      (b = false → (∃ o n o' n', HEv.inv o .len ∉ (ps i).hist ∧ HEv.ret o .len n ∈ (ps' i).hist ∧ HEv.inv o' .len ∉ (ps j).hist ∧
          HEv.ret o' .len n' ∈ (ps' j).hist ∧ n ≠ n') ∨
        ∃ k v, (DuringRun (ps i) (ps' i) L fun m => m k = some v) ∧
          DuringRun (ps j) (ps' j) L' fun m => ∀ w, m k = some w → veq v w = false) := by
  obtain ⟨L, m, hL, _⟩ := C01_linearizable (hri.steps (h.steps i))
  obtain ⟨L', m', hL', _⟩ := C01_linearizable (hrj.steps (h.steps j))
  refine ⟨L, m, L', m', hL, hL', ?_⟩
  obtain ⟨q1, o1, n, a1, c1, _, r1, h⟩ := h.call_inv hi
  obtain ⟨q2, o2, n', a2, c2, _, r2, h⟩ := h.call_inv hj
  have hs2 : ∀ x, Steps (C x) (ps x) (q2 x) := fun x => (a1 x).1.trans (a2 x).1
  split at h
  · rename_i hb
    obtain ⟨q3, o3, r, a3, c3, _, r3, h⟩ := h.call_inv hi
    obtain ⟨h1, h2⟩ := iter_run (fresh_mono (steps_hist (hs2 i)) c3) r3 hL
    have hs3 : Steps (C j) (ps j) (q3 j) := (hs2 j).trans (a3 j).1
    obtain ⟨h3, h4⟩ := allEq_run h hj (hrj.steps hs3) hL'
    refine ⟨fun hb k hk => ?_, fun hb => ?_⟩
    · obtain ⟨e, he, rfl⟩ := h2 k hk
      exact ⟨e.val, h1 e he, (h3 hb e he).mono (steps_hist hs3)⟩
    · obtain ⟨e, he, d⟩ := h4 hb
      exact .inr ⟨e.key, e.val, h1 e he, d.mono (steps_hist hs3)⟩
  · rename_i hb
    cases h
    exact ⟨(fun h => by cases h), fun _ => .inl ⟨o1, n, o2, n', c1, r1, fresh_mono (steps_hist (a1 j).1) c2,
      r2, fun hn => hb (by rw [hn]; exact Nat.beq_refl _)⟩⟩

/-- **C67** `a == b` for maps that other threads are using, when the comparison is decided by the `n`th entry of `a` and the iterator is
dropped. -/
theorem C67_eq_early {i j : ι} {veq : V → V → Bool} {n : Nat} (h : (Client.eqTake n i j veq).RunsIn C own ps false ps') (hi : own i = false)
    (hj : own j = false) (hri : Reach (C i) (ps i)) (hrj : Reach (C j) (ps j)) : ∃ L m L' m', Linearization (ps' i).hist L m ∧
      Linearization (ps' j).hist L' m' ∧
      ((∃ o n o' n', HEv.inv o .len ∉ (ps i).hist ∧ HEv.ret o .len n ∈ (ps' i).hist ∧ HEv.inv o' .len ∉ (ps j).hist ∧
          HEv.ret o' .len n' ∈ (ps' j).hist ∧ n ≠ n') ∨
        ∃ k v, (DuringRun (ps i) (ps' i) L fun m => m k = some v) ∧
          DuringRun (ps j) (ps' j) L' fun m => ∀ w, m k = some w → veq v w = false) := by
  obtain ⟨L, m, hL, _⟩ := C01_linearizable (hri.steps (h.steps i))
  obtain ⟨L', m', hL', _⟩ := C01_linearizable (hrj.steps (h.steps j))
  refine ⟨L, m, L', m', hL, hL', ?_⟩
  obtain ⟨q1, o1, n1, a1, c1, _, r1, h⟩ := h.call_inv hi
  obtain ⟨q2, o2, n2, a2, c2, _, r2, h⟩ := h.call_inv hj
  have hs2 : ∀ x, Steps (C x) (ps x) (q2 x) := fun x => (a1 x).1.trans (a2 x).1
  split at h
  · rename_i hb
    obtain ⟨q3, o3, r, a3, c3, _, r3, h⟩ := h.call_inv hi
    have hs3 : Steps (C j) (ps j) (q3 j) := (hs2 j).trans (a3 j).1
    obtain ⟨h3, h4⟩ := allEq_run h hj (hrj.steps hs3) hL'
    obtain ⟨e, he, d⟩ := h4 rfl
    exact .inr ⟨e.key, e.val, ⟨o3, _, r, fresh_mono (steps_hist (hs2 i)) c3, r3, (hL.bulk o3 _ r r3).2 e he⟩, d.mono (steps_hist hs3)⟩
  · rename_i hb
    cases h
    exact .inl ⟨o1, n1, o2, n2, c1, r1, fresh_mono (steps_hist (a1 j).1) c2,
      r2, fun hn => hb (by rw [hn]; exact Nat.beq_refl _)⟩

/-! ### A clone that is not a snapshot -/

theorem OthersMove.refl : OthersMove C own ps ps := fun i => ⟨.refl, fun _ => rfl⟩

/-- Filling a map of one's own, executed on its own, is an execution among others. -/
theorem inserts_runsIn {j : ι} {l : List (K × V)} {u : Unit} {qs qs' : ι → PSt K V} (h : (Client.inserts j l).Runs C qs u qs')
    (hj : own j = true) (hq : ps j = qs j) (hm : OthersMove C own (Function.update ps j (qs' j)) ps') :
    (Client.inserts j l).RunsIn C own ps u ps' := by
  induction l generalizing ps qs with
  | nil =>
    cases h
    rw [← hq, Function.update_eq_self] at hm
    exact .ret hm
  | cons x l ih =>
    cases h with
    | @call _ _ _ _ _ _ o q r h hr hk =>
      have := ih (ps := Function.update ps j q) hk (by simp) (by rw [Function.update_idem]; exact hm)
      exact .mine hj (hq ▸ h) hr this

/-- A call that has returned was in progress at some instant. -/
theorem in_progress {D : Cfg K} {p q : PSt K V} {o : OpId} {c : Call K V} {r : c.Res} (hr : Reach D p) (h : Steps D p q)
    (h0 : HEv.inv o c ∉ p.hist) (h1 : HEv.ret o c r ∈ q.hist) :
    ∃ q0, Steps D p q0 ∧ Steps D q0 q ∧ HEv.inv o c ∈ q0.hist ∧ ∀ r', HEv.ret o c r' ∉ q0.hist := by
  have main : HEv.inv o c ∈ q.hist → ∃ q0, Steps D p q0 ∧ Steps D q0 q ∧ HEv.inv o c ∈ q0.hist ∧ ∀ r', HEv.ret o c r' ∉ q0.hist := by
    clear h1
    induction h with
    | refl => exact fun h => absurd h h0
    | @tail a b ha hs ih =>
      intro hb
      by_cases hc : HEv.inv o c ∈ a.hist
      · obtain ⟨q0, h2, h3, h4⟩ := ih hc
        exact ⟨q0, h2, h3.tail hs, h4⟩
      · refine ⟨b, ha.tail hs, .refl, hb, fun r' hr' => ?_⟩
        have hret : HEv.ret o c r' ∉ a.hist := fun h => hc ((C01_history_wf (hr.steps ha)).ret_inv' h)
        cases hs with
        | inv t c' =>
          rcases List.mem_append.1 hr' with h | h
          · exact hret h
          · cases List.mem_singleton.1 h
        | ret t =>
          rcases List.mem_append.1 hb with h | h
          · exact hc h
          · cases List.mem_singleton.1 h
        | panic t =>
          rcases List.mem_append.1 hr' with h | h
          · exact hret h
          · cases List.mem_singleton.1 h
        | _ => exact hret hr'
  exact main ((C01_history_wf (hr.steps h)).ret_inv' h1)

/-- What happens while guard 1 iterates over the keys 0, …, 4: guard 0 inserts the key 50 into a slot that has been passed already, and
then removes the key 3, which has not been reached. -/
def whileCloning : List (Cmd Nat Nat) :=
  [.go 1 20, .call 0 (.insert 50 7), .fin 0 500, .call 0 (.remove 3), .fin 0 500, .fin 1 500]

/-- The result of an iteration. -/
def iterPairs : (c : Call Nat Nat) → c.Res → List (Nat × Nat)
  | .iter, r => List.map (fun e : Entry Nat Nat => (e.key, e.val)) r
  | _, _ => []

-- The hypotheses are met: `clone` is called while another guard writes. The new map is filled while the iteration is in progress; it
-- lacks 3 and 50 in the end, although the original never did.
example : ∃ (ps ps' : Bool → PSt Nat Nat), (Client.clone false true (fun k => k) fun v => v).RunsIn (fun _ => cfgI) (fun b => b) ps () ps' ∧
    Reach cfgI (ps false) ∧ IsInit cfgI (ps true) ∧ Contents (ps' true).mem (lastBound [(0, 0), (2, 20), (4, 40), (1, 10)] AMap.empty) ∧
    ∃ (o o' : OpId) (r r' : Option (Entry Nat Nat)), HEv.ret o (.insert 50 7) r ∈ (ps' false).hist ∧
      HEv.ret o' (.remove 3) r' ∈ (ps' false).hist ∧ Precedes (ps' false).hist o o' := by
  obtain ⟨p, q, r, a1, a2, _, a4, a5, a6, a7, a8⟩ := demo_ret (C := cfgI) (l1 := fill 5) (l2 := whileCloning) (t := 1) (c := .iter) trivial (n := 1)
    (P1 := fun _ => true)
    (P2 := fun ps => match ps.hist.drop 10 with
      | [_, .inv o (.insert 50 7), .ret o1 (.insert 50 7) _, .inv o2 (.remove 3), .ret o3 (.remove 3) _, _] => o == o1 && o2 == o3
      | _ => false)
    (Q := fun c r => decide (iterPairs c r = [(0, 0), (2, 20), (4, 40), (1, 10)])) (by decide +kernel) (by decide +kernel)
  obtain ⟨qs, _, qs', b1, b2, b3⟩ := demo_client (C := fun _ => cfgI) (t := 1) (fuel := 9000) (l := fun _ => [])
    (p := .inserts true [(0, 0), (2, 20), (4, 40), (1, 10)]) (V := Nat) (P := fun _ => true) inserts_wf (by decide +kernel)
  have hinit : IsInit cfgI (qs true) := by
    have := b1 true
    obtain ⟨x, h1, h2⟩ := Option.bind_eq_some_iff.1 this
    obtain ⟨σ, h3, rfl⟩ := Option.map_eq_some_iff.1 h1
    have h2 := Option.some.inj h2
    rw [← h2]
    exact ⟨h3, rfl, rfl, rfl, rfl⟩
  have hr : List.map (fun e : Entry Nat Nat => (e.key, e.val)) r = [(0, 0), (2, 20), (4, 40), (1, 10)] := of_decide_eq_true a8
  obtain ⟨q0, d1, d2, d3, d4⟩ := in_progress a1 a2 (a6 _) a7
  have hrun := inserts_runsIn (own := fun b : Bool => b) (ps := fun b => cond b (qs true) q0)
    (ps' := Function.update (fun b => cond b (qs true) q) true (qs' true)) b2 rfl rfl (by
      intro b
      cases b
      · exact ⟨by simpa using d2, fun h => by cases h⟩
      · exact ⟨by simpa using .refl, fun _ => by simp⟩)
  refine ⟨fun b => cond b (qs true) p, Function.update (fun b => cond b (qs true) q) true (qs' true),
    .lazy (i := false) (q := fun b => cond b (qs true) q0) rfl rfl ?_ (a6 _) d3 ?_ (by simpa using a7), a1, hinit, ?_, ?_⟩
  rotate_left
  · dsimp only
    rw [hr]; exact hrun
  · refine inserts_mine hrun rfl ?_
    exact contents_init hinit
  · have hh : (Function.update (fun b => cond b (qs true) q) true (qs' true) false : PSt Nat Nat) = q := by simp
    rw [hh]
    split at a4
    · rename_i e0 o o1 r2 o2 o3 r3 e heq
      simp only [Bool.and_eq_true, beq_iff_eq] at a4
      obtain ⟨rfl, rfl⟩ := a4
      have hq : q.hist = q.hist.take 10 ++ q.hist.drop 10 := (List.take_append_drop 10 _).symm
      refine ⟨o, o2, r2, r3, ?_, ?_, ?_⟩
      · rw [hq, heq]; simp
      · rw [hq, heq]; simp
      · refine ⟨q.hist.take 10 ++ [e0, .inv o (.insert 50 7), .ret o (.insert 50 7) r2], [.inv o2 (.remove 3), .ret o2 (.remove 3) r3, e], ?_,
          .inl ⟨.insert 50 7, r2, by simp⟩, .remove 3, by simp⟩
        exact hq.trans (by rw [heq]; simp)
    · cases a4
  · intro b
    cases b
    · exact ⟨d1, fun h => by cases h⟩
    · exact ⟨.refl, fun _ => rfl⟩

end Papaya
