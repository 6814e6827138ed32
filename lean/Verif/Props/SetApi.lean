import Verif.Spec.SetSpec
import Verif.Props.Client

/-! # `HashSet` is a set (C40) -/

set_option linter.unusedSectionVars false
set_option linter.unusedVariables false

namespace Papaya

variable {K : Type} [DecidableEq K]

variable {C : Cfg K} {ps ps' : PSt K Unit} {o : OpId}

theorem mem_dom {V : Type} {m : AMap K V} {k : K} : k ∈ m.dom ↔ m k ≠ none := Iff.rfl

theorem dom_put {V : Type} {m : AMap K V} {k : K} {v : V} : (m.put k (some v)).dom = {k} ∪ m.dom := by
  ext x
  rw [Set.mem_union, Set.mem_singleton_iff, mem_dom, mem_dom]
  unfold AMap.put
  by_cases h : x = k <;> simp [h]

theorem dom_put_none {V : Type} {m : AMap K V} {k : K} : (m.put k none).dom = m.dom \ {k} := by
  ext x
  rw [Set.mem_diff, mem_dom, mem_dom]
  unfold AMap.put
  by_cases h : x = k <;> simp [h]

theorem onKey_made {f : Closure K Bool} {l : List ((K × Unit) × Bool)} (h : f.onKey.Made l) :
    f.Made (l.map fun x => (x.1.1, x.2)) := by
  obtain ⟨st, h⟩ := h
  generalize hs : (⟨st, l⟩ : f.onKey.Tr) = s at h
  have : ∀ s : f.onKey.Tr, f.onKey.Run s → f.Run ⟨s.st, s.calls.map fun x => (x.1.1, x.2)⟩ := by
    intro s h
    induction h with
    | start => exact .start
    | call h hc ih =>
      rw [List.map_append]
      exact .call ih hc
  rw [← hs] at h
  exact ⟨st, this _ h⟩

theorem kv_isSome {m : AMap K Unit} {k : K} {r : Option (Entry K Unit)} (h : Option.map Entry.kv r = m.at k) :
    (r.isSome = true ↔ k ∈ m.dom) ∧ (r.isNone = true ↔ k ∉ m.dom) ∧ r.map Entry.key = if m k = none then none else some k := by
  cases r with
  | none =>
    have : m k = none := at_none.1 h.symm
    simp [mem_dom, this]
  | some e =>
    obtain ⟨h1, h2⟩ := at_some.1 h.symm
    simp only [Entry.kv] at h1 h2
    simp [mem_dom, h2, h1]

/-- The specification of maps with values `()` is the specification of sets. -/
theorem seqSpec_set (c : SetCall K) {m m' : AMap K Unit} {r : c.toCall.Res} (h : SeqSpec c.toCall m r m') :
    SetSpec c m.dom (c.out r) m'.dom := by
  cases c with
  | contains k =>
    obtain ⟨h1, rfl⟩ := h
    exact ⟨(kv_isSome h1).1, rfl⟩
  | get k =>
    obtain ⟨h1, rfl⟩ := h
    refine ⟨?_, rfl⟩
    have := (kv_isSome h1).2.2
    by_cases hk : m' k = none
    · right; exact ⟨by simp [mem_dom, hk], by rw [if_pos hk] at this; exact this⟩
    · left; exact ⟨hk, by rw [if_neg hk] at this; exact this⟩
  | insert k =>
    obtain ⟨h1, rfl⟩ := h
    exact ⟨(kv_isSome h1).2.1, dom_put⟩
  | remove k =>
    obtain ⟨h1, rfl⟩ := h
    exact ⟨(kv_isSome h1).1, dom_put_none⟩
  | clear =>
    have h : m' = AMap.empty := h
    subst h
    show AMap.empty.dom = ∅
    ext k; simp [mem_dom, AMap.empty]
  | retain f =>
    obtain ⟨h1, h2⟩ := h
    refine ⟨onKey_made h1, fun k hk => ?_, fun k hk => ?_, fun k hk hn => ?_⟩
    · obtain ⟨v, hv⟩ := Option.ne_none_iff_exists'.1 hk
      have := ((h2 k v).1 hv).1
      rw [mem_dom, this]; simp
    · obtain ⟨v, hv⟩ := Option.ne_none_iff_exists'.1 hk
      exact List.mem_map.2 ⟨_, ((h2 k v).1 hv).2, rfl⟩
    · obtain ⟨v, hv⟩ := Option.ne_none_iff_exists'.1 hk
      rw [mem_dom, not_not] at hn
      exact List.mem_map.2 ⟨_, (h2 k v).2 hv hn, rfl⟩
  | iter =>
    obtain ⟨rfl, h1, h2⟩ := h
    refine ⟨rfl, h1, fun k => ?_⟩
    rw [mem_dom, Option.ne_none_iff_exists']
    constructor
    · intro h
      obtain ⟨e, he, rfl⟩ := List.mem_map.1 h
      exact ⟨e.val, (h2 _ _).1 ⟨e, he, rfl, rfl⟩⟩
    · rintro ⟨v, hv⟩
      obtain ⟨e, he, rfl, _⟩ := (h2 _ _).2 hv
      exact List.mem_map.2 ⟨e, he, rfl⟩
  | iterTake n =>
    obtain ⟨rfl, h0, h1, h2, h3⟩ := h
    refine ⟨rfl, (List.length_map _).trans_le h0, h1, fun k h => ?_, fun hl k hk => ?_⟩
    · obtain ⟨e, he, rfl⟩ := List.mem_map.1 h
      rw [mem_dom, h2 e he]; simp
    · obtain ⟨v, hv⟩ := Option.ne_none_iff_exists'.1 hk
      obtain ⟨e, he, rfl, _⟩ := h3 ((List.length_map _).symm.trans_lt hl) k v hv
      exact List.mem_map.2 ⟨e, he, rfl⟩
  | len =>
    obtain ⟨rfl, F, h1, h2⟩ := h
    exact ⟨rfl, F, by ext k; exact (h1 k), h2⟩
  | isEmpty =>
    obtain ⟨rfl, h1⟩ := h
    refine ⟨rfl, h1.trans ?_⟩
    constructor
    · rintro rfl; ext k; simp [mem_dom, AMap.empty]
    · intro h
      funext k
      have : k ∉ m'.dom := by rw [h]; simp
      simpa [mem_dom, AMap.empty] using this
  | reserve n =>
    have h : m' = m := h
    subst h; rfl

theorem setContents_iff {σ : St K Unit} {m : AMap K Unit} (h : Contents σ m) : SetContents σ m.dom := by
  intro k
  rw [h k (), mem_dom]
  cases m k <;> simp

theorem SetContents.unique {σ : St K Unit} {s s' : Set K} (h : SetContents σ s) (h' : SetContents σ s') : s = s' := by
  ext k; rw [← h k, h' k]

/-- **C40** Every operation of a `HashSet` called while no writer is active behaves as the operation on mathematical sets. -/
theorem C40_sequential (c : SetCall K) (h : Alone C ps ps' o c.toCall) {r : c.toCall.Res} (hr : HEv.ret o c.toCall r ∈ ps'.hist)
    {s : Set K} (hs : SetContents ps.mem s) : ∃ s', SetContents ps'.mem s' ∧ SetSpec c s (c.out r) s' := by
  obtain ⟨_, m, _, hm⟩ := C01_linearizable h.reach
  obtain ⟨m', h1, h2⟩ := C46_sequential h hr hm
  have := (setContents_iff hm).unique hs
  rw [← this]
  exact ⟨m'.dom, setContents_iff h1, seqSpec_set c h2⟩

/-- A set with blocking resizing. -/
def cfgS : Cfg Nat := cfgB

/-- Guard 0 inserts the elements `0, .., n-1`. -/
def fillS (n : Nat) : List (Cmd Nat Unit) :=
  [.pin 0, .pin 1] ++ (List.range n).flatMap fun k => [.call 0 (.insert k ()), .fin 0 5000]

-- inserting an element that is there: the answer is `false`
example : ∃ ps ps' r s, Alone cfgS ps ps' (1, 1) (SetCall.insert 3).toCall ∧
    HEv.ret (1, 1) (SetCall.insert 3).toCall r ∈ ps'.hist ∧ SetContents ps.mem s ∧ (SetCall.insert 3).out r = false := by
  obtain ⟨ps, ps', r, h1, h4, h2, h3⟩ := demo_alone (C := cfgS) (V := Unit) (l1 := fillS 9) (l2 := [.fin 1 9000]) (t := 1)
    (c := (SetCall.insert 3).toCall) trivial (n := 1) (m := 18) (P2 := fun ps => true)
    (Q := fun | .insert _ _, r => Option.isSome r | _, _ => false) (by decide +kernel) (by decide +kernel)
  obtain ⟨_, m, _, hm⟩ := C01_linearizable h1.reach
  refine ⟨ps, ps', r, _, h1, h2, setContents_iff hm, ?_⟩
  have h3 : Option.isSome (α := Entry Nat Unit) r = true := h3
  show Option.isNone (α := Entry Nat Unit) r = false
  cases r with
  | none => cases h3
  | some e => rfl

/-- **C40** In every execution, with any number of threads, the operations `contains`, `get`, `insert`, `remove` of a
`HashSet` take effect atomically, in one order that respects the order of non-overlapping calls, each of them as specified
for mathematical sets; the memory represents the final set. -/
theorem C40_linearizable (h : Reach C ps) : ∃ L m, Linearization ps.hist L m ∧ SetContents ps.mem m.dom ∧
    ∀ o (c : SetCall K) (r : c.toCall.Res), HEv.ret o c.toCall r ∈ ps.hist → c.toCall.atomic = true →
      ∃ m1 m2, EffectAt ps.hist L o m1 m2 ∧ SetSpec c m1.dom (c.out r) m2.dom := by
  obtain ⟨L, m, hL, hm⟩ := C01_linearizable h
  refine ⟨L, m, hL, setContents_iff hm, fun o c r hr ha => ?_⟩
  obtain ⟨m1, m2, h1, h2⟩ := hL.effect hr ha
  refine ⟨m1, m2, h1, seqSpec_set c ?_⟩
  cases c <;> first | exact h2 | cases ha

example : ∃ ps o r, Reach cfgS ps ∧ HEv.ret o (SetCall.insert 3).toCall r ∈ ps.hist := by
  obtain ⟨ps, ps', r, h1, h4, h2, h3⟩ := demo_alone (C := cfgS) (V := Unit) (l1 := fillS 9) (l2 := [.fin 1 9000]) (t := 1)
    (c := (SetCall.insert 3).toCall) trivial (n := 1) (m := 18) (P2 := fun ps => true)
    (Q := fun | .insert _ _, r => Option.isSome r | _, _ => false) (by decide +kernel) (by decide +kernel)
  exact ⟨ps', (1, 1), r, h1.reach.steps h1.steps, h2⟩

variable {ι : Type} [DecidableEq ι] {Cs : ι → Cfg K} {qs qs' : ι → PSt K Unit} {m : ι → AMap K Unit}

/-- **C40** Equality of sets (src/set.rs:579-588: the `eq` of maps, ignoring the values) is extensional. -/
theorem C40_eq {i j : ι} {b : Bool} (h : (Client.eq i j fun _ _ => true).Runs Cs qs b qs') (hm : Represents qs m) :
    Represents qs' m ∧ (b = true ↔ (m i).dom = (m j).dom) := by
  obtain ⟨h1, h2⟩ := C39_eq h hm
  refine ⟨h1, h2.trans ?_⟩
  rw [Set.ext_iff]
  refine forall_congr' fun k => ?_
  rw [mem_dom, mem_dom]
  cases m i k <;> cases m j k <;> simp

theorem dom_lastBound {V : Type} {l : List (K × V)} {m : AMap K V} {k : K} :
    k ∈ (lastBound l m).dom ↔ k ∈ m.dom ∨ k ∈ l.map Prod.fst := by
  rw [mem_dom]
  unfold lastBound
  cases hx : l.reverse.find? (fun x => decide (x.1 = k)) with
  | none =>
    rw [List.find?_eq_none] at hx
    simp only [mem_dom, List.mem_map]
    constructor
    · exact .inl
    · rintro (h | ⟨x, h1, h2⟩)
      · exact h
      · exact absurd (hx x (by simpa using h1)) (by simp [h2])
  | some x =>
    have h1 : x ∈ l := by simpa using List.mem_of_find?_eq_some hx
    have h2 : x.1 = k := by simpa using List.find?_some hx
    simp only [ne_eq, reduceCtorEq, not_false_eq_true, true_iff]
    exact .inr (List.mem_map.2 ⟨x, h1, h2⟩)

/-- **C40** `extend` adds the elements of the sequence to the set — src/set.rs:614-633. -/
theorem C40_extend {i : ι} {hint : Nat} {l : List K} {u : Unit}
    (h : (Client.extend i hint (l.map fun k => (k, ()))).Runs Cs qs u qs') (hm : Represents qs m) :
    SetContents (qs' i).mem ((m i).dom ∪ {k | k ∈ l}) := by
  have := setContents_iff (C38_extend h hm i)
  simp only [Function.update_self] at this
  convert this using 1
  ext k
  rw [dom_lastBound]
  simp

/-- **C40** `from_iter`, `from`, deserialisation: the new set has exactly the elements of the sequence —
src/set.rs:650-683, src/serde_impls.rs:160-177. -/
theorem C40_fromIter {i : ι} {l : List K} {u : Unit} (h : (Client.fromIter i (l.map fun k => (k, ()))).Runs Cs qs u qs')
    (hm : Represents qs m) (hi : IsInit (Cs i) (qs i)) : SetContents (qs' i).mem {k | k ∈ l} := by
  have := setContents_iff (C38_fromIter h hm hi i)
  simp only [Function.update_self] at this
  convert this using 1
  ext k
  rw [dom_lastBound]
  simp [mem_dom, AMap.empty]

/-- **C40** `clone`: the new set has the same elements — src/set.rs:691-706. -/
theorem C40_clone {i j : ι} {clK : K → K} (hK : ∀ k, clK k = k) {u : Unit} (h : (Client.clone i j clK id).Runs Cs qs u qs')
    (hij : i ≠ j) (hm : Represents qs m) (hj : IsInit (Cs j) (qs j)) :
    SetContents (qs' i).mem (m i).dom ∧ SetContents (qs' j).mem (m i).dom := by
  have h1 := C38_clone hK h hij hm hj
  have h2 := setContents_iff (h1 i)
  have h3 := setContents_iff (h1 j)
  simp only [Function.update_self, Function.update_of_ne hij, Option.map_id, id_eq] at h2 h3
  exact ⟨h2, h3⟩

-- the hypotheses of these theorems: two equal sets; a set that is extended; a new set; a set that is cloned
example : (∃ qs qs' m, (Client.eq false true fun _ _ => true).Runs (fun _ => cfgS) qs true qs' ∧ Represents (V := Unit) qs m) ∧
    (∃ qs qs' m, (Client.extend false 3 ([3, 20, 20].map fun k => (k, ()))).Runs (fun _ => cfgS) qs () qs' ∧
      Represents (V := Unit) qs m) ∧
    (∃ qs qs' m, (Client.fromIter true ([3, 20, 20].map fun k => (k, ()))).Runs (fun _ => cfgS) qs () qs' ∧
      Represents (V := Unit) qs m ∧ IsInit cfgS (qs true)) ∧
    ∃ qs qs' m, (Client.clone false true id id).Runs (fun _ => cfgS) qs () qs' ∧
      Represents (V := Unit) qs m ∧ IsInit cfgS (qs true) := by
  refine ⟨?_, ?_, ?_, ?_⟩
  · obtain ⟨ps, a, ps', h1, h2, h3⟩ := demo_client (C := fun _ => cfgS) (t := 1) (fuel := 9000)
      (l := fun i => fillS 9) (p := .eq false true fun _ _ => true) (V := Unit) (P := fun x => x.1) eq_wf (by decide +kernel)
    obtain ⟨m, hm⟩ := represents_exists fun i => runMap_reach (h1 i)
    have h3 : a = true := h3
    subst h3
    exact ⟨ps, ps', m, h2, hm⟩
  · obtain ⟨ps, a, ps', h1, h2, h3⟩ := demo_client (C := fun _ => cfgS) (t := 1) (fuel := 9000)
      (l := fun i => fillS 9) (p := .extend false 3 ([3, 20, 20].map fun k => (k, ()))) (V := Unit) (P := fun x => true)
      ⟨trivial, fun _ => ⟨trivial, fun _ => inserts_wf⟩⟩ (by decide +kernel)
    obtain ⟨m, hm⟩ := represents_exists fun i => runMap_reach (h1 i)
    exact ⟨ps, ps', m, h2, hm⟩
  · obtain ⟨ps, a, ps', h1, h2, h3⟩ := demo_client (C := fun _ => cfgS) (t := 1) (fuel := 9000)
      (l := fun _ => []) (p := .fromIter true ([3, 20, 20].map fun k => (k, ()))) (V := Unit) (P := fun x => true)
      inserts_wf (by decide +kernel)
    obtain ⟨m, hm⟩ := represents_exists fun i => runMap_reach (h1 i)
    exact ⟨ps, ps', m, h2, hm, runMap_nil (h1 true)⟩
  · obtain ⟨ps, a, ps', h1, h2, h3⟩ := demo_client (C := fun _ => cfgS) (t := 1) (fuel := 9000)
      (l := fun i => cond i [] (fillS 9)) (p := .clone false true id id) (V := Unit) (P := fun x => true)
      ⟨trivial, fun _ => inserts_wf⟩ (by decide +kernel)
    obtain ⟨m, hm⟩ := represents_exists fun i => runMap_reach (h1 i)
    exact ⟨ps, ps', m, h2, hm, runMap_nil (h1 true)⟩

end Papaya
