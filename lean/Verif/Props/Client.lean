import Verif.Exec.Client

/-! # Bulk construction, cloning, equality, serialisation (C38, C39) -/

set_option linter.unusedSectionVars false
set_option linter.unusedVariables false

namespace Papaya

variable {ι K V α : Type} [DecidableEq K] [DecidableEq ι]

variable {C : ι → Cfg K} {ps ps' : ι → PSt K V} {m m' : ι → AMap K V}

/-- The maps represented by the memories. -/
def Represents (ps : ι → PSt K V) (m : ι → AMap K V) : Prop := ∀ i, Contents (ps i).mem (m i)

/-- Executions of clients agree with the specification. -/
theorem Client.Runs.spec {p : Client ι K V α} {a : α} (h : p.Runs C ps a ps') :
    ∀ {m}, Represents ps m → ∃ m', Represents ps' m' ∧ p.Spec m a m' := by
  induction h with
  | ret => exact fun hm => ⟨_, hm, .ret⟩
  | call h hr hk ih =>
    intro m hm
    rename_i ps i c k a ps' o q r
    obtain ⟨x, hx1, hx2⟩ := C46_sequential h hr (hm i)
    obtain ⟨m', h1, h2⟩ := ih (m := Function.update m i x) (by
      intro j
      by_cases hj : j = i
      · subst hj; simpa using hx1
      · simpa [hj] using hm j)
    exact ⟨m', h1, .call hx2 h2⟩

theorem represents_exists (h : ∀ i, Reach (C i) (ps i)) : ∃ m, Represents ps m := by
  have : ∀ i, ∃ m, Contents (ps i).mem m := fun i => by
    obtain ⟨_, m, _, hm⟩ := C01_linearizable (h i)
    exact ⟨m, hm⟩
  choose m hm using this
  exact ⟨m, hm⟩

theorem Contents.unique {σ : St K V} {m m' : AMap K V} (h : Contents σ m) (h' : Contents σ m') : m = m' := by
  funext k
  apply Option.ext
  intro v
  rw [← h k v, h' k v]

theorem Represents.unique (h : Represents ps m) (h' : Represents ps m') : m = m' := funext fun i => (h i).unique (h' i)

/-- A new map is empty. -/
theorem contents_init {C : Cfg K} {ps : PSt K V} (h : IsInit C ps) : Contents ps.mem AMap.empty := by
  obtain ⟨L, m, hL, hm⟩ := C01_linearizable (.init h)
  have hh : ps.hist = [] := h.2.2.2.2
  have hrun := hL.legal
  have hL0 : L = [] := by
    cases L with
    | nil => rfl
    | cons x L =>
      have := hL.called x (by simp)
      rw [hh] at this; cases this
  subst hL0
  cases hrun
  exact hm

/-- The value of `k` after inserting the pairs `l`, in this order, into `m`: the last one in the list, if there is one. -/
def lastBound (l : List (K × V)) (m : AMap K V) : AMap K V := fun k =>
  match l.reverse.find? (fun x => decide (x.1 = k)) with
  | some x => some x.2
  | none => m k

theorem lastBound_cons (x : K × V) (l : List (K × V)) (m : AMap K V) :
    lastBound (x :: l) m = lastBound l (m.put x.1 (some x.2)) := by
  funext k
  unfold lastBound AMap.put
  rw [List.reverse_cons, List.find?_append]
  cases h : l.reverse.find? (fun x => decide (x.1 = k)) with
  | some y => simp
  | none =>
    by_cases hk : x.1 = k
    · simp [List.find?_cons, hk]
    · simp [List.find?_cons, hk, Ne.symm hk]

theorem inserts_spec {i : ι} {l : List (K × V)} {u : Unit} (h : (Client.inserts i l).Spec m u m') :
    m' = Function.update m i (lastBound l (m i)) := by
  induction l generalizing m with
  | nil =>
    cases h
    exact (Function.update_eq_self i _).symm
  | cons x l ih =>
    cases h with
    | call h hk =>
      have := ih hk
      rw [this, lastBound_cons, h.2]
      simp

/-- **C38** `extend`: afterwards every key of the sequence is bound to its last value in the sequence, the other keys to
what they were bound to before — whatever the size hint of the iterator. -/
theorem C38_extend {i : ι} {hint : Nat} {l : List (K × V)} {u : Unit} (h : (Client.extend i hint l).Runs C ps u ps')
    (hm : Represents ps m) : Represents ps' (Function.update m i (lastBound l (m i))) := by
  obtain ⟨m', h1, h2⟩ := h.spec hm
  cases h2 with
  | call h3 h4 =>
    cases h4 with
    | call h5 h6 =>
      have := inserts_spec h6
      rw [h3.1] at h5 this
      have h5 : _ = _ := h5
      simp only [Function.update_eq_self] at h5 this
      rw [h5] at this
      simp only [Function.update_eq_self] at this
      rw [← this]; exact h1

-- map `false` has nine keys and a resize in progress; one key is replaced, one is new and occurs twice
example : ∃ ps ps' m, (Client.extend false 3 [(3, 7), (20, 1), (20, 2)]).Runs (fun _ => cfgI) ps () ps' ∧
    Represents (V := Nat) ps m ∧ (ps false).mem.root = some 0 ∧ (ps false).mem.next 0 = some 1 := by
  obtain ⟨ps, a, ps', h1, h2, h3⟩ := demo_client (C := fun _ => cfgI) (t := 1) (fuel := 9000) (l := fun i => cond i [] (fill 9))
    (p := .extend false 3 [(3, 7), (20, 1), (20, 2)]) (V := Nat) (P := fun _ => true)
    ⟨trivial, fun _ => ⟨trivial, fun _ => inserts_wf⟩⟩ (by decide +kernel)
  obtain ⟨m, hm⟩ := represents_exists fun i => runMap_reach (h1 i)
  have h4 : (runMap cfgI (fill 9 : List (Cmd Nat Nat))).any (fun ps => ps.mem.root == some 0 && ps.mem.next 0 == some 1) = true := by
    decide +kernel
  rw [show runMap cfgI (fill 9) = some (ps false) from h1 false] at h4
  simp only [Option.any_some, Bool.and_eq_true, beq_iff_eq] at h4
  exact ⟨ps, ps', m, h2, hm, h4⟩

theorem Represents.init {i : ι} (hm : Represents ps m) (hi : IsInit (C i) (ps i)) : m i = AMap.empty :=
  (hm i).unique (contents_init hi)

/-- **C38** `from_iter`, `from`, deserialisation: the new map binds exactly the keys of the sequence, each of them to its
last value — whatever the capacity the map was created with (`C i` is arbitrary). -/
theorem C38_fromIter {i : ι} {l : List (K × V)} {u : Unit} (h : (Client.fromIter i l).Runs C ps u ps')
    (hm : Represents ps m) (hi : IsInit (C i) (ps i)) :
    Represents ps' (Function.update m i (lastBound l AMap.empty)) := by
  obtain ⟨m', h1, h2⟩ := h.spec hm
  rw [inserts_spec h2, hm.init hi] at h1
  exact h1

/-- **C38** The capacity requested by `from_iter` is a `usize` for every size hint, and the number of elements the
iterator announces if that is one. -/
theorem C38_fromIter_capacity (hint : Nat) (l : List (K × V)) :
    Client.fromIterCapacity hint l < 2 ^ 64 ∧ (l = [] → Client.fromIterCapacity hint l = 0) ∧
    (l ≠ [] → hint + 1 < 2 ^ 64 → Client.fromIterCapacity hint l = hint + 1) ∧
    (l ≠ [] → 2 ^ 64 ≤ hint + 1 → Client.fromIterCapacity hint l = 2 ^ 64 - 1) := by
  unfold Client.fromIterCapacity
  cases l with
  | nil => simp
  | cons x l =>
    simp only [List.isEmpty_cons, Bool.false_eq_true, if_false]
    refine ⟨by omega, by simp, fun _ h => by omega, fun _ h => by omega⟩

-- the largest possible hint
example : Client.fromIterCapacity (2 ^ 64 - 1) [(1, 2)] = 2 ^ 64 - 1 := by decide

-- a sequence with a repeated key, in a map of capacity 3
example : ∃ ps ps' m, (Client.fromIter false [(3, 7), (20, 1), (3, 2)]).Runs (fun _ => { cfgI with capacity := 3 }) ps () ps' ∧
    Represents (V := Nat) ps m ∧ IsInit { cfgI with capacity := 3 } (ps false) := by
  obtain ⟨ps, a, ps', h1, h2, h3⟩ := demo_client (C := fun _ => { cfgI with capacity := 3 }) (t := 1) (fuel := 9000) (l := fun _ => [])
    (p := .fromIter false [(3, 7), (20, 1), (3, 2)]) (V := Nat) (P := fun _ => true)
    inserts_wf (by decide +kernel)
  obtain ⟨m, hm⟩ := represents_exists fun i => runMap_reach (h1 i)
  exact ⟨ps, ps', m, h2, hm, runMap_nil (h1 false)⟩

theorem lastBound_nodup {l : List (K × V)} (h : (l.map Prod.fst).Nodup) {k : K} {v : V} :
    lastBound l AMap.empty k = some v ↔ (k, v) ∈ l := by
  unfold lastBound
  constructor
  · intro h1
    split at h1
    · rename_i x hx
      have hm := List.mem_of_find?_eq_some hx
      have hp := List.find?_some hx
      rw [List.mem_reverse] at hm
      cases h1
      have : x.1 = k := by simpa using hp
      rw [← this]; exact hm
    · cases h1
  · intro hm
    cases hx : l.reverse.find? (fun x => decide (x.1 = k)) with
    | none =>
      rw [List.find?_eq_none] at hx
      have := hx (k, v) (by simpa using hm)
      simp at this
    | some x =>
      have hm' := List.mem_of_find?_eq_some hx
      rw [List.mem_reverse] at hm'
      have hp : x.1 = k := by simpa using List.find?_some hx
      have : x = (k, v) := by
        rw [List.nodup_map_iff_inj_on (List.Nodup.of_map _ h)] at h
        exact h x hm' (k, v) hm hp
      rw [this]

/-- What an iteration over a map yields. -/
theorem iter_list {x : AMap K V} {r : List (Entry K V)} (h1 : (r.map Entry.key).Nodup)
    (h2 : ∀ k v, (∃ e : Entry K V, List.Mem e r ∧ e.key = k ∧ e.val = v) ↔ x k = some v) (clV : V → V) :
    lastBound (r.map fun e => (e.key, clV e.val)) AMap.empty = fun k => (x k).map clV := by
  funext k
  apply Option.ext
  intro v
  rw [lastBound_nodup (by rw [List.map_map]; exact h1), Option.map_eq_some_iff, List.mem_map]
  constructor
  · rintro ⟨e, he, h3⟩
    cases h3
    exact ⟨e.val, (h2 _ _).1 ⟨e, he, rfl, rfl⟩, rfl⟩
  · rintro ⟨v', h3, rfl⟩
    obtain ⟨e, he, rfl, rfl⟩ := (h2 _ _).2 h3
    exact ⟨e, he, rfl⟩

/-- **C38** `clone`: the new map has the same keys, with cloned values; the original is unchanged (for clones of keys
that are equal to the original). -/
theorem C38_clone {i j : ι} {clK : K → K} {clV : V → V} (hK : ∀ k, clK k = k) {u : Unit}
    (h : (Client.clone i j clK clV).Runs C ps u ps') (hij : i ≠ j) (hm : Represents ps m) (hj : IsInit (C j) (ps j)) :
    Represents ps' (Function.update m j fun k => (m i k).map clV) := by
  obtain ⟨m', h1, h2⟩ := h.spec hm
  cases h2 with
  | call h3 h4 =>
    obtain ⟨h3, h5, h6⟩ := h3
    have := inserts_spec h4
    rw [h3] at this
    simp only [Function.update_eq_self, hm.init hj, hK] at this
    rw [iter_list h5 h6] at this
    rw [← this]; exact h1

-- cloning the map with nine keys in the middle of a resize
example : ∃ ps ps' m, (Client.clone false true id id).Runs (fun _ => cfgI) ps () ps' ∧ Represents (V := Nat) ps m ∧
    IsInit cfgI (ps true) ∧ (ps' true).mem.nIds = 9 := by
  obtain ⟨ps, a, ps', h1, h2, h3⟩ := demo_client (C := fun _ => cfgI) (t := 1) (fuel := 9000) (l := fun i => cond i [] (fill 9))
    (p := .clone false true id id) (V := Nat) (P := fun x => (x.2 true).mem.nIds == 9)
    ⟨trivial, fun _ => inserts_wf⟩ (by decide +kernel)
  obtain ⟨m, hm⟩ := represents_exists fun i => runMap_reach (h1 i)
  exact ⟨ps, ps', m, h2, hm, runMap_nil (h1 true), by simpa using h3⟩

/-- **C38** Serialising a map and deserialising the result into a new map gives an equal map, which is what the original
still is. -/
theorem C38_roundtrip {i j : ι} {l : List (K × V)} {ps1 : ι → PSt K V} {u : Unit}
    (h : (Client.serialize i).Runs C ps l ps1) (h' : (Client.fromIter j l).Runs C ps1 u ps') (hij : i ≠ j)
    (hm : Represents ps m) (hj : IsInit (C j) (ps1 j)) :
    Represents ps1 m ∧ Represents ps' (Function.update m j (m i)) := by
  obtain ⟨m1, h1, h2⟩ := h.spec hm
  cases h2 with
  | call h3 h4 =>
    obtain ⟨h3, h5, h6⟩ := h3
    rw [h3, Function.update_eq_self] at h4
    cases h4
    refine ⟨h1, ?_⟩
    have h7 := C38_fromIter h' h1 hj
    have := iter_list h5 h6 id
    simp only [id_eq, Option.map_id_fun'] at this
    rw [this] at h7
    simpa using h7

-- serialising the map with nine keys in the middle of a resize, and reading it back
example : ∃ ps ps1 ps' m l, (Client.serialize false).Runs (fun _ => cfgI) ps l ps1 ∧
    (Client.fromIter true l).Runs (fun _ => cfgI) ps1 () ps' ∧ Represents (V := Nat) ps m ∧ IsInit cfgI (ps1 true) ∧ l.length = 9 := by
  obtain ⟨ps, a, ps', h1, h2, h3⟩ := demo_client (C := fun _ => cfgI) (t := 1) (fuel := 9000) (l := fun i => cond i [] (fill 9))
    (p := .call false .iter fun r => Client.andRet (List.map (fun e : Entry Nat Nat => (e.key, e.val)) r)
      (Client.fromIter true (List.map (fun e : Entry Nat Nat => (e.key, e.val)) r))) (V := Nat) (P := fun x => x.1.length == 9)
    ⟨trivial, fun _ => inserts_wf.andRet⟩ (by decide +kernel)
  obtain ⟨m, hm⟩ := represents_exists fun i => runMap_reach (h1 i)
  cases h2 with
  | call h4 h5 h6 =>
    obtain ⟨h7, rfl⟩ := h6.andRet
    refine ⟨ps, _, ps', m, _, .call h4 h5 .ret, h7, hm, ?_, by simpa using h3⟩
    rw [Function.update_of_ne (by decide)]
    exact runMap_nil (h1 true)

/-- Equality of maps: the same keys, with values that compare equal. -/
def EqMaps (veq : V → V → Bool) (x y : AMap K V) : Prop := ∀ k,
  match x k, y k with
  | none, none => True
  | some v, some w => veq v w = true
  | _, _ => False

theorem allEq_spec {j : ι} {veq : V → V → Bool} {l : List (Entry K V)} {b : Bool} (h : (Client.allEq j veq l).Spec m b m') :
    m' = m ∧ (b = true ↔ ∀ e ∈ l, ∃ w, m j e.key = some w ∧ veq e.val w = true) := by
  induction l with
  | nil => cases h; simp
  | cons e l ih =>
    cases h with
    | call h hk =>
      rename_i x r
      obtain ⟨h1, h2⟩ := h
      subst h2
      rw [Function.update_eq_self] at hk
      dsimp only at hk
      have hr : (∃ w, m j e.key = some w ∧ veq e.val w = true) ↔ Option.any (fun e' : Entry K V => veq e.val e'.val) r = true := by
        cases r with
        | none =>
          have : m j e.key = none := at_none.1 h1.symm
          simp [this]
        | some e' =>
          have := (at_some.1 h1.symm).2
          simp only [Entry.kv] at this
          simp [this]
      rw [List.forall_mem_cons, hr]
      split at hk
      · rename_i hb
        obtain ⟨h3, h4⟩ := ih hk
        exact ⟨h3, by rw [h4]; simp [hb]⟩
      · rename_i hb
        cases hk
        exact ⟨rfl, by simp [hb]⟩

/-- **C39** `a == b` is true exactly if both maps have the same keys, bound to values that compare equal; it changes
neither map. Capacities, hash functions, numbers of tables and histories do not matter. (`i = j` compares a map with
itself.) -/
theorem C39_eq {i j : ι} {veq : V → V → Bool} {b : Bool} (h : (Client.eq i j veq).Runs C ps b ps') (hm : Represents ps m) :
    Represents ps' m ∧ (b = true ↔ EqMaps veq (m i) (m j)) := by
  obtain ⟨m', h1, h2⟩ := h.spec hm
  cases h2 with
  | call h3 h4 =>
    obtain ⟨h3, F, hF, hn⟩ := h3
    rw [h3, Function.update_eq_self] at h4
    cases h4 with
    | call h5 h6 =>
      obtain ⟨h5, G, hG, hn'⟩ := h5
      rw [h5, Function.update_eq_self] at h6
      have hEq : EqMaps veq (m i) (m j) ↔ F.card = G.card ∧ ∀ k v, m i k = some v → ∃ w, m j k = some w ∧ veq v w = true := by
        constructor
        · intro he
          constructor
          · congr 1
            ext k
            rw [hF, hG]
            have := he k
            cases hi : m i k <;> cases hj : m j k <;> rw [hi, hj] at this <;> simp at this ⊢
          · intro k v hv
            have := he k
            rw [hv] at this
            cases hj : m j k with
            | none => rw [hj] at this; exact this.elim
            | some w => rw [hj] at this; exact ⟨w, rfl, this⟩
        · rintro ⟨hc, ha⟩ k
          have hsub : F ⊆ G := by
            intro k hk
            rw [hF, Option.ne_none_iff_exists'] at hk
            obtain ⟨v, hv⟩ := hk
            obtain ⟨w, hw, _⟩ := ha k v hv
            rw [hG, hw]; simp
          have hFG := Finset.eq_of_subset_of_card_le hsub (by omega)
          cases hi : m i k with
          | some v =>
            obtain ⟨w, hw, hvw⟩ := ha k v hi
            rw [hw]; exact hvw
          | none =>
            have : k ∉ G := by rw [← hFG, hF, hi]; simp
            rw [hG] at this
            have : m j k = none := by simpa using this
            rw [this]; trivial
      rw [hEq, hn, hn']
      dsimp only at h6
      split at h6
      · rename_i hb
        cases h6 with
        | call h7 h8 =>
          obtain ⟨h7, h9, h10⟩ := h7
          rw [h7, Function.update_eq_self] at h8
          obtain ⟨h11, h12⟩ := allEq_spec h8
          subst h11
          refine ⟨h1, h12.trans ⟨fun h => ⟨Nat.eq_of_beq_eq_true hb, fun k v hv => ?_⟩, fun h e he => ?_⟩⟩
          · obtain ⟨e, he, rfl, rfl⟩ := (h10 k v).2 hv
            exact h e he
          · exact h.2 _ _ ((h10 _ _).1 ⟨e, he, rfl, rfl⟩)
      · rename_i hb
        cases h6
        refine ⟨h1, by simp, fun h => ?_⟩
        exact absurd (by rw [h.1]; exact Nat.beq_refl _) hb

-- two maps with the same nine keys, one of them in the middle of a resize, the other one created with capacity 100;
-- and a map with one key more
example : (∃ ps ps' m, (Client.eq false true fun v w => decide (v = w)).Runs (fun i => cond i { cfgI with capacity := 100 } cfgI) ps true ps' ∧
      Represents (V := Nat) ps m) ∧
    ∃ ps ps' m, (Client.eq false true fun v w => decide (v = w)).Runs (fun i => cond i { cfgI with capacity := 100 } cfgI) ps false ps' ∧
      Represents (V := Nat) ps m := by
  constructor
  · obtain ⟨ps, a, ps', h1, h2, h3⟩ := demo_client (C := fun i => cond i { cfgI with capacity := 100 } cfgI) (t := 1) (fuel := 9000)
      (l := fun i => fill 9) (p := .eq false true fun v w => decide (v = w)) (V := Nat) (P := fun x => x.1) eq_wf (by decide +kernel)
    obtain ⟨m, hm⟩ := represents_exists fun i => runMap_reach (h1 i)
    have h3 : a = true := h3
    subst h3
    exact ⟨ps, ps', m, h2, hm⟩
  · obtain ⟨ps, a, ps', h1, h2, h3⟩ := demo_client (C := fun i => cond i { cfgI with capacity := 100 } cfgI) (t := 1) (fuel := 9000)
      (l := fun i => cond i (fill 8) (fill 9)) (p := .eq false true fun v w => decide (v = w)) (V := Nat) (P := fun x => !x.1) eq_wf
      (by decide +kernel)
    obtain ⟨m, hm⟩ := represents_exists fun i => runMap_reach (h1 i)
    have h3 : a = false := by simpa using h3
    subst h3
    exact ⟨ps, ps', m, h2, hm⟩

/-- **C39** If the values are compared by equality, `a == b` is equality of maps. -/
theorem C39_eq_lawful [DecidableEq V] {i j : ι} {b : Bool} (h : (Client.eq i j fun v w => decide (v = w)).Runs C ps b ps')
    (hm : Represents ps m) : b = true ↔ m i = m j := by
  rw [(C39_eq h hm).2]
  constructor
  · intro he
    funext k
    have := he k
    cases hi : m i k <;> cases hj : m j k <;> rw [hi, hj] at this
    · exact this.elim
    · exact this.elim
    · simpa using this
  · intro he k
    rw [he]
    cases m j k <;> simp

/-- **C39** Equality of maps is reflexive, symmetric and transitive if equality of values is. -/
theorem C39_equivalence {veq : V → V → Bool} :
    ((∀ v, veq v v = true) → ∀ x : AMap K V, EqMaps veq x x) ∧
    ((∀ v w, veq v w = true → veq w v = true) → ∀ x y : AMap K V, EqMaps veq x y → EqMaps veq y x) ∧
    ((∀ u v w, veq u v = true → veq v w = true → veq u w = true) →
      ∀ x y z : AMap K V, EqMaps veq x y → EqMaps veq y z → EqMaps veq x z) := by
  refine ⟨fun hr x k => ?_, fun hs x y h k => ?_, fun ht x y z h1 h2 k => ?_⟩
  · cases x k <;> simp [hr]
  · have := h k
    revert this
    cases x k <;> cases y k <;> simp
    exact hs _ _
  · have a := h1 k
    have b := h2 k
    revert a b
    cases x k <;> cases y k <;> cases z k <;> simp
    exact ht _ _ _

end Papaya
