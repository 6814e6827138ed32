import Verif.Proof.LockFree

/-! # Counting the steps of each operation while the map is not resized -/

set_option linter.unusedSectionVars false
set_option linter.unusedVariables false

namespace Papaya

variable {K V : Type} [DecidableEq K] {C : Cfg K} {al : Bool} {T : Table} {κ : Know K V} {m b w : Nat} {α : Type}

/-- Postconditions. -/
abbrev LPost (K V : Type) (α : Type) := α → Know K V → Nat → Nat → Nat → Prop

/-! ## Allocation, retirement -/

theorem lf_len {Q : LPost K V Nat} {x : Nat} (hb : x + 2 * C.shards + 3 ≤ b) (h : ∀ r κ' m' b', x ≤ b' → Q r κ' m' b' w) :
    LF al T κ m b w (len (V := V) C) Q := by
  unfold len
  refine LF.bind (LF.loop (fun s _ b' w' => w' = w ∧ s.1 ≤ C.shards + 1 ∧ x + 2 * (C.shards + 1 - s.1) + 1 ≤ b') ?_ ⟨rfl, by omega, by
    show x + 2 * (C.shards + 1 - 0) + 1 ≤ b; omega⟩)
  rintro ⟨j, acc⟩ κ m b w' ⟨rfl, h1, h2⟩
  refine ⟨b - 1, by omega, ?_⟩
  simp only at h1 h2 ⊢
  split
  · refine LF.plain rfl (by omega) fun r κ' m' b' _ hc => ?_
    have := hc.le
    exact .ret ⟨rfl, by show j + 1 ≤ _; omega, by show x + 2 * (C.shards + 1 - (j + 1)) + 1 ≤ _; omega⟩
  · exact .ret (.ret (h _ _ _ _ (by omega)))

theorem lf_allocNextLocked {cap : Option Nat} {Q : LPost K V Table} (hb : 2 * C.shards + 6 ≤ b) :
    LF true T κ m b w (allocNextLocked (V := V) C cap T) Q := by
  unfold allocNextLocked
  refine LF.plain rfl (by omega) fun r κ' m' b' hr hc => ?_
  obtain rfl := hr.1 rfl
  have := hc.le
  refine LF.bind (lf_len (x := 2) (by omega) fun active κ' m' b' hb => ?_)
  have hpo : ∀ why : PanicReason, LF true T κ' m' b' w ((A.poison T.id).bind fun _ => (Prog.panic why : Prog K V Table)) Q := fun why =>
    LF.plain rfl (by omega) fun r κ' m' b' _ hc => LF.panic' (by have := hc.le; omega)
  simp only
  split
  · split
    · split
      · exact LF.plain rfl (by omega) fun r κ' m' b' hr hc => absurd rfl hr.1
      · exact hpo _
    · exact hpo _
  · exact hpo _

/-- What it costs to start a resize. -/
def allocCost (C : Cfg K) : Nat := 2 * C.shards + 2 * C.spinAlloc + 12

theorem lf_getOrAllocNext {cap : Option Nat} {Q : LPost K V Table} (hb : allocCost C ≤ b) :
    LF true T κ m b w (getOrAllocNext (V := V) C cap T) Q := by
  unfold allocCost at hb
  unfold getOrAllocNext
  refine LF.plain rfl (by omega) fun r κ' m' b' hr hc => ?_
  obtain rfl := hr.1 rfl
  have := hc.le
  refine LF.plain rfl (by omega) fun r κ' m' b' hr hc => ?_
  have := hc.le
  cases r with
  | true => exact lf_allocNextLocked (by omega)
  | false =>
    simp only [Bool.false_eq_true, ↓reduceIte]
    refine LF.bind (LF.loop (Q := fun r κ' m' b' w' => LF true T κ' m' b' w' _ Q)
      (fun s _ b' w' => w' = w ∧ s ≤ C.spinAlloc + 1 ∧ 2 * C.shards + 7 + 2 * (C.spinAlloc + 1 - s) + 1 ≤ b') ?_
      ⟨rfl, by omega, by omega⟩)
    rintro s κ m b w' ⟨rfl, h1, h2⟩
    refine ⟨b - 1, by omega, ?_⟩
    split
    · refine LF.plain rfl (by omega) fun r κ' m' b' hr hc => ?_
      obtain rfl := hr.1 rfl
      have := hc.le
      exact .ret ⟨rfl, by omega, by omega⟩
    · refine .ret ?_
      show LF true T _ _ _ _ _ Q
      refine LF.plain rfl (by omega) fun r κ' m' b' hr hc => ?_
      have := hc.le
      cases r with
      | true => exact lf_allocNextLocked (by omega)
      | false => exact LF.panic' (by omega)

theorem lf_prepareRetryInsert {help : Bool} {Q : LPost K V Table} (hb : allocCost C ≤ b) :
    LF true T κ m b w (prepareRetryInsert (V := V) C none help T) Q := by
  unfold prepareRetryInsert
  exact LF.bind (lf_getOrAllocNext hb)

theorem lf_deferRetire {e : Entry K V} {s : Slot K V} {Q : LPost K V Unit} {x : Nat} (hb : x + 4 ≤ b)
    (h : ∀ κ' m' b', x ≤ b' → Q () κ' m' b' w) : LF al T κ m b w (deferRetire C e s T) Q := by
  have hret : ∀ κ m b, x + 1 ≤ b → LF al T κ m b w (A.retire e) Q := by
    intro κ m b hb
    have : LF al T κ m b w ((A.retire e).bind fun u => .ret u) Q :=
      LF.plain rfl (by omega) fun r κ' m' b' _ hc => .ret (h _ _ _ (by have := hc.le; omega))
    exact this
  unfold deferRetire
  cases C.mode with
  | blocking => exact hret _ _ _ (by omega)
  | incremental chunk =>
    simp only
    split
    · exact hret _ _ _ (by omega)
    · refine LF.plain rfl (by omega) fun r κ' m' b' hr hc => ?_
      obtain ⟨rfl, _⟩ := hr
      have := hc.le
      simp only
      obtain ⟨b', rfl⟩ : ∃ c, b' = c + 1 := ⟨b' - 1, by omega⟩
      refine LF.bind (LF.loop1 (LF.plain rfl (by omega) fun r κ' m' b' hr hc => ?_))
      obtain ⟨rfl, _⟩ := hr
      have := hc.le
      rw [decide_eq_true rfl]
      exact .ret ⟨true, rfl, hret _ _ _ (by omega)⟩

/-! ## `get` -/

theorem lf_getProbe {k : K} {Q : LPost K V (GetOut K V)} {x : Nat} (hb : x + 4 * (T.limit + 1) + 1 ≤ b)
    (h : ∀ r κ' m' b', x ≤ b' → Q r κ' m' b' w) : LF al T κ m b w (getProbe C k T) Q := by
  unfold getProbe
  refine LF.loop (fun (p : Probe) _ b' w' => w' = w ∧ x + 4 * (T.limit + 1 - p.len) + 1 ≤ b') ?_ ⟨rfl, by
    show x + 4 * (T.limit + 1 - 0) + 1 ≤ b; omega⟩
  rintro p κ m b w' ⟨rfl, h1⟩
  refine ⟨b - 1, by omega, ?_⟩
  have hnext : ∀ κ m b', p.len ≤ T.limit → b ≤ b' + 4 → LF al T κ m b' w' (.ret (Sum.inl (p.next T.mask)) : Prog K V (Probe ⊕ GetOut K V))
      (fun y κ' m' b'' w'' => Sum.elim (fun (p : Probe) => w'' = w' ∧ x + 4 * (T.limit + 1 - p.len) + 1 ≤ b'') (fun r => Q r κ' m' b'' w'') y) := by
    intro κ m b' hp hle
    refine .ret ⟨rfl, ?_⟩
    show x + 4 * (T.limit + 1 - (p.len + 1)) + 1 ≤ b'
    omega
  split
  · rename_i hp
    refine LF.plain rfl (by omega) fun md κ' m' b' _ hc => ?_
    have := hc.le
    split
    · refine LF.loadSlot (by omega) fun s m' b' _ _ => ?_
      split
      · exact hnext _ _ _ hp (by omega)
      · refine LF.plain rfl (by omega) fun _ κ' m' b' _ hc => ?_
        have := hc.le
        split
        · split
          · exact .ret (h _ _ _ _ (by omega))
          · exact .ret (h _ _ _ _ (by omega))
        · split
          · exact .ret (h _ _ _ _ (by omega))
          · exact hnext _ _ _ hp (by omega)
    · split
      · exact .ret (h _ _ _ _ (by omega))
      · exact hnext _ _ _ hp (by omega)
  · exact .ret (h _ _ _ _ (by omega))

theorem lf_get {k : K} {Q : LPost K V (Option (Entry K V))} {x : Nat} (hb : x + 4 * (T.limit + 1) + 4 ≤ b)
    (h : ∀ r κ' m' b', x ≤ b' → Q r κ' m' b' w) : LF al T κ m b w (get C k) Q := by
  unfold get
  refine LF.plain rfl (by omega) fun r κ' m' b' hr hc => ?_
  obtain ⟨rfl, _⟩ := hr
  have := hc.le
  simp only
  obtain ⟨b', rfl⟩ : ∃ c, b' = c + 1 := ⟨b' - 1, by omega⟩
  refine LF.loop1 (LF.bind (lf_getProbe (x := x + 1) (by omega) fun r κ' m' b' _ => ?_))
  cases r with
  | found e => exact .ret ⟨_, rfl, h _ _ _ _ (by omega)⟩
  | absent => exact .ret ⟨_, rfl, h _ _ _ _ (by omega)⟩
  | nextTable =>
    show LF al T _ _ _ _ (ite _ _ _) _
    split
    · refine LF.plain rfl (by omega) fun r κ' m' b' hr hc => ?_
      obtain rfl := hr.1 rfl
      have := hc.le
      exact .ret ⟨_, rfl, h _ _ _ _ (by omega)⟩
    · exact .ret ⟨_, rfl, h _ _ _ _ (by omega)⟩

/-! ## Inserting and updating -/

theorem lf_insertAt {i md : Nat} {k : K} {v : V} {Q : LPost K V (InsStat K V)} {x : Nat} (hb : x + 4 ≤ b) (hw : 1 ≤ w)
    (h1 : ∀ e κ' m' b', x ≤ b' → Q (.inserted e) κ' m' b' (w - 1))
    (h2 : ∀ e s κ' m' b', s.copying = false → Pot κ' (T.id, i, s) x b' → Q (.found (.value e s)) κ' m' b' w)
    (h3 : ∀ κ' m' b', x ≤ b' → Q (.found .null) κ' m' b' w) :
    LF al T κ m b w (insertAt C i md k v T) Q := by
  unfold insertAt
  refine LF.casNew1 (by omega) hw (fun e κ' m' b' hb => ?_) fun s m' b' hs hb => ?_
  · refine LF.plain rfl (by omega) fun r κ' m' b' hr hc => ?_
    have := hc.le
    exact .ret (h1 _ _ _ _ (by omega))
  · have hp : Pot (some (T.id, i, s)) (T.id, i, s) (x + 3) b' := .inl ⟨rfl, by omega⟩
    show LF al T _ _ _ _ (match s.ptr with | some e => _ | none => _) _
    split
    · refine LF.plain rfl (by omega) fun r κ' m' b' hr hc => ?_
      have hp := hc.pot _ (x + 2) hp
      have := hc.le
      refine LF.plain rfl (by omega) fun r κ' m' b' hr hc => ?_
      have hp := hc.pot _ (x + 1) hp
      have := hc.le
      split
      · refine LF.plain rfl (by omega) fun r κ' m' b' hr hc => ?_
        exact .ret (h2 _ _ _ _ _ hs (hc.pot _ x hp))
      · exact .ret (h2 _ _ _ _ _ hs (hp.mono (by omega)))
    · refine LF.plain rfl (by omega) fun r κ' m' b' hr hc => ?_
      have := hc.le
      split
      · refine LF.plain rfl (by omega) fun r κ' m' b' hr hc => ?_
        have := hc.le
        exact .ret (h3 _ _ _ (by omega))
      · exact .ret (h3 _ _ _ (by omega))

theorem lf_updateAtNew {i : Nat} {e : Entry K V} {cur : Slot K V} {k : K} {v : V} {Q : LPost K V (UpdStat K V)} {x : Nat}
    (hp : Pot κ (T.id, i, cur) (x + 5) b) (hw : 1 ≤ w)
    (h1 : ∀ e κ' m' b', x ≤ b' → Q (.replaced (some e)) κ' m' b' (w - 1))
    (h2 : ∀ s m' b', s.copying = false → x + 8 ≤ b' → Q (.found (EStat.from s)) (some (T.id, i, s)) m' b' w) :
    LF al T κ m b w (updateAtNew C i e cur k v T) Q := by
  unfold updateAtNew
  refine LF.casNew (x := x + 4) hp hw (fun e κ' m' b' hb => ?_) fun s m' b' hs hb => ?_
  · exact LF.bind (lf_deferRetire hb fun κ' m' b' hb => .ret (h1 _ _ _ _ hb))
  · exact .ret (h2 _ _ _ hs hb)

theorem lf_updateAtTomb {i : Nat} {e : Entry K V} {cur : Slot K V} {Q : LPost K V (UpdStat K V)} {x : Nat}
    (hp : Pot κ (T.id, i, cur) (x + 5) b) (hw : 1 ≤ w)
    (h1 : ∀ κ' m' b', x ≤ b' → Q (.replaced none) κ' m' b' (w - 1))
    (h2 : ∀ s m' b', s.copying = false → x + 8 ≤ b' → Q (.found (EStat.from s)) (some (T.id, i, s)) m' b' w) :
    LF al T κ m b w (updateAtTomb C i e cur T) Q := by
  unfold updateAtTomb
  refine LF.cas (x := x + 4) hp hw (fun κ' m' b' hb => ?_) fun s m' b' hs hb => ?_
  · exact LF.bind (lf_deferRetire hb fun κ' m' b' hb => .ret (h1 _ _ _ hb))
  · exact .ret (h2 _ _ _ hs hb)

theorem EStat.from_calm {s : Slot K V} (h : s.copying = false) : EStat.from s = .null ∨ ∃ e, EStat.from s = .value e s := by
  unfold EStat.from
  cases s.ptr with
  | none => exact .inl rfl
  | some e => simp only [h]; exact .inr ⟨e, rfl⟩

theorem lf_insertSlow {i : Nat} {e : Entry K V} {cur : Slot K V} {k : K} {v : V} {Q : LPost K V ((Entry K V × Entry K V) ⊕ EStat K V)}
    {x : Nat} (hp : Pot κ (T.id, i, cur) (x + 6) b) (hw : 1 ≤ w)
    (h1 : ∀ y κ' m' b', x ≤ b' → Q (.inl y) κ' m' b' (w - 1))
    (h2 : ∀ κ' m' b', x ≤ b' → Q (.inr .null) κ' m' b' w) :
    LF al T κ m b w (insertSlow C i e cur k v T) Q := by
  unfold insertSlow
  refine LF.loop (fun (y : Entry K V × Slot K V) κ' b' w' => w' = w ∧ Pot κ' (T.id, i, y.2) (x + 6) b') ?_ ⟨rfl, hp⟩
  rintro ⟨e, cur⟩ κ m b w' ⟨rfl, hp⟩
  have := hp.le
  refine ⟨b - 1, by omega, ?_⟩
  have hp1 : Pot κ (T.id, i, cur) (x + 5) (b - 1) := by
    rcases hp with ⟨h1, h2⟩ | h2
    · exact .inl ⟨h1, by omega⟩
    · exact .inr (by omega)
  refine LF.bind (lf_updateAtNew hp1 hw (fun e κ' m' b' hb => .ret (h1 _ _ _ _ hb)) fun s m' b' hs hb => ?_)
  rcases EStat.from_calm hs with h | ⟨e, h⟩
  · rw [h]; exact .ret (h2 _ _ _ (by omega))
  · rw [h]; exact .ret ⟨rfl, .inl ⟨rfl, by omega⟩⟩

theorem lf_insertFound {k : K} {v : V} {rep : Bool} {probe : Probe} {e : Entry K V} {s : Slot K V}
    {Q : LPost K V (Probe ⊕ WOut (InsRes K V))} {x : Nat} (hp : Pot κ (T.id, probe.i, s) (x + 7) b) (hs : s.copying = false) (hw : 1 ≤ w)
    (h1 : ∀ y κ' m' b' w', x ≤ b' → Q (.inr (.done y)) κ' m' b' w')
    (h2 : ∀ κ' m' b', x ≤ b' → Q (.inl (probe.next T.mask)) κ' m' b' w) :
    LF al T κ m b w (insertFound C k v rep T probe e s) Q := by
  unfold insertFound
  have := hp.le
  refine LF.plain rfl (by omega) fun r κ' m' b' hr hc => ?_
  have hp := hc.pot _ (x + 6) hp
  have := hp.le
  simp only [hs, Bool.false_eq_true, ↓reduceIte]
  split
  · split
    · exact .ret (h1 _ _ _ _ _ (by omega))
    · refine LF.bind (lf_insertSlow hp hw (fun y κ' m' b' hb => ?_) fun κ' m' b' hb => ?_)
      · exact .ret (h1 _ _ _ _ _ hb)
      · exact .ret (h2 _ _ _ hb)
  · exact .ret (h2 _ _ _ (by omega))

theorem lf_insertProbe {k : K} {v : V} {rep : Bool} {Q : LPost K V (WOut (InsRes K V))} {x : Nat} (hb : x + 13 * (T.limit + 1) + 1 ≤ b)
    (hw : 1 ≤ w) (h1 : ∀ y κ' m' b' w', x ≤ b' → Q (.done y) κ' m' b' w') (h2 : ∀ κ' m' b', x ≤ b' → Q (.retry none) κ' m' b' w) :
    LF al T κ m b w (insertProbe C k v rep T) Q := by
  unfold insertProbe
  refine LF.loop (fun (p : Probe) _ b' w' => w' = w ∧ x + 13 * (T.limit + 1 - p.len) + 1 ≤ b') ?_ ⟨rfl, by
    show x + 13 * (T.limit + 1 - 0) + 1 ≤ b; omega⟩
  rintro p κ m b w' ⟨rfl, hb⟩
  refine ⟨b - 1, by omega, ?_⟩
  have hn : ∀ κ m b', p.len ≤ T.limit → x + 13 * (T.limit + 1 - p.len) + 1 ≤ b' + 13 →
      LF al T κ m b' w' (.ret (Sum.inl (p.next T.mask)) : Prog K V (Probe ⊕ WOut (InsRes K V)))
      (fun y κ' m' b'' w'' => Sum.elim (fun (p : Probe) => w'' = w' ∧ x + 13 * (T.limit + 1 - p.len) + 1 ≤ b'') (fun r => Q r κ' m' b'' w'') y) := by
    intro κ m b' hp hle
    refine .ret ⟨rfl, ?_⟩
    show x + 13 * (T.limit + 1 - (p.len + 1)) + 1 ≤ b'
    omega
  split
  · rename_i hp
    obtain ⟨y, hy⟩ : ∃ y, x + 13 * (T.limit + 1 - p.len) + 1 = y + 13 := ⟨x + 13 * (T.limit - p.len) + 1, by omega⟩
    have hyx : x ≤ y := by omega
    have hfound : ∀ e s κ m b, s.copying = false → Pot κ (T.id, p.i, s) (y + 7) b →
        LF al T κ m b w' (insertFound C k v rep T p e s) (fun z κ' m' b'' w'' =>
          Sum.elim (fun (p : Probe) => w'' = w' ∧ x + 13 * (T.limit + 1 - p.len) + 1 ≤ b'') (fun r => Q r κ' m' b'' w'') z) := by
      intro e s κ m b hs hpt
      refine lf_insertFound hpt hs hw (fun z κ' m' b' w' hb => h1 _ _ _ _ _ (by omega)) fun κ' m' b' hb => ⟨rfl, ?_⟩
      show x + 13 * (T.limit + 1 - (p.len + 1)) + 1 ≤ b'
      omega
    refine LF.plain rfl (by omega) fun md κ' m' b' _ hc => ?_
    have := hc.le
    split
    · refine LF.bind (lf_insertAt (x := y + 7) (by omega) hw (fun e κ' m' b' hb => ?_) (fun e s κ' m' b' hs hpt => ?_) fun κ' m' b' hb => ?_)
      · exact .ret (h1 _ _ _ _ _ (by omega))
      · exact hfound _ _ _ _ _ hs hpt
      · exact hn _ _ _ hp (by omega)
    · split
      · refine LF.loadSlot (by omega) fun s m' b' hs hb => ?_
        cases s.ptr with
        | none => exact hn _ _ _ hp (by omega)
        | some e => exact hfound _ _ _ _ _ hs (.inl ⟨rfl, by omega⟩)
      · exact hn _ _ _ hp (by omega)
  · exact .ret (h2 _ _ _ (by omega))

theorem lf_insertInner {k : K} {v : V} {rep : Bool} {Q : LPost K V (InsRes K V)} {x : Nat}
    (hb : x + 13 * (T.limit + 1) + 3 + allocCost C ≤ b) (hw : 1 ≤ w) (h : ∀ r κ' m' b' w', x ≤ b' → Q r κ' m' b' w') :
    LF true T κ m b w (insertInner C k v rep) Q := by
  unfold insertInner
  refine LF.bind (LF.plain rfl (by omega) fun r κ' m' b' hr hc => ?_)
  obtain ⟨rfl, _⟩ := hr
  have := hc.le
  refine .ret ?_
  obtain ⟨b', rfl⟩ : ∃ c, b' = c + 1 := ⟨b' - 1, by omega⟩
  refine LF.loop1 (LF.bind (lf_insertProbe (x := x + allocCost C) (by omega) hw (fun y κ' m' b' w' hb => ?_) fun κ' m' b' hb => ?_))
  · exact .ret ⟨_, rfl, h _ _ _ _ _ (by omega)⟩
  · exact LF.bind (lf_prepareRetryInsert (by omega))

theorem lf_insert {k : K} {v : V} {rep : Bool} {Q : LPost K V (InsRes K V)} {x : Nat}
    (hb : x + 13 * (T.limit + 1) + 4 + allocCost C ≤ b) (hw : 1 ≤ w) (h : ∀ r κ' m' b' w', x ≤ b' → Q r κ' m' b' w') :
    LF true T κ m b w (insert C k v rep) Q := by
  unfold insert
  refine LF.bind (lf_insertInner (x := x + 1) (by omega) hw fun r κ' m' b' w' hb => ?_)
  cases r with
  | inserted e =>
    refine LF.plain rfl (by omega) fun r κ' m' b' _ hc => ?_
    have := hc.le
    exact .ret (h _ _ _ _ _ (by omega))
  | replaced old new => exact .ret (h _ _ _ _ _ (by omega))
  | error c v => exact .ret (h _ _ _ _ _ (by omega))

/-! ## Removing -/

theorem lf_invoke {I O : Type} {f : Closure I O} {st : f.Tr} {i : I} {Q : LPost K V (f.Tr × O)} (hb : 1 ≤ b)
    (h : ∀ r, (∃ s s', f.call s i = .ok (s', r.2)) → Q r κ m b w) : LF al T κ m b w (f.invoke st i) Q := by
  unfold Closure.invoke
  split
  · rename_i h1
    exact .ret (h _ ⟨_, _, h1⟩)
  · exact LF.panic' hb

theorem lf_removeLoop {f : Closure (K × V) Bool} {i : Nat} {st : f.Tr} {e : Entry K V} {s : Slot K V}
    {Q : LPost K V (f.Tr × WOut (RemRes K V))} {x : Nat} (hp : Pot κ (T.id, i, s) (x + 9) b) (hw : 1 ≤ w)
    (h : ∀ st y κ' m' b' w', x ≤ b' → Q (st, .done y) κ' m' b' w') : LF al T κ m b w (removeLoop C f T i st e s) Q := by
  unfold removeLoop
  refine LF.loop (fun (y : f.Tr × Entry K V × Slot K V) κ' b' w' => w' = w ∧ Pot κ' (T.id, i, y.2.2) (x + 9) b') ?_ ⟨rfl, hp⟩
  rintro ⟨st, e, s⟩ κ m b w' ⟨rfl, hp⟩
  have := hp.le
  refine ⟨b - 1, by omega, ?_⟩
  have hp1 : Pot κ (T.id, i, s) (x + 8) (b - 1) := by
    rcases hp with ⟨h1, h2⟩ | h2
    · exact .inl ⟨h1, by omega⟩
    · exact .inr (by omega)
  refine LF.plain rfl (by omega) fun r κ' m' b' _ hc => ?_
  have hp2 := hc.pot _ (x + 7) hp1
  have := hp2.le
  refine LF.bind (lf_invoke (by omega) fun r hr => ?_)
  obtain ⟨st, o⟩ := r
  simp only
  split
  · exact .ret (h _ _ _ _ _ _ (by omega))
  · refine LF.bind (lf_updateAtTomb (x := x + 2) hp2 hw (fun κ' m' b' hb => ?_) fun s m' b' hs hb => ?_)
    · refine LF.plain rfl (by omega) fun r κ' m' b' _ hc => ?_
      have := hc.le
      refine LF.plain rfl (by omega) fun r κ' m' b' _ hc => ?_
      have := hc.le
      exact .ret (h _ _ _ _ _ _ (by omega))
    · rcases EStat.from_calm hs with h' | ⟨e, h'⟩
      · rw [h']; exact .ret (h _ _ _ _ _ _ (by omega))
      · rw [h']; exact .ret ⟨rfl, .inl ⟨rfl, by show x + 9 ≤ _; omega⟩⟩

theorem lf_removeProbe {k : K} {f : Closure (K × V) Bool} {st : f.Tr} {Q : LPost K V (f.Tr × WOut (RemRes K V))} {x : Nat}
    (hb : x + 13 * (T.limit + 1) + 1 ≤ b) (hw : 1 ≤ w)
    (h : ∀ st y κ' m' b' w', x ≤ b' → (∀ i, y ≠ .retry (some i)) → Q (st, y) κ' m' b' w') :
    LF al T κ m b w (removeProbe C k f st T) Q := by
  unfold removeProbe
  refine LF.loop (fun (p : Probe) _ b' w' => w' = w ∧ x + 13 * (T.limit + 1 - p.len) + 1 ≤ b') ?_ ⟨rfl, by
    show x + 13 * (T.limit + 1 - 0) + 1 ≤ b; omega⟩
  rintro p κ m b w' ⟨rfl, hb⟩
  refine ⟨b - 1, by omega, ?_⟩
  have hn : ∀ κ m b', p.len ≤ T.limit → x + 13 * (T.limit + 1 - p.len) + 1 ≤ b' + 13 →
      LF al T κ m b' w' (.ret (Sum.inl (p.next T.mask)) : Prog K V (Probe ⊕ (f.Tr × WOut (RemRes K V))))
      (fun y κ' m' b'' w'' => Sum.elim (fun (p : Probe) => w'' = w' ∧ x + 13 * (T.limit + 1 - p.len) + 1 ≤ b'') (fun r => Q r κ' m' b'' w'') y) := by
    intro κ m b' hp hle
    refine .ret ⟨rfl, ?_⟩
    show x + 13 * (T.limit + 1 - (p.len + 1)) + 1 ≤ b'
    omega
  split
  · rename_i hp
    refine LF.plain rfl (by omega) fun md κ' m' b' _ hc => ?_
    have := hc.le
    split
    · exact .ret (h _ _ _ _ _ _ (by omega) (fun _ h => by cases h))
    · split
      · exact hn _ _ _ hp (by omega)
      · refine LF.loadSlot (by omega) fun s m' b' hs hb => ?_
        cases s.ptr with
        | none => exact hn _ _ _ hp (by omega)
        | some e =>
          simp only
          have hpt : Pot (some (T.id, p.i, s)) (T.id, p.i, s) (x + 10) b' := .inl ⟨rfl, by omega⟩
          refine LF.plain rfl (by omega) fun r κ' m' b' _ hc => ?_
          have hpt := hc.pot _ (x + 9) hpt
          have := hc.le
          simp only [hs, Bool.false_eq_true, ↓reduceIte]
          split
          · exact hn _ _ _ hp (by omega)
          · refine LF.bind (lf_removeLoop hpt hw fun st y κ' m' b' w' hb => ?_)
            exact .ret (h _ _ _ _ _ _ hb (fun _ h => by cases h))
  · exact .ret (h _ _ _ _ _ _ (by omega) (fun _ h => by cases h))

theorem lf_prepareRetry {help : Bool} {Q : LPost K V (Option Table)} {x : Nat} (hb : x + 1 ≤ b)
    (h : ∀ κ' m' b', x ≤ b' → Q none κ' m' b' w) : LF al T κ m b w (prepareRetry (V := V) C none help T) Q := by
  unfold prepareRetry
  cases C.mode with
  | blocking => exact .ret (h _ _ _ (by omega))
  | incremental chunk =>
    refine LF.plain rfl (by omega) fun r κ' m' b' hr hc => ?_
    obtain rfl := hr.1 rfl
    have := hc.le
    exact .ret (h _ _ _ (by omega))

theorem lf_removeIf {k : K} {f : Closure (K × V) Bool} {Q : LPost K V (Called (K × V) Bool (RemRes K V))} {x : Nat}
    (hb : x + 13 * (T.limit + 1) + 4 ≤ b) (hw : 1 ≤ w) (h : ∀ r κ' m' b' w', x ≤ b' → Q r κ' m' b' w') :
    LF al T κ m b w (removeIf C k f) Q := by
  unfold removeIf
  refine LF.plain rfl (by omega) fun r κ' m' b' hr hc => ?_
  obtain ⟨rfl, _⟩ := hr
  have := hc.le
  simp only
  obtain ⟨b', rfl⟩ : ∃ c, b' = c + 1 := ⟨b' - 1, by omega⟩
  refine LF.loop1 (LF.bind (lf_removeProbe (x := x + 1) (by omega) hw fun st y κ' m' b' w' hb hy => ?_))
  cases y with
  | done r => exact .ret ⟨_, rfl, h _ _ _ _ _ (by omega)⟩
  | retry i =>
    cases i with
    | some i => exact absurd rfl (hy i)
    | none => exact LF.bind (lf_prepareRetry hb fun κ' m' b' hb => .ret ⟨_, rfl, h _ _ _ _ _ hb⟩)

theorem lf_remove {k : K} {Q : LPost K V (Option (Entry K V))} {x : Nat}
    (hb : x + 13 * (T.limit + 1) + 5 ≤ b) (hw : 1 ≤ w) (h : ∀ r κ' m' b' w', x ≤ b' → Q r κ' m' b' w') :
    LF al T κ m b w (remove C k) Q := by
  unfold remove
  refine LF.bind (lf_removeIf (x := x + 1) (by omega) hw fun r κ' m' b' w' hb => ?_)
  split
  · exact .ret (h _ _ _ _ _ (by omega))
  · exact .ret (h _ _ _ _ _ (by omega))
  · exact LF.panic' (by omega)

/-! ## `compute` -/

section
variable {R : Type} {f : Closure (Option (K × V)) (Operation V R)}

/-- Without the mutex no new key is inserted. -/
def Ni (al : Bool) (c : CState K V R f) : Prop := al = false → NoIns f ∧ c.insert = none

theorem lf_next {c : CState K V R f} {e : Entry K V} {Q : LPost K V (CState K V R f × Operation V R)} (hi : Ni al c) (hb : 3 ≤ b)
    (h : ∀ r κ' m' b', Ni al r.1 → Cost κ b κ' b' 2 → Q r κ' m' b' w) : LF al T κ m b w (c.next (some e)) Q := by
  unfold CState.next
  simp only
  split
  · refine LF.plain rfl (by omega) fun r κ' m' b' _ hc => ?_
    have := hc.le
    cases r with
    | true => exact .ret (h _ _ _ _ (by exact hi) (hc.mono (by omega)))
    | false =>
      refine LF.plain rfl (by omega) fun r κ'' m'' b'' _ hc' => ?_
      have := hc'.le
      exact LF.bind (lf_invoke (by omega) fun r hr => .ret (h _ _ _ _ (by exact hi) (hc.trans hc')))
  · refine LF.plain rfl (by omega) fun r κ'' m'' b'' _ hc' => ?_
    have := hc'.le
    exact LF.bind (lf_invoke (by omega) fun r hr => .ret (h _ _ _ _ (by exact hi) (hc'.mono (by omega))))

theorem lf_nextNone {c : CState K V R f} {Q : LPost K V (CState K V R f × Operation V R)} (hi : Ni al c) (hb : 1 ≤ b)
    (h : ∀ r, Ni al r.1 → (∀ v, r.2 = .insert v → al = true) → Q r κ m b w) : LF al T κ m b w (c.next none) Q := by
  unfold CState.next
  simp only
  split
  · rename_i v hv
    have hal : al = true := by
      cases al with
      | true => rfl
      | false => have := (hi rfl).2; rw [hv] at this; cases this
    exact .ret (h _ (fun h => by rw [hal] at h; cases h) fun _ _ => hal)
  · refine LF.bind (lf_invoke (by omega) fun r hr => .ret (h _ (by exact hi) fun v hv => ?_))
    cases al with
    | true => rfl
    | false =>
      obtain ⟨s, s', hr⟩ := hr
      exact absurd (hr.trans (by rw [show r.2 = _ from hv])) ((hi rfl).1 s s' v)

theorem lf_restore {c : CState K V R f} {o : Option (Entry K V)} {y : Operation V R} {Q : LPost K V (CState K V R f)} (hi : Ni al c) (hb : 1 ≤ b)
    (ho : o = none → ∀ v, y = .insert v → al = true) (h : ∀ r, Ni al r → Q r κ m b w) : LF al T κ m b w (c.restore o y) Q := by
  unfold CState.restore
  split
  · exact .ret (h _ (by exact hi))
  · split
    · exact .ret (h _ fun h => by rw [ho rfl _ rfl] at h; cases h)
    · exact LF.panic' hb

theorem lf_computeFailure {probe : Probe} {c : CState K V R f} {s : Slot K V} (hi : Ni al c) (hs : s.copying = false) (hb : 1 ≤ b)
    {Q : LPost K V ((CState K V R f × Entry K V × Slot K V) ⊕ ((CState K V R f × Probe) ⊕ (CState K V R f × WOut (Compute K V R))))}
    (h1 : ∀ c e, Ni al c → Q (.inl (c, e, s)) κ m b w) (h2 : ∀ c, Ni al c → Q (.inr (.inl (c, probe.next T.mask))) κ m b w)
    (h3 : ∀ c y, Q (.inr (.inr (c, .done y))) κ m b w) : LF al T κ m b w (computeFailure T probe c (EStat.from s)) Q := by
  unfold computeFailure
  rcases EStat.from_calm hs with h | ⟨e, h⟩
  · rw [h]
    refine LF.bind (lf_nextNone hi hb fun r hi hv => ?_)
    obtain ⟨c, op⟩ := r
    cases op with
    | insert v => exact LF.bind (lf_restore hi hb (fun _ v h => hv v (by exact h)) fun c hi => .ret (h2 _ hi))
    | remove => exact LF.panic' hb
    | abort a => exact .ret (h3 _ _)
  · rw [h]; exact .ret (h1 _ _ hi)

theorem lf_computeLoop {k : K} {probe : Probe} {c : CState K V R f} {e : Entry K V} {s : Slot K V}
    {Q : LPost K V ((CState K V R f × Probe) ⊕ (CState K V R f × WOut (Compute K V R)))} {x : Nat}
    (hp : Pot κ (T.id, probe.i, s) (x + 10) b) (hw : 1 ≤ w)
    (hi : Ni al c) (h1 : ∀ c κ' m' b', Ni al c → x ≤ b' → Q (.inl (c, probe.next T.mask)) κ' m' b' w)
    (h2 : ∀ c y κ' m' b' w', x ≤ b' → Q (.inr (c, .done y)) κ' m' b' w') : LF al T κ m b w (computeLoop C k T probe c e s) Q := by
  unfold computeLoop
  refine LF.loop (fun (y : CState K V R f × Entry K V × Slot K V) κ' b' w' => w' = w ∧ Ni al y.1 ∧ Pot κ' (T.id, probe.i, y.2.2) (x + 10) b') ?_ ⟨rfl, hi, hp⟩
  rintro ⟨c, e, s⟩ κ m b w' ⟨rfl, hi, hp⟩
  have := hp.le
  refine ⟨b - 1, by omega, ?_⟩
  have hp1 : Pot κ (T.id, probe.i, s) (x + 9) (b - 1) := by
    rcases hp with ⟨h1, h2⟩ | h2
    · exact .inl ⟨h1, by omega⟩
    · exact .inr (by omega)
  refine LF.bind (lf_next hi (by omega) fun r κ' m' b' hi hc => ?_)
  obtain ⟨c, op⟩ := r
  have hp2 := hc.pot _ (x + 7) hp1
  have := hp2.le
  have hfail : ∀ s m' b' y, s.copying = false → x + 2 + 8 ≤ b' →
      LF al T (some (T.id, probe.i, s)) m' b' w' ((c.restore (some e) y).bind fun c => computeFailure T probe c (EStat.from s))
      (fun z κ' m' b' w'' => Sum.elim (fun y : CState K V R f × Entry K V × Slot K V => w'' = w' ∧ Ni al y.1 ∧ Pot κ' (T.id, probe.i, y.2.2) (x + 10) b')
        (fun r => Q r κ' m' b' w'') z) := by
    intro s m' b' y hs hb
    refine LF.bind (lf_restore hi (by omega) (fun h => by cases h) fun c hi => ?_)
    refine lf_computeFailure hi hs (by omega) (fun c e hi => ?_) (fun c hi => ?_) fun c y => ?_
    · exact ⟨rfl, hi, .inl ⟨rfl, hb⟩⟩
    · exact h1 _ _ _ _ hi (by omega)
    · exact h2 _ _ _ _ _ _ (by omega)
  cases op with
  | abort a => exact .ret (h2 _ _ _ _ _ _ (by omega))
  | insert v =>
    refine LF.bind (lf_updateAtNew (x := x + 2) hp2 hw (fun new κ' m' b' hb => ?_) fun s m' b' hs hb => ?_)
    · exact .ret (h2 _ _ _ _ _ _ (by omega))
    · exact hfail _ _ _ _ hs hb
  | remove =>
    refine LF.bind (lf_updateAtTomb (x := x + 2) hp2 hw (fun κ' m' b' hb => ?_) fun s m' b' hs hb => ?_)
    · refine LF.plain rfl (by omega) fun r κ' m' b' _ hc => ?_
      have := hc.le
      refine LF.plain rfl (by omega) fun r κ' m' b' _ hc => ?_
      have := hc.le
      exact .ret (h2 _ _ _ _ _ _ (by omega))
    · exact hfail _ _ _ _ hs hb

theorem lf_computeFound {k : K} {probe : Probe} {c : CState K V R f} {e : Entry K V} {s : Slot K V}
    {Q : LPost K V ((CState K V R f × Probe) ⊕ (CState K V R f × WOut (Compute K V R)))} {x : Nat}
    (hp : Pot κ (T.id, probe.i, s) (x + 11) b) (hs : s.copying = false) (hw : 1 ≤ w)
    (hi : Ni al c) (h1 : ∀ c κ' m' b', Ni al c → x ≤ b' → Q (.inl (c, probe.next T.mask)) κ' m' b' w)
    (h2 : ∀ c y κ' m' b' w', x ≤ b' → Q (.inr (c, .done y)) κ' m' b' w') : LF al T κ m b w (computeFound C k T probe c e s) Q := by
  unfold computeFound
  have := hp.le
  refine LF.plain rfl (by omega) fun r κ' m' b' _ hc => ?_
  have hp := hc.pot _ (x + 10) hp
  have := hp.le
  simp only [hs, Bool.false_eq_true, ↓reduceIte]
  split
  · exact .ret (h1 _ _ _ _ hi (by omega))
  · exact lf_computeLoop hp hw hi h1 h2

theorem lf_computeProbe {k : K} {c : CState K V R f} {Q : LPost K V (CState K V R f × WOut (Compute K V R))} {x : Nat}
    (hb : x + 17 * (T.limit + 1) + 1 ≤ b) (hw : 1 ≤ w) (hi : Ni al c)
    (h1 : ∀ c y κ' m' b' w', x ≤ b' → Q (c, .done y) κ' m' b' w') (h2 : ∀ c κ' m' b', Ni al c → x ≤ b' → Q (c, .retry none) κ' m' b' w) :
    LF al T κ m b w (computeProbe C k T c) Q := by
  unfold computeProbe
  refine LF.loop (fun (p : CState K V R f × Probe) _ b' w' => w' = w ∧ Ni al p.1 ∧ x + 17 * (T.limit + 1 - p.2.len) + 1 ≤ b') ?_ ⟨rfl, hi, by
    show x + 17 * (T.limit + 1 - 0) + 1 ≤ b; omega⟩
  rintro ⟨c, p⟩ κ m b w' ⟨rfl, hi, hb⟩
  simp only at hb hi ⊢
  refine ⟨b - 1, by omega, ?_⟩
  have hn : ∀ c κ m b', Ni al c → p.len ≤ T.limit → x + 17 * (T.limit + 1 - p.len) + 1 ≤ b' + 17 →
      LF al T κ m b' w' (.ret (Sum.inl (c, p.next T.mask)) : Prog K V ((CState K V R f × Probe) ⊕ (CState K V R f × WOut (Compute K V R))))
      (fun y κ' m' b'' w'' => Sum.elim (fun (p : CState K V R f × Probe) => w'' = w' ∧ Ni al p.1 ∧ x + 17 * (T.limit + 1 - p.2.len) + 1 ≤ b'')
        (fun r => Q r κ' m' b'' w'') y) := by
    intro c κ m b' hi hp hle
    refine .ret ⟨rfl, hi, ?_⟩
    show x + 17 * (T.limit + 1 - (p.len + 1)) + 1 ≤ b'
    omega
  split
  · rename_i hp
    obtain ⟨y, hy⟩ : ∃ y, x + 17 * (T.limit + 1 - p.len) + 1 = y + 17 := ⟨x + 17 * (T.limit - p.len) + 1, by omega⟩
    have hyx : x ≤ y := by omega
    have hfound : ∀ c e s κ m b, Ni al c → s.copying = false → Pot κ (T.id, p.i, s) (y + 11) b →
        LF al T κ m b w' (computeFound C k T p c e s) (fun z κ' m' b'' w'' =>
          Sum.elim (fun (p : CState K V R f × Probe) => w'' = w' ∧ Ni al p.1 ∧ x + 17 * (T.limit + 1 - p.2.len) + 1 ≤ b'') (fun r => Q r κ' m' b'' w'') z) := by
      intro c e s κ m b hi hs hpt
      refine lf_computeFound hpt hs hw hi (fun c κ' m' b' hi hb => ⟨rfl, hi, ?_⟩) fun c z κ' m' b' w' hb => h1 _ _ _ _ _ _ (by omega)
      show x + 17 * (T.limit + 1 - (p.len + 1)) + 1 ≤ b'
      omega
    refine LF.plain rfl (by omega) fun md κ' m' b' _ hc => ?_
    have := hc.le
    split
    · refine LF.bind (lf_nextNone hi (by omega) fun r hi hv => ?_)
      obtain ⟨c, op⟩ := r
      cases op with
      | remove => exact LF.panic' (by omega)
      | abort a => exact .ret (h1 _ _ _ _ _ _ (by omega))
      | insert v =>
        refine LF.bind (lf_insertAt (x := y + 11) (by omega) hw (fun e κ' m' b' hb => ?_) (fun e s κ' m' b' hs hpt => ?_) fun κ' m' b' hb => ?_)
        · refine LF.plain rfl (by omega) fun r κ' m' b' _ hc => ?_
          have := hc.le
          exact .ret (h1 _ _ _ _ _ _ (by omega))
        · exact LF.bind (lf_restore hi (by have := hpt.le; omega) (fun _ v h => hv v (by exact h)) fun c hi => hfound _ _ _ _ _ _ hi hs hpt)
        · exact LF.bind (lf_restore hi (by omega) (fun _ v h => hv v (by exact h)) fun c hi => hn _ _ _ _ hi hp (by omega))
    · split
      · refine LF.loadSlot (by omega) fun s m' b' hs hb => ?_
        cases s.ptr with
        | none => exact hn _ _ _ _ hi hp (by omega)
        | some e => exact hfound _ _ _ _ _ _ hi hs (.inl ⟨rfl, by omega⟩)
      · exact hn _ _ _ _ hi hp (by omega)
  · exact .ret (h2 _ _ _ _ hi (by omega))

theorem lf_compute {k : K} {Q : LPost K V (Called (Option (K × V)) (Operation V R) (Compute K V R))} {x : Nat}
    (hb : x + 17 * (T.limit + 1) + 5 + allocCost C ≤ b) (hw : 1 ≤ w) (hi : al = false → NoIns f) (h : ∀ r κ' m' b' w', x ≤ b' → Q r κ' m' b' w') :
    LF al T κ m b w (compute C k f) Q := by
  unfold compute
  refine LF.bind ?_
  unfold computeInit
  refine LF.plain rfl (by omega) fun r κ' m' b' hr hc => ?_
  obtain ⟨rfl, _⟩ := hr
  have := hc.le
  refine .ret ?_
  simp only
  obtain ⟨b', rfl⟩ : ∃ c, b' = c + 1 := ⟨b' - 1, by omega⟩
  refine LF.loop1 (LF.bind (lf_computeProbe (x := x + 1 + allocCost C + 1) (by omega) hw (fun h => ⟨hi h, rfl⟩) (fun c y κ' m' b' w' hb => ?_) fun c κ' m' b' hi hb => ?_))
  · exact .ret ⟨_, rfl, h _ _ _ _ _ (by omega)⟩
  · refine LF.bind (lf_prepareRetry (x := x + 1 + allocCost C) (by omega) fun κ' m' b' hb => ?_)
    refine LF.bind (lf_nextNone hi (by omega) fun r hi hv => ?_)
    obtain ⟨c, op⟩ := r
    cases op with
    | insert v =>
      obtain rfl := hv v rfl
      exact LF.bind (lf_prepareRetryInsert (by omega))
    | abort a => exact .ret ⟨_, rfl, h _ _ _ _ _ (by omega)⟩
    | remove => exact LF.panic' (by omega)

end

/-! ## Operations on all elements -/

theorem lf_linearize {Q : LPost K V Table} {x : Nat} (hb : x + 2 ≤ b) (h : ∀ κ' m' b', x ≤ b' → Q T κ' m' b' w) :
    LF al T κ m b w (linearize (V := V) C T) Q := by
  unfold linearize
  split
  · obtain ⟨b, rfl⟩ : ∃ c, b = c + 1 := ⟨b - 1, by omega⟩
    refine LF.loop1 (LF.plain rfl (by omega) fun r κ' m' b' hr hc => ?_)
    obtain rfl := hr.1 rfl
    have := hc.le
    exact .ret ⟨_, rfl, h _ _ _ (by omega)⟩
  · exact .ret (h _ _ _ (by omega))

theorem lf_deleteLoop {f : Closure (K × V) Bool} {i : Nat} {st : f.Tr} {s : Slot K V} {Q : LPost K V (f.Tr × Bool)} {x : Nat}
    (hp : Pot κ (T.id, i, s) (x + 9) b) (hs : s.copying = false) (hw : 1 ≤ w)
    (h : ∀ st κ' m' b' w', x ≤ b' → w - 1 ≤ w' → Q (st, false) κ' m' b' w') : LF al T κ m b w (deleteLoop C f T i st s) Q := by
  unfold deleteLoop
  refine LF.loop (fun (y : f.Tr × Slot K V) κ' b' w' => w' = w ∧ y.2.copying = false ∧ Pot κ' (T.id, i, y.2) (x + 9) b') ?_ ⟨rfl, hs, hp⟩
  rintro ⟨st, s⟩ κ m b w' ⟨rfl, hs, hp⟩
  have := hp.le
  refine ⟨b - 1, by omega, ?_⟩
  have hp1 : Pot κ (T.id, i, s) (x + 8) (b - 1) := by
    rcases hp with ⟨h1, h2⟩ | h2
    · exact .inl ⟨h1, by omega⟩
    · exact .inr (by omega)
  simp only at hs ⊢
  cases hsp : s.ptr with
  | none => exact .ret (h _ _ _ _ _ (by omega) (by omega))
  | some e =>
    simp only [hs, Bool.false_eq_true, ↓reduceIte]
    refine LF.plain rfl (by omega) fun r κ' m' b' _ hc => ?_
    have hp2 := hc.pot _ (x + 7) hp1
    have := hp2.le
    refine LF.bind (lf_invoke (by omega) fun r hr => ?_)
    obtain ⟨st, o⟩ := r
    simp only
    split
    · exact .ret (h _ _ _ _ _ (by omega) (by omega))
    · refine LF.cas (x := x + 6) hp2 hw (fun κ' m' b' hb => ?_) fun s m' b' hs hb => ?_
      · refine LF.plain rfl (by omega) fun r κ' m' b' _ hc => ?_
        have := hc.le
        refine LF.plain rfl (by omega) fun r κ' m' b' _ hc => ?_
        have := hc.le
        exact LF.bind (lf_deferRetire (x := x) (by omega) fun κ' m' b' hb => .ret (h _ _ _ _ _ hb (by omega)))
      · have : x + 9 ≤ b' := by unfold retryCost at hb; omega
        exact .ret ⟨rfl, hs, .inl ⟨rfl, this⟩⟩

theorem lf_clearPass {Q : LPost K V Bool} {x : Nat} (hb : x + 11 * T.len + 1 ≤ b) (hw : T.len ≤ w)
    (h : ∀ κ' m' b' w', x ≤ b' → Q false κ' m' b' w') : LF al T κ m b w (clearPass C T) Q := by
  unfold clearPass
  refine LF.loop (fun (y : Nat × Bool) _ b' w' => y.2 = false ∧ T.len - y.1 ≤ w' ∧ x + 11 * (T.len - y.1) + 1 ≤ b') ?_ ⟨rfl, hw, by
    show x + 11 * (T.len - 0) + 1 ≤ b; omega⟩
  rintro ⟨i, c⟩ κ m b w' ⟨hc, hw, hb⟩
  simp only at hc hw hb ⊢
  subst hc
  refine ⟨b - 1, by omega, ?_⟩
  split
  · refine LF.loadSlot (by omega) fun s m' b' hs hb' => ?_
    refine LF.bind (lf_deleteLoop (x := x + 11 * (T.len - (i + 1)) + 1) (.inl ⟨rfl, by omega⟩) hs (by omega) fun st κ' m' b' w'' hb hw' => ?_)
    refine .ret ⟨rfl, ?_, hb⟩
    show T.len - (i + 1) ≤ w''
    omega
  · exact .ret (h _ _ _ _ (by omega))

theorem lf_retainPass {f : Closure (K × V) Bool} {st : f.Tr} {Q : LPost K V (f.Tr × Bool)} {x : Nat} (hb : x + 12 * T.len + 1 ≤ b)
    (hw : T.len ≤ w) (h : ∀ st κ' m' b' w', x ≤ b' → Q (st, false) κ' m' b' w') : LF al T κ m b w (retainPass C f st T) Q := by
  unfold retainPass
  refine LF.loop (fun (y : Nat × f.Tr × Bool) _ b' w' => y.2.2 = false ∧ T.len - y.1 ≤ w' ∧ x + 12 * (T.len - y.1) + 1 ≤ b') ?_ ⟨rfl, hw, by
    show x + 12 * (T.len - 0) + 1 ≤ b; omega⟩
  rintro ⟨i, st, c⟩ κ m b w' ⟨hc, hw, hb⟩
  simp only at hc hw hb ⊢
  subst hc
  refine ⟨b - 1, by omega, ?_⟩
  split
  · refine LF.plain rfl (by omega) fun r κ' m' b' _ hc => ?_
    have := hc.le
    split
    · refine .ret ⟨rfl, ?_, ?_⟩
      · show T.len - (i + 1) ≤ w'; omega
      · show x + 12 * (T.len - (i + 1)) + 1 ≤ b'; omega
    · refine LF.loadSlot (by omega) fun s m' b' hs hb' => ?_
      refine LF.bind (lf_deleteLoop (x := x + 12 * (T.len - (i + 1)) + 1) (.inl ⟨rfl, by omega⟩) hs (by omega) fun st κ' m' b' w'' hb hw' => ?_)
      refine .ret ⟨rfl, ?_, hb⟩
      show T.len - (i + 1) ≤ w''
      omega
  · exact .ret (h _ _ _ _ _ (by omega))

theorem lf_clear {Q : LPost K V Unit} {x : Nat} (hb : x + 11 * T.len + 5 ≤ b) (hw : T.len ≤ w)
    (h : ∀ κ' m' b' w', x ≤ b' → Q () κ' m' b' w') : LF al T κ m b w (clear C) Q := by
  unfold clear
  refine LF.plain rfl (by omega) fun r κ' m' b' hr hc => ?_
  obtain ⟨rfl, _⟩ := hr
  have := hc.le
  simp only
  obtain ⟨b', rfl⟩ : ∃ c, b' = c + 1 := ⟨b' - 1, by omega⟩
  refine LF.loop1 (LF.bind (lf_linearize (x := x + 11 * T.len + 1) (by omega) fun κ' m' b' hb => ?_))
  refine LF.bind (lf_clearPass hb hw fun κ' m' b' w' hb => ?_)
  exact .ret ⟨_, rfl, h _ _ _ _ hb⟩

theorem lf_retain {f : Closure (K × V) Bool} {Q : LPost K V (Called (K × V) Bool Unit)} {x : Nat} (hb : x + 12 * T.len + 5 ≤ b)
    (hw : T.len ≤ w) (h : ∀ r κ' m' b' w', x ≤ b' → Q r κ' m' b' w') : LF al T κ m b w (retain C f) Q := by
  unfold retain
  refine LF.plain rfl (by omega) fun r κ' m' b' hr hc => ?_
  obtain ⟨rfl, _⟩ := hr
  have := hc.le
  simp only
  obtain ⟨b', rfl⟩ : ∃ c, b' = c + 1 := ⟨b' - 1, by omega⟩
  refine LF.loop1 (LF.bind (lf_linearize (x := x + 12 * T.len + 1) (by omega) fun κ' m' b' hb => ?_))
  refine LF.bind (lf_retainPass hb hw fun st κ' m' b' w' hb => ?_)
  exact .ret ⟨_, rfl, h _ _ _ _ _ hb⟩

theorem lf_iterUpTo {lim : Option Nat} {Q : LPost K V (List (Entry K V))} {x : Nat} (hb : x + 4 * T.len + 4 ≤ b)
    (h : ∀ r κ' m' b', x ≤ b' → Q r κ' m' b' w) : LF al T κ m b w (iterUpTo C lim) Q := by
  unfold iterUpTo
  refine LF.plain rfl (by omega) fun r κ' m' b' hr hc => ?_
  obtain ⟨rfl, _⟩ := hr
  have := hc.le
  simp only
  refine LF.bind (lf_linearize (x := x + 4 * T.len + 1) (by omega) fun κ' m' b' hb => ?_)
  refine LF.loop (fun (y : Nat × List (Entry K V)) _ b' w' => w' = w ∧ x + 4 * (T.len - y.1) + 1 ≤ b') ?_ ⟨rfl, by
    show x + 4 * (T.len - 0) + 1 ≤ b'; omega⟩
  rintro ⟨i, acc⟩ κ m b w' ⟨rfl, hb⟩
  simp only at hb ⊢
  refine ⟨b - 1, by omega, ?_⟩
  have hn : ∀ acc κ m b', i < T.len → x + 4 * (T.len - i) + 1 ≤ b' + 4 →
      LF al T κ m b' w' (.ret (Sum.inl (i + 1, acc)) : Prog K V ((Nat × List (Entry K V)) ⊕ List (Entry K V)))
      (fun y κ' m' b'' w'' => Sum.elim (fun (y : Nat × List (Entry K V)) => w'' = w' ∧ x + 4 * (T.len - y.1) + 1 ≤ b'')
        (fun r => Q r κ' m' b'' w'') y) := by
    intro acc κ m b' hp hle
    refine .ret ⟨rfl, ?_⟩
    show x + 4 * (T.len - (i + 1)) + 1 ≤ b'
    omega
  split
  · exact .ret (h _ _ _ _ (by omega))
  · split
    · rename_i hi
      refine LF.plain rfl (by omega) fun r κ' m' b' _ hc => ?_
      have := hc.le
      split
      · exact hn _ _ _ _ hi (by omega)
      · refine LF.loadSlot (by omega) fun s m' b' hs hb' => ?_
        cases s.ptr with
        | none => exact hn _ _ _ _ hi (by omega)
        | some e =>
          refine LF.plain rfl (by omega) fun r κ' m' b' _ hc => ?_
          have := hc.le
          exact hn _ _ _ _ hi (by omega)
    · exact .ret (h _ _ _ _ (by omega))

theorem lf_reserve {n : Nat} {Q : LPost K V Unit} {x : Nat} (hb : x + 2 * C.shards + 6 + allocCost C ≤ b)
    (h : ∀ κ' m' b', x ≤ b' → Q () κ' m' b' w) : LF true T κ m b w (reserve C n) Q := by
  unfold reserve
  refine LF.bind (LF.plain rfl (by omega) fun r κ' m' b' hr hc => ?_)
  obtain ⟨rfl, _⟩ := hr
  have := hc.le
  refine .ret ?_
  obtain ⟨b', rfl⟩ : ∃ c, b' = c + 1 := ⟨b' - 1, by omega⟩
  refine LF.loop1 (LF.bind (lf_len (x := x + 1 + allocCost C) (by omega) fun r κ' m' b' hb => ?_))
  split
  · split
    · exact LF.panic' (by omega)
    · split
      · exact .ret ⟨_, rfl, h _ _ _ (by omega)⟩
      · exact LF.bind (lf_getOrAllocNext (by omega))
  · exact LF.panic' (by omega)

/-! ## Every operation -/

theorem noIns_update {g : Closure V V} : NoIns (updateClosure (K := K) g) := by
  intro s s' v h
  have h : (Except.ok (s, Operation.abort ()) : Except PanicReason (_ × Operation V Unit)) = .ok (s', .insert v) := h
  cases h

theorem lf_call {c : Call K V} (ha : al = false → c.neverInserts) (hb : c.stepBound C T.len ≤ b) (hl : T.limit = limit T.len)
    (hw : c.writeBound T.len ≤ w) : LF al T κ m b w (c.prog C) fun _ _ _ b _ => 1 ≤ b := by
  have hal : ¬ c.neverInserts → al = true := fun h => by
    cases al with
    | true => rfl
    | false => exact absurd (ha rfl) h
  cases c
  all_goals
    dsimp only [Call.stepBound, Call.writeBound] at hb hw
    try rw [← hl] at hb
  case get k => exact lf_get (x := 1) (by omega) fun _ _ _ _ h => h
  case containsKey k => exact LF.bind (lf_get (x := 1) (by omega) fun _ _ _ _ h => .ret h)
  case insert k v =>
    obtain rfl := hal fun h => h
    refine LF.bind (lf_insert (x := 1) (by unfold allocCost; omega) hw fun r _ _ _ _ h => ?_)
    cases r with
    | inserted e => exact .ret h
    | replaced o n => exact .ret h
    | error c v => exact LF.panic' h
  case tryInsert k v =>
    obtain rfl := hal fun h => h
    refine LF.bind (lf_insert (x := 1) (by unfold allocCost; omega) hw fun r _ _ _ _ h => ?_)
    cases r with
    | inserted e => exact .ret h
    | replaced o n => exact LF.panic' h
    | error c v => exact .ret h
  case getOrInsert k v =>
    obtain rfl := hal fun h => h
    refine LF.bind (LF.bind (lf_insert (x := 1) (by unfold allocCost; omega) hw fun r _ _ _ _ h => ?_))
    cases r with
    | inserted e => exact .ret (.ret h)
    | replaced o n => exact LF.panic' h
    | error c v => exact .ret (.ret h)
  case tryInsertWith k f =>
    obtain rfl := hal fun h => h
    refine LF.bind (lf_compute (x := 1) (by unfold allocCost; omega) hw (fun h => by cases h) fun r _ _ _ _ h => ?_)
    split
    · exact .ret h
    · exact .ret h
    · exact LF.panic' h
  case getOrInsertWith k f =>
    obtain rfl := hal fun h => h
    refine LF.bind (LF.bind (lf_compute (x := 1) (by unfold allocCost; omega) hw (fun h => by cases h) fun r _ _ _ _ h => ?_))
    split
    · exact .ret (.ret h)
    · exact .ret (.ret h)
    · exact LF.panic' h
  case update k f =>
    refine LF.bind (lf_compute (x := 1) (by unfold allocCost; omega) hw (fun _ => noIns_update) fun r _ _ _ _ h => ?_)
    split
    · exact .ret h
    · exact .ret h
    · exact LF.panic' h
  case updateOrInsert k u v =>
    obtain rfl := hal fun h => h
    refine LF.bind (lf_compute (x := 1) (by unfold allocCost; omega) hw (fun h => by cases h) fun r _ _ _ _ h => ?_)
    split
    · exact .ret h
    · exact .ret h
    · exact LF.panic' h
  case updateOrInsertWith k u f =>
    obtain rfl := hal fun h => h
    refine LF.bind (lf_compute (x := 1) (by unfold allocCost; omega) hw (fun h => by cases h) fun r _ _ _ _ h => ?_)
    split
    · exact .ret h
    · exact .ret h
    · exact LF.panic' h
  case compute k f => exact lf_compute (x := 1) (by unfold allocCost; omega) hw (fun h => ha h) fun _ _ _ _ _ h => h
  case remove k => exact lf_remove (x := 1) (by omega) hw fun _ _ _ _ _ h => h
  case removeIf k f => exact lf_removeIf (x := 1) (by omega) hw fun _ _ _ _ _ h => h
  case clear => exact lf_clear (x := 1) (by omega) hw fun _ _ _ _ h => h
  case retain f => exact lf_retain (x := 1) (by omega) hw fun _ _ _ _ _ h => h
  case iter => exact lf_iterUpTo (x := 1) (by omega) fun _ _ _ _ h => h
  case iterTake n => exact lf_iterUpTo (x := 1) (by omega) fun _ _ _ _ h => h
  case len => exact lf_len (x := 1) (by omega) fun _ _ _ _ h => h
  case isEmpty => exact LF.bind (lf_len (x := 1) (by omega) fun _ _ _ _ h => .ret h)
  case reserve n =>
    obtain rfl := hal fun h => h
    exact lf_reserve (x := 1) (by unfold allocCost; omega) fun _ _ _ h => h

end Papaya
