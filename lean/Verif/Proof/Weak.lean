import Verif.Proof.WeakCalls

/-! # Invariant of the executions on weakly ordered memory -/

set_option linter.unusedSectionVars false
set_option linter.unusedVariables false

namespace Papaya

variable {K V : Type}

/-- The orderings that are needed. -/
structure Orders.Ok (O : Orders) : Prop where
  rootLoad : O.rootLoad.acq = true
  rootInit : O.rootInit.1.rel = true
  rootInit' : O.rootInit.2.acq = true
  rootCas : O.rootCas.1.rel = true
  nextLoad : O.nextLoad.acq = true
  nextStore : O.nextStore.rel = true
  slotLoad : O.slotLoad.acq = true
  slotCas : O.slotCas.1.rel = true
  slotCas' : O.slotCas.2.acq = true
  slotOr : O.slotOr.acq = true
  slotStore : O.slotStore.rel = true

/-- Inclusion of views. -/
def View.Le (W W' : View K V) : Prop := (∀ e, W.ent e → W'.ent e) ∧ ∀ T, W.tab T → W'.tab T

namespace View

theorem Le.refl (W : View K V) : W.Le W := ⟨fun _ h => h, fun _ h => h⟩
theorem Le.trans {A B D : View K V} (h : A.Le B) (h' : B.Le D) : A.Le D := ⟨fun e he => h'.1 e (h.1 e he), fun T hT => h'.2 T (h.2 T hT)⟩
theorem not_ent (e : Entry K V) : ¬ (View.none : View K V).ent e := List.not_mem_nil
theorem not_tab (T : Table) : ¬ (View.none : View K V).tab T := List.not_mem_nil
theorem none_le (W : View K V) : View.none.Le W := ⟨fun e h => (not_ent e h).elim, fun T h => (not_tab T h).elim⟩
theorem ent_addEnt {W : View K V} {e x : Entry K V} : (W.addEnt e).ent x ↔ x = e ∨ W.ent x := List.mem_cons
theorem tab_addTab {W : View K V} {T x : Table} : (W.addTab T).tab x ↔ x = T ∨ W.tab x := List.mem_cons
variable [DecidableEq K] [DecidableEq V]

theorem ent_join {A B : View K V} {e : Entry K V} : (A.join B).ent e ↔ A.ent e ∨ B.ent e := by
  unfold join ent
  simp only [List.mem_append, List.mem_filter, decide_eq_true_eq]
  by_cases h : e ∈ A.ents <;> simp [h]
theorem tab_join {A B : View K V} {T : Table} : (A.join B).tab T ↔ A.tab T ∨ B.tab T := by
  unfold join tab
  simp only [List.mem_append, List.mem_filter, decide_eq_true_eq]
  by_cases h : T ∈ A.tabs <;> simp [h]
theorem ent_self (W : View K V) (e : Entry K V) : (W.addEnt e).ent e := ent_addEnt.2 (.inl rfl)
theorem tab_self (W : View K V) (T : Table) : (W.addTab T).tab T := tab_addTab.2 (.inl rfl)
theorem le_addEnt (W : View K V) (e : Entry K V) : W.Le (W.addEnt e) := ⟨fun _ h => ent_addEnt.2 (.inr h), fun _ h => h⟩
theorem le_addTab (W : View K V) (T : Table) : W.Le (W.addTab T) := ⟨fun _ h => h, fun _ h => tab_addTab.2 (.inr h)⟩
theorem addEnt_mono {W W' : View K V} (h : W.Le W') (e : Entry K V) : (W.addEnt e).Le (W'.addEnt e) :=
  ⟨fun _ hx => ent_addEnt.2 ((ent_addEnt.1 hx).imp id (h.1 _)), h.2⟩
theorem addTab_mono {W W' : View K V} (h : W.Le W') (T : Table) : (W.addTab T).Le (W'.addTab T) :=
  ⟨h.1, fun _ hx => tab_addTab.2 ((tab_addTab.1 hx).imp id (h.2 _))⟩
theorem le_join_left (A B : View K V) : A.Le (A.join B) := ⟨fun _ h => ent_join.2 (.inl h), fun _ h => tab_join.2 (.inl h)⟩
theorem le_join_right (A B : View K V) : B.Le (A.join B) := ⟨fun _ h => ent_join.2 (.inr h), fun _ h => tab_join.2 (.inr h)⟩
theorem join_le {A B X : View K V} (h : A.Le X) (h' : B.Le X) : (A.join B).Le X :=
  ⟨fun e he => (ent_join.1 he).elim (h.1 e) (h'.1 e), fun e he => (tab_join.1 he).elim (h.2 e) (h'.2 e)⟩

end View

open View (Le.refl not_ent not_tab ent_addEnt tab_addTab ent_join tab_join ent_self tab_self none_le le_addEnt le_addTab addEnt_mono addTab_mono le_join_left le_join_right join_le)

variable [DecidableEq K] [DecidableEq V]

theorem read_le {o : Order} {W M X : View K V} (h : W.Le X) (h' : M.Le X) : (o.read W M).Le X := by
  unfold Order.read; split
  · exact join_le h h'
  · exact h

theorem le_read {o : Order} {W M : View K V} : W.Le (o.read W M) := by
  unfold Order.read; split
  · exact le_join_left _ _
  · exact Le.refl _

theorem le_read' {o : Order} {W M : View K V} (h : o.acq = true) : M.Le (o.read W M) := by
  unfold Order.read; rw [if_pos h]; exact le_join_right _ _

theorem write_le {o : Order} {W X : View K V} (h : W.Le X) : (o.write W).Le X := by
  unfold Order.write; split
  · exact h
  · exact none_le _

/-- A location that contains table pointers. -/
def TLoc (all : View K V) (l : List (Cell K V (Option Table))) : Prop :=
  ∀ c ∈ l, (∀ T, c.val = some T → c.view.tab T) ∧ c.view.Le all

/-- A slot; `κ`: its key, if it has one. -/
structure SLoc (all : View K V) (κ : Option K) (l : List (Cell K V (Slot K V))) : Prop where
  cells : ∀ c ∈ l, (∀ e, c.val.ptr = some e → c.view.ent e ∧ κ = some e.key) ∧ c.view.Le all
  null : ∃ c0 rest, l = c0 :: rest ∧ c0.val = Slot.null ∧ (c0.used = false → κ = none) ∧ ∀ c ∈ rest, c.val ≠ Slot.null

theorem TLoc.mono {all all' : View K V} {l} (h : TLoc all l) (ha : all.Le all') : TLoc all' l :=
  fun c hc => ⟨(h c hc).1, (h c hc).2.trans ha⟩

theorem SLoc.mono {all all' : View K V} {κ : Option K} {l} (h : SLoc all κ l) (ha : all.Le all') : SLoc all' κ l :=
  ⟨fun c hc => ⟨(h.cells c hc).1, (h.cells c hc).2.trans ha⟩, h.null⟩

section
variable {all all' : View K V} {W W' : View K V} {o : Order}

theorem TLoc.load {l : List (Cell K V (Option Table))} (h : TLoc all l) (hW : W.Le all) {v : Option Table} (hl : Load o l W v W') :
    W.Le W' ∧ W'.Le all ∧ (o.acq = true → ∀ T, v = some T → W'.tab T) := by
  obtain ⟨c, hc, rfl, rfl⟩ := hl
  exact ⟨le_read, read_le hW (h c hc).2, fun ho T hT => (le_read' ho).2 T ((h c hc).1 T hT)⟩

theorem TLoc.store {l : List (Cell K V (Option Table))} (h : TLoc all l) (ha : all.Le all') (hW : W.Le all') {T : Table}
    (ho : o.rel = true) (hT : W.tab T) : TLoc all' (storeAt o l W (some T)) := by
  intro c hc
  rcases List.mem_append.1 hc with hc | hc
  · exact h.mono ha c hc
  · rw [List.mem_singleton.1 hc]
    refine ⟨fun T' hT' => ?_, write_le hW⟩
    cases hT'
    show (o.write W).tab T
    unfold Order.write; rw [if_pos ho]; exact hT

theorem TLoc.rmw {l l' : List (Cell K V (Option Table))} (h : TLoc all l) (ha : all.Le all') (hW : W.Le all') {v : Option Table} {T : Table}
    (hr : Rmw o l W v (some T) l' W') (ho : o.rel = true) (hT : W.tab T) :
    TLoc all' l' ∧ W.Le W' ∧ W'.Le all' := by
  obtain ⟨l1, c, l2, rfl, hu, hv, rfl, rfl⟩ := hr
  have hc := h c (by simp)
  have hW' : (o.read W c.view).Le all' := read_le hW (hc.2.trans ha)
  refine ⟨fun x hx => ?_, le_read, hW'⟩
  rcases List.mem_append.1 hx with hx | hx
  · rcases List.mem_append.1 hx with hx | hx
    · exact h.mono ha x (by simp [hx])
    · rcases List.mem_cons.1 hx with rfl | hx
      · exact h.mono ha c (by simp)
      · exact h.mono ha x (by simp [hx])
  · rw [List.mem_singleton.1 hx]
    refine ⟨fun T' hT' => ?_, join_le (hc.2.trans ha) (write_le hW')⟩
    cases hT'
    refine (le_join_right _ _).2 T ?_
    unfold Order.write; rw [if_pos ho]
    exact le_read.2 T hT

theorem SLoc.load {κ : Option K} {l : List (Cell K V (Slot K V))} (h : SLoc all κ l) (hW : W.Le all) {s : Slot K V}
    (hl : Load o l W s W') :
    W.Le W' ∧ W'.Le all ∧ (o.acq = true → ∀ e, s.ptr = some e → W'.ent e ∧ κ = some e.key) := by
  obtain ⟨c, hc, rfl, rfl⟩ := hl
  exact ⟨le_read, read_le hW (h.cells c hc).2, fun ho e he =>
    ⟨(le_read' ho).1 e ((h.cells c hc).1 e he).1, ((h.cells c hc).1 e he).2⟩⟩

theorem SLoc.store {κ : Option K} {l : List (Cell K V (Slot K V))} (h : SLoc all κ l) (hW : W.Le all) {s : Slot K V} {e : Entry K V}
    (ho : o.rel = true) (hs : s.ptr = some e) (hk : κ = some e.key) (he : W.ent e) : SLoc all κ (storeAt o l W s) := by
  refine ⟨fun c hc => ?_, ?_⟩
  · rcases List.mem_append.1 hc with hc | hc
    · exact h.cells c hc
    · rw [List.mem_singleton.1 hc]
      refine ⟨fun e' he' => ?_, write_le hW⟩
      cases hs.symm.trans he'
      refine ⟨?_, hk⟩
      show (o.write W).ent e
      unfold Order.write; rw [if_pos ho]; exact he
  · obtain ⟨c0, rest, rfl, h1, h2, h3⟩ := h.null
    refine ⟨c0, _, rfl, h1, h2, fun c hc => ?_⟩
    rcases List.mem_append.1 hc with hc | hc
    · exact h3 c hc
    · rw [List.mem_singleton.1 hc]
      intro hn
      have hn : s = Slot.null := hn
      rw [hn] at hs
      cases hs

/-- The key of a slot after `new` has been written. -/
def keyAfter (κ : Option K) (new : Slot K V) : Option K :=
  match new.ptr with
  | none => κ
  | some e => some e.key

theorem SLoc.rmw {κ : Option K} {l l' : List (Cell K V (Slot K V))} (h : SLoc all κ l) (ha : all.Le all') (hW : W.Le all')
    {old new : Slot K V} (hr : Rmw o l W old new l' W') (hn : new ≠ Slot.null)
    (hp : ∀ e, new.ptr = some e → old.ptr = some e ∨ (o.rel = true ∧ W.ent e ∧ (old = Slot.null ∨ κ = some e.key))) :
    SLoc all' (keyAfter κ new) l' ∧ W.Le W' ∧ W'.Le all' ∧ (∀ k, κ = some k → keyAfter κ new = some k) ∧
      (o.acq = true → ∀ e, old.ptr = some e → W'.ent e ∧ κ = some e.key) := by
  obtain ⟨l1, c, l2, rfl, hu, hv, rfl, rfl⟩ := hr
  have hc := h.cells c (by simp)
  have hW' : (o.read W c.view).Le all' := read_le hW (hc.2.trans ha)
  have hκ : ∀ k, κ = some k → keyAfter κ new = some k := by
    intro k hk
    unfold keyAfter
    cases hnp : new.ptr with
    | none => exact hk
    | some e =>
      rcases hp e hnp with h1 | ⟨_, _, h1 | h1⟩
      · rw [← hv] at h1
        exact ((hc.1 e h1).2.symm.trans hk)
      · exfalso
        obtain ⟨c0, rest, h2, h3, h4, h5⟩ := h.null
        cases l1 with
        | nil => cases h2; rw [h4 hu] at hk; cases hk
        | cons a l1 =>
          obtain ⟨rfl, rfl⟩ := List.cons.inj h2
          exact h5 c (by simp) (hv.trans h1)
      · exact h1.symm.trans hk
  refine ⟨⟨fun x hx => ?_, ?_⟩, le_read, hW', hκ, fun ho e he => ?_⟩
  · have hold : ∀ y ∈ l1 ++ c :: l2, (∀ e, y.val.ptr = some e → y.view.ent e ∧ keyAfter κ new = some e.key) ∧ y.view.Le all' :=
      fun y hy => ⟨fun e he => ⟨((h.cells y hy).1 e he).1, hκ _ ((h.cells y hy).1 e he).2⟩, (h.cells y hy).2.trans ha⟩
    rcases List.mem_append.1 hx with hx | hx
    · rcases List.mem_append.1 hx with hx | hx
      · exact hold x (by simp [hx])
      · rcases List.mem_cons.1 hx with rfl | hx
        · exact hold c (by simp)
        · exact hold x (by simp [hx])
    · rw [List.mem_singleton.1 hx]
      refine ⟨fun e he => ⟨?_, ?_⟩, join_le (hc.2.trans ha) (write_le hW')⟩
      · have he : new.ptr = some e := he
        rcases hp e he with h1 | ⟨h1, h2, _⟩
        · exact ent_join.2 (.inl (hc.1 e (by rw [hv]; exact h1)).1)
        · refine ent_join.2 (.inr ?_)
          unfold Order.write; rw [if_pos h1]
          exact le_read.1 e h2
      · have he : new.ptr = some e := he
        unfold keyAfter; rw [he]
  · obtain ⟨c0, rest, h2, h3, h4, h5⟩ := h.null
    have hlast : ∀ x ∈ ([⟨new, c.view.join (o.write (o.read W c.view)), false⟩] : List (Cell K V (Slot K V))), x.val ≠ Slot.null := by
      intro x hx; rw [List.mem_singleton.1 hx]; exact hn
    cases l1 with
    | nil =>
      cases h2
      refine ⟨{ c with used := true }, l2 ++ _, rfl, h3, (fun h => by cases h), fun x hx => ?_⟩
      rcases List.mem_append.1 hx with hx | hx
      · exact h5 x hx
      · exact hlast x hx
    | cons a l1 =>
      obtain ⟨rfl, rfl⟩ := List.cons.inj h2
      refine ⟨a, (l1 ++ { c with used := true } :: l2) ++ _, rfl, h3, fun ha => ?_, fun x hx => ?_⟩
      · have hk := h4 ha
        unfold keyAfter
        cases hnp : new.ptr with
        | none => exact hk
        | some e =>
          exfalso
          rcases hp e hnp with h1 | ⟨_, _, h1 | h1⟩
          · rw [← hv] at h1
            rw [(hc.1 e h1).2] at hk; cases hk
          · exact h5 c (by simp) (hv.trans h1)
          · rw [h1] at hk; cases hk
      · rcases List.mem_append.1 hx with hx | hx
        · rcases List.mem_append.1 hx with hx | hx
          · exact h5 x (by simp [hx])
          · rcases List.mem_cons.1 hx with rfl | hx
            · exact h5 c (by simp)
            · exact h5 x (by simp [hx])
        · exact hlast x hx
  · rw [← hv] at he
    exact ⟨(le_read' ho).1 e (hc.1 e he).1, (hc.1 e he).2⟩

end

/-- Invariant of memory; `κ`: the keys of the slots. -/
structure MInv (D : K → V → Prop) (w : WSt K V) (κ : Nat → Nat → Option K) : Prop where
  data : ∀ e, w.all.ent e → D e.key e.val
  uniqE : ∀ e e', w.all.ent e → w.all.ent e' → e.id = e'.id → e = e'
  uniqT : ∀ T T', w.all.tab T → w.all.tab T' → T.id = T'.id → T = T'
  root : TLoc w.all w.root
  next : ∀ T, TLoc w.all (w.next T)
  slot : ∀ T i, SLoc w.all (κ T i) (w.slot T i)

/-- More keys. -/
def KeyLe (κ κ' : Nat → Nat → Option K) : Prop := ∀ T i k, κ T i = some k → κ' T i = some k

theorem KeyLe.refl (κ : Nat → Nat → Option K) : KeyLe κ κ := fun _ _ _ h => h

variable {D : K → V → Prop} {O : Orders} {w w' : WSt K V} {κ : Nat → Nat → Option K} {W W' : View K V}

/-- What an action achieves. -/
def WGood (D : K → V → Prop) (κ : Nat → Nat → Option K) (w : WSt K V) (W : View K V) {β : Type} (a : Act K V β) (r : β)
    (w' : WSt K V) (W' : View K V) : Prop :=
  ∃ κ', MInv D w' κ' ∧ KeyLe κ κ' ∧ W.Le W' ∧ W'.Le w'.all ∧ w.all.Le w'.all ∧
    ∀ F : Kn K V, W'.Le F.view → KeyLe κ' F.key → (knSys D F).res a r

theorem WGood.quiet (h : MInv D w κ) (hW : W.Le w.all) {β : Type} {a : Act K V β} {r : β} (h1 : W' = W ∧ w' = w)
    (hr : ∀ F : Kn K V, (knSys D F).res a r) : WGood D κ w W a r w' W' := by
  obtain ⟨rfl, rfl⟩ := h1
  exact ⟨κ, h, KeyLe.refl κ, Le.refl _, hW, Le.refl _, fun F _ _ => hr F⟩

theorem addTab_uniq (h : MInv D w κ) {T : Table} (hf : w.FreshTab T) :
    ∀ A B, (w.all.addTab T).tab A → (w.all.addTab T).tab B → A.id = B.id → A = B := by
  intro A B hA hB he
  rcases tab_addTab.1 hA with rfl | hA' <;> rcases tab_addTab.1 hB with rfl | hB'
  · rfl
  · exact absurd he.symm (hf B hB')
  · exact absurd he (hf A hA')
  · exact h.uniqT A B hA' hB' he

theorem addEnt_uniq (h : MInv D w κ) {e : Entry K V} (hf : w.FreshEnt e) :
    ∀ A B, (w.all.addEnt e).ent A → (w.all.addEnt e).ent B → A.id = B.id → A = B := by
  intro A B hA hB he
  rcases ent_addEnt.1 hA with rfl | hA' <;> rcases ent_addEnt.1 hB with rfl | hB'
  · rfl
  · exact absurd he.symm (hf B hB')
  · exact absurd he (hf A hA')
  · exact h.uniqE A B hA' hB' he

/-- A slot is overwritten. -/
theorem MInv.setSlot (h : MInv D w κ) {T i : Nat} {l : List (Cell K V (Slot K V))} {k : Option K} {all' : View K V}
    (ha : w.all.Le all') (h1 : ∀ e, all'.ent e → D e.key e.val) (h2 : ∀ e e', all'.ent e → all'.ent e' → e.id = e'.id → e = e')
    (h3 : all'.tab = w.all.tab) (hl : SLoc all' k l) :
    MInv D { w.setSlot T i l with all := all' } (fun T' i' => if T' = T ∧ i' = i then k else κ T' i') := by
  refine ⟨h1, h2, fun A B hA hB => h.uniqT A B (h3 ▸ hA) (h3 ▸ hB), h.root.mono ha, fun T' => (h.next T').mono ha, fun T' i' => ?_⟩
  show SLoc all' (if T' = T ∧ i' = i then k else κ T' i') (if T' = T ∧ i' = i then l else w.slot T' i')
  split
  · exact hl
  · exact (h.slot T' i').mono ha

theorem keyLe_set {T i : Nat} {k : Option K} (h : ∀ x, κ T i = some x → k = some x) :
    KeyLe κ (fun T' i' => if T' = T ∧ i' = i then k else κ T' i') := by
  intro T' i' x hx
  dsimp only
  split
  · rename_i h'; obtain ⟨rfl, rfl⟩ := h'; exact h x hx
  · exact hx

theorem wgood_exec (hO : O.Ok) (h : MInv D w κ) (hW : W.Le w.all) {β : Type} {a : Act K V β} {r : β}
    (hok : (knSys D ⟨W, κ⟩).ok a) (he : WExec O a w W r w' W') : WGood D κ w W a r w' W' := by
  obtain ⟨hv, hk⟩ := hok
  cases a with
  | loadRoot =>
    obtain ⟨h1, rfl⟩ := he
    obtain ⟨h2, h3, h4⟩ := h.root.load hW h1
    exact ⟨κ, h, KeyLe.refl κ, h2, h3, Le.refl _, fun F hF _ T hT => hF.2 T (h4 hO.rootLoad T hT)⟩
  | peekRoot =>
    obtain ⟨⟨T, h1, _⟩, rfl⟩ := he
    obtain ⟨h2, h3, _⟩ := h.root.load hW h1
    exact ⟨κ, h, KeyLe.refl κ, h2, h3, Le.refl _, fun F hF _ => trivial⟩
  | casRootInit cap =>
    rcases he with ⟨T, l, hr, hf, h1, rfl⟩ | ⟨h1, rfl⟩
    · obtain ⟨h2, h3, h4⟩ := h.root.rmw (le_addTab _ r) (addTab_mono hW r) h1 hO.rootInit (tab_self _ _)
      refine ⟨κ, ⟨h.data, h.uniqE, addTab_uniq h hf, h2, fun T => (h.next T).mono (le_addTab _ _),
        fun T i => (h.slot T i).mono (le_addTab _ _)⟩, KeyLe.refl κ, (le_addTab _ _).trans h3, h4, le_addTab _ _, fun F hF _ => ?_⟩
      exact hF.2 r (h3.2 r (tab_self _ _))
    · obtain ⟨h2, h3, h4⟩ := h.root.load hW h1
      exact ⟨κ, h, KeyLe.refl κ, h2, h3, Le.refl _, fun F hF _ => hF.2 r (h4 hO.rootInit' r rfl)⟩
  | loadNext T =>
    obtain ⟨h1, rfl⟩ := he
    obtain ⟨h2, h3, h4⟩ := (h.next T).load hW h1
    exact ⟨κ, h, KeyLe.refl κ, h2, h3, Le.refl _, fun F hF _ T hT => hF.2 T (h4 hO.nextLoad T hT)⟩
  | storeNext T cap =>
    obtain ⟨N, hr, hf, rfl, rfl⟩ := he
    have h2 : TLoc (w.all.addTab r) (storeAt O.nextStore (w.next T) (W.addTab r) (some r)) :=
      (h.next T).store (le_addTab _ r) (addTab_mono hW r) hO.nextStore (tab_self _ _)
    refine ⟨κ, ⟨h.data, h.uniqE, addTab_uniq h hf, h.root.mono (le_addTab _ _), fun T' => ?_,
      fun T i => (h.slot T i).mono (le_addTab _ _)⟩, KeyLe.refl κ, le_addTab _ _, addTab_mono hW r, le_addTab _ _,
      fun F hF _ => hF.2 r (tab_self _ _)⟩
    show TLoc (w.all.addTab r) (if T' = T then _ else w.next T')
    split
    · exact h2
    · exact (h.next T').mono (le_addTab _ _)
  | loadSlot T i =>
    obtain ⟨h1, rfl⟩ := he
    obtain ⟨h2, h3, h4⟩ := (h.slot T i).load hW h1
    refine ⟨κ, h, KeyLe.refl κ, h2, h3, Le.refl _, fun F hF hk e he => ?_⟩
    exact ⟨hF.1 e (h4 hO.slotLoad e he).1, hk T i _ (h4 hO.slotLoad e he).2⟩
  | cas wk T i exp new =>
    rcases he with ⟨l, h1, rfl, rfl⟩ | ⟨s, h1, _, rfl, rfl⟩
    · have hn : new ≠ Slot.null := by
        rcases hk with ⟨_, h2⟩ | ⟨_, h2⟩
        · exact h2
        · rintro rfl; exact h2 rfl
      obtain ⟨h2, h3, h4, h5, _⟩ := (h.slot T i).rmw (Le.refl _) hW h1 hn (fun e he => .inr ⟨hO.slotCas, hv.2 e he, .inl (by
        rcases hk with ⟨h2, _⟩ | ⟨h2, _⟩
        · rw [h2] at he; cases he
        · exact h2)⟩)
      exact ⟨_, h.setSlot (Le.refl _) h.data h.uniqE rfl h2, keyLe_set h5, h3, h4, Le.refl _, fun F _ _ s hs => by cases hs⟩
    · obtain ⟨h2, h3, h4⟩ := (h.slot T i).load hW h1
      refine ⟨κ, h, KeyLe.refl κ, h2, h3, Le.refl _, fun F hF hk s' hs' e he => ?_⟩
      cases hs'
      exact ⟨hF.1 e (h4 hO.slotCas' e he).1, hk T i _ (h4 hO.slotCas' e he).2⟩
  | casNew wk T i exp k v =>
    rcases he with ⟨e, l, rfl, rfl, hf, h1, rfl, rfl⟩ | ⟨s, h1, _, rfl, rfl⟩
    · have hn : (Slot.untagged e : Slot K V) ≠ Slot.null := by
        intro hx; have := congrArg Slot.ptr hx; cases this
      obtain ⟨h2, h3, h4, h5, _⟩ := (h.slot T i).rmw (le_addEnt _ e) (addEnt_mono hW e) h1 hn
        (fun e' he' => .inr ⟨hO.slotCas, by cases he'; exact ent_self _ _, by cases he'; exact hk.1⟩)
      have h6 : ∀ x, (w.all.addEnt e).ent x → D x.key x.val := by
        intro x hx
        rcases ent_addEnt.1 hx with rfl | hx
        · exact hk.2
        · exact h.data x hx
      refine ⟨_, h.setSlot (le_addEnt _ e) h6 (addEnt_uniq h hf) rfl h2, keyLe_set h5, (le_addEnt _ e).trans h3, h4, le_addEnt _ e,
        fun F hF hk' => ?_⟩
      refine ⟨hF.1 e (h3.1 e (ent_self _ _)), rfl, rfl, hk' T i e.key ?_⟩
      show (if T = T ∧ i = i then keyAfter (κ T i) (Slot.untagged e) else _) = _
      rw [if_pos ⟨rfl, rfl⟩]; rfl
    · obtain ⟨h2, h3, h4⟩ := (h.slot T i).load hW h1
      refine ⟨κ, h, KeyLe.refl κ, h2, h3, Le.refl _, fun F hF hk e he => ?_⟩
      exact ⟨hF.1 e (h4 hO.slotCas' e he).1, hk T i _ (h4 hO.slotCas' e he).2⟩
  | fetchOrCopying T i =>
    obtain ⟨l, h1, rfl⟩ := he
    have hn : { r with copying := true } ≠ (Slot.null : Slot K V) := by
      intro hx; have := congrArg Slot.copying hx; cases this
    obtain ⟨h2, h3, h4, h5, h6⟩ := (h.slot T i).rmw (Le.refl _) hW h1 hn (fun e he => .inl he)
    refine ⟨_, h.setSlot (Le.refl _) h.data h.uniqE rfl h2, keyLe_set h5, h3, h4, Le.refl _, fun F hF hk' e he => ?_⟩
    have := h6 hO.slotOr e he
    exact ⟨hF.1 e this.1, hk' T i _ (keyLe_set h5 T i _ this.2)⟩
  | storeSlot T i s =>
    obtain ⟨rfl, rfl⟩ := he
    obtain ⟨e, h1, h2⟩ := hk
    have h3 := (h.slot T i).store hW hO.slotStore h1 h2 (hv.2 e h1)
    exact ⟨_, h.setSlot (Le.refl _) h.data h.uniqE rfl h3, keyLe_set fun _ hx => hx, Le.refl _, hW, Le.refl _, fun F _ _ => trivial⟩
  | casRoot T N =>
    rcases he with ⟨A, B, l, h1, h2, h3, h4, rfl, rfl⟩ | ⟨s, h1, _, rfl, rfl⟩
    · obtain ⟨h5, h6, h7⟩ := h.root.rmw (Le.refl _) hW h4 hO.rootCas h2
      exact ⟨κ, ⟨h.data, h.uniqE, h.uniqT, h5, h.next, h.slot⟩, KeyLe.refl κ, h6, h7, Le.refl _, fun F _ _ => trivial⟩
    · obtain ⟨h2, h3, _⟩ := h.root.load hW h1
      exact ⟨κ, h, KeyLe.refl κ, h2, h3, Le.refl _, fun F hF _ => trivial⟩
  | tryLock T => exact .quiet h hW he fun _ => trivial
  | lockWait T => exact .quiet h hW he fun _ => trivial
  | parkStatus T => exact .quiet h hW he fun _ => trivial
  | parkSlot T i => exact .quiet h hW he fun _ => trivial
  | unparkStatus T => exact .quiet h hW he fun _ => trivial
  | unparkSlot T i => exact .quiet h hW he fun _ => trivial
  | unlock T => exact .quiet h hW he fun _ => trivial
  | poison T => exact .quiet h hW he fun _ => trivial
  | loadMd T i => exact .quiet h hW he fun _ => trivial
  | storeMd T i m => exact .quiet h hW he fun _ => trivial
  | loadStatus T => exact .quiet h hW he fun _ => trivial
  | storeStatus T s => exact .quiet h hW he fun _ => trivial
  | loadClaim T => exact .quiet h hW he fun _ => trivial
  | addClaim T n s => exact .quiet h hW he fun _ => trivial
  | loadCopied T => exact .quiet h hW he fun _ => trivial
  | addCopied T n s => exact .quiet h hW he fun _ => trivial
  | sameTable T T' => exact .quiet h hW he fun _ => trivial
  | sameEntry x y => exact .quiet h hW he fun _ => trivial
  | deref e => exact .quiet h hW he fun _ => trivial
  | retire e => exact .quiet h hW he fun _ => trivial
  | retireTable T => exact .quiet h hW he fun _ => trivial
  | pushDeferred T e => exact .quiet h hW he fun _ => trivial
  | loadShard j => exact .quiet h hW he fun _ => trivial
  | addCount d => exact .quiet h hW he fun _ => trivial

/-! ## The system -/

variable {C : Cfg K} {P : Call K V → Prop}

/-- Invariant of the system. -/
structure WInv (D : K → V → Prop) (ws : WPSt K V) (κ : Nat → Nat → Option K) : Prop where
  mem : MInv D ws.mem κ
  view : ∀ t, (ws.view t).Le ws.mem.all
  th : ∀ t c p, ws.th t = .run c p → ∀ F : Kn K V, (ws.view t).Le F.view → KeyLe κ F.key → (∀ e, F.view.ent e → D e.key e.val) →
    Obs' (knSys D F) p (Wk.ResK F c)

theorem winv_init {ws : WPSt K V} (h : WInit C ws) : ∃ κ, WInv D ws κ := by
  obtain ⟨h1, h2, h3⟩ := h
  have hs : ∀ all : View K V, SLoc all (none : Option K) [⟨Slot.null, View.none, false⟩] := fun all =>
    ⟨fun c hc => by rw [List.mem_singleton.1 hc]; exact ⟨fun _ h => (by cases h), none_le _⟩, _, _, rfl, rfl, fun _ => rfl, fun _ h => by cases h⟩
  have hn : ∀ all : View K V, TLoc all [⟨none, View.none, false⟩] := fun all c hc => by
    rw [List.mem_singleton.1 hc]; exact ⟨fun _ h => (by cases h), none_le _⟩
  refine ⟨fun _ _ => none, ?_, fun t => ?_, fun t c p h => ?_⟩
  · rcases h1 with ⟨_, h1⟩ | ⟨_, n, _, h1⟩
    · rw [h1]
      exact ⟨fun e h => (not_ent e h).elim, fun e _ h => (not_ent e h).elim, fun T _ h => (not_tab T h).elim, hn _, fun _ => hn _, fun _ _ => hs _⟩
    · rw [h1]
      refine ⟨fun e h => (not_ent e h).elim, fun e _ h => (not_ent e h).elim, ?_, ?_, fun _ => hn _, fun _ _ => hs _⟩
      · intro A B hA hB _
        rw [List.mem_singleton.1 hA, List.mem_singleton.1 hB]
      · intro c hc
        rw [List.mem_singleton.1 hc]
        exact ⟨fun T hT => by cases hT; exact tab_self _ _, Le.refl _⟩
  · rw [h3]; exact none_le _
  · rw [h2] at h; cases h

theorem Obs'.act_next {E : ObsSys K V} {α β : Type} {a : Act K V β} {k : β → Prog K V α} {Q : α → Prop}
    (h : Obs' E (.act a k) Q) : E.ok a ∧ ∀ r, E.res a r → Obs' E (k r) Q :=
  ⟨(h 1).1, fun r hr n => (h (n + 1)).2 r hr⟩

theorem Obs'.ret_inv' {E : ObsSys K V} {α : Type} {x : α} {Q : α → Prop} (h : Obs' E (.ret x) Q) : Q x := h 1

theorem Obs'.panic_inv' {E : ObsSys K V} {α : Type} {r : PanicReason} {Q : α → Prop} (h : Obs' E (.panic r : Prog K V α) Q) : E.pan r := h 1

theorem Obs'.iter_next {E : ObsSys K V} {α β σ : Type} {body : σ → Prog K V (σ ⊕ β)} {s : σ} {k : β → Prog K V α} {Q : α → Prop}
    (h : Obs' E (.iter body s k) Q) : Obs' E (Prog.unfoldIter body s k) Q := fun n => h (n + 1)

theorem winv_step (hO : O.Ok) (hP : ∀ c, P c → c.WF ∧ c.Keeps D) {ws ws' : WPSt K V} (hs : WStep O C P ws ws')
    (h : WInv D ws κ) : ∃ κ', WInv D ws' κ' := by
  have hset : ∀ {t : Tid} {x : Th K V}, (∀ c p, x = .run c p → ∀ F : Kn K V, (ws.view t).Le F.view → KeyLe κ F.key →
      (∀ e, F.view.ent e → D e.key e.val) → Obs' (knSys D F) p (Wk.ResK F c)) →
      WInv D { ws with th := setTh ws.th t x } κ := by
    intro t x hx
    refine ⟨h.mem, h.view, fun u c p hu => ?_⟩
    have hu' : (if u = t then x else ws.th u) = .run c p := hu
    by_cases hut : u = t
    · rw [if_pos hut] at hu'
      rw [hut]; exact hx c p hu'
    · rw [if_neg hut] at hu'
      exact h.th u c p hu'
  cases hs with
  | inv t c ht hc =>
    refine ⟨κ, hset fun c' p hx F _ _ hD => ?_⟩
    cases hx
    exact Wk.kn_prog hD (hP c hc).1 (hP c hc).2
  | @act t c β a k r w W ht he =>
    have hD : ∀ e, (ws.view t).ent e → D e.key e.val := fun e he => h.mem.data e ((h.view t).1 e he)
    obtain ⟨hok, hk⟩ := (h.th t c _ ht ⟨ws.view t, κ⟩ (Le.refl _) (KeyLe.refl κ) hD).act_next
    obtain ⟨κ', g1, g2, g3, g4, g5, g6⟩ := wgood_exec hO h.mem (h.view t) hok he
    refine ⟨κ', g1, fun u => ?_, fun u c' p hu F hF hκ hDF => ?_⟩
    · dsimp only
      split
      · exact g4
      · exact (h.view u).trans g5
    · have hu : setTh ws.th t (.run c (k r)) u = .run c' p := hu
      unfold setTh at hu
      dsimp only at hF
      have hκ0 : KeyLe κ F.key := fun T i x hx => hκ T i x (g2 T i x hx)
      split at hu
      · rename_i hut
        rw [if_pos hut] at hF
        cases hu
        exact ((h.th t c _ ht F (g3.trans hF) hκ0 hDF).act_next).2 r (g6 F hF hκ)
      · rename_i hut
        rw [if_neg hut] at hF
        exact h.th u c' p hu F hF hκ0 hDF
  | @loop t c β σ body s k ht =>
    refine ⟨κ, hset fun c' p hx F hF hκ hD => ?_⟩
    cases hx
    exact (h.th t c _ ht F hF hκ hD).iter_next
  | ret t ht => exact ⟨κ, hset fun c' p hx => by cases hx⟩
  | panic t ht => exact ⟨κ, hset fun c' p hx => by cases hx⟩
  | sync t u =>
    refine ⟨κ, h.mem, fun x => ?_, fun x c p hx F hF hκ hD => ?_⟩
    · dsimp only
      split
      · exact join_le (h.view t) (h.view u)
      · exact h.view x
    · dsimp only at hF
      split at hF
      · rename_i hxt; subst hxt
        exact h.th x c p hx F ((le_join_left _ _).trans hF) hκ hD
      · exact h.th x c p hx F hF hκ hD

theorem winv_reach (hO : O.Ok) (hP : ∀ c, P c → c.WF ∧ c.Keeps D) {ws : WPSt K V} (h : WReach O C P ws) : ∃ κ, WInv D ws κ := by
  induction h with
  | init h => exact winv_init h
  | step _ hs ih => obtain ⟨κ, h⟩ := ih; exact winv_step hO hP hs h

end Papaya
