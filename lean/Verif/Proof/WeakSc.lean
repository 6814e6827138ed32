import Verif.Proof.Weak
import Verif.Props.Memory

/-! # Executions on sequentially consistent memory are executions on weakly ordered memory -/

set_option linter.unusedSectionVars false
set_option linter.unusedVariables false

namespace Papaya

variable {K V : Type}

open View (Le.refl not_ent not_tab ent_addEnt tab_addTab ent_self tab_self none_le le_addEnt le_addTab)

variable [DecidableEq K] [DecidableEq V]

/-- The value written last, not yet read by a read-modify-write. -/
def Cur {α : Type} (l : List (Cell K V α)) (v : α) : Prop := ∃ l0 M, l = l0 ++ [⟨v, M, false⟩]

section
variable {α : Type} {l : List (Cell K V α)} {v new : α} {o : Order} {W : View K V}

theorem Cur.init (v : α) (M : View K V) : Cur [⟨v, M, false⟩] v := ⟨[], M, rfl⟩

theorem Cur.load (h : Cur l v) (o : Order) (W : View K V) : ∃ W', Load o l W v W' := by
  obtain ⟨l0, M, rfl⟩ := h
  exact ⟨_, _, List.mem_append_right _ (List.mem_singleton.2 rfl), rfl, rfl⟩

theorem Cur.store (o : Order) (l : List (Cell K V α)) (W : View K V) (v : α) : Cur (storeAt o l W v) v := ⟨l, _, rfl⟩

theorem Cur.rmw (h : Cur l v) (o : Order) (W : View K V) (new : α) : ∃ l' W', Rmw o l W v new l' W' ∧ Cur l' new := by
  obtain ⟨l0, M, rfl⟩ := h
  exact ⟨_, _, ⟨l0, _, [], rfl, rfl, rfl, rfl, rfl⟩, ⟨_, _, rfl⟩⟩

end

/-- The two memories agree. -/
structure MSim (σ : St K V) (w : WSt K V) : Prop where
  root : Cur w.root (σ.root.map σ.handle)
  next : ∀ T, Cur (w.next T) ((σ.next T).map σ.handle)
  slot : ∀ T i, Cur (w.slot T i) (σ.slot T i)
  tabs : ∀ H, w.all.tab H → H.id < σ.nTabs ∧ H = σ.handle H.id
  ents : ∀ e, w.all.ent e → e.id < σ.nIds
  rootLt : ∀ T, σ.root = some T → T < σ.nTabs
  nextLt : ∀ T N, σ.next T = some N → N < σ.nTabs
  fresh : ∀ T, σ.nTabs ≤ T → σ.next T = none ∧ ∀ i, σ.slot T i = Slot.null

variable {C : Cfg K} {t : Tid} {σ σ' : St K V} {w w' : WSt K V} {W W' : View K V} {O : Orders}

/-- Nothing that contains pointers changes. -/
theorem MSim.same (h : MSim σ w) (h1 : σ'.root = σ.root) (h2 : σ'.next = σ.next) (h3 : σ'.slot = σ.slot) (h4 : σ'.nTabs = σ.nTabs)
    (h5 : σ'.nIds = σ.nIds) (h6 : σ'.cap = σ.cap) : MSim σ' w := by
  have hh : σ'.handle = σ.handle := by funext T; unfold St.handle; rw [h6]
  exact ⟨by rw [h1, hh]; exact h.root, by rw [h2, hh]; exact h.next, by rw [h3]; exact h.slot, by rw [h4, hh]; exact h.tabs,
    by rw [h5]; exact h.ents, by rw [h1, h4]; exact h.rootLt, by rw [h2, h4]; exact h.nextLt, by rw [h2, h3, h4]; exact h.fresh⟩

/-- A slot of an existing table is written. -/
theorem MSim.set (h : MSim σ w) {T i : Nat} {s : Slot K V} {l : List (Cell K V (Slot K V))} (hT : T < σ.nTabs) (hl : Cur l s) :
    MSim (σ.setSlot T i s) (w.setSlot T i l) := by
  refine ⟨h.root, h.next, fun T' i' => ?_, h.tabs, h.ents, h.rootLt, h.nextLt, fun T' hT' => ⟨(h.fresh T' hT').1, fun i' => ?_⟩⟩
  · show Cur (if T' = T ∧ i' = i then l else w.slot T' i') (if T' = T ∧ i' = i then s else σ.slot T' i')
    split
    · exact hl
    · exact h.slot T' i'
  · show (if T' = T ∧ i' = i then s else σ.slot T' i') = _
    rw [if_neg (fun hx => by have : σ.nTabs ≤ T' := hT'; omega)]
    exact (h.fresh T' hT').2 i'

/-- A table is allocated. -/
theorem handle_alloc {cap : Nat} {st : Status} {T : Nat} (hT : T < σ.nTabs) : (σ.allocTable cap st).handle T = σ.handle T := by
  unfold St.handle St.allocTable
  dsimp only
  rw [if_neg (Nat.ne_of_lt hT)]

theorem handle_new {cap : Nat} {st : Status} : (σ.allocTable cap st).handle σ.nTabs = newTable σ.nTabs cap := by
  unfold St.handle St.allocTable newTable
  dsimp only
  rw [if_pos rfl]

theorem MSim.alloc (h : MSim σ w) (cap : Nat) (st : Status) :
    MSim (σ.allocTable cap st) { w with all := w.all.addTab (newTable σ.nTabs cap) } := by
  have hm : ∀ o : Option Nat, (∀ T, o = some T → T < σ.nTabs) → o.map (σ.allocTable cap st).handle = o.map σ.handle := by
    intro o ho
    cases o with
    | none => rfl
    | some T => exact congrArg some (handle_alloc (ho T rfl))
  refine ⟨?_, fun T => ?_, fun T i => ?_, fun H hH => ?_, h.ents, fun T hT => Nat.lt_succ_of_lt (h.rootLt T hT), fun T N hN => ?_, fun T hT => ?_⟩
  · show Cur w.root (σ.root.map _)
    rw [hm _ h.rootLt]; exact h.root
  · show Cur (w.next T) (((if T = σ.nTabs then none else σ.next T) : Option Nat).map _)
    split
    · rename_i hT
      have := h.next T
      rw [(h.fresh T (by omega)).1] at this
      exact this
    · rw [hm _ (h.nextLt T)]; exact h.next T
  · show Cur (w.slot T i) (if T = σ.nTabs then Slot.null else σ.slot T i)
    split
    · rename_i hT
      have := h.slot T i
      rw [(h.fresh T (by omega)).2 i] at this
      exact this
    · exact h.slot T i
  · rcases tab_addTab.1 hH with rfl | hH
    · exact ⟨Nat.lt_succ_self _, handle_new.symm⟩
    · obtain ⟨h1, h2⟩ := h.tabs H hH
      exact ⟨Nat.lt_succ_of_lt h1, by rw [handle_alloc h1]; exact h2⟩
  · have hN : (if T = σ.nTabs then none else σ.next T) = some N := hN
    split at hN
    · cases hN
    · exact Nat.lt_succ_of_lt (h.nextLt T N hN)
  · have hT : σ.nTabs + 1 ≤ T := hT
    have h1 := h.fresh T (by omega)
    refine ⟨?_, fun i => ?_⟩
    · show (if T = σ.nTabs then none else σ.next T) = none
      rw [if_neg (by omega)]; exact h1.1
    · show (if T = σ.nTabs then Slot.null else σ.slot T i) = Slot.null
      rw [if_neg (by omega)]; exact h1.2 i

theorem MSim.freshTab (h : MSim σ w) (cap : Nat) : w.FreshTab (newTable σ.nTabs cap) :=
  fun x hx he => Nat.ne_of_lt (h.tabs x hx).1 he

theorem sc_exec (h : MSim σ w) (hW : W.Le w.all) {β : Type} {a : Act K V β} {r : β} (hs : a.Safe σ) (hv : a.Visible W)
    (he : Exec C t a σ r σ') : ∃ w' W', WExec O a w W r w' W' ∧ MSim σ' w' := by
  cases a with
  | loadRoot =>
    obtain ⟨rfl, rfl⟩ := he
    obtain ⟨W', h1⟩ := h.root.load O.rootLoad W
    exact ⟨w, W', ⟨h1, rfl⟩, h⟩
  | peekRoot =>
    obtain ⟨rfl, rfl⟩ := he
    obtain ⟨W', h1⟩ := h.root.load O.rootPeek W
    refine ⟨w, W', ⟨⟨_, h1, ?_⟩, rfl⟩, h⟩
    cases σ'.root <;> rfl
  | casRootInit cap =>
    simp only [Exec] at he
    split at he
    · rename_i hr
      obtain ⟨rfl, rfl⟩ := he
      have h0 := h.root
      rw [hr] at h0
      obtain ⟨l, W', h1, h2⟩ := h0.rmw O.rootInit.1 (W.addTab (newTable σ.nTabs cap)) (some (newTable σ.nTabs cap))
      have hn : ({ σ.allocTable cap .promoted with root := some σ.nTabs } : St K V).handle σ.nTabs = newTable σ.nTabs cap :=
        handle_new (st := .promoted)
      have ha := h.alloc cap .promoted
      refine ⟨_, W', .inl ⟨σ.nTabs, l, hn, by rw [hn]; exact h.freshTab cap, by rw [hn]; exact h1, rfl⟩, ?_⟩
      rw [hn]
      refine ⟨?_, ha.next, ha.slot, ha.tabs, ha.ents, fun T hT => ?_, ha.nextLt, ha.fresh⟩
      · show Cur l (some (({ σ.allocTable cap .promoted with root := some σ.nTabs } : St K V).handle σ.nTabs))
        rw [hn]; exact h2
      · cases hT; exact Nat.lt_succ_self _
    · rename_i T hr
      obtain ⟨rfl, rfl⟩ := he
      have h0 := h.root
      rw [hr] at h0
      obtain ⟨W', h1⟩ := h0.load O.rootInit.2 W
      exact ⟨w, W', .inr ⟨h1, rfl⟩, h⟩
  | loadNext T =>
    obtain ⟨rfl, rfl⟩ := he
    obtain ⟨W', h1⟩ := (h.next T).load O.nextLoad W
    exact ⟨w, W', ⟨h1, rfl⟩, h⟩
  | storeNext T cap =>
    obtain ⟨hσ, hr⟩ := he
    have hn : σ'.handle σ.nTabs = newTable σ.nTabs cap := by rw [hσ]; exact handle_new (st := .pending)
    rw [hn] at hr
    subst hr
    have hT : T < σ.nTabs := hs.1
    have ha := h.alloc cap .pending
    refine ⟨_, W.addTab (newTable σ.nTabs cap), ⟨σ.nTabs, rfl, h.freshTab cap, rfl, rfl⟩, ?_⟩
    · subst hσ
      refine ⟨ha.root, fun T' => ?_, ha.slot, ha.tabs, ha.ents, ha.rootLt, fun T' N hN => ?_, fun T' hT' => ⟨?_, (ha.fresh T' hT').2⟩⟩
      · show Cur (if T' = T then _ else w.next T') ((if T' = T then some σ.nTabs else if T' = σ.nTabs then none else σ.next T' : Option Nat).map _)
        split
        · rw [Option.map_some, hn]
          exact Cur.store _ _ _ _
        · exact ha.next T'
      · have hN : (if T' = T then some σ.nTabs else if T' = σ.nTabs then none else σ.next T') = some N := hN
        split at hN
        · cases hN; exact Nat.lt_succ_self _
        · exact ha.nextLt T' N hN
      · show (if T' = T then some σ.nTabs else if T' = σ.nTabs then none else σ.next T') = none
        have hT' : σ.nTabs + 1 ≤ T' := hT'
        rw [if_neg (by omega)]
        exact (ha.fresh T' hT').1
  | loadSlot T i =>
    obtain ⟨rfl, rfl⟩ := he
    obtain ⟨W', h1⟩ := (h.slot T i).load O.slotLoad W
    exact ⟨w, W', ⟨h1, rfl⟩, h⟩
  | cas wk T i exp new =>
    rcases he with ⟨rfl, rfl, rfl⟩ | ⟨h0, rfl, rfl⟩
    · obtain ⟨l, W', h1, h2⟩ := (h.slot T i).rmw O.slotCas.1 W new
      exact ⟨_, W', .inl ⟨l, h1, rfl, rfl⟩, h.set hs.1.1 h2⟩
    · obtain ⟨W', h1⟩ := (h.slot T i).load O.slotCas.2 W
      exact ⟨_, W', .inr ⟨_, h1, h0, rfl, rfl⟩, h⟩
  | casNew wk T i exp k v =>
    rcases he with ⟨rfl, rfl, rfl⟩ | ⟨h0, rfl, rfl⟩
    · obtain ⟨l, W', h1, h2⟩ := (h.slot T i).rmw O.slotCas.1 (W.addEnt ⟨σ.nIds, k, v⟩) (Slot.untagged ⟨σ.nIds, k, v⟩)
      refine ⟨_, W', .inl ⟨⟨σ.nIds, k, v⟩, l, rfl, rfl, fun x hx => Nat.ne_of_lt (h.ents x hx), h1, rfl, rfl⟩, ?_⟩
      have h3 := h.set (i := i) hs.1.1 h2
      refine ⟨h3.root, h3.next, h3.slot, h3.tabs, fun e he => ?_, h3.rootLt, h3.nextLt, h3.fresh⟩
      rcases ent_addEnt.1 he with rfl | he
      · exact Nat.lt_succ_self _
      · exact Nat.lt_succ_of_lt (h.ents e he)
    · obtain ⟨W', h1⟩ := (h.slot T i).load O.slotCas.2 W
      exact ⟨_, W', .inr ⟨_, h1, h0, rfl, rfl⟩, h⟩
  | fetchOrCopying T i =>
    obtain ⟨rfl, rfl⟩ := he
    obtain ⟨l, W', h1, h2⟩ := (h.slot T i).rmw O.slotOr W { σ.slot T i with copying := true }
    exact ⟨_, W', ⟨l, h1, rfl⟩, h.set hs.1.1 h2⟩
  | storeSlot T i s =>
    have he : σ' = _ := he
    subst he
    exact ⟨_, W, ⟨rfl, rfl⟩, h.set hs.1.1 (Cur.store _ _ _ _)⟩
  | casRoot T N =>
    rcases he with ⟨h0, rfl, rfl⟩ | ⟨h0, rfl, rfl⟩
    · obtain ⟨B, hB, hN⟩ := hv.2
      obtain ⟨h3, h4⟩ := h.tabs B (hW.2 B hB)
      have h5 := h.root
      rw [h0] at h5
      obtain ⟨l, W', h1, h2⟩ := h5.rmw O.rootCas.1 W (some B)
      subst hN
      refine ⟨_, W', .inl ⟨σ.handle T, B, l, rfl, hB, rfl, h1, rfl, rfl⟩, ?_⟩
      refine ⟨?_, h.next, h.slot, h.tabs, h.ents, fun T hT => ?_, h.nextLt, h.fresh⟩
      · show Cur l (some (σ.handle B.id))
        rw [← h4]; exact h2
      · cases hT; exact h3
    · obtain ⟨W', h1⟩ := h.root.load O.rootCas.2 W
      refine ⟨_, W', .inr ⟨_, h1, ?_, rfl, rfl⟩, h⟩
      cases hr : σ'.root with
      | none => simp
      | some x => rw [hr] at h0; exact h0
  | tryLock T =>
    refine ⟨w, W, ⟨rfl, rfl⟩, ?_⟩
    rcases he with ⟨_, _, rfl⟩ | ⟨_, _, rfl⟩
    · exact h.same rfl rfl rfl rfl rfl rfl
    · exact h
  | lockWait T =>
    refine ⟨w, W, ⟨rfl, rfl⟩, ?_⟩
    rcases he with ⟨_, _, rfl⟩ | ⟨_, _, rfl⟩
    · exact h.same rfl rfl rfl rfl rfl rfl
    · exact h
  | parkStatus T => obtain ⟨_, rfl⟩ := he; exact ⟨w, W, ⟨rfl, rfl⟩, h⟩
  | parkSlot T i => obtain ⟨_, rfl⟩ := he; exact ⟨w, W, ⟨rfl, rfl⟩, h⟩
  | unparkStatus T => obtain ⟨_, rfl⟩ := he; exact ⟨w, W, ⟨rfl, rfl⟩, h⟩
  | unparkSlot T i => obtain ⟨_, rfl⟩ := he; exact ⟨w, W, ⟨rfl, rfl⟩, h⟩
  | unlock T => have he : σ' = _ := he; subst he; exact ⟨w, W, ⟨rfl, rfl⟩, h.same rfl rfl rfl rfl rfl rfl⟩
  | poison T => have he : σ' = _ := he; subst he; exact ⟨w, W, ⟨rfl, rfl⟩, h.same rfl rfl rfl rfl rfl rfl⟩
  | loadMd T i => obtain ⟨_, rfl⟩ := he; exact ⟨w, W, ⟨rfl, rfl⟩, h⟩
  | storeMd T i m => have he : σ' = _ := he; subst he; exact ⟨w, W, ⟨rfl, rfl⟩, h.same rfl rfl rfl rfl rfl rfl⟩
  | loadStatus T => obtain ⟨_, rfl⟩ := he; exact ⟨w, W, ⟨rfl, rfl⟩, h⟩
  | storeStatus T s => have he : σ' = _ := he; subst he; exact ⟨w, W, ⟨rfl, rfl⟩, h.same rfl rfl rfl rfl rfl rfl⟩
  | loadClaim T => obtain ⟨_, rfl⟩ := he; exact ⟨w, W, ⟨rfl, rfl⟩, h⟩
  | addClaim T n s => obtain ⟨_, rfl⟩ := he; exact ⟨w, W, ⟨rfl, rfl⟩, h.same rfl rfl rfl rfl rfl rfl⟩
  | loadCopied T => obtain ⟨_, rfl⟩ := he; exact ⟨w, W, ⟨rfl, rfl⟩, h⟩
  | addCopied T n s => obtain ⟨_, rfl⟩ := he; exact ⟨w, W, ⟨rfl, rfl⟩, h.same rfl rfl rfl rfl rfl rfl⟩
  | sameTable T T' => obtain ⟨_, rfl⟩ := he; exact ⟨w, W, ⟨rfl, rfl⟩, h⟩
  | sameEntry x y => obtain ⟨_, rfl⟩ := he; exact ⟨w, W, ⟨rfl, rfl⟩, h⟩
  | deref e => have he : σ' = _ := he; subst he; exact ⟨w, W, ⟨rfl, rfl⟩, h⟩
  | retire e => have he : σ' = _ := he; subst he; exact ⟨w, W, ⟨rfl, rfl⟩, h.same rfl rfl rfl rfl rfl rfl⟩
  | retireTable T => have he : σ' = _ := he; subst he; exact ⟨w, W, ⟨rfl, rfl⟩, h.same rfl rfl rfl rfl rfl rfl⟩
  | pushDeferred T e => have he : σ' = _ := he; subst he; exact ⟨w, W, ⟨rfl, rfl⟩, h.same rfl rfl rfl rfl rfl rfl⟩
  | loadShard j => obtain ⟨_, rfl⟩ := he; exact ⟨w, W, ⟨rfl, rfl⟩, h⟩
  | addCount d => have he : σ' = _ := he; subst he; exact ⟨w, W, ⟨rfl, rfl⟩, h.same rfl rfl rfl rfl rfl rfl⟩

theorem keeps_true (c : Call K V) : c.Keeps fun _ _ => True := by
  have hm : ∀ {I A : Type} (f : Closure I A) (P : I → Prop), f.Maps P fun _ _ => True :=
    fun f P => ⟨fun _ => True, trivial, fun _ _ _ _ _ _ _ => ⟨trivial, trivial⟩⟩
  cases c <;> first
    | exact trivial
    | exact hm _ _
    | exact ⟨hm _ _, trivial⟩
    | exact ⟨hm _ _, hm _ _⟩
    | exact ⟨fun _ => True, trivial, fun _ _ _ _ _ _ _ => ⟨trivial, fun _ _ => trivial⟩⟩

/-- The two states agree. -/
structure ScSim (ps : PSt K V) (ws : WPSt K V) : Prop where
  mem : MSim ps.mem ws.mem
  run : ∀ t c p, ps.th t = .run c p → ws.th t = .run c p
  out : ∀ t, (ps.th t = .out ∨ ps.th t = .idle) → ws.th t = .out

theorem sc_init {ps : PSt K V} (h : IsInit C ps) : ∃ ws : WPSt K V, WInit C ws ∧ ScSim ps ws := by
  obtain ⟨h1, h2, _⟩ := h
  unfold initSt at h1
  dsimp only at h1
  split at h1
  · rename_i h0
    refine ⟨⟨initWSt none, fun _ => .out, fun _ => View.none⟩, ⟨.inl ⟨h0, rfl⟩, rfl, rfl⟩, ?_, ?_, fun _ _ => rfl⟩
    · have := Option.some.inj h1
      rw [← this]
      exact ⟨Cur.init _ _, fun _ => Cur.init _ _, fun _ _ => Cur.init _ _, fun _ h => (not_tab _ h).elim, fun _ h => (not_ent _ h).elim,
        (fun _ h => by cases h), (fun _ _ h => by cases h), fun _ _ => ⟨rfl, fun _ => rfl⟩⟩
    · intro t c p h; rw [h2] at h; cases h
  · rename_i h0
    rw [Option.map_eq_some_iff] at h1
    obtain ⟨n, h1, h3⟩ := h1
    refine ⟨⟨initWSt (some (max n 8)), fun _ => .out, fun _ => View.none⟩, ⟨.inr ⟨h0, n, h1, rfl⟩, rfl, rfl⟩, ?_, ?_, fun _ _ => rfl⟩
    · rw [← h3]
      refine ⟨Cur.init _ _, fun T => ?_, fun T i => ?_, fun H hH => ?_, fun _ h => (not_ent _ h).elim, fun T hT => ?_, fun T N hN => ?_, fun T hT => ?_⟩
      · show Cur _ ((if T = 0 then none else none : Option Nat).map _)
        rw [ite_self]; exact Cur.init _ _
      · show Cur _ (if T = 0 then Slot.null else Slot.null)
        rw [ite_self]; exact Cur.init _ _
      · rw [List.mem_singleton.1 hH]
        exact ⟨Nat.zero_lt_one, rfl⟩
      · cases hT; exact Nat.zero_lt_one
      · have hN : (if T = 0 then none else none : Option Nat) = some N := hN
        rw [ite_self] at hN; cases hN
      · refine ⟨?_, fun i => ?_⟩
        · show (if T = 0 then none else none : Option Nat) = none
          rw [ite_self]
        · show (if T = 0 then Slot.null else Slot.null) = _
          rw [ite_self]
    · intro t c p h; rw [h2] at h; cases h

theorem wsetTh_self {th : Tid → Th K V} {t : Tid} {x : Th K V} : setTh th t x t = x := if_pos rfl
theorem wsetTh_ne {th : Tid → Th K V} {t u : Tid} {x : Th K V} (h : u ≠ t) : setTh th t x u = th u := if_neg h

/-- The thread `t` changes in both. -/
theorem ScSim.upd {ps ps' : PSt K V} {ws : WPSt K V} (h : ScSim ps ws) {t : Tid} {x y : Th K V} {w : WSt K V} {vw : Tid → View K V}
    (h1 : MSim ps'.mem w) (h2 : ps'.th = setTh ps.th t x) (hr : ∀ c p, x = .run c p → y = .run c p)
    (ho : x = .out ∨ x = .idle → y = .out) : ScSim ps' ⟨w, setTh ws.th t y, vw⟩ := by
  refine ⟨h1, fun u c p hu => ?_, fun u hu => ?_⟩
  · rw [h2] at hu
    show setTh ws.th t y u = _
    by_cases hut : u = t
    · subst hut; rw [wsetTh_self] at hu ⊢; exact hr c p hu
    · rw [wsetTh_ne hut] at hu ⊢; exact h.run u c p hu
  · rw [h2] at hu
    show setTh ws.th t y u = _
    by_cases hut : u = t
    · subst hut; rw [wsetTh_self] at hu ⊢; exact ho hu
    · rw [wsetTh_ne hut] at hu ⊢; exact h.out u hu

/-- Only `ps` changes. -/
theorem ScSim.left {ps ps' : PSt K V} {ws : WPSt K V} (h : ScSim ps ws) (h1 : MSim ps'.mem ws.mem)
    (hr : ∀ t c p, ps'.th t = .run c p → ps.th t = .run c p)
    (ho : ∀ t, ps'.th t = .out ∨ ps'.th t = .idle → ps.th t = .out ∨ ps.th t = .idle) : ScSim ps' ws :=
  ⟨h1, fun t c p ht => h.run t c p (hr t c p ht), fun t ht => h.out t (ho t ht)⟩

theorem sc_step (hO : O.Ok) {P : Call K V → Prop} (hP : ∀ c, P c ↔ c.WF) {ps ps' : PSt K V} {ws : WPSt K V} (hp : Reach C ps) (hw : WReach O C P ws) (h : ScSim ps ws)
    (hs : Step C ps ps') : ∃ ws', WReach O C P ws' ∧ ScSim ps' ws' := by
  have same : ∀ {σ : St K V}, σ.root = ps.mem.root → σ.next = ps.mem.next → σ.slot = ps.mem.slot → σ.nTabs = ps.mem.nTabs →
      σ.nIds = ps.mem.nIds → σ.cap = ps.mem.cap → MSim σ ws.mem := fun h1 h2 h3 h4 h5 h6 => h.mem.same h1 h2 h3 h4 h5 h6
  have thr : ∀ {t : Tid} {x : Th K V}, (∀ c p, x ≠ .run c p) → ∀ u c p, setTh ps.th t x u = .run c p → ps.th u = .run c p := by
    intro t x hx u c p hu
    by_cases hut : u = t
    · subst hut; rw [wsetTh_self] at hu; exact absurd hu (hx c p)
    · rw [wsetTh_ne hut] at hu; exact hu
  have tho : ∀ {t : Tid} {x : Th K V}, (x = .out ∨ x = .idle → ps.th t = .out ∨ ps.th t = .idle) →
      ∀ u, setTh ps.th t x u = .out ∨ setTh ps.th t x u = .idle → ps.th u = .out ∨ ps.th u = .idle := by
    intro t x hx u hu
    by_cases hut : u = t
    · subst hut; rw [wsetTh_self] at hu; exact hx hu
    · rw [wsetTh_ne hut] at hu; exact hu
  cases hs with
  | pin t ht => exact ⟨ws, hw, h.left (same rfl rfl rfl rfl rfl rfl) (thr fun _ _ h => by cases h) (tho fun _ => .inl ht)⟩
  | unpin t ht => exact ⟨ws, hw, h.left (same rfl rfl rfl rfl rfl rfl) (thr fun _ _ h => by cases h) (tho fun _ => .inr ht)⟩
  | abandon t ht =>
    exact ⟨ws, hw, h.left h.mem (thr fun _ _ h => by cases h) (tho fun h => by rcases h with h | h <;> cases h)⟩
  | release t ht => exact ⟨ws, hw, h.left (same rfl rfl rfl rfl rfl rfl) (fun _ _ _ h => h) (fun _ h => h)⟩
  | inv t c ht hwf =>
    exact ⟨_, .step hw (.inv t c (h.out t (.inr ht)) ((hP c).2 hwf)),
      h.upd h.mem rfl (fun _ _ h => h) (fun h => by rcases h with h | h <;> cases h)⟩
  | @act t c β a k r σ ht he =>
    obtain ⟨κ, hi⟩ := winv_reach (D := fun _ _ => True) hO (fun c hc => ⟨(hP c).1 hc, keeps_true c⟩) hw
    have hv := ((hi.th t c _ (h.run t c _ ht) ⟨ws.view t, κ⟩ (Le.refl _) (KeyLe.refl κ) (fun _ _ => trivial)).act_next).1.1
    obtain ⟨w, W, h1, h2⟩ := sc_exec (O := O) h.mem (hi.view t) (C21_memory_safe hp ht) hv he
    exact ⟨_, .step hw (.act t (h.run t c _ ht) h1), h.upd h2 rfl (fun _ _ h => h) (fun h => by rcases h with h | h <;> cases h)⟩
  | loop t ht =>
    exact ⟨_, .step hw (.loop t (h.run t _ _ ht)), h.upd h.mem rfl (fun _ _ h => h) (fun h => by rcases h with h | h <;> cases h)⟩
  | ret t ht =>
    exact ⟨_, .step hw (.ret t (h.run t _ _ ht)), h.upd h.mem rfl (fun _ _ h => by cases h) (fun _ => rfl)⟩
  | panic t ht =>
    exact ⟨_, .step hw (.panic t (h.run t _ _ ht)), h.upd h.mem rfl (fun _ _ h => by cases h) (fun _ => rfl)⟩
  | freeEntry x h1 h2 h3 => exact ⟨ws, hw, h.left (same rfl rfl rfl rfl rfl rfl) (fun _ _ _ h => h) (fun _ h => h)⟩
  | freeTable x h1 h2 h3 => exact ⟨ws, hw, h.left (same rfl rfl rfl rfl rfl rfl) (fun _ _ _ h => h) (fun _ h => h)⟩

theorem sc_reach (hO : O.Ok) {P : Call K V → Prop} (hP : ∀ c, P c ↔ c.WF) {ps : PSt K V} (hp : Reach C ps) :
    ∃ ws, WReach O C P ws ∧ ScSim ps ws := by
  induction hp with
  | init h => obtain ⟨ws, h1, h2⟩ := sc_init h; exact ⟨ws, .init h1, h2⟩
  | step hp hs ih => obtain ⟨ws, h1, h2⟩ := ih; exact sc_step hO hP hp h1 h2 hs

end Papaya
