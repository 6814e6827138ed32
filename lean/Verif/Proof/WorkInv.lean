import Verif.Proof.WorkOps
import Verif.Proof.FinishInv

/-! # Whoever others wait for is at work -/

set_option linter.unusedSectionVars false
set_option linter.unusedVariables false

namespace Papaya

variable {K V : Type} [DecidableEq K] {C : Cfg K} {S S' : GSt K V}

open GSt

theorem GSt.CopyPair.evo {s N : Nat} (h : S.CopyPair s N) (he : Evo S S') : S'.CopyPair s N :=
  ⟨h.1, Nat.lt_of_lt_of_le h.2.1 he.nTabs, he.wasRoot s h.2.2.1, fun P h1 h2 => he.aborted P (h.2.2.2 P h1 h2)⟩

theorem GSt.CopyPair.capEq {s N : Nat} (h : S.CopyPair s N) (he : Evo S S') : S'.cap s = S.cap s :=
  he.cap s h.2.2.1.1

/-- If something has been counted, the source of the copy is known. -/
theorem pair_of_copied (hI : S.Inv C) (he : Evo S S') {s N : Nat} (h : S'.CopyPair s N) (h0 : 0 < S.copied N) : S.CopyPair s N := by
  rw [hI.c.c6 N] at h0
  obtain ⟨j, hj⟩ := Finset.card_pos.1 h0
  rw [Finset.mem_filter] at hj
  have h1 : S.cs N j ≠ .idle := by intro h; rw [h] at hj; cases hj.2
  obtain ⟨s', h2, _⟩ := hI.c.c2 N j h1
  rw [pair_src h (h2.evo he)]; exact h2

/-- The duty is due. -/
def WDuty.Due (C : Cfg K) (S : GSt K V) : WDuty → Prop
  | .chunk _ _ _ _ _ => False
  | .prom N s => S.CopyPair s N ∧ S.copied N = S.cap s ∧ S.root = some s
  | .stat N => S.wasRoot N ∧ S.status N = .pending
  | .store T i => (Duty.store T i).Due C S.toSt
  | .unlock _ => False
  | .wakeStatus _ => False
  | .wakeSlot _ _ => False

/-- The invariant. -/
structure WorkInv (C : Cfg K) (ps : PSt K V) (S : GSt K V) : Prop where
  plain : ∀ t c p, ps.th t = .run c p → ∀ n, WSh C.inc n none p fun o _ => o = none
  due : ∀ d : WDuty, d.Due C S → Excused ps ∨ ∃ t c p, ps.th t = .run c p ∧ ∀ n, WSh C.inc n (some d) p fun o _ => o = none
  lock : ∀ t T, S.lock T = .held t → Excused ps ∨ ∃ c p, ps.th t = .run c p ∧ ∀ n, WSh C.inc n (some (.unlock T)) p fun o _ => o = none
  own : ∀ t N, (∃ j, (S.cs N j).owner = some t) → Excused ps ∨ S.aborted N ∨ ∃ c p s a n, ps.th t = .run c p ∧
    (∀ m, WSh C.inc m (some (.chunk N s (S.cap s) a n)) p fun o _ => o = none) ∧ S.CopyPair s N ∧
    ∀ j, (S.cs N j).owner = some t → a ≤ j ∧ j < a + n
  claim : ∀ N j, j < S.claim N → ∃ s, S.CopyPair s N ∧ (j < S.cap s → S.cs N j ≠ .idle)
  lost : ∀ N j, S.cs N j = .lost → S.aborted N

theorem claim_step (he : Evo S S') (h : ∀ N j, j < S.claim N → ∃ s, S.CopyPair s N ∧ (j < S.cap s → S.cs N j ≠ .idle)) :
    ∀ N j, j < S'.claim N → ∃ s, S'.CopyPair s N ∧ (j < S'.cap s → S'.cs N j ≠ .idle) := by
  intro N j hj
  by_cases h1 : j < S.claim N
  · obtain ⟨s, h2, h3⟩ := h N j h1
    exact ⟨s, h2.evo he, fun h4 => he.ev.nidle N j (h3 (by rw [← h2.capEq he]; exact h4))⟩
  · exact he.ev.fresh N j (by omega) hj

theorem lost_step (he : Evo S S') (h : ∀ N j, S.cs N j = .lost → S.aborted N) : ∀ N j, S'.cs N j = .lost → S'.aborted N :=
  fun N j hj => (he.ev.lost N j hj).elim (fun h1 => he.aborted N (h N j h1)) id

variable {t : Tid} {β : Type} {a : Act K V β} {r : β}

/-! ## What is due -/

def Act.isAddCopied : {β : Type} → Act K V β → Bool
  | _, .addCopied _ _ _ => true
  | _, _ => false

def Act.isAddClaim : {β : Type} → Act K V β → Bool
  | _, .addClaim _ _ _ => true
  | _, _ => false

theorem copied_exec {σ' : St K V} (hI : S.Inv C) (he : Exec C t a S.toSt r σ') (h : a.isAddCopied = false)
    (N : Nat) : σ'.copied N = S.copied N := by
  have ho := (hI.s.out S.nTabs (Nat.le_refl _)).2.2.2.2.1
  cases a with
  | addCopied N n src => cases h
  | casRootInit cap =>
    simp only [Exec] at he
    split at he
    · rw [he.1]
      show (if N = S.nTabs then 0 else S.copied N) = _
      split
      · rename_i h1; rw [h1, ho]
      · rfl
    · rw [he.1]
  | storeNext T cap =>
    rw [he.1]
    show (if N = S.nTabs then 0 else S.copied N) = _
    split
    · rename_i h1; rw [h1, ho]
    · rfl
  | tryLock T => rcases he with ⟨_, _, h5⟩ | ⟨_, _, h5⟩ <;> (rw [h5])
  | lockWait T => rcases he with ⟨_, _, h5⟩ | ⟨_, _, h5⟩ <;> (rw [h5])
  | cas w T i e n => rcases he with ⟨_, _, h5⟩ | ⟨_, _, h5⟩ <;> (rw [h5]; try rfl)
  | casNew w T i e k v => rcases he with ⟨_, _, h5⟩ | ⟨_, _, h5⟩ <;> (rw [h5]; try rfl)
  | casRoot T N => rcases he with ⟨_, _, h5⟩ | ⟨_, _, h5⟩ <;> (rw [h5])
  | unlock T => rw [show σ' = _ from he]
  | poison T => rw [show σ' = _ from he]
  | storeMd T i m => rw [show σ' = _ from he]; rfl
  | storeSlot T i s => rw [show σ' = _ from he]; rfl
  | storeStatus T s => rw [show σ' = _ from he]
  | deref e => rw [show σ' = _ from he]
  | retire e => rw [show σ' = _ from he]; rfl
  | retireTable e => rw [show σ' = _ from he]
  | pushDeferred T e => rw [show σ' = _ from he]
  | addCount d => rw [show σ' = _ from he]
  | _ => rw [he.2]; try rfl

theorem claim_exec {σ' : St K V} (hI : S.Inv C) (he : Exec C t a S.toSt r σ') (h : a.isAddClaim = false)
    (N : Nat) : σ'.claim N = S.claim N := by
  have ho := (hI.s.out S.nTabs (Nat.le_refl _)).2.2.2.1
  cases a with
  | addClaim N n src => cases h
  | casRootInit cap =>
    simp only [Exec] at he
    split at he
    · rw [he.1]
      show (if N = S.nTabs then 0 else S.claim N) = _
      split
      · rename_i h1; rw [h1, ho]
      · rfl
    · rw [he.1]
  | storeNext T cap =>
    rw [he.1]
    show (if N = S.nTabs then 0 else S.claim N) = _
    split
    · rename_i h1; rw [h1, ho]
    · rfl
  | tryLock T => rcases he with ⟨_, _, h5⟩ | ⟨_, _, h5⟩ <;> (rw [h5])
  | lockWait T => rcases he with ⟨_, _, h5⟩ | ⟨_, _, h5⟩ <;> (rw [h5])
  | cas w T i e n => rcases he with ⟨_, _, h5⟩ | ⟨_, _, h5⟩ <;> (rw [h5]; try rfl)
  | casNew w T i e k v => rcases he with ⟨_, _, h5⟩ | ⟨_, _, h5⟩ <;> (rw [h5]; try rfl)
  | casRoot T N => rcases he with ⟨_, _, h5⟩ | ⟨_, _, h5⟩ <;> (rw [h5])
  | unlock T => rw [show σ' = _ from he]
  | poison T => rw [show σ' = _ from he]
  | storeMd T i m => rw [show σ' = _ from he]; rfl
  | storeSlot T i s => rw [show σ' = _ from he]; rfl
  | storeStatus T s => rw [show σ' = _ from he]
  | deref e => rw [show σ' = _ from he]
  | retire e => rw [show σ' = _ from he]; rfl
  | retireTable e => rw [show σ' = _ from he]
  | pushDeferred T e => rw [show σ' = _ from he]
  | addCount d => rw [show σ' = _ from he]
  | _ => rw [he.2]; try rfl

/-- A promotion that is due stays so, unless the root has moved. -/
theorem prom_before (hI : S.Inv C) (hI' : S'.Inv C) (hev : Evo S S') {N s : Nat} (h : (WDuty.prom N s).Due C S')
    (hc : S'.copied N = S.copied N) : (WDuty.prom N s).Due C S := by
  obtain ⟨h1, h2, h3⟩ := h
  have h4 := (hI'.s.cap s h1.2.2.1.1).2.1
  have h5 : S.CopyPair s N := pair_of_copied hI hev h1 (by omega)
  refine ⟨h5, by rw [← hc, h2, h5.capEq hev], ?_⟩
  have h6 := root_eq hI.s h5.2.1
  obtain ⟨r', h7, h8⟩ := hev.root _ h6
  rw [h3] at h7
  have h9 := h5.2.2.1.2.1
  have : S.rt = s := by cases h7; omega
  rw [h6, this]

theorem store_doneBy {T i : Nat} : (WDuty.store T i).doneBy a ↔ (Duty.store T i).doneBy a := by
  cases a <;> exact Iff.rfl

theorem store_mem {T i : Nat} (h : Duty.store T i ∈ a.duties C.inc r) : WDuty.store T i ∈ a.wduties C.inc r := by
  cases a with
  | fetchOrCopying T' i' =>
    change _ ∈ (if C.inc && r.ptr.isSome then [Duty.store T' i'] else []) at h
    show _ ∈ (if C.inc && r.ptr.isSome then [WDuty.store T' i'] else [])
    split at h
    · rw [if_pos ‹_›]
      have := List.mem_singleton.1 h
      cases this
      exact List.mem_singleton.2 rfl
    · cases h
  | storeNext T c =>
    change _ ∈ (if C.inc = true then [] else [Duty.stay T]) at h
    split at h
    · cases h
    · cases List.mem_singleton.1 h
  | casRoot T N =>
    change _ ∈ (if r = true then [Duty.retire T] else []) at h
    split at h
    · cases List.mem_singleton.1 h
    · cases h
  | tryLock T =>
    change _ ∈ (if r = true then [Duty.unlock T] else []) at h
    split at h
    · cases List.mem_singleton.1 h
    · cases h
  | lockWait T =>
    change _ ∈ (if r = true then [Duty.unlock T] else []) at h
    split at h
    · cases List.mem_singleton.1 h
    · cases h
  | _ => cases h

/-- Actions that do not count copied slots. -/
theorem prom_rest {N s : Nat} (hI : S.Inv C) (hI' : S'.Inv C) (hev : Evo S S')
    (he : Exec C t a S.toSt r S'.toSt) (hd : (WDuty.prom N s).Due C S') (ha : a.isAddCopied = false) :
    (WDuty.prom N s).Due C S ∧ ¬ (WDuty.prom N s).doneBy a := by
  have hc := copied_exec hI he ha N
  refine ⟨prom_before hI hI' hev hd hc, fun hdone => ?_⟩
  cases a with
  | casRoot T N' =>
    obtain ⟨rfl, rfl⟩ := hdone
    rcases he with ⟨_, _, h2⟩ | ⟨h1, _, h2⟩
    · have h3 : S'.root = some N' := congrArg St.root h2
      rw [hd.2.2] at h3
      have := hd.1.1
      cases h3; omega
    · have h3 : S'.root = S.root := congrArg St.root h2
      exact h1 (by rw [← h3]; exact hd.2.2)
  | _ => exact hdone

/-- As long as the root does not move. -/
theorem stat_rest {N : Nat} (hI : S.Inv C) (hev : Evo S S') (hr : S'.root = S.root)
    (hd : (WDuty.stat N).Due C S') (hn : S.root ≠ none) : (WDuty.stat N).Due C S := by
  obtain ⟨⟨h1, h2, h3⟩, h4⟩ := hd
  obtain ⟨r', hr'⟩ := Option.ne_none_iff_exists'.1 hn
  have h5 := (hI.s.some r' hr').1
  have h6 : S'.rt = S.rt := by unfold rt; rw [hr]
  have h7 : S.rt = r' := by unfold rt; rw [hr']; rfl
  refine ⟨⟨by omega, by omega, fun h => h3 (hev.aborted N h)⟩, ?_⟩
  cases hst : S.status N with
  | pending => rfl
  | aborted => exact absurd (hev.aborted N hst) h3
  | promoted => rw [hev.prom N hst] at h4; cases h4

/-- Whatever is due after an action was due before and is not done by it, or is a new duty. -/
theorem wdue_step {d : WDuty} (hI : S.Inv C) (hI' : S'.Inv C) (hev : Evo S S') (hok : S.okAct a)
    (he : Exec C t a S.toSt r S'.toSt) (hd : d.Due C S') :
    d ∈ a.wduties C.inc r ∨ (d.Due C S ∧ ¬ d.doneBy a) := by
  cases d with
  | chunk => exact hd.elim
  | unlock => exact hd.elim
  | wakeStatus => exact hd.elim
  | wakeSlot => exact hd.elim
  | store T i =>
    rcases due_step (d := .store T i) hI hI' hev hok he hd with h | ⟨h1, h2⟩
    · exact .inl (store_mem h)
    · exact .inr ⟨h1, fun h => h2 (store_doneBy.1 h)⟩
  | prom N s =>
    cases a with
    | addCopied N' n src =>
      obtain ⟨rfl, h2⟩ := he
      have h3 : S'.copied N = if N = N' then S.copied N' + n else S.copied N := congrFun (congrArg St.copied h2) N
      by_cases hN : N = N'
      · subst hN
        left
        rw [if_pos rfl] at h3
        obtain ⟨_, h4, h5⟩ := hok
        obtain ⟨g1, g2, g3⟩ := hd
        have := pair_src g1 (h4.evo hev)
        subst this
        show _ ∈ (if S.copied N + n = src.len then [WDuty.prom N src.id] else [])
        rw [if_pos (by rw [← h3, g2, h4.capEq hev, h5])]
        exact List.mem_singleton.2 rfl
      · rw [if_neg hN] at h3
        exact .inr ⟨prom_before hI hI' hev hd h3, id⟩
    | _ => exact .inr (prom_rest hI hI' hev he hd rfl)
  | stat N =>
    have hnone : S'.root = S.root → S.root ≠ none := by
      intro h1 h2
      have := (hI'.s.none (h1.trans h2)).1
      have := hd.1.1
      omega
    have key : S'.root = S.root → ¬ (WDuty.stat N).doneBy a → (WDuty.stat N).Due C S ∧ ¬ (WDuty.stat N).doneBy a :=
      fun h1 h2 => ⟨stat_rest hI hev h1 hd (hnone h1), h2⟩
    cases a with
    | casRoot T N' =>
      rcases he with ⟨h1, h2, h3⟩ | ⟨h1, h2, h3⟩
      · have hr : S'.root = some N' := congrArg St.root h3
        obtain ⟨hlt, hab⟩ := hok.2.2 h1
        by_cases hN : N = N'
        · left
          rw [h2, hN]
          exact List.mem_singleton.2 rfl
        · right
          obtain ⟨⟨g1, g2, g3⟩, g4⟩ := hd
          have h6 : S'.rt = N' := by unfold rt; rw [hr]; rfl
          have h7 : S.rt = T := by unfold rt; rw [h1]; rfl
          have hn : S'.nTabs = S.nTabs := (congrArg St.nTabs h3 :)
          have hst : S'.status = S.status := (congrArg St.status h3 :)
          have g5 : ¬ S.aborted N := fun h => g3 (hev.aborted N h)
          refine ⟨⟨⟨by omega, ?_, g5⟩, by rw [← hst]; exact g4⟩, id⟩
          by_contra hcon
          exact g5 (hab N (by omega) (by omega))
      · exact .inr (key (congrArg St.root h3 :) id)
    | casRootInit cap =>
      simp only [Exec] at he
      split at he
      · rename_i h1
        exfalso
        have h0 := (hI.s.none h1).1
        have h3 : S'.nTabs = S.nTabs + 1 := congrArg St.nTabs he.1
        have h4 : S'.status N = if N = S.nTabs then .promoted else S.status N := congrFun (congrArg St.status he.1) N
        have := hd.1.1
        rw [if_pos (by omega)] at h4
        rw [hd.2] at h4; cases h4
      · exact .inr (key (congrArg St.root he.1 :) id)
    | storeStatus T s =>
      refine .inr (key (congrArg St.root (id he : S'.toSt = _) :) fun hdone => ?_)
      obtain ⟨rfl, rfl⟩ := hdone
      have h4 : S'.status T = if T = T then .promoted else S.status T := congrFun (congrArg St.status (id he : S'.toSt = _)) T
      rw [if_pos rfl, hd.2] at h4; cases h4
    | storeNext T cap => exact .inr (key (congrArg St.root he.1 :) id)
    | tryLock T => rcases he with ⟨_, _, h5⟩ | ⟨_, _, h5⟩ <;> exact .inr (key (congrArg St.root h5 :) id)
    | lockWait T => rcases he with ⟨_, _, h5⟩ | ⟨_, _, h5⟩ <;> exact .inr (key (congrArg St.root h5 :) id)
    | cas w T i e n => rcases he with ⟨_, _, h5⟩ | ⟨_, _, h5⟩ <;> exact .inr (key (congrArg St.root h5 :) id)
    | casNew w T i e k v => rcases he with ⟨_, _, h5⟩ | ⟨_, _, h5⟩ <;> exact .inr (key (congrArg St.root h5 :) id)
    | unlock T => exact .inr (key (congrArg St.root (id he : S'.toSt = _) :) id)
    | poison T => exact .inr (key (congrArg St.root (id he : S'.toSt = _) :) id)
    | storeMd T i m => exact .inr (key (congrArg St.root (id he : S'.toSt = _) :) id)
    | storeSlot T i s => exact .inr (key (congrArg St.root (id he : S'.toSt = _) :) id)
    | deref e => exact .inr (key (congrArg St.root (id he : S'.toSt = _) :) id)
    | retire e => exact .inr (key (congrArg St.root (id he : S'.toSt = _) :) id)
    | retireTable e => exact .inr (key (congrArg St.root (id he : S'.toSt = _) :) id)
    | pushDeferred T e => exact .inr (key (congrArg St.root (id he : S'.toSt = _) :) id)
    | addCount d => exact .inr (key (congrArg St.root (id he : S'.toSt = _) :) id)
    | _ => exact .inr (key (congrArg St.root he.2 :) id)

theorem wobs_of {o : Option WDuty} (he : Exec C t a S.toSt r S'.toSt) (ho : ∀ d, o = some d → (∀ N s, d = .prom N s → d.Due C S)) :
    WObs o a r := by
  cases a with
  | sameTable T T' => cases o with
    | none => exact he.1
    | some d => cases d <;> exact he.1
  | peekRoot => cases o with
    | none => trivial
    | some d => cases d with
      | prom N s => exact he.1.trans (ho _ rfl N s rfl).2.2
      | _ => trivial
  | _ => cases o with
    | none => trivial
    | some d => cases d <;> trivial

/-! ## Claimed cells -/

/-- Cells only become those of the acting thread when they are claimed. -/
theorem own_back (hev : Evo S S') (hst : ∀ u, u ≠ t → ∀ N j, ((S.cs N j).owner = some u ∨ (S'.cs N j).owner = some u) →
    S'.cs N j = S.cs N j) {N j : Nat} (h : (S'.cs N j).owner = some t) :
    (S.cs N j).owner = some t ∨ (S.claim N ≤ j ∧ j < S'.claim N) := by
  have key : ∀ u, (S.cs N j).owner = some u → (S.cs N j).owner = some t := by
    intro u hu
    by_cases hut : u = t
    · rw [← hut]; exact hu
    · rw [hst u hut N j (.inl hu)] at h; exact h
  cases hc : S.cs N j with
  | idle =>
    rcases hev.ev.idle N j hc with h1 | h1
    · rw [h1] at h; cases h
    · exact .inr h1
  | claimed u => rw [hc] at key; exact .inl (key u rfl)
  | marked u => rw [hc] at key; exact .inl (key u rfl)
  | placed u T i => rw [hc] at key; exact .inl (key u rfl)
  | counted l => rw [hev.counted N j l hc] at h; cases h
  | lost => rw [hev.lost N j hc] at h; cases h

/-- Counting the right number of slots leaves none to be counted. -/
theorem counted_mine (hI : S.Inv C) (hI' : S'.Inv C) (hev : Evo S S')
    (hst : ∀ u, u ≠ t → ∀ N j, ((S.cs N j).owner = some u ∨ (S'.cs N j).owner = some u) → S'.cs N j = S.cs N j)
    {s N a n : Nat} (hpr : S.CopyPair s N) (hcl : S'.claim N = S.claim N)
    (hcp : S'.copied N = S.copied N + min n (S.cap s - a))
    (hown : ∀ j, (S.cs N j).owner = some t → a ≤ j ∧ j < a + n) (j : Nat) : (S'.cs N j).owner ≠ some t := by
  intro hj
  set F := (Finset.range (S.claim N)).filter fun j => (S.cs N j).isCounted with hF
  set F' := (Finset.range (S'.claim N)).filter fun j => (S'.cs N j).isCounted with hF'
  have h1 : F.card = S.copied N := (hI.c.c6 N).symm
  have h2 : F'.card = S'.copied N := (hI'.c.c6 N).symm
  have hsub : F ⊆ F' := by
    intro x hx
    rw [hF, Finset.mem_filter] at hx
    rw [hF', Finset.mem_filter, hcl]
    refine ⟨hx.1, ?_⟩
    have hx2 : (S.cs N x).isCounted = true := hx.2
    cases hc : S.cs N x with
    | counted l => rw [hev.counted N x l hc]; rfl
    | _ => rw [hc] at hx2; cases hx2
  have hD : (F' \ F).card = min n (S.cap s - a) := by
    rw [Finset.card_sdiff_of_subset hsub]; omega
  have hin : ∀ x, (S.cs N x).owner = some t → x ∈ Finset.Ico a (min (a + n) (S.cap s)) := by
    intro x hx
    have := hown x hx
    obtain ⟨s', h3, h4⟩ := hI.c.c2 N x (by intro h; rw [h] at hx; cases hx)
    have := pair_src hpr h3
    subst this
    rw [Finset.mem_Ico]; omega
  have hDs : F' \ F ⊆ Finset.Ico a (min (a + n) (S.cap s)) := by
    intro x hx
    rw [Finset.mem_sdiff, hF', Finset.mem_filter, hF, Finset.mem_filter, hcl] at hx
    obtain ⟨⟨hx1, hx2⟩, hx3⟩ := hx
    have hx2 : (S'.cs N x).isCounted = true := hx2
    have key : ∀ u, (S.cs N x).owner = some u → (S.cs N x).owner = some t := by
      intro u hu
      by_cases hut : u = t
      · rw [← hut]; exact hu
      · rw [hst u hut N x (.inl hu)] at hx2
        cases hc : S.cs N x with
        | counted l => rw [hc] at hu; cases hu
        | _ => rw [hc] at hx2; cases hx2
    cases hc : S.cs N x with
    | idle =>
      rcases hev.ev.idle N x hc with h3 | h3
      · rw [h3] at hx2; cases hx2
      · omega
    | claimed u => exact hin x (key u (by rw [hc]; rfl))
    | marked u => exact hin x (key u (by rw [hc]; rfl))
    | placed u T i => exact hin x (key u (by rw [hc]; rfl))
    | counted l => exact absurd ⟨hx1, by rw [hc]; rfl⟩ hx3
    | lost => rw [hev.lost N x hc] at hx2; cases hx2
  have hEq : F' \ F = Finset.Ico a (min (a + n) (S.cap s)) := by
    refine Finset.eq_of_subset_of_card_le hDs ?_
    rw [hD, Nat.card_Ico]; omega
  have hjS : (S.cs N j).owner = some t := (own_back hev hst hj).resolve_right (by omega)
  have := hin j hjS
  rw [← hEq, Finset.mem_sdiff, hF', Finset.mem_filter] at this
  have h3 : (S'.cs N j).isCounted = true := this.1.2
  cases hc : S'.cs N j with
  | counted l => rw [hc] at hj; cases hj
  | _ => rw [hc] at h3; cases h3

theorem lock_exec {σ' : St K V} (hI : S.Inv C) (he : Exec C t a S.toSt r σ') {T : Nat} {u : Tid} (h : σ'.lock T = .held u) :
    (u = t ∧ WDuty.unlock T ∈ a.wduties C.inc r) ∨ (S.lock T = .held u ∧ ¬ (WDuty.unlock T).doneBy a) := by
  cases a with
  | casRootInit cap =>
    simp only [Exec] at he
    split at he
    · rw [he.1] at h
      have h : (if T = S.nTabs then .free else S.lock T) = Lock.held u := h
      split at h
      · cases h
      · exact .inr ⟨h, id⟩
    · rw [he.1] at h; exact .inr ⟨h, id⟩
  | storeNext T' cap =>
    rw [he.1] at h
    have h : (if T = S.nTabs then .free else S.lock T) = Lock.held u := h
    split at h
    · cases h
    · exact .inr ⟨h, id⟩
  | tryLock T' =>
    rcases he with ⟨h1, h2, h3⟩ | ⟨h1, h2, h3⟩
    · rw [h3] at h
      have h : (if T = T' then .held t else S.lock T) = Lock.held u := h
      split at h
      · rename_i hT
        cases h
        rw [h2, hT]
        exact .inl ⟨rfl, List.mem_singleton.2 rfl⟩
      · exact .inr ⟨h, id⟩
    · rw [h3] at h; exact .inr ⟨h, id⟩
  | lockWait T' =>
    rcases he with ⟨h1, h2, h3⟩ | ⟨h1, h2, h3⟩
    · rw [h3] at h
      have h : (if T = T' then .held t else S.lock T) = Lock.held u := h
      split at h
      · rename_i hT
        cases h
        rw [h2, hT]
        exact .inl ⟨rfl, List.mem_singleton.2 rfl⟩
      · exact .inr ⟨h, id⟩
    · rw [h3] at h; exact .inr ⟨h, id⟩
  | unlock T' =>
    rw [(id he : σ' = _)] at h
    have h : (if T = T' then .free else S.lock T) = Lock.held u := h
    split at h
    · cases h
    · rename_i hT; exact .inr ⟨h, fun hd => hT (Eq.symm hd)⟩
  | poison T' =>
    rw [(id he : σ' = _)] at h
    have h : (if T = T' then .poisoned else S.lock T) = Lock.held u := h
    split at h
    · cases h
    · rename_i hT; exact .inr ⟨h, fun hd => hT (Eq.symm hd)⟩
  | cas w T i e n => rcases he with ⟨_, _, h5⟩ | ⟨_, _, h5⟩ <;> (rw [h5] at h; exact .inr ⟨h, id⟩)
  | casNew w T i e k v => rcases he with ⟨_, _, h5⟩ | ⟨_, _, h5⟩ <;> (rw [h5] at h; exact .inr ⟨h, id⟩)
  | casRoot T N => rcases he with ⟨_, _, h5⟩ | ⟨_, _, h5⟩ <;> (rw [h5] at h; exact .inr ⟨h, id⟩)
  | storeMd T i m => rw [(id he : σ' = _)] at h; exact .inr ⟨h, id⟩
  | storeSlot T i s => rw [(id he : σ' = _)] at h; exact .inr ⟨h, id⟩
  | storeStatus T s => rw [(id he : σ' = _)] at h; exact .inr ⟨h, id⟩
  | deref e => rw [(id he : σ' = _)] at h; exact .inr ⟨h, id⟩
  | retire e => rw [(id he : σ' = _)] at h; exact .inr ⟨h, id⟩
  | retireTable e => rw [(id he : σ' = _)] at h; exact .inr ⟨h, id⟩
  | pushDeferred T e => rw [(id he : σ' = _)] at h; exact .inr ⟨h, id⟩
  | addCount d => rw [(id he : σ' = _)] at h; exact .inr ⟨h, id⟩
  | _ => rw [he.2] at h; exact .inr ⟨h, id⟩

/-! ## Steps -/

/-- The part of the memory that matters is unchanged. -/
structure SameW (σ σ' : St K V) : Prop where
  root : σ'.root = σ.root
  nTabs : σ'.nTabs = σ.nTabs
  status : σ'.status = σ.status
  copied : σ'.copied = σ.copied
  cap : σ'.cap = σ.cap
  slot : σ'.slot = σ.slot
  lock : σ'.lock = σ.lock
  claim : σ'.claim = σ.claim

theorem SameW.due (h : SameW S.toSt S'.toSt) {d : WDuty} (hd : d.Due C S') : d.Due C S := by
  have hr : S'.rt = S.rt := by unfold rt; rw [h.root]
  have ha : S'.aborted = S.aborted := by funext T; unfold aborted; rw [h.status]
  have hw : S'.wasRoot = S.wasRoot := by funext T; unfold wasRoot; rw [hr, h.nTabs, ha]
  have hp : S'.CopyPair = S.CopyPair := by funext s N; unfold CopyPair; rw [h.nTabs, hw, ha]
  cases d with
  | chunk => exact hd
  | unlock => exact hd
  | wakeStatus => exact hd
  | wakeSlot => exact hd
  | prom N s => unfold WDuty.Due at hd ⊢; rw [hp, h.copied, h.cap, h.root] at hd; exact hd
  | stat N => unfold WDuty.Due at hd ⊢; rw [hw, h.status] at hd; exact hd
  | store T i =>
    have hd : (Duty.store T i).Due C S'.toSt := hd
    show (Duty.store T i).Due C S.toSt
    unfold Duty.Due at hd ⊢
    rw [h.slot] at hd; exact hd

/-- Steps that do not touch the part of the memory that matters. -/
theorem WorkInv.set {ps ps' : PSt K V} (h : WorkInv C ps S) {x : Th K V} (hev : Evo S S') (hst : CsStill ps ps' S S')
    (hth : ps'.th = setTh ps.th t x) (hg : ps.th t ≠ .gone ∨ x = .gone) (hh : ∀ e ∈ ps.hist, e ∈ ps'.hist)
    (hm : SameW S.toSt S'.toSt)
    (hx : ∀ c p, x = .run c p → ∀ n, WSh C.inc n none p fun o _ => o = none)
    (ht : Excused ps' ∨ x = ps.th t ∨ ∀ c (β : Type) (a : Act K V β) k, ps.th t ≠ .run c (.act a k))
    (hk : ∀ d c p, ps.th t = .run c p → (∀ n, WSh C.inc n (some d) p fun o _ => o = none) →
      Excused ps' ∨ ∃ c' p', x = .run c' p' ∧ ∀ n, WSh C.inc n (some d) p' fun o _ => o = none) : WorkInv C ps' S' := by
  have hex : Excused ps → Excused ps' := fun h1 => h1.mono (fun u hu => by
    rw [hth]
    rcases hg with hg | hg
    · exact setTh_gone hg u hu
    · unfold setTh; split
      · exact hg
      · exact hu) hh
  constructor
  · intro u c p hu
    rw [hth] at hu
    by_cases hut : u = t
    · rw [hut, setTh_same] at hu; exact hx c p hu
    · rw [setTh_ne hut] at hu; exact h.plain u c p hu
  · intro d hd
    rcases h.due d (hm.due hd) with h1 | ⟨u, c, p, h1, h2⟩
    · exact .inl (hex h1)
    · by_cases hut : u = t
      · subst hut
        rcases hk d c p h1 h2 with h3 | ⟨c', p', h3, h4⟩
        · exact .inl h3
        · exact .inr ⟨u, c', p', by rw [hth, setTh_same, h3], h4⟩
      · exact .inr ⟨u, c, p, by rw [hth, setTh_ne hut, h1], h2⟩
  · intro u T hu
    have hu : S.lock T = .held u := by rw [← hm.lock]; exact hu
    rcases h.lock u T hu with h1 | ⟨c, p, h1, h2⟩
    · exact .inl (hex h1)
    · by_cases hut : u = t
      · subst hut
        rcases hk _ c p h1 h2 with h3 | ⟨c', p', h3, h4⟩
        · exact .inl h3
        · exact .inr ⟨c', p', by rw [hth, setTh_same, h3], h4⟩
      · exact .inr ⟨c, p, by rw [hth, setTh_ne hut, h1], h2⟩
  · intro u N ⟨j, hj⟩
    have hsame : Excused ps' ∨ ∀ j, ((S.cs N j).owner = some u ∨ (S'.cs N j).owner = some u) → S'.cs N j = S.cs N j := by
      by_cases hut : u = t
      · rcases ht with h1 | h1 | h1
        · exact .inl h1
        · refine .inr fun j => hst u (.inl ?_) N j
          rw [hth, hut, setTh_same, h1]
        · exact .inr fun j => hst u (.inr (by rw [hut]; exact h1)) N j
      · exact .inr fun j => hst u (.inl (by rw [hth, setTh_ne hut])) N j
    rcases hsame with h1 | hsame
    · exact .inl h1
    rcases h.own u N ⟨j, by rw [← hsame j (.inr hj)]; exact hj⟩ with h1 | h1 | ⟨c, p, s, a, n, h1, h2, h3, h4⟩
    · exact .inl (hex h1)
    · exact .inr (.inl (hev.aborted N h1))
    · have h5 : ∀ j, (S'.cs N j).owner = some u → a ≤ j ∧ j < a + n := fun j hj => h4 j (by rw [← hsame j (.inr hj)]; exact hj)
      by_cases hut : u = t
      · subst hut
        rcases hk _ c p h1 h2 with h6 | ⟨c', p', h6, h7⟩
        · exact .inl h6
        · exact .inr (.inr ⟨c', p', s, a, n, by rw [hth, setTh_same, h6], by rw [h3.capEq hev]; exact h7, h3.evo hev, h5⟩)
      · exact .inr (.inr ⟨c, p, s, a, n, by rw [hth, setTh_ne hut, h1], by rw [h3.capEq hev]; exact h2, h3.evo hev, h5⟩)
  · exact claim_step hev h.claim
  · exact lost_step hev h.lost

theorem workInv_init {ps : PSt K V} (h : IsInit C ps) (hS : S.toSt = ps.mem) (hI : S.Inv C) : WorkInv C ps S := by
  obtain ⟨h1, h2, h3, h4, h5⟩ := h
  have hd := dutyInv_init ⟨h1, h2, h3, h4, h5⟩
  have hn : S.nTabs ≤ 1 ∧ (∀ N, S.claim N = 0) ∧ (∀ T, T < S.nTabs → S.status T = .promoted) ∧
      (∀ T, S.lock T = .free) := by
    have e1 : S.nTabs = ps.mem.nTabs := congrArg St.nTabs hS
    have e2 : S.claim = ps.mem.claim := congrArg St.claim hS
    have e3 : S.status = ps.mem.status := congrArg St.status hS
    have e4 : S.lock = ps.mem.lock := congrArg St.lock hS
    rw [e1, e2, e3, e4]
    unfold initSt at h1
    simp only at h1
    split at h1
    · rw [← Option.some.inj h1]
      exact ⟨Nat.zero_le _, fun _ => rfl, fun T h => absurd h (Nat.not_lt_zero _), fun _ => rfl⟩
    · obtain ⟨n, _, h1⟩ := Option.map_eq_some_iff.1 h1
      rw [← h1]
      refine ⟨Nat.le_refl _, fun N => ?_, fun T hT => ?_, fun T => ?_⟩
      · show (if N = 0 then 0 else 0) = 0; simp
      · have hT : T < 0 + 1 := hT
        show (if T = 0 then Status.promoted else .pending) = _
        rw [if_pos (by omega)]
      · show (if T = 0 then Lock.free else .free) = _; simp
  obtain ⟨g1, g2, g3, g4⟩ := hn
  have hpair : ∀ s N, ¬ S.CopyPair s N := fun s N hp => by have := hp.1; have := hp.2.1; omega
  have hidle : ∀ N j, S.cs N j = .idle := by
    intro N j
    by_contra hc
    obtain ⟨s, hs, _⟩ := hI.c.c2 N j hc
    exact hpair s N hs
  constructor
  · intro t c p ht; rw [h2] at ht; cases ht
  · intro d hd'
    cases d with
    | chunk => exact hd'.elim
    | unlock => exact hd'.elim
    | wakeStatus => exact hd'.elim
    | wakeSlot => exact hd'.elim
    | prom N s => exact absurd hd'.1 (hpair s N)
    | stat N =>
      have := g3 N hd'.1.1
      rw [hd'.2] at this; cases this
    | store T i =>
      have hd' : (Duty.store T i).Due C S.toSt := hd'
      rw [hS] at hd'
      rcases hd.due _ hd' with h6 | ⟨t, c, p, h6, _⟩
      · exact .inl h6
      · rw [h2] at h6; cases h6
  · intro t T h6; rw [g4] at h6; cases h6
  · intro t N ⟨j, hj⟩; rw [hidle] at hj; cases hj
  · intro N j hj; rw [g2] at hj; omega
  · intro N j hj; rw [hidle] at hj; cases hj

theorem setTh_self {th : Tid → Th K V} : setTh th t (th t) = th := by
  funext u; unfold setTh; split
  · rename_i h; rw [h]
  · rfl

theorem addClaim_of_claim {σ' : St K V} (hI : S.Inv C) (he : Exec C t a S.toSt r σ') {N : Nat} (h : σ'.claim N ≠ S.claim N) :
    a.isAddClaim = true := by
  by_contra hc
  exact h (claim_exec hI he (by simpa using hc) N)

/-- The cells of the acting thread, after its action. -/
theorem own_act {ps ps' : PSt K V} {c : Call K V} {k : β → Prog K V c.Res} (h : WorkInv C ps S) (hI : S.Inv C) (hI' : S'.Inv C)
    (hev : Evo S S') (hst : CsStill ps ps' S S') (hok : S.okAct a) (he : Exec C t a S.toSt r S'.toSt)
    (ht : ps.th t = .run c (.act a k)) (ht' : ps'.th = setTh ps.th t (.run c (k r)))
    (hex : Excused ps → Excused ps') {N : Nat} (hj : ∃ j, (S'.cs N j).owner = some t) :
    Excused ps' ∨ S'.aborted N ∨ ∃ s b n, (∀ m, WSh C.inc m (some (.chunk N s (S'.cap s) b n)) (k r) fun o _ => o = none) ∧
      S'.CopyPair s N ∧ ∀ j, (S'.cs N j).owner = some t → b ≤ j ∧ j < b + n := by
  have hst' : ∀ u, u ≠ t → ∀ N j, ((S.cs N j).owner = some u ∨ (S'.cs N j).owner = some u) → S'.cs N j = S.cs N j :=
    fun u hu => hst u (.inl (by rw [ht', setTh_ne hu]))
  have hob : WObs none a r := wobs_of he fun d hd => by cases hd
  -- the cells held before the action
  have hold : (∃ j, (S.cs N j).owner = some t) → Excused ps' ∨ S'.aborted N ∨ ∃ s b n,
      (a.allowed C.inc (some (.chunk N s (S'.cap s) b n)) = true ∧ (¬ (WDuty.chunk N s (S'.cap s) b n).doneBy a →
        ∀ m, WSh C.inc m (some (.chunk N s (S'.cap s) b n)) (k r) fun o _ => o = none)) ∧
      S.CopyPair s N ∧ S'.cap s = S.cap s ∧ ∀ j, (S.cs N j).owner = some t → b ≤ j ∧ j < b + n := by
    intro h0
    rcases h.own t N h0 with h1 | h1 | ⟨c', p, s, b, n, h1, h2, h3, h4⟩
    · exact .inl (hex h1)
    · exact .inr (.inl (hev.aborted N h1))
    · rw [ht] at h1; cases h1
      rw [← h3.capEq hev] at h2
      refine .inr (.inr ⟨s, b, n, ⟨(h2 1).1, fun hn m => ?_⟩, h3, h3.capEq hev, h4⟩)
      exact ((h2 (m + 1)).2 r (wobs_of he fun d hd N' s' hd' => by cases hd; cases hd')).2 fun d hd => by cases hd; exact hn
  by_cases hcl : S'.claim N = S.claim N
  · -- nothing claimed
    have hbk : ∀ j, (S'.cs N j).owner = some t → (S.cs N j).owner = some t := fun j hj =>
      (own_back hev hst' hj).resolve_right (by omega)
    obtain ⟨j, hj⟩ := hj
    rcases hold ⟨j, hbk j hj⟩ with h1 | h1 | ⟨s, b, n, ⟨_, h2⟩, h3, h5, h4⟩
    · exact .inl h1
    · exact .inr (.inl h1)
    · by_cases hd : (WDuty.chunk N s (S'.cap s) b n).doneBy a
      · cases a with
        | addCopied N' m src =>
          obtain ⟨rfl, hm⟩ := hd
          have hcp : S'.copied N' = if N' = N' then S.copied N' + m else S.copied N' := congrFun (congrArg St.copied he.2) N'
          rw [if_pos rfl, hm, h5] at hcp
          exact absurd hj (counted_mine hI hI' hev hst' h3 hcl hcp h4 j)
        | storeStatus N' st =>
          obtain ⟨rfl, rfl⟩ := hd
          refine .inr (.inl ?_)
          have h6 : S'.status N' = if N' = N' then .aborted else S.status N' := congrFun (congrArg St.status (id he : S'.toSt = _)) N'
          rw [if_pos rfl] at h6
          exact h6
        | _ => exact hd.elim
      · exact .inr (.inr ⟨s, b, n, h2 hd, h3.evo hev, fun j hj => h4 j (hbk j hj)⟩)
  · have hac := addClaim_of_claim hI he hcl
    cases a with
    | addClaim N' n src =>
      have h6 : S'.claim N = if N = N' then S.claim N' + n else S.claim N := congrFun (congrArg St.claim he.2) N
      have hN : N = N' := by
        by_contra hN
        rw [if_neg hN] at h6; exact hcl h6
      subst hN
      rw [if_pos rfl] at h6
      by_cases h0 : ∃ j, (S.cs N j).owner = some t
      · rcases hold h0 with h1 | h1 | ⟨s, b, n, ⟨h2, _⟩, _⟩
        · exact .inl h1
        · exact .inr (.inl h1)
        · cases h2
      · have hin : ∀ j, (S'.cs N j).owner = some t → S.claim N ≤ j ∧ j < S.claim N + n := by
          intro j hj
          rcases own_back hev hst' hj with h1 | h1
          · exact absurd ⟨j, h1⟩ h0
          · exact ⟨h1.1, by omega⟩
        obtain ⟨j, hj⟩ := hj
        obtain ⟨_, h4, h5⟩ := hok
        obtain ⟨s', h7, h8⟩ := hI'.c.c2 N j (by intro h; rw [h] at hj; cases hj)
        have := pair_src h7 (h4.evo hev)
        subst this
        have hcap := h4.capEq hev
        have hj' := hin j hj
        have hr : r = S.claim N := he.1
        refine .inr (.inr ⟨src.id, S.claim N, n, fun m => ?_, h7, hin⟩)
        refine ((h.plain t _ _ ht (m + 1)).2 r hob).1 _ ?_
        show _ ∈ (if r < src.len ∧ 0 < n then [WDuty.chunk N src.id src.len r n] else [])
        rw [if_pos (by omega), hr, h5, hcap]
        exact List.mem_singleton.2 rfl
    | _ => cases hac

theorem workInv_step {N : Nat} {g : HG} {ps ps' : PSt K V} (hS : PInvG C (N + 1) ps S g) (h : WorkInv C ps S) (hs : Step C ps ps') :
    ∃ S' g', PInvG C N ps' S' g' ∧ WorkInv C ps' S' := by
  obtain ⟨S', g', hS', hev, _, hst, _⟩ := pinvG_step hS hs
  refine ⟨S', g', hS', ?_⟩
  have hm := hS.1
  have hm' := hS'.1
  have sw : SameW ps.mem ps'.mem → SameW S.toSt S'.toSt := fun hw => by rw [hm, hm']; exact hw
  cases hs with
  | pin t ht =>
    refine h.set hev hst (t := t) rfl (.inl (by rw [ht]; exact fun h => nomatch h)) (fun _ h => h)
      (sw ⟨rfl, rfl, rfl, rfl, rfl, rfl, rfl, rfl⟩) (fun c p hx => by cases hx)
      (.inr (.inr fun c β a k => by rw [ht]; exact fun h => nomatch h)) fun d c p hp => by rw [ht] at hp; cases hp
  | unpin t ht =>
    refine h.set hev hst (t := t) rfl (.inl (by rw [ht]; exact fun h => nomatch h)) (fun _ h => h)
      (sw ⟨rfl, rfl, rfl, rfl, rfl, rfl, rfl, rfl⟩) (fun c p hx => by cases hx)
      (.inr (.inr fun c β a k => by rw [ht]; exact fun h => nomatch h)) fun d c p hp => by rw [ht] at hp; cases hp
  | abandon t ht =>
    refine h.set hev hst (t := t) rfl (.inl (by rw [ht]; exact fun h => nomatch h)) (fun _ h => h)
      (sw ⟨rfl, rfl, rfl, rfl, rfl, rfl, rfl, rfl⟩) (fun c p hx => by cases hx)
      (.inl (.inl ⟨t, setTh_same⟩)) fun d c p hp _ => .inl (.inl ⟨t, setTh_same⟩)
  | release t ht =>
    refine h.set hev hst (t := t) (x := ps.th t) setTh_self.symm (.inr ht) (fun _ h => h)
      (sw ⟨rfl, rfl, rfl, rfl, rfl, rfl, rfl, rfl⟩) (fun c p hx => by rw [ht] at hx; cases hx)
      (.inr (.inl rfl)) fun d c p hp => by rw [ht] at hp; cases hp
  | inv t c ht hwf =>
    refine h.set hev hst (t := t) rfl (.inl (by rw [ht]; exact fun h => nomatch h)) (fun _ h => List.mem_append_left _ h)
      (sw ⟨rfl, rfl, rfl, rfl, rfl, rfl, rfl, rfl⟩) (fun c' p hx n => ?_)
      (.inr (.inr fun c β a k => by rw [ht]; exact fun h => nomatch h)) fun d c p hp => by rw [ht] at hp; cases hp
    cases hx
    exact Wk.plain_call c n none rfl
  | @loop t c β σ body s k ht =>
    refine h.set hev hst (t := t) rfl (.inl (by rw [ht]; exact fun h => nomatch h)) (fun _ h => h)
      (sw ⟨rfl, rfl, rfl, rfl, rfl, rfl, rfl, rfl⟩) (fun c' p hx n => ?_)
      (.inr (.inr fun c β a k => by rw [ht]; intro h; cases h)) fun d c' p hp hsh => .inr ⟨c, _, rfl, fun n => ?_⟩
    · cases hx
      exact h.plain t _ _ ht (n + 1)
    · rw [ht] at hp; cases hp
      exact hsh (n + 1)
  | @ret t c r ht =>
    refine h.set hev hst (t := t) rfl (.inl (by rw [ht]; exact fun h => nomatch h)) (fun _ h => List.mem_append_left _ h)
      (sw ⟨rfl, rfl, rfl, rfl, rfl, rfl, rfl, rfl⟩) (fun c p hx => by cases hx)
      (.inr (.inr fun c β a k => by rw [ht]; intro h; cases h)) fun d c' p hp hsh => ?_
    rw [ht] at hp; cases hp
    cases (hsh 1 : some d = none)
  | @panic t c why ht =>
    refine h.set hev hst (t := t) rfl (.inl (by rw [ht]; exact fun h => nomatch h)) (fun _ h => List.mem_append_left _ h)
      (sw ⟨rfl, rfl, rfl, rfl, rfl, rfl, rfl, rfl⟩) (fun c p hx => by cases hx)
      (.inr (.inr fun c β a k => by rw [ht]; intro h; cases h)) fun d c' p hp hsh => ?_
    rw [ht] at hp; cases hp
    rcases (hsh 1 : some d = none ∨ why.hard = true) with h1 | h1
    · cases h1
    · exact .inl (.inr ⟨_, c, why, List.mem_append_right _ (List.mem_singleton.2 rfl), h1⟩)
  | freeEntry x h1 h2 h3 =>
    refine h.set hev hst (t := 0) (x := ps.th 0) setTh_self.symm (by by_cases hg : ps.th 0 = .gone; exact .inr hg; exact .inl hg)
      (fun _ h => h) (sw ⟨rfl, rfl, rfl, rfl, rfl, rfl, rfl, rfl⟩) (h.plain 0) (.inr (.inl rfl)) fun d c p hp hsh => .inr ⟨c, p, hp, hsh⟩
  | freeTable T h1 h2 h3 =>
    refine h.set hev hst (t := 0) (x := ps.th 0) setTh_self.symm (by by_cases hg : ps.th 0 = .gone; exact .inr hg; exact .inl hg)
      (fun _ h => h) (sw ⟨rfl, rfl, rfl, rfl, rfl, rfl, rfl, rfl⟩) (h.plain 0) (.inr (.inl rfl)) fun d c p hp hsh => .inr ⟨c, p, hp, hsh⟩
  | @act t c β a k r σ ht he =>
    have hok : S.okAct a := by
      have h7 := hS.2.2.2.1 t
      rw [ht] at h7
      exact (h7 S hS.2.1 ((rg K V C).refl t S)).1
    have hm' : S'.toSt = σ := hS'.1
    rw [← hm, ← hm'] at he
    have hI := hS.2.1
    have hI' := hS'.2.1
    have hp := h.plain t _ _ ht
    have hob : WObs none a r := wobs_of he fun d hd => by cases hd
    have hex : Excused ps → Excused ⟨σ, setTh ps.th t (.run c (k r)), ps.seq, ps.held, ps.hist⟩ := fun h3 =>
      h3.mono (fun u hu => setTh_gone (by rw [ht]; exact fun h => nomatch h) u hu) fun _ h => h
    constructor
    · intro u c' p hu n
      have hu : setTh ps.th t (.run c (k r)) u = .run c' p := hu
      by_cases hut : u = t
      · rw [hut, setTh_same] at hu; cases hu
        exact ((hp (n + 1)).2 r hob).2 fun d hd => by cases hd
      · rw [setTh_ne hut] at hu; exact h.plain u c' p hu n
    · intro d hd
      rcases wdue_step hI hI' hev hok he hd with h1 | ⟨h1, h2⟩
      · exact .inr ⟨t, c, k r, setTh_same, fun n => ((hp (n + 1)).2 r hob).1 d h1⟩
      · have hob' : WObs (some d) a r := wobs_of he fun d' hd' _ _ _ => by cases hd'; exact h1
        rcases h.due d h1 with h3 | ⟨u, c', p, h3, h4⟩
        · exact .inl (hex h3)
        · by_cases hut : u = t
          · subst hut
            rw [ht] at h3; cases h3
            exact .inr ⟨u, c, k r, setTh_same, fun n => ((h4 (n + 1)).2 r hob').2 fun d' hd' => by cases hd'; exact h2⟩
          · exact .inr ⟨u, c', p, by show setTh _ _ _ _ = _; rw [setTh_ne hut, h3], h4⟩
    · intro u T hu
      rcases lock_exec hI he hu with ⟨rfl, h1⟩ | ⟨h1, h2⟩
      · exact .inr ⟨c, k r, setTh_same, fun n => ((hp (n + 1)).2 r hob).1 _ h1⟩
      · have hob' : WObs (some (.unlock T)) a r := wobs_of he fun d' hd' N s h => by rw [h] at hd'; cases hd'
        rcases h.lock u T h1 with h3 | ⟨c', p, h3, h4⟩
        · exact .inl (hex h3)
        · by_cases hut : u = t
          · subst hut
            rw [ht] at h3; cases h3
            exact .inr ⟨c, k r, setTh_same, fun n => ((h4 (n + 1)).2 r hob').2 fun d' hd' => by cases hd'; exact h2⟩
          · exact .inr ⟨c', p, by show setTh _ _ _ _ = _; rw [setTh_ne hut, h3], h4⟩
    · intro u M hj
      by_cases hut : u = t
      · subst hut
        rcases own_act h hI hI' hev hst hok he ht rfl hex hj with h1 | h1 | ⟨s, b, n, h2, h3, h4⟩
        · exact .inl h1
        · exact .inr (.inl h1)
        · exact .inr (.inr ⟨c, k r, s, b, n, setTh_same, h2, h3, h4⟩)
      · have hsame : ∀ j, ((S.cs M j).owner = some u ∨ (S'.cs M j).owner = some u) → S'.cs M j = S.cs M j :=
          fun j => hst u (.inl (setTh_ne hut)) M j
        obtain ⟨j, hj⟩ := hj
        rcases h.own u M ⟨j, by rw [← hsame j (.inr hj)]; exact hj⟩ with h1 | h1 | ⟨c', p, s, b, n, h1, h2, h3, h4⟩
        · exact .inl (hex h1)
        · exact .inr (.inl (hev.aborted M h1))
        · exact .inr (.inr ⟨c', p, s, b, n, by show setTh _ _ _ _ = _; rw [setTh_ne hut, h1], by rw [h3.capEq hev]; exact h2,
            h3.evo hev, fun j hj => h4 j (by rw [← hsame j (.inr hj)]; exact hj)⟩)
    · exact claim_step hev h.claim
    · exact lost_step hev h.lost

/-- In every reachable state, whoever others wait for is at work. -/
theorem Reach.work {ps : PSt K V} (h : Reach C ps) : ∀ N, ∃ S g, PInvG C N ps S g ∧ WorkInv C ps S := by
  induction h with
  | init h =>
    intro N
    obtain ⟨S, g, hS, _⟩ := pinv_init h N
    exact ⟨S, g, hS, workInv_init h hS.1 hS.2.1⟩
  | step _ hs ih =>
    intro N
    obtain ⟨S, g, hS, hw⟩ := ih (N + 1)
    exact workInv_step hS hw hs

end Papaya
