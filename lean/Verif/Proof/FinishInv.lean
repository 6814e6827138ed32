import Verif.Proof.FinishOps
import Verif.Proof.PInv
import Verif.Spec.Memory

/-! # Whatever is due is somebody's duty -/

set_option linter.unusedSectionVars false
set_option linter.unusedVariables false

namespace Papaya

variable {K V : Type} [DecidableEq K] {C : Cfg K}

open GSt

/-- The duty is due. -/
def Duty.Due (C : Cfg K) (σ : St K V) : Duty → Prop
  | .stay T => C.inc = false ∧ σ.root = some T ∧ T + 1 < σ.nTabs
  | .store T i => C.inc = true ∧ (σ.slot T i).copying = true ∧ (σ.slot T i).ptr ≠ none ∧ (σ.slot T i).copied = false
  | .retire T => T < σ.rootIx ∧ σ.status T ≠ .aborted ∧ σ.tabRetired T = false
  | .unlock T => ∃ t, σ.lock T = .held t

variable {t : Tid} {β : Type} {a : Act K V β} {r : β}

theorem obs_none {S : GSt K V} {σ' : St K V} (hI : S.Inv C) (hok : S.okAct a) (he : Exec C t a S.toSt r σ') :
    Obs none a r := by
  cases a with
  | loadNext T =>
    intro N hN
    obtain ⟨h1, _⟩ := he
    rw [h1, hI.s.next T hok.1] at hN
    split at hN
    · cases hN; exact Nat.lt_succ_self T
    · cases hN
  | storeNext T c =>
    obtain ⟨h1, h2⟩ := he
    rw [h2]
    exact hok.1
  | sameTable T T' => exact he.1
  | _ => trivial

theorem obs_due {S : GSt K V} {σ' : St K V} {d : Duty} (hI : S.Inv C) (hok : S.okAct a)
    (he : Exec C t a S.toSt r σ') (hd : d.Due C S.toSt) : Obs (some d) a r := by
  have h0 := obs_none hI hok he
  cases a with
  | loadNext T => cases d <;> exact h0
  | storeNext T c => cases d <;> exact h0
  | sameTable T T' => cases d <;> exact h0
  | loadRoot =>
    cases d with
    | stay T =>
      obtain ⟨h1, _⟩ := he
      rw [h1]
      show (S.root.map S.handle).map Table.id = some T
      rw [show S.root = some T from hd.2.1]; rfl
    | _ => trivial
  | peekRoot =>
    cases d with
    | stay T => exact he.1.trans hd.2.1
    | _ => trivial
  | loadStatus N =>
    cases d with
    | stay T =>
      obtain ⟨h1, _⟩ := he
      intro hp
      have := (hI.s.prom N (h1.symm.trans hp)).1
      unfold rt at this
      rw [show S.root = some T from hd.2.1] at this
      exact this
    | _ => trivial
  | _ => cases d <;> trivial

/-- An action that leaves everything relevant alone. -/
theorem due_same {σ σ' : St K V} {d : Duty} (h1 : σ'.root = σ.root) (h2 : σ'.nTabs = σ.nTabs) (h3 : σ'.slot = σ.slot)
    (h4 : σ'.status = σ.status) (h5 : σ'.tabRetired = σ.tabRetired) (h6 : σ'.lock = σ.lock) (hd : d.Due C σ') : d.Due C σ := by
  cases d with
  | stay T => exact ⟨hd.1, h1 ▸ hd.2.1, h2 ▸ hd.2.2⟩
  | store T i => rw [Duty.Due, h3] at hd; exact hd
  | retire T =>
    rw [Duty.Due, h4, h5] at hd
    unfold St.rootIx at hd
    rw [h1] at hd; exact hd
  | unlock T => rw [Duty.Due, h6] at hd; exact hd

/-- Whatever is due after an action was due before and is not done by it, or is a new duty. -/
theorem due_step {S S' : GSt K V} {d : Duty} (hI : S.Inv C) (hI' : S'.Inv C) (hev : Evo S S') (hok : S.okAct a)
    (he : Exec C t a S.toSt r S'.toSt) (hd : d.Due C S'.toSt) :
    d ∈ a.duties C.inc r ∨ (d.Due C S.toSt ∧ ¬ d.doneBy a) := by
  generalize hσ' : S'.toSt = σ' at he hd
  cases a with
  | casRootInit cap =>
    simp only [Exec] at he
    right
    split at he
    · rename_i hr
      obtain ⟨h1, h2⟩ := he
      have hn := (hI.s.none hr).1
      refine ⟨?_, by cases d <;> exact id⟩
      rw [h1] at hd
      cases d with
      | stay T =>
        have h3 : some S.nTabs = some T := hd.2.1
        have h4 : T + 1 < S.nTabs + 1 := hd.2.2
        cases h3; omega
      | store T i =>
        have h3 : (if T = S.nTabs then Slot.null else S.slot T i).copying = true := hd.2.1
        split at h3
        · cases h3
        · rename_i hT
          have := hd
          simp only [Duty.Due, St.allocTable, if_neg hT] at this
          exact this
      | retire T =>
        have h3 : T < S.nTabs := hd.1
        omega
      | unlock T =>
        obtain ⟨u, h3⟩ := hd
        have h3 : (if T = S.nTabs then .free else S.lock T) = Lock.held u := h3
        split at h3
        · cases h3
        · exact ⟨u, h3⟩
    · rw [he.1] at hd
      exact ⟨hd, by cases d <;> exact id⟩
  | tryLock T =>
    rcases he with ⟨h1, h2, h3⟩ | ⟨h1, h2, h3⟩
    · subst h2 h3
      cases d with
      | unlock T' =>
        obtain ⟨u, hd⟩ := hd
        have hd : (if T' = T then .held t else S.lock T') = Lock.held u := hd
        split at hd
        · rename_i hT; rw [hT]; exact .inl (List.mem_singleton.2 rfl)
        · exact .inr ⟨⟨u, hd⟩, id⟩
      | _ => exact .inr ⟨hd, id⟩
    · subst h3
      exact .inr ⟨hd, by cases d <;> exact id⟩
  | lockWait T =>
    rcases he with ⟨h1, h2, h3⟩ | ⟨h1, h2, h3⟩
    · subst h2 h3
      cases d with
      | unlock T' =>
        obtain ⟨u, hd⟩ := hd
        have hd : (if T' = T then .held t else S.lock T') = Lock.held u := hd
        split at hd
        · rename_i hT; rw [hT]; exact .inl (List.mem_singleton.2 rfl)
        · exact .inr ⟨⟨u, hd⟩, id⟩
      | _ => exact .inr ⟨hd, id⟩
    · subst h3
      exact .inr ⟨hd, by cases d <;> exact id⟩
  | unlock T =>
    have he : σ' = _ := he
    subst he
    right
    cases d with
    | unlock T' =>
      obtain ⟨u, hd⟩ := hd
      have hd : (if T' = T then .free else S.lock T') = Lock.held u := hd
      split at hd
      · cases hd
      · rename_i hT
        exact ⟨⟨u, hd⟩, fun h => hT (Eq.symm h)⟩
    | _ => exact ⟨hd, id⟩
  | poison T =>
    have he : σ' = _ := he
    subst he
    right
    cases d with
    | unlock T' =>
      obtain ⟨u, hd⟩ := hd
      have hd : (if T' = T then .poisoned else S.lock T') = Lock.held u := hd
      split at hd
      · cases hd
      · rename_i hT
        exact ⟨⟨u, hd⟩, fun h => hT (Eq.symm h)⟩
    | _ => exact ⟨hd, id⟩
  | storeNext T cap =>
    obtain ⟨he, _⟩ := he
    subst he
    cases d with
    | stay T' =>
      obtain ⟨h1, h2, h3⟩ := hd
      have h2 : S.root = some T' := h2
      have h3 : T' + 1 < S.nTabs + 1 := h3
      have h4 := (hI.s.some T' h2).1
      by_cases h5 : T' + 1 < S.nTabs
      · exact .inr ⟨⟨h1, h2, h5⟩, id⟩
      · left
        have h6 := hI.s.next T' h4
        rw [if_neg h5] at h6
        have hn' : S'.nTabs = S.nTabs + 1 := congrArg St.nTabs hσ'
        have h7 := hI'.s.next T' (by omega)
        rw [if_pos (by omega)] at h7
        have h8 : S'.next T' = if T' = T then some S.nTabs else if T' = S.nTabs then none else S.next T' := by
          show S'.toSt.next T' = _
          rw [hσ']
        rw [h8] at h7
        split at h7
        · rename_i hT
          rw [hT, Act.duties, h1]
          exact List.mem_singleton.2 rfl
        · rw [if_neg (by omega), h6] at h7; cases h7
    | store T' i =>
      right
      refine ⟨?_, id⟩
      have h3 : (if T' = S.nTabs then Slot.null else S.slot T' i).copying = true := hd.2.1
      split at h3
      · cases h3
      · rename_i hT
        have := hd
        simp only [Duty.Due, St.allocTable, if_neg hT] at this
        exact this
    | retire T' =>
      right
      refine ⟨?_, id⟩
      obtain ⟨h1, h2, h3⟩ := hd
      have h1 : T' < S.rt := h1
      have hr : S.rt < S.nTabs := by
        cases hro : S.root with
        | none => unfold rt at h1; rw [hro] at h1; cases h1
        | some r => have := (hI.s.some r hro).1; unfold rt; rw [hro]; exact this
      have h2 : (if T' = S.nTabs then .pending else S.status T') ≠ Status.aborted := h2
      rw [if_neg (by omega)] at h2
      exact ⟨h1, h2, h3⟩
    | unlock T' =>
      right
      obtain ⟨u, h3⟩ := hd
      have h3 : (if T' = S.nTabs then .free else S.lock T') = Lock.held u := h3
      split at h3
      · cases h3
      · exact ⟨⟨u, h3⟩, id⟩
  | cas w T i exp new =>
    right
    refine ⟨?_, by cases d <;> exact id⟩
    rcases he with ⟨h1, h2, h3⟩ | ⟨h1, h2, h3⟩
    · subst h3
      cases d with
      | store T' i' =>
        by_cases hT : T' = T ∧ i' = i
        · have h4 : (if T' = T ∧ i' = i then new else S.slot T' i').copying = true := hd.2.1
          rw [if_pos hT, hok.2.1] at h4; cases h4
        · simp only [Duty.Due, St.setSlot, if_neg hT] at hd
          exact hd
      | _ => exact hd
    · subst h3; exact hd
  | casNew w T i exp k v =>
    right
    refine ⟨?_, by cases d <;> exact id⟩
    rcases he with ⟨h1, h2, h3⟩ | ⟨h1, h2, h3⟩
    · subst h3
      cases d with
      | store T' i' =>
        by_cases hT : T' = T ∧ i' = i
        · have h4 : (if T' = T ∧ i' = i then Slot.untagged _ else S.slot T' i').copying = true := hd.2.1
          rw [if_pos hT] at h4; cases h4
        · simp only [Duty.Due, St.setSlot, if_neg hT] at hd
          exact hd
      | _ => exact hd
    · subst h3; exact hd
  | fetchOrCopying T i =>
    obtain ⟨h1, h2⟩ := he
    subst h2
    cases d with
    | store T' i' =>
      by_cases hT : T' = T ∧ i' = i
      · left
        obtain ⟨h3, h4, h5, h6⟩ := hd
        have h5 : (if T' = T ∧ i' = i then ({ S.slot T i with copying := true } : Slot K V) else S.slot T' i').ptr ≠ none := h5
        rw [if_pos hT] at h5
        rw [Act.duties, h3, h1, hT.1, hT.2]
        rw [if_pos]
        · exact List.mem_singleton.2 rfl
        · rw [Bool.true_and, Option.isSome_iff_ne_none]; exact h5
      · simp only [Duty.Due, St.setSlot, if_neg hT] at hd
        exact .inr ⟨hd, id⟩
    | _ => exact .inr ⟨hd, id⟩
  | storeSlot T i s =>
    right
    have he : σ' = _ := he
    subst he
    cases d with
    | store T' i' =>
      by_cases hT : T' = T ∧ i' = i
      · have h4 : (if T' = T ∧ i' = i then s else S.slot T' i').copied = false := hd.2.2.2
        rw [if_pos hT, hok.2] at h4; cases h4
      · simp only [Duty.Due, St.setSlot, if_neg hT] at hd
        exact ⟨hd, fun h => hT ⟨Eq.symm h.1, Eq.symm h.2⟩⟩
    | _ => exact ⟨hd, id⟩
  | storeStatus T s =>
    right
    have he : σ' = _ := he
    cases d with
    | retire T' =>
      refine ⟨⟨?_, ?_, ?_⟩, id⟩
      · subst he; exact hd.1
      · intro ha
        have := hev.aborted T' ha
        exact hd.2.1 (by rw [← hσ']; exact this)
      · subst he; exact hd.2.2
    | stay T' => subst he; exact ⟨hd, id⟩
    | store T' i => subst he; exact ⟨hd, id⟩
    | unlock T' => subst he; exact ⟨hd, id⟩
  | casRoot T N =>
    rcases he with ⟨h1, h2, h3⟩ | ⟨h1, h2, h3⟩
    · subst h2 h3
      obtain ⟨hlt, hab⟩ := hok.2.2 h1
      have hrt : S.rt = T := by unfold rt; rw [h1]; rfl
      cases d with
      | stay T' =>
        exfalso
        obtain ⟨h4, h5, h6⟩ := hd
        cases h5
        have h7 := hI.s.blkab h4 N (by omega) h6
        have h8 := hI'.s.some N (by show S'.toSt.root = _; rw [hσ'])
        exact h8.2 (hev.aborted N h7)
      | retire T' =>
        obtain ⟨h4, h5, h6⟩ := hd
        have h4 : T' < N := h4
        by_cases h7 : T' = T
        · rw [h7]; exact .inl (List.mem_singleton.2 rfl)
        · by_cases h8 : T' < T
          · refine .inr ⟨⟨?_, h5, h6⟩, id⟩
            show T' < S.rt
            omega
          · exact absurd (hab T' (by omega) h4) h5
      | store T' i => exact .inr ⟨hd, id⟩
      | unlock T' => exact .inr ⟨hd, id⟩
    · subst h3
      right
      refine ⟨hd, ?_⟩
      cases d with
      | stay T' => 
        intro h
        have h : T = T' := h
        exact h1 (h ▸ hd.2.1)
      | _ => exact id
  | retireTable T =>
    right
    have he : σ' = _ := he
    subst he
    cases d with
    | retire T' =>
      obtain ⟨h1, h2, h3⟩ := hd
      have h3 : (if T' = T then true else S.tabRetired T') = false := h3
      split at h3
      · cases h3
      · rename_i hT
        exact ⟨⟨h1, h2, h3⟩, fun h => hT (Eq.symm h)⟩
    | _ => exact ⟨hd, id⟩
  | storeMd T i m => have he : σ' = _ := he; subst he; exact .inr ⟨due_same rfl rfl rfl rfl rfl rfl hd, by cases d <;> exact id⟩
  | deref e => have he : σ' = _ := he; subst he; exact .inr ⟨due_same rfl rfl rfl rfl rfl rfl hd, by cases d <;> exact id⟩
  | retire e => have he : σ' = _ := he; subst he; exact .inr ⟨due_same rfl rfl rfl rfl rfl rfl hd, by cases d <;> exact id⟩
  | pushDeferred T e => have he : σ' = _ := he; subst he; exact .inr ⟨due_same rfl rfl rfl rfl rfl rfl hd, by cases d <;> exact id⟩
  | addCount d => have he : σ' = _ := he; subst he; exact .inr ⟨due_same rfl rfl rfl rfl rfl rfl hd, by cases ‹Duty› <;> exact id⟩
  | _ => rw [he.2] at hd; exact .inr ⟨due_same rfl rfl rfl rfl rfl rfl hd, by cases d <;> exact id⟩

/-- Something went wrong: a thread was abandoned in the middle of an operation, or a table could not be allocated. -/
def Excused (ps : PSt K V) : Prop :=
  (∃ t, ps.th t = .gone) ∨ ∃ o c w, HEv.panic o c w ∈ ps.hist ∧ w.hard = true

/-- The invariant. -/
structure DutyInv (C : Cfg K) (ps : PSt K V) : Prop where
  plain : ∀ t c p, ps.th t = .run c p → ∀ n, Sh C.inc n none p fun o _ => o = none
  due : ∀ d : Duty, d.Due C ps.mem → Excused ps ∨ ∃ t c p, ps.th t = .run c p ∧ ∀ n, Sh C.inc n (some d) p fun o _ => o = none

theorem Excused.mono {ps ps' : PSt K V} (h : Excused ps) (h1 : ∀ t, ps.th t = .gone → ps'.th t = .gone)
    (h2 : ∀ e ∈ ps.hist, e ∈ ps'.hist) : Excused ps' :=
  h.imp (fun ⟨t, h⟩ => ⟨t, h1 t h⟩) fun ⟨o, c, w, h, h'⟩ => ⟨o, c, w, h2 _ h, h'⟩

theorem setTh_gone {th : Tid → Th K V} {x : Th K V} (h : th t ≠ .gone) (u : Tid) (hu : th u = .gone) : setTh th t x u = .gone := by
  unfold setTh
  split
  · rename_i h1; rw [h1] at hu; exact absurd hu h
  · exact hu

theorem setTh_same {th : Tid → Th K V} {x : Th K V} : setTh th t x t = x := if_pos rfl
theorem setTh_ne {th : Tid → Th K V} {x : Th K V} {u : Tid} (h : u ≠ t) : setTh th t x u = th u := if_neg h

/-- A thread changes its status, the memory is unchanged as far as duties are concerned. -/
theorem DutyInv.set {ps ps' : PSt K V} (h : DutyInv C ps) {x : Th K V} (hth : ps'.th = setTh ps.th t x)
    (hg : ps.th t ≠ .gone) (hh : ∀ e ∈ ps.hist, e ∈ ps'.hist) (hm : ∀ d : Duty, d.Due C ps'.mem → d.Due C ps.mem)
    (hx : ∀ c p, x = .run c p → ∀ n, Sh C.inc n none p fun o _ => o = none)
    (hk : ∀ d c p, ps.th t = .run c p → (∀ n, Sh C.inc n (some d) p fun o _ => o = none) →
      Excused ps' ∨ ∃ c' p', x = .run c' p' ∧ ∀ n, Sh C.inc n (some d) p' fun o _ => o = none) : DutyInv C ps' := by
  constructor
  · intro u c p hu
    rw [hth] at hu
    by_cases hut : u = t
    · rw [hut, setTh_same] at hu; exact hx c p hu
    · rw [setTh_ne hut] at hu; exact h.plain u c p hu
  · intro d hd
    rcases h.due d (hm d hd) with h1 | ⟨u, c, p, h1, h2⟩
    · exact .inl (h1.mono (fun u hu => by rw [hth]; exact setTh_gone hg u hu) hh)
    · by_cases hut : u = t
      · subst hut
        rcases hk d c p h1 h2 with h3 | ⟨c', p', h3, h4⟩
        · exact .inl h3
        · exact .inr ⟨u, c', p', by rw [hth, setTh_same, h3], h4⟩
      · exact .inr ⟨u, c, p, by rw [hth, setTh_ne hut, h1], h2⟩

theorem dutyInv_init {ps : PSt K V} (h : IsInit C ps) : DutyInv C ps := by
  obtain ⟨h1, h2, h3, h4, h5⟩ := h
  constructor
  · intro t c p ht; rw [h2] at ht; cases ht
  · intro d hd
    exfalso
    unfold initSt at h1
    simp only at h1
    split at h1
    · rw [← Option.some.inj h1] at hd
      cases d with
      | stay T => cases hd.2.1
      | store T i => cases hd.2.1
      | retire T => exact absurd hd.1 (Nat.not_lt_zero _)
      | unlock T => obtain ⟨u, hu⟩ := hd; cases hu
    · obtain ⟨n, _, h1⟩ := Option.map_eq_some_iff.1 h1
      rw [← h1] at hd
      cases d with
      | stay T =>
        have h6 : some 0 = some T := hd.2.1
        have h7 : T + 1 < 0 + 1 := hd.2.2
        omega
      | store T i =>
        have h6 : (if T = 0 then Slot.null else Slot.null : Slot K V).copying = true := hd.2.1
        rw [ite_self] at h6; cases h6
      | retire T => exact absurd hd.1 (Nat.not_lt_zero _)
      | unlock T =>
        obtain ⟨u, hu⟩ := hd
        have hu : (if T = 0 then Lock.free else Lock.free) = .held u := hu
        rw [ite_self] at hu; cases hu

theorem dutyInv_step {ps ps' : PSt K V} (hr : Reach C ps) (h : DutyInv C ps) (hs : Step C ps ps') : DutyInv C ps' := by
  obtain ⟨S, g, hS, _⟩ := hr.pinv 2
  obtain ⟨S', g', hS', hev, _⟩ := pinvG_step hS hs
  cases hs with
  | pin t ht =>
    refine h.set rfl (by rw [ht]; exact fun h => nomatch h) (fun _ h => h) (fun d hd => due_same rfl rfl rfl rfl rfl rfl hd)
      (fun c p hx => by cases hx) fun d c p hp => by rw [ht] at hp; cases hp
  | unpin t ht =>
    refine h.set rfl (by rw [ht]; exact fun h => nomatch h) (fun _ h => h) (fun d hd => due_same rfl rfl rfl rfl rfl rfl hd)
      (fun c p hx => by cases hx) fun d c p hp => by rw [ht] at hp; cases hp
  | abandon t ht =>
    refine h.set rfl (by rw [ht]; exact fun h => nomatch h) (fun _ h => h) (fun d hd => hd)
      (fun c p hx => by cases hx) fun d c p hp _ => .inl (.inl ⟨t, setTh_same⟩)
  | release t ht =>
    exact ⟨h.plain, fun d hd => (h.due d (due_same rfl rfl rfl rfl rfl rfl hd)).imp id id⟩
  | inv t c ht hwf =>
    refine h.set rfl (by rw [ht]; exact fun h => nomatch h) (fun _ h => List.mem_append_left _ h) (fun d hd => hd)
      (fun c' p hx n => ?_) fun d c p hp => by rw [ht] at hp; cases hp
    cases hx
    exact plain_call c n none rfl
  | @loop t c β σ body s k ht =>
    refine h.set rfl (by rw [ht]; exact fun h => nomatch h) (fun _ h => h) (fun d hd => hd)
      (fun c' p hx n => ?_) fun d c' p hp hsh => .inr ⟨c, _, rfl, fun n => ?_⟩
    · cases hx
      exact h.plain t _ _ ht (n + 1)
    · rw [ht] at hp; cases hp
      exact hsh (n + 1)
  | @ret t c r ht =>
    refine h.set rfl (by rw [ht]; exact fun h => nomatch h) (fun _ h => List.mem_append_left _ h) (fun d hd => hd)
      (fun c p hx => by cases hx) fun d c' p hp hsh => ?_
    rw [ht] at hp; cases hp
    cases (hsh 1 : some d = none)
  | @panic t c why ht =>
    refine h.set rfl (by rw [ht]; exact fun h => nomatch h) (fun _ h => List.mem_append_left _ h) (fun d hd => hd)
      (fun c p hx => by cases hx) fun d c' p hp hsh => ?_
    rw [ht] at hp; cases hp
    rcases (hsh 1 : some d = none ∨ why.hard = true) with h1 | h1
    · cases h1
    · exact .inl (.inr ⟨_, c, why, List.mem_append_right _ (List.mem_singleton.2 rfl), h1⟩)
  | freeEntry x h1 h2 h3 => exact ⟨h.plain, fun d hd => h.due d (due_same rfl rfl rfl rfl rfl rfl hd)⟩
  | freeTable T h1 h2 h3 => exact ⟨h.plain, fun d hd => h.due d (due_same rfl rfl rfl rfl rfl rfl hd)⟩
  | @act t c β a k r σ ht he =>
    have hok : S.okAct a := by
      have h7 := hS.2.2.2.1 t
      rw [ht] at h7
      exact (h7 S hS.2.1 ((rg K V C).refl t S)).1
    have hm := hS.1
    have hm' : S'.toSt = σ := hS'.1
    rw [← hm, ← hm'] at he
    have hI := hS.2.1
    have hI' := hS'.2.1
    have hp := h.plain t _ _ ht
    have hob := obs_none hI hok he
    constructor
    · intro u c' p hu n
      have hu : setTh ps.th t (.run c (k r)) u = .run c' p := hu
      by_cases hut : u = t
      · rw [hut, setTh_same] at hu; cases hu
        exact (hp (n + 1) r hob).2 fun d hd => by cases hd
      · rw [setTh_ne hut] at hu; exact h.plain u c' p hu n
    · intro d hd
      have hd : d.Due C σ := hd
      rw [← hm'] at hd
      rcases due_step hI hI' hev hok he hd with h1 | ⟨h1, h2⟩
      · exact .inr ⟨t, c, k r, setTh_same, fun n => (hp (n + 1) r hob).1 d h1⟩
      · have hob' := obs_due hI hok he h1
        rw [hm] at h1
        rcases h.due d h1 with h3 | ⟨u, c', p, h3, h4⟩
        · exact .inl (h3.mono (fun u hu => setTh_gone (by rw [ht]; exact fun h => nomatch h) u hu) fun _ h => h)
        · by_cases hut : u = t
          · subst hut
            rw [ht] at h3; cases h3
            exact .inr ⟨u, c, k r, setTh_same, fun n => (h4 (n + 1) r hob').2 fun d' hd' => by cases hd'; exact h2⟩
          · exact .inr ⟨u, c', p, by show setTh _ _ _ _ = _; rw [setTh_ne hut, h3], h4⟩

theorem Reach.duty {ps : PSt K V} (h : Reach C ps) : DutyInv C ps := by
  induction h with
  | init h => exact dutyInv_init h
  | step hr hs ih => exact dutyInv_step hr ih hs

/-- When no operation is running, none was abandoned, and no table allocation failed, nothing is due. -/
theorem Reach.nothing_due {ps : PSt K V} (h : Reach C ps) (hq : ∀ t, ps.th t = .out ∨ ps.th t = .idle)
    (hp : ∀ o c w, HEv.panic o c w ∈ ps.hist → w.hard = false) (d : Duty) : ¬ d.Due C ps.mem := by
  intro hd
  rcases h.duty.due d hd with (⟨t, h1⟩ | ⟨o, c, w, h1, h2⟩) | ⟨t, c, p, h1, _⟩
  · rcases hq t with h2 | h2 <;> (rw [h1] at h2; cases h2)
  · rw [hp o c w h1] at h2; cases h2
  · rcases hq t with h2 | h2 <;> (rw [h1] at h2; cases h2)

end Papaya
