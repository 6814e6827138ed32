import Verif.Proof.LockFreeOps
import Verif.Props.TermSettled
import Verif.Props.Deadlock
import Verif.Props.Progress
import Verif.Proof.Park

/-! # C58: between resizes the operations are lock-free -/

set_option linter.unusedSectionVars false
set_option linter.unusedVariables false

namespace Papaya

variable {K V : Type} [DecidableEq K] {C : Cfg K} {ps ps' q : PSt K V} {t u : Tid} {R : Nat} {al : Bool} {T : Table}

/-! ## One step -/

/-- What is known is true. -/
def Know.Holds (κ : Know K V) (σ : St K V) : Prop := ∀ U i s, κ = some (U, i, s) → σ.slot U i = s

theorem Know.Holds.none {σ : St K V} : Know.Holds (Option.none : Know K V) σ := fun _ _ _ h => by cases h

theorem Know.Holds.mono {κ : Know K V} {σ σ' : St K V} (h : κ.Holds σ) (hs : ∀ U i, σ'.slot U i = σ.slot U i) : κ.Holds σ' :=
  fun U i s hk => (hs U i).trans (h U i s hk)

theorem Know.Holds.some {U i : Nat} {s : Slot K V} {σ : St K V} (h : σ.slot U i = s) : Know.Holds (Option.some (U, i, s) : Know K V) σ :=
  fun _ _ _ hk => by cases hk; exact h

theorem calm_fits {β : Type} {a : Act K V β} {σ σ' : St K V} {r : β} {κ : Know K V} {w : Nat} (hg : GoodSt C σ) (hg' : GoodSt C σ')
    (hroot : σ.root = some R) (hnext : σ.next R = none) (hnext' : σ'.next R = none) (hR : R < σ.nTabs) (hT : T = σ.handle R)
    (ha : a.calm al = true) (he : Exec C t a σ r σ') (hk : κ.Holds σ)
    (hns : κ = none ∨ ∀ U i e, a.expects = some (U, i, e) → σ.slot U i = e → σ'.slot U i = e → False) :
    ∃ w', CFits T κ w a r w' ∧ (cupd κ a r).Holds σ' ∧ ((w' = w ∧ ∀ U i, σ'.slot U i = σ.slot U i) ∨ (a.writes ∧ w' = w - 1)) := by
  have hid : T.id = R := by rw [hT]; rfl
  have hz : Zs T σ := Settled.zs hg (fun r hr => by rw [hroot] at hr; cases hr; exact hnext) ⟨by rw [hid]; exact hR, by rw [hid]; exact hT⟩
    (by rw [hid]; exact hroot)
  have hnc : ∀ U i, U = T.id → (σ.slot U i).copying = false := fun U i h => h ▸ hz.ncopy hg i
  cases a <;> first | exact absurd ha Bool.false_ne_true | skip
  case loadRoot =>
    obtain ⟨rfl, rfl⟩ := he
    exact ⟨w, ⟨by rw [hroot, hT]; rfl, rfl⟩, hk, .inl ⟨rfl, fun _ _ => rfl⟩⟩
  case loadNext U =>
    obtain ⟨rfl, rfl⟩ := he
    refine ⟨w, ⟨?_, rfl⟩, hk, .inl ⟨rfl, fun _ _ => rfl⟩⟩
    rintro rfl
    rw [hid, hnext]
    rfl
  case tryLock U =>
    rcases he with ⟨_, rfl, rfl⟩ | ⟨_, rfl, rfl⟩ <;> exact ⟨w, rfl, hk, .inl ⟨rfl, fun _ _ => rfl⟩⟩
  case lockWait U =>
    rcases he with ⟨_, rfl, rfl⟩ | ⟨_, rfl, rfl⟩ <;> exact ⟨w, rfl, hk, .inl ⟨rfl, fun _ _ => rfl⟩⟩
  case unlock U => cases he; exact ⟨w, rfl, hk, .inl ⟨rfl, fun _ _ => rfl⟩⟩
  case poison U => cases he; exact ⟨w, rfl, hk, .inl ⟨rfl, fun _ _ => rfl⟩⟩
  case storeNext U cap =>
    obtain ⟨rfl, rfl⟩ := he
    exfalso
    have h1 := hg'.next (T := R) (by show R < σ.nTabs + 1; omega)
    have h2 := hz.n
    rw [hid] at h2
    rw [hnext', if_pos (by show R + 1 < σ.nTabs + 1; omega)] at h1
    cases h1
  case loadMd U i => obtain ⟨rfl, rfl⟩ := he; exact ⟨w, rfl, hk, .inl ⟨rfl, fun _ _ => rfl⟩⟩
  case storeMd U i md => cases he; exact ⟨w, rfl, hk, .inl ⟨rfl, fun _ _ => rfl⟩⟩
  case loadSlot U i =>
    obtain ⟨rfl, rfl⟩ := he
    exact ⟨w, ⟨hnc U i, rfl⟩, .some rfl, .inl ⟨rfl, fun _ _ => rfl⟩⟩
  case cas wk U i e n =>
    rcases he with ⟨h1, rfl, rfl⟩ | ⟨h1, rfl, rfl⟩
    · exact ⟨w - 1, rfl, .none, .inr ⟨Option.some_ne_none _, rfl⟩⟩
    · refine ⟨w, ⟨hnc U i, ?_, rfl⟩, .some rfl, .inl ⟨rfl, fun _ _ => rfl⟩⟩
      rcases hns with rfl | hns
      · exact fun h => by cases h
      · exact fun h => hns U i e rfl (hk _ _ _ h) (hk _ _ _ h)
  case casNew wk U i e k v =>
    rcases he with ⟨h1, rfl, rfl⟩ | ⟨h1, rfl, rfl⟩
    · exact ⟨w - 1, rfl, .none, .inr ⟨Option.some_ne_none _, rfl⟩⟩
    · refine ⟨w, ⟨hnc U i, ?_, rfl⟩, .some rfl, .inl ⟨rfl, fun _ _ => rfl⟩⟩
      rcases hns with rfl | hns
      · exact fun h => by cases h
      · exact fun h => hns U i e rfl (hk _ _ _ h) (hk _ _ _ h)
  case sameTable x y => obtain ⟨rfl, rfl⟩ := he; exact ⟨w, ⟨rfl, rfl⟩, hk, .inl ⟨rfl, fun _ _ => rfl⟩⟩
  case sameEntry x y => obtain ⟨rfl, rfl⟩ := he; exact ⟨w, rfl, hk, .inl ⟨rfl, fun _ _ => rfl⟩⟩
  case deref e => cases he; exact ⟨w, rfl, hk, .inl ⟨rfl, fun _ _ => rfl⟩⟩
  case retire e =>
    cases he
    exact ⟨w, rfl, hk, .inl ⟨rfl, fun _ _ => rfl⟩⟩
  case loadShard j => obtain ⟨rfl, rfl⟩ := he; exact ⟨w, rfl, hk, .inl ⟨rfl, fun _ _ => rfl⟩⟩
  case addCount d => cases he; exact ⟨w, rfl, hk, .inl ⟨rfl, fun _ _ => rfl⟩⟩

/-- The slots that a step of an operation changes. -/
theorem own_slots (hs : OwnStep C t q ps') (hf : FailsSpuriously t q ps') : SameSlots q ps' := by
  obtain ⟨U, i, s, h1, h2, h3⟩ := hf
  cases hs with
  | @act c β a k r σ h he =>
    rw [h] at h1
    cases a <;> try cases h1
    · rcases he with ⟨g1, rfl, rfl⟩ | ⟨g1, rfl, rfl⟩
      · intro U' i'
        show (if U' = U ∧ i' = i then _ else _) = _
        split
        · rename_i h
          obtain ⟨rfl, rfl⟩ := h
          have h3 : (if U' = U' ∧ i' = i' then _ else _) = s := h3
          rw [if_pos ⟨rfl, rfl⟩] at h3
          rw [h3, h2]
        · rfl
      · exact fun _ _ => rfl
    · rcases he with ⟨g1, rfl, rfl⟩ | ⟨g1, rfl, rfl⟩
      · intro U' i'
        show (if U' = U ∧ i' = i then _ else _) = _
        split
        · rename_i h
          obtain ⟨rfl, rfl⟩ := h
          have h3 : (if U' = U' ∧ i' = i' then _ else _) = s := h3
          rw [if_pos ⟨rfl, rfl⟩] at h3
          rw [h3, h2]
        · rfl
      · exact fun _ _ => rfl
  | loop h => rw [h] at h1; cases h1
  | ret h => rw [h] at h1; cases h1
  | panic h => rw [h] at h1; cases h1

/-- At most `b` more steps and `w` more writes of an operation, if there are at most `rem` more races. -/
inductive LS (al : Bool) (T : Table) (σ : St K V) (rem : Nat) (th : Th K V) (b w : Nat) : Prop
  | rest (h : ∀ c p, th ≠ .run c p)
  | run {c p κ μ β ω} (h : th = .run c p) (hl : LF al T κ μ β ω p fun _ _ _ b _ => 1 ≤ b) (hb : β + retryCost * μ ≤ b) (hw : ω ≤ w)
      (hk : (Know.Holds κ σ ∧ rem ≤ μ) ∨ rem < μ)

theorem LS.mono {σ : St K V} {rem b w b' w' : Nat} {th : Th K V} (h : LS al T σ rem th b w) (hb : b ≤ b') (hw : w ≤ w') :
    LS al T σ rem th b' w' := by
  cases h with
  | rest h => exact .rest h
  | run h hl h1 h2 hk => exact .run h hl (by omega) (by omega) hk

theorem LS.same {σ σ' : St K V} {rem b w : Nat} {th : Th K V} (h : LS al T σ rem th b w) (hs : ∀ U i, σ'.slot U i = σ.slot U i) :
    LS al T σ' rem th b w := by
  cases h with
  | rest h => exact .rest h
  | run h hl h1 h2 hk => exact .run h hl h1 h2 (hk.imp_left fun hk => ⟨hk.1.mono hs, hk.2⟩)

theorem LS.race {σ σ' : St K V} {rem b w : Nat} {th : Th K V} (h : LS al T σ (rem + 1) th b w) : LS al T σ' rem th b w := by
  cases h with
  | rest h => exact .rest h
  | run h hl h1 h2 hk => exact .run h hl h1 h2 (.inr (by rcases hk with hk | hk <;> omega))

theorem Calm.lt (h : Reach C ps) (hc : Calm R ps) : R < ps.mem.nTabs := (reach_tabs h).1 R hc.1

theorem setTh_at {th : Tid → Th K V} {x : Th K V} : setTh th t x t = x := by
  unfold setTh
  rw [if_pos rfl]

/-- A step of the operation. -/
theorem LS.own {rem b w : Nat} (hr : Reach C q) (hc : Calm R q) (hc' : Calm R ps') (hT : T = q.mem.handle R) (hs : OwnStep C t q ps')
    (h : LS al T q.mem rem (q.th t) b w) (sp : Bool) (hsp : sp = false → ¬ FailsSpuriously t q ps') (hrem : sp = true → 1 ≤ rem) :
    1 ≤ b ∧ ∃ w', LS al T ps'.mem (if sp then rem - 1 else rem) (ps'.th t) (b - 1) w' ∧ ((SameSlots q ps' ∧ w' = w) ∨ w' + 1 ≤ w) := by
  have hg : GoodSt C q.mem := hr.good
  have hg' : GoodSt C ps'.mem := (Reach.step hr hs.step).good
  cases hs with
  | @act c β a k r σ he1 he =>
    rw [he1] at h
    cases h with
    | rest h => exact absurd rfl (h _ _)
    | @run c' p κ μ b0 ω h hl hb hw hk =>
      cases h
      cases hl with
      | @act _ _ _ _ _ b1 _ _ ha hwr good bad =>
        refine ⟨by omega, ?_⟩
        dsimp only
        rw [show setTh q.th t (.run c (k r)) t = _ from setTh_at]
        have hfin : ∀ {κ' μ' b' w'}, LF al T κ' μ' b' w' (k r) (fun _ _ _ b _ => 1 ≤ b) → b' + retryCost * μ' ≤ b - 1 →
            ((w' = ω ∧ ∀ U i, σ.slot U i = q.mem.slot U i) ∨ (a.writes ∧ w' = ω - 1)) →
            ((Know.Holds κ' σ ∧ (if sp then rem - 1 else rem) ≤ μ') ∨ (if sp then rem - 1 else rem) < μ') →
            ∃ w', LS al T σ (if sp then rem - 1 else rem) (.run c (k r)) (b - 1) w' ∧
              ((SameSlots q { q with mem := σ, th := setTh q.th t (.run c (k r)) } ∧ w' = w) ∨ w' + 1 ≤ w) := by
          intro κ' μ' b' w' h1 h2 h3 h4
          rcases h3 with ⟨rfl, h3⟩ | ⟨h3, rfl⟩
          · exact ⟨w, .run rfl h1 h2 hw h4, .inl ⟨h3, rfl⟩⟩
          · have := hwr h3
            exact ⟨ω - 1, .run rfl h1 h2 (Nat.le_refl _) h4, .inr (by omega)⟩
        have hbad : ∀ m', m' < μ → (if sp then rem - 1 else rem) ≤ m' → ∃ w', LS al T σ (if sp then rem - 1 else rem) (.run c (k r)) (b - 1) w' ∧
              ((SameSlots q { q with mem := σ, th := setTh q.th t (.run c (k r)) } ∧ w' = w) ∨ w' + 1 ≤ w) := by
          intro m' hm hle
          obtain ⟨w', f1, f2, f3⟩ := calm_fits (w := ω) hg hg' hc.1 hc.2 hc'.2 (hc.lt hr) hT ha he .none (.inl rfl)
          refine hfin (bad m' hm r w' f1) ?_ f3 (.inl ⟨f2, hle⟩)
          obtain ⟨d, rfl⟩ : ∃ d, μ = m' + d := ⟨μ - m', by omega⟩
          rw [show m' + d - m' = d by omega]
          rw [Nat.mul_add] at hb
          omega
        cases sp with
        | true =>
          have := hrem rfl
          refine hbad (rem - 1) ?_ (Nat.le_refl _)
          rcases hk with hk | hk <;> omega
        | false =>
          rcases hk with ⟨hk1, hk2⟩ | hk
          · obtain ⟨w', f1, f2, f3⟩ := calm_fits (w := ω) hg hg' hc.1 hc.2 hc'.2 (hc.lt hr) hT ha he hk1
              (.inr fun U i e g1 g2 g3 => hsp rfl ⟨U, i, e, by rw [he1]; exact g1, g2, g3⟩)
            exact hfin (good r w' f1) (by omega) f3 (.inl ⟨f2, hk2⟩)
          · exact hbad rem hk (Nat.le_refl _)
  | loop he1 =>
    rw [he1] at h
    cases h with
    | rest h => exact absurd rfl (h _ _)
    | run h hl hb hw hk =>
      cases h
      cases hl with
      | iter hl =>
        refine ⟨by omega, w, ?_, .inl ⟨fun _ _ => rfl, rfl⟩⟩
        dsimp only
        rw [show setTh q.th t _ t = _ from setTh_at]
        refine .run rfl hl (by omega) hw ?_
        cases sp with
        | false => exact hk
        | true => rcases hk with hk | hk
                  · exact .inl ⟨hk.1, by simp only [↓reduceIte]; omega⟩
                  · exact .inr (by simp only [↓reduceIte]; omega)
  | ret he1 =>
    rw [he1] at h
    cases h with
    | rest h => exact absurd rfl (h _ _)
    | run h hl hb hw hk =>
      cases h
      cases hl with
      | ret hl =>
        refine ⟨by omega, w, ?_, .inl ⟨fun _ _ => rfl, rfl⟩⟩
        dsimp only
        rw [show setTh q.th t _ t = _ from setTh_at]
        exact .rest fun _ _ h => by cases h
  | panic he1 =>
    rw [he1] at h
    cases h with
    | rest h => exact absurd rfl (h _ _)
    | run h hl hb hw hk =>
      cases h
      cases hl with
      | panic =>
        refine ⟨by omega, w, ?_, .inl ⟨fun _ _ => rfl, rfl⟩⟩
        dsimp only
        rw [show setTh q.th t _ t = _ from setTh_at]
        exact .rest fun _ _ h => by cases h

/-! ## An operation -/

theorem Calm.handle (hr : Reach C ps) (hc : Calm R ps) (hs : Steps C ps ps') : ps'.mem.handle R = ps.mem.handle R := by
  unfold St.handle
  rw [(steps_tabs hr hs).2.1 R (hc.lt hr)]

theorem calm_len (hr : Reach C ps) (hc : Calm R ps) : (ps.mem.handle R).len = ps.mem.cap R ∧ (ps.mem.handle R).limit = limit (ps.mem.cap R) := by
  refine ⟨?_, rfl⟩
  show ps.mem.cap R - 1 + 1 = ps.mem.cap R
  have : 1 ≤ ps.mem.cap R := by
    obtain ⟨S, hS, g⟩ := hr.good
    have := (g.s.cap R (by have := hc.lt hr; rw [← hS] at this; exact this)).2.1
    rw [← hS]
    show 1 ≤ S.cap R
    omega
  omega

theorem LS.start {σ : St K V} {c : Call K V} {M b w : Nat} (hl : T.limit = limit T.len) (ha : al = false → c.neverInserts)
    (hb : c.stepBound C T.len + retryCost * M ≤ b) (hw : c.writeBound T.len ≤ w) : LS al T σ M (.run c (c.prog C)) b w :=
  .run rfl (lf_call (κ := none) (m := M) (w := w) ha (Nat.le_refl _) hl hw) hb (Nat.le_refl _) (.inl ⟨.none, Nat.le_refl _⟩)

theorem CalmRun.steps {n m : Nat} (h : CalmRun C R t n m ps ps') : Steps C ps ps' := by
  induction h with
  | refl => exact .refl
  | own _ hs _ _ ih => exact .tail ih hs.step
  | spurious _ hs _ _ ih => exact .tail ih hs.step
  | other _ hs _ _ _ ih => exact .tail ih hs
  | race _ hs _ _ _ ih => exact .tail ih hs

theorem CalmRun.calm {n m : Nat} (h : CalmRun C R t n m ps ps') : Calm R ps ∧ Calm R ps' := by
  induction h with
  | refl hc => exact ⟨hc, hc⟩
  | own _ _ _ hc ih => exact ⟨ih.1, hc⟩
  | spurious _ _ _ hc ih => exact ⟨ih.1, hc⟩
  | other _ _ _ _ hc ih => exact ⟨ih.1, hc⟩
  | race _ _ _ _ hc ih => exact ⟨ih.1, hc⟩

theorem CalmRun.ls {n m M B w : Nat} (hr : Reach C ps) (hT : T = ps.mem.handle R) (h : CalmRun C R t n m ps ps') (hM : m ≤ M)
    (h0 : LS al T ps.mem M (ps.th t) B w) : ∃ b w', n + b ≤ B ∧ LS al T ps'.mem (M - m) (ps'.th t) b w' := by
  induction h with
  | refl => exact ⟨B, w, by omega, h0⟩
  | own h hs hf hc ih =>
    obtain ⟨b, w', h1, h2⟩ := ih hr hT hM h0
    have hq := hr.steps h.steps
    obtain ⟨h3, w'', h4, _⟩ := h2.own hq h.calm.2 hc (hT.trans (h.calm.1.handle hr h.steps).symm) hs false (fun _ => hf) (fun h => by cases h)
    exact ⟨b - 1, w'', by omega, h4⟩
  | spurious h hs hf hc ih =>
    obtain ⟨b, w', h1, h2⟩ := ih hr hT (by omega) h0
    have hq := hr.steps h.steps
    obtain ⟨h3, w'', h4, _⟩ := h2.own hq h.calm.2 hc (hT.trans (h.calm.1.handle hr h.steps).symm) hs true (fun h => by cases h) (fun _ => by omega)
    exact ⟨b - 1, w'', by omega, by rw [Nat.sub_add_eq]; exact h4⟩
  | other h hs hth hsame hc ih =>
    obtain ⟨b, w', h1, h2⟩ := ih hr hT hM h0
    exact ⟨b, w', h1, by rw [hth]; exact h2.same hsame⟩
  | @race n m ps q ps' h hs hth hne hc ih =>
    obtain ⟨b, w', h1, h2⟩ := ih hr hT (by omega) h0
    rw [show M - m = M - (m + 1) + 1 by omega] at h2
    exact ⟨b, w', h1, by rw [hth]; exact h2.race⟩

/-- **C58** As long as the map is not resized, an operation that has been called takes at most `stepBound` steps, which is logarithmic
in the capacity of the map for operations on one key, and at most 4 more for every time that another operation changes a slot or one of
its own compare-exchanges fails spuriously. -/
theorem C58_bounded {n m : Nat} {c : Call K V} (h : Reach C ps) (ht : ps.th t = .run c (c.prog C)) (hr : CalmRun C R t n m ps ps') :
    n ≤ c.stepBound C (ps.mem.cap R) + 4 * m := by
  obtain ⟨h1, h2⟩ := calm_len h hr.calm.1
  rw [← h1]
  obtain ⟨b, w', h3, _⟩ := hr.ls (al := true) (M := m) h rfl (Nat.le_refl _)
    (by rw [ht]; exact .start (by rw [h1]; exact h2) (fun h => by cases h) (Nat.le_refl _) (Nat.le_refl _))
  have h3 : n + b ≤ c.stepBound C (ps.mem.handle R).len + 4 * m := h3
  omega

/-! ## Waiting -/

theorem LS.moves {rem b w : Nat} (h : LS al T ps.mem rem (ps.th t) b w) (hrun : Running ps t) :
    CanMove C ps t ∨ (al = true ∧ ∃ U u c, ∃ k : Bool → Prog K V (Call.Res c), ps.th t = .run c (.act (.lockWait U) k) ∧ ps.mem.lock U = .held u) := by
  cases h with
  | rest h =>
    obtain ⟨c, p, h1⟩ := hrun
    exact absurd h1 (h c p)
  | @run c p κ μ β ω h hl hb hw hk =>
    cases hl with
    | ret => exact .inl ⟨_, .ret h⟩
    | panic => exact .inl ⟨_, .panic h⟩
    | iter => exact .inl ⟨_, .loop h⟩
    | @act _ a k _ _ _ _ _ ha hwr good bad =>
      clear hwr good bad
      have go : ∀ r σ, Exec C t a ps.mem r σ → CanMove C ps t := fun r σ he => ⟨_, .act h he⟩
      cases a <;> first | exact absurd ha Bool.false_ne_true | skip
      case loadRoot => exact .inl (go _ _ ⟨rfl, rfl⟩)
      case loadNext U => exact .inl (go _ _ ⟨rfl, rfl⟩)
      case tryLock U =>
        by_cases hl : ps.mem.lock U = .free
        · exact .inl (go _ _ (.inl ⟨hl, rfl, rfl⟩))
        · exact .inl (go _ _ (.inr ⟨hl, rfl, rfl⟩))
      case lockWait U =>
        cases hl : ps.mem.lock U with
        | free => exact .inl (go _ _ (.inl ⟨hl, rfl, rfl⟩))
        | poisoned => exact .inl (go _ _ (.inr ⟨hl, rfl, rfl⟩))
        | held u => exact .inr ⟨ha, U, u, c, k, h, hl⟩
      case unlock U => exact .inl (go () _ rfl)
      case poison U => exact .inl (go () _ rfl)
      case storeNext U cap => exact .inl (go _ _ ⟨rfl, rfl⟩)
      case loadMd U i => exact .inl (go _ _ ⟨rfl, rfl⟩)
      case storeMd U i md => exact .inl (go () _ rfl)
      case loadSlot U i => exact .inl (go _ _ ⟨rfl, rfl⟩)
      case cas wk U i e n =>
        by_cases hl : ps.mem.slot U i = e
        · exact .inl (go _ _ (.inl ⟨hl, rfl, rfl⟩))
        · exact .inl (go _ _ (.inr ⟨.inl hl, rfl, rfl⟩))
      case casNew wk U i e k v =>
        by_cases hl : ps.mem.slot U i = e
        · exact .inl (go _ _ (.inl ⟨hl, rfl, rfl⟩))
        · exact .inl (go _ _ (.inr ⟨.inl hl, rfl, rfl⟩))
      case sameTable x y => exact .inl (go _ _ ⟨rfl, rfl⟩)
      case sameEntry x y => exact .inl (go _ _ ⟨rfl, rfl⟩)
      case deref e => exact .inl (go () _ rfl)
      case retire e => exact .inl (go () _ rfl)
      case loadShard j => exact .inl (go _ _ ⟨rfl, rfl⟩)
      case addCount d => exact .inl (go () _ rfl)

/-- **C58** As long as the map is not resized, an operation that never inserts a key waits for nothing: it can always go on, even if
all other threads have stopped in the middle of their operations. -/
theorem C58_never_waits {n m : Nat} {c : Call K V} (h : Reach C ps) (ht : ps.th t = .run c (c.prog C)) (hc : c.neverInserts)
    (hr : CalmRun C R t n m ps ps') (hrun : Running ps' t) : CanMove C ps' t := by
  obtain ⟨h1, h2⟩ := calm_len h hr.calm.1
  obtain ⟨b, w', _, h3⟩ := hr.ls (al := false) (M := m) h rfl (Nat.le_refl _)
    (by rw [ht]; exact .start (by rw [h1]; exact h2) (fun _ => hc) (Nat.le_refl _) (Nat.le_refl _))
  rcases h3.moves (C := C) hrun with h4 | ⟨h4, _⟩
  · exact h4
  · cases h4

/-- **C58** Any operation waits, if at all, for the mutex that protects the allocation of the next table, while another operation holds it.
(If the holder makes a step that matters the resize starts.) -/
theorem C58_waits_for_allocation {n m : Nat} {c : Call K V} (h : Reach C ps) (ht : ps.th t = .run c (c.prog C))
    (hr : CalmRun C R t n m ps ps') (hw : Waiting C ps' t) :
    ∃ U u c, ∃ k : Bool → Prog K V (Call.Res c), ps'.th t = .run c (.act (.lockWait U) k) ∧ ps'.mem.lock U = .held u := by
  obtain ⟨h1, h2⟩ := calm_len h hr.calm.1
  obtain ⟨b, w', _, h3⟩ := hr.ls (al := true) (M := m) h rfl (Nat.le_refl _)
    (by rw [ht]; exact .start (by rw [h1]; exact h2) (fun h => by cases h) (Nat.le_refl _) (Nat.le_refl _))
  rcases h3.moves (C := C) hw.1 with h4 | ⟨_, h4⟩
  · exact absurd h4 hw.2
  · exact h4

/-! ## The whole system -/

theorem sum_upd {U : Finset Tid} {f : Tid → Nat} {v : Nat} (h : t ∈ U) :
    (∑ u ∈ U, (if u = t then v else f u)) + f t = (∑ u ∈ U, f u) + v := by
  have h1 := Finset.add_sum_erase U f h
  have h2 := Finset.add_sum_erase U (fun u => if u = t then v else f u) h
  have h3 : ∑ u ∈ U.erase t, (if u = t then v else f u) = ∑ u ∈ U.erase t, f u :=
    Finset.sum_congr rfl fun u hu => if_neg (Finset.ne_of_mem_erase hu)
  simp only [↓reduceIte] at h2
  omega

theorem CalmExec.steps {l : List (Call K V)} {n x s : Nat} (h : CalmExec C R l n x s ps ps') : Steps C ps ps' := by
  induction h with
  | refl => exact .refl
  | call _ t c ht hwf ih => exact .tail ih (.inv t c ht hwf)
  | step _ t hs _ _ _ ih => exact .tail ih hs.step
  | write _ t hs _ _ ih => exact .tail ih hs.step
  | spurious _ t hs _ _ ih => exact .tail ih hs.step
  | other _ hs _ _ _ ih => exact .tail ih hs

theorem CalmExec.calm {l : List (Call K V)} {n x s : Nat} (h : CalmExec C R l n x s ps ps') : Calm R ps ∧ Calm R ps' := by
  induction h with
  | refl hc => exact ⟨hc, hc⟩
  | call _ t c ht hwf ih => exact ⟨ih.1, ih.2⟩
  | step _ t hs _ _ hc ih => exact ⟨ih.1, hc⟩
  | write _ t hs _ hc ih => exact ⟨ih.1, hc⟩
  | spurious _ t hs _ hc ih => exact ⟨ih.1, hc⟩
  | other _ hs _ _ hc ih => exact ⟨ih.1, hc⟩

/-- The budgets. -/
structure Budget (C : Cfg K) (T : Table) (M n x s : Nat) (l : List (Call K V)) (ps : PSt K V) (b w : Tid → Nat) (U : Finset Tid) : Prop where
  ls : ∀ t, LS true T ps.mem (M - (x + s)) (ps.th t) (b t) (w t)
  out : ∀ t, t ∉ U → b t = 0 ∧ w t = 0
  steps : n + ∑ t ∈ U, b t = (l.map fun c => c.stepBound C T.len + retryCost * M).sum
  writes : x + ∑ t ∈ U, w t = (l.map fun c => c.writeBound T.len).sum

theorem Budget.le {M n x s : Nat} {l : List (Call K V)} {b w : Tid → Nat} {U : Finset Tid} (h : Budget C T M n x s l ps b w U) (b' w' : Nat)
    (hb : 1 ≤ b t) (hb' : b t = b' + 1) {x' s' : Nat} (hw : x' + w' = x + w t) (hs : ∀ u, LS true T ps'.mem (M - (x' + s')) (ps'.th u)
      (if u = t then b' else b u) (if u = t then w' else w u)) :
    Budget C T M (n + 1) x' s' l ps' (fun u => if u = t then b' else b u) (fun u => if u = t then w' else w u) U := by
  have ht : t ∈ U := by
    by_contra ht
    have := (h.out t ht).1
    omega
  refine ⟨hs, fun u hu => ?_, ?_, ?_⟩
  · have hne : u ≠ t := fun h => hu (h ▸ ht)
    rw [if_neg hne, if_neg hne]
    exact h.out u hu
  · have h1 := sum_upd (f := b) (v := b') ht
    have h2 := h.steps
    omega
  · have h1 := sum_upd (f := w) (v := w') ht
    have h2 := h.writes
    omega

theorem CalmExec.budget {M n x s : Nat} {l : List (Call K V)} (hr : Reach C ps) (hT : T = ps.mem.handle R) (h0 : ∀ t, ¬ Running ps t)
    (h : CalmExec C R l n x s ps ps') (hM : x + s ≤ M) : ∃ b w U, Budget C T M n x s l ps' b w U := by
  induction h with
  | refl hc =>
    refine ⟨fun _ => 0, fun _ => 0, ∅, fun t => .rest fun c p h => h0 t ⟨c, p, h⟩, fun _ _ => ⟨rfl, rfl⟩, rfl, rfl⟩
  | @call l n x s ps q h t c ht hwf ih =>
    obtain ⟨b, w, U, h1⟩ := ih hr hT h0 hM
    have hl : T.limit = limit T.len := by rw [hT, (calm_len hr h.calm.1).1]; rfl
    have hz : ∀ (f : Tid → Nat), (t ∉ U → f t = 0) → ∑ u ∈ Insert.insert t U, f u = ∑ u ∈ U, f u := fun f hf =>
      Finset.sum_insert_of_eq_zero_if_notMem hf
    have hb := hz b fun h => (h1.out t h).1
    have hw := hz w fun h => (h1.out t h).2
    refine ⟨fun u => if u = t then b t + (c.stepBound C T.len + retryCost * M) else b u,
      fun u => if u = t then w t + c.writeBound T.len else w u, Insert.insert t U, fun u => ?_, fun u hu => ?_, ?_, ?_⟩
    · by_cases hu : u = t
      · subst hu
        rw [if_pos rfl, if_pos rfl]
        show LS true T q.mem _ (setTh q.th u _ u) _ _
        rw [setTh_at]
        refine .run rfl (lf_call (κ := none) (m := M) (w := c.writeBound T.len) (fun h => by cases h) (Nat.le_refl _) hl (Nat.le_refl _))
          (by omega) (by omega) (.inl ⟨.none, by omega⟩)
      · rw [if_neg hu, if_neg hu]
        show LS true T q.mem _ (setTh q.th t _ u) _ _
        unfold setTh
        rw [if_neg hu]
        exact h1.ls u
    · have hu' : u ≠ t ∧ u ∉ U := ⟨fun h => hu (h ▸ Finset.mem_insert_self _ _), fun h => hu (Finset.mem_insert_of_mem h)⟩
      rw [if_neg hu'.1, if_neg hu'.1]
      exact h1.out u hu'.2
    · have h2 := sum_upd (f := b) (v := b t + (c.stepBound C T.len + retryCost * M)) (Finset.mem_insert_self t U)
      have h3 := h1.steps
      rw [List.map_cons, List.sum_cons]
      omega
    · have h2 := sum_upd (f := w) (v := w t + c.writeBound T.len) (Finset.mem_insert_self t U)
      have h3 := h1.writes
      rw [List.map_cons, List.sum_cons]
      omega
  | @step l n x s ps q ps' h t hs hf he hc ih =>
    obtain ⟨b, w, U, h1⟩ := ih hr hT h0 hM
    have hq := hr.steps h.steps
    obtain ⟨h3, w', h4, h5⟩ := (h1.ls t).own hq h.calm.2 hc (hT.trans (h.calm.1.handle hr h.steps).symm) hs false (fun _ => hf) (fun h => by cases h)
    refine ⟨_, _, U, h1.le (b t - 1) (w t) h3 (by omega) rfl fun u => ?_⟩
    by_cases hu : u = t
    · subst hu
      rw [if_pos rfl, if_pos rfl]
      exact h4.mono (Nat.le_refl _) (by rcases h5 with h5 | h5 <;> omega)
    · rw [if_neg hu, if_neg hu, own_others hs hu]
      exact (h1.ls u).same he
  | @write l n x s ps q ps' h t hs he hc ih =>
    obtain ⟨b, w, U, h1⟩ := ih hr hT h0 (by omega)
    have hq := hr.steps h.steps
    obtain ⟨h3, w', h4, h5⟩ := (h1.ls t).own hq h.calm.2 hc (hT.trans (h.calm.1.handle hr h.steps).symm) hs false
      (fun _ hf => he (own_slots hs hf)) (fun h => by cases h)
    have h6 : w' + 1 ≤ w t := h5.resolve_left fun h => he h.1
    refine ⟨_, _, U, h1.le (b t - 1) (w t - 1) h3 (by omega) (by omega) fun u => ?_⟩
    have hrem : M - (x + s) = M - (x + 1 + s) + 1 := by omega
    by_cases hu : u = t
    · subst hu
      rw [if_pos rfl, if_pos rfl]
      have h7 := h4.mono (Nat.le_refl _) (show w' ≤ w u - 1 by omega)
      cases h7 with
      | rest h => exact .rest h
      | run g1 g2 g3 g4 g5 => exact .run g1 g2 g3 g4 (g5.imp (fun g => ⟨g.1, by have := g.2; simp only [Bool.false_eq_true, ↓reduceIte] at this; omega⟩)
          fun g => by simp only [Bool.false_eq_true, ↓reduceIte] at g; omega)
    · rw [if_neg hu, if_neg hu, own_others hs hu]
      have h7 := h1.ls u
      rw [hrem] at h7
      exact h7.race
  | @spurious l n x s ps q ps' h t hs hf hc ih =>
    obtain ⟨b, w, U, h1⟩ := ih hr hT h0 (by omega)
    have hq := hr.steps h.steps
    obtain ⟨h3, w', h4, h5⟩ := (h1.ls t).own hq h.calm.2 hc (hT.trans (h.calm.1.handle hr h.steps).symm) hs true
      (fun h => by cases h) (fun _ => by omega)
    refine ⟨_, _, U, h1.le (b t - 1) (w t) h3 (by omega) rfl fun u => ?_⟩
    have hrem : M - (x + s) = M - (x + (s + 1)) + 1 := by omega
    by_cases hu : u = t
    · subst hu
      rw [if_pos rfl, if_pos rfl]
      rw [hrem] at h4
      exact h4.mono (Nat.le_refl _) (by rcases h5 with h5 | h5 <;> omega)
    · rw [if_neg hu, if_neg hu, own_others hs hu]
      have h7 := h1.ls u
      rw [hrem] at h7
      exact h7.race
  | @other l n x s ps q ps' h hs hown hseq hc ih =>
    obtain ⟨b, w, U, h1⟩ := ih hr hT h0 hM
    have key : (∀ U i, ps'.mem.slot U i = q.mem.slot U i) ∧ ∀ t, ps'.th t = q.th t ∨ ∀ c p, ps'.th t ≠ .run c p := by
      have hset : ∀ t x u, (∀ c p, x ≠ .run c p) → setTh q.th t x u = q.th u ∨ ∀ c p, setTh q.th t x u ≠ .run c p := fun t x u hx => by
        unfold setTh
        split
        · exact .inr hx
        · exact .inl rfl
      cases hs with
      | pin t h => exact ⟨fun _ _ => rfl, fun u => hset t .idle u fun c p h => by cases h⟩
      | unpin t h => exact ⟨fun _ _ => rfl, fun u => hset t .out u fun c p h => by cases h⟩
      | abandon t h => exact ⟨fun _ _ => rfl, fun u => hset t .gone u fun c p h => by cases h⟩
      | release t h => exact ⟨fun _ _ => rfl, fun u => .inl rfl⟩
      | inv t c h hwf =>
        have := congrFun hseq t
        simp at this
      | act t h he => exact absurd (.act h he) (hown t)
      | loop t h => exact absurd (.loop h) (hown t)
      | ret t h => exact absurd (.ret h) (hown t)
      | panic t h => exact absurd (.panic h) (hown t)
      | freeEntry x h1 h2 h3 => exact ⟨fun _ _ => rfl, fun u => .inl rfl⟩
      | freeTable T h1 h2 h3 => exact ⟨fun _ _ => rfl, fun u => .inl rfl⟩
    refine ⟨b, w, U, fun u => ?_, h1.out, h1.steps, h1.writes⟩
    rcases key.2 u with h2 | h2
    · rw [h2]; exact (h1.ls u).same key.1
    · exact .rest h2

/-- **C58** Lock-freedom. Suppose that the operations `l` are called concurrently, starting from a state where none is running, and that the
map is not resized. Then all operations together change slots at most as often as the sum of their `writeBound`s (once per operation on one
key); and altogether they take at most the sum of their `stepBound`s, and `4 · (x + f)` steps more for each of them, where `x` is the number
of changes of slots and `f` that of spurious failures. So they cannot execute steps forever without some operation being completed. -/
theorem C58_lock_free {n x f : Nat} {l : List (Call K V)} (h : Reach C ps) (h0 : ∀ t, ¬ Running ps t) (he : CalmExec C R l n x f ps ps') :
    x ≤ (l.map (Call.writeBound (ps.mem.cap R))).sum ∧
    n ≤ (l.map (Call.stepBound C (ps.mem.cap R))).sum + l.length * (4 * (x + f)) := by
  obtain ⟨b, w, U, h1⟩ := he.budget h rfl h0 (Nat.le_refl _)
  have hl := (calm_len h he.calm.1).1
  have h2 := h1.writes
  have h3 := h1.steps
  rw [hl] at h2 h3
  have h4 : ∀ l : List (Call K V), (l.map fun c => c.stepBound C (ps.mem.cap R) + retryCost * (x + f)).sum =
      (l.map (Call.stepBound C (ps.mem.cap R))).sum + l.length * (4 * (x + f)) := by
    intro l
    induction l with
    | nil => simp
    | cons c l ih =>
      rw [List.map_cons, List.sum_cons, ih, List.map_cons, List.sum_cons, List.length_cons, Nat.add_mul]
      unfold retryCost
      omega
  rw [h4] at h3
  refine ⟨?_, by omega⟩
  show x ≤ (l.map fun c => c.writeBound (ps.mem.cap R)).sum
  omega

end Papaya
