import Verif.Spec.Promote
import Verif.Proof.Promote
import Verif.Exec.Demo
import Verif.Props.Lin

/-! # C68: who completes an incremental resize -/

set_option linter.unusedSectionVars false
set_option linter.unusedVariables false

namespace Papaya

variable {K V : Type} [DecidableEq K] {C : Cfg K} {ps ps' q : PSt K V} {t : Tid} {n : Nat}

theorem bystands_bound {c : Call K V} (h : c.bystands = true) : c.moveBound 1 = some 0 := by
  cases c <;> first | rfl | cases h

/-- The bystanders that are being executed are aloof. -/
def AloofAll (ps : PSt K V) : Prop := ∀ t c p, ps.th t = .run c p → c.bystands = true → Aloof p

theorem aloofAll_set {x : Th K V} (h : AloofAll ps) (hx : ∀ c p, x = .run c p → c.bystands = true → Aloof p) :
    ∀ u c p, setTh ps.th t x u = .run c p → c.bystands = true → Aloof p := by
  intro u c p hp
  unfold setTh at hp
  split at hp
  · exact hx c p hp
  · exact h u c p hp

theorem aloofAll_step (hc : C.mode = .incremental n) (h : AloofAll ps) (hs : Step C ps ps') : AloofAll ps' := by
  cases hs with
  | pin u h1 => exact aloofAll_set h fun _ _ h => by cases h
  | unpin u h1 => exact aloofAll_set h fun _ _ h => by cases h
  | abandon u h1 => exact aloofAll_set h fun _ _ h => by cases h
  | release u h1 => exact h
  | ret u h1 => exact aloofAll_set h fun _ _ h => by cases h
  | panic u h1 => exact aloofAll_set h fun _ _ h => by cases h
  | freeEntry x h1 h2 h3 => exact h
  | freeTable x h1 h2 h3 => exact h
  | loop u h1 => exact aloofAll_set h fun _ _ hp hb => by cases hp; exact fun m => h _ _ _ h1 hb (m + 1)
  | @act u c β a k r σ h1 h2 =>
    refine aloofAll_set h fun _ _ hp hb => ?_
    cases hp
    intro m
    have h3 := h _ _ _ h1 hb (m + 1)
    have h4 := h3.2 r
    rwa [Nat.le_zero.1 h3.1] at h4
  | inv u c h1 h2 => exact aloofAll_set h fun _ _ hp hb => by cases hp; exact aloof_call hc (bystands_bound hb)

theorem Reach.aloofAll (hc : C.mode = .incremental n) (h : Reach C ps) : AloofAll ps := by
  induction h with
  | init h => intro t c p hp; rw [h.2.1] at hp; cases hp
  | step _ hs ih => exact aloofAll_step hc ih hs

/-- What an action that is not part of a resize leaves alone. -/
structure Standstill' (σ σ' : St K V) : Prop where
  root : ∀ T, σ.root = some T → σ'.root = some T
  marks : ∀ T i, (σ'.slot T i).copying = true → (σ.slot T i).copying = true
  copied : ∀ T, T < σ.nTabs → σ'.copied T = σ.copied T
  tables : ∀ T, σ'.tabRetired T = σ.tabRetired T
  grows : σ.nTabs ≤ σ'.nTabs

theorem Standstill'.refl {σ : St K V} : Standstill' σ σ := ⟨fun _ h => h, fun _ _ h => h, fun _ _ => rfl, fun _ => rfl, Nat.le_refl _⟩

theorem Standstill'.trans {σ σ' σ'' : St K V} (h : Standstill' σ σ') (h' : Standstill' σ' σ'') : Standstill' σ σ'' :=
  ⟨fun T ht => h'.root T (h.root T ht), fun T i hm => h.marks T i (h'.marks T i hm),
    fun T ht => (h'.copied T (Nat.lt_of_lt_of_le ht h.grows)).trans (h.copied T ht), fun T => (h'.tables T).trans (h.tables T),
    h.grows.trans h'.grows⟩

theorem standstill_set {σ : St K V} {T i : Nat} {s : Slot K V} (hs : s.copying = false) : Standstill' σ (σ.setSlot T i s) := by
  refine ⟨fun _ h => h, fun T' i' h => ?_, fun _ _ => rfl, fun _ => rfl, Nat.le_refl _⟩
  unfold St.setSlot at h
  dsimp only at h
  split at h
  · rw [hs] at h; cases h
  · exact h

theorem standstill_alloc {σ : St K V} {cap : Nat} {st : Status} : Standstill' σ (σ.allocTable cap st) := by
  refine ⟨fun _ h => h, fun T' i' h => ?_, fun T hT => if_neg (by omega), fun _ => rfl, Nat.le_succ _⟩
  have h : (if T' = σ.nTabs then Slot.null else σ.slot T' i').copying = true := h
  split at h
  · cases h
  · exact h

theorem exec_standstill {β : Type} {a : Act K V β} {σ σ' : St K V} {r : β} (ha : a.settles = 0) (he : Exec C t a σ r σ') :
    Standstill' σ σ' := by
  have field : ∀ {σ' : St K V}, σ'.root = σ.root → σ'.slot = σ.slot → σ'.copied = σ.copied → σ'.tabRetired = σ.tabRetired →
      σ'.nTabs = σ.nTabs → Standstill' σ σ' := fun h1 h2 h3 h4 h5 =>
    ⟨fun T h => by rw [h1]; exact h, fun T i h => by rw [h2] at h; exact h, fun T _ => by rw [h3], fun T => by rw [h4], by rw [h5]⟩
  cases a with
  | casRootInit cap =>
    have he : (match σ.root with
      | none => σ' = { σ.allocTable cap .promoted with root := some σ.nTabs } ∧ r = σ'.handle σ.nTabs
      | some T => σ' = σ ∧ r = σ.handle T) := he
    split at he
    · rename_i h0
      rw [he.1]
      obtain ⟨_, h2, h3, h4, h5⟩ := standstill_alloc (σ := σ) (cap := cap) (st := .promoted)
      exact ⟨(fun T h => by rw [h0] at h; cases h), h2, h3, h4, h5⟩
    · rw [he.1]; exact .refl
  | storeNext T cap =>
    rw [he.1]
    obtain ⟨h1, h2, h3, h4, h5⟩ := standstill_alloc (σ := σ) (cap := cap) (st := .pending)
    exact ⟨h1, h2, h3, h4, h5⟩
  | cas w T i e s =>
    rcases he with ⟨_, _, h⟩ | ⟨_, _, h⟩
    · rw [h]
      refine standstill_set ?_
      cases hs : s.copying with
      | false => rfl
      | true =>
        have ha : (if s.copying then 1 else 0) = 0 := ha
        rw [hs] at ha; cases ha
    · rw [h]; exact .refl
  | casNew w T i e k v =>
    rcases he with ⟨_, _, h⟩ | ⟨_, _, h⟩
    · rw [h]
      obtain ⟨h1, h2, h3, h4, h5⟩ := standstill_set (σ := σ) (T := T) (i := i) (s := Slot.untagged ⟨σ.nIds, k, v⟩) rfl
      exact ⟨h1, h2, h3, h4, h5⟩
    · rw [h]; exact .refl
  | fetchOrCopying => cases ha
  | storeSlot => cases ha
  | addCopied => cases ha
  | casRoot => cases ha
  | retireTable => cases ha
  | tryLock => rcases he with ⟨_, _, h⟩ | ⟨_, _, h⟩ <;> rw [h] <;> exact field rfl rfl rfl rfl rfl
  | lockWait => rcases he with ⟨_, _, h⟩ | ⟨_, _, h⟩ <;> rw [h] <;> exact field rfl rfl rfl rfl rfl
  | loadRoot | peekRoot | loadNext | loadMd | loadSlot | loadStatus | parkStatus | parkSlot | unparkStatus | unparkSlot | loadClaim | addClaim | loadCopied | sameTable
  | sameEntry | loadShard => rw [he.2]; exact field rfl rfl rfl rfl rfl
  | unlock | poison | storeMd | storeStatus | deref | retire | pushDeferred | addCount => 
    rw [show σ' = _ from he]; exact field rfl rfl rfl rfl rfl

theorem step_standstill (h : AloofAll ps) (hb : ∀ t c p, ps.th t = .run c p → c.bystands = true) (hs : Step C ps ps') :
    Standstill' ps.mem ps'.mem := by
  cases hs with
  | @act u c β a k r σ h1 h2 => exact exec_standstill (Nat.le_zero.1 (h _ _ _ h1 (hb _ _ _ h1) 1).1) h2
  | _ => exact ⟨fun _ h => h, fun _ _ h => h, fun _ _ => rfl, fun _ => rfl, Nat.le_refl _⟩

theorem bystand_step (hb : ∀ t c p, ps.th t = .run c p → c.bystands = true) (hs : Step C ps ps')
    (hn : ∀ t c, ps'.hist = ps.hist ++ [.inv (t, ps.seq t + 1) c] → c.bystands = true) :
    ∀ t c p, ps'.th t = .run c p → c.bystands = true := by
  have key : ∀ {u : Tid} {x : Th K V}, (∀ c p, x = .run c p → c.bystands = true) → ∀ t c p, setTh ps.th u x t = .run c p → c.bystands = true := by
    intro u x hx t c p hp
    unfold setTh at hp
    split at hp
    · exact hx c p hp
    · exact hb t c p hp
  cases hs with
  | pin u h1 => exact key fun _ _ h => by cases h
  | unpin u h1 => exact key fun _ _ h => by cases h
  | abandon u h1 => exact key fun _ _ h => by cases h
  | release u h1 => exact hb
  | ret u h1 => exact key fun _ _ h => by cases h
  | panic u h1 => exact key fun _ _ h => by cases h
  | freeEntry x h1 h2 h3 => exact hb
  | freeTable x h1 h2 h3 => exact hb
  | loop u h1 => exact key fun _ _ hp => by cases hp; exact hb _ _ _ h1
  | act u h1 h2 => exact key fun _ _ hp => by cases hp; exact hb _ _ _ h1
  | inv u c h1 h2 => exact key fun _ _ hp => by cases hp; exact hn u c rfl

/-- **C68** In incremental mode, as long as only readers and the operations built on `compute` are executed, by any number of threads,
no resize makes any progress, however many tables they allocate: the root stays the root, nothing is moved. -/
theorem C68_standstill (hc : C.mode = .incremental n) (hr : Reach C ps) (h : Steps C ps ps') (hb : OnlyBystanders ps ps') :
    Standstill ps ps' := by
  suffices hk : Standstill' ps.mem ps'.mem ∧ ∀ t c p, ps'.th t = .run c p → c.bystands = true from
    ⟨hk.1.root, hk.1.marks, hk.1.copied, hk.1.tables⟩
  obtain ⟨hb1, hb2⟩ := hb
  induction h with
  | refl => exact ⟨.refl, hb1⟩
  | @tail q ps' h1 hs ih =>
    have hrq := hr.steps h1
    have hp : q.hist <+: ps'.hist := steps_hist (.single hs)
    obtain ⟨i1, i2⟩ := ih fun o c h3 => hb2 o c (hp.subset h3)
    refine ⟨i1.trans (step_standstill (hrq.aloofAll hc) i2 hs), bystand_step i2 hs fun t c hi => ?_⟩
    refine hb2 (t, q.seq t + 1) c (by rw [hi]; simp) fun h0 => ?_
    exact (C01_history_wf (.step hrq hs)).inv_first (c := c) (B := [.inv (t, q.seq t + 1) c]) hi (List.mem_singleton.2 rfl) _ ((steps_hist h1).subset h0) rfl

/-- A root is created once. -/
theorem root_once (h : ps.mem.root = none) (hs : Step C ps ps') : ps'.mem.root = none ∨ ps'.mem.root = some ps.mem.nTabs := by
  cases hs with
  | @act u c β a k r σ h1 he =>
    cases a with
    | casRootInit cap =>
      have he : (match ps.mem.root with
        | none => σ = { ps.mem.allocTable cap .promoted with root := some ps.mem.nTabs } ∧ r = σ.handle ps.mem.nTabs
        | some T => σ = ps.mem ∧ r = ps.mem.handle T) := he
      rw [h] at he
      exact .inr (by rw [he.1])
    | casRoot =>
      rcases he with ⟨h2, _, _⟩ | ⟨_, _, h2⟩
      · rw [h] at h2; cases h2
      · exact .inl (by rw [h2]; exact h)
    | cas | casNew | tryLock | lockWait => rcases he with ⟨_, _, h2⟩ | ⟨_, _, h2⟩ <;> exact .inl (by rw [h2]; exact h)
    | loadRoot | peekRoot | loadNext | loadMd | loadSlot | loadStatus | parkStatus | parkSlot | unparkStatus | unparkSlot | loadClaim | addClaim
    | loadCopied | sameTable | sameEntry | loadShard | fetchOrCopying | addCopied => exact .inl (by rw [he.2]; exact h)
    | storeNext => exact .inl (by rw [he.1]; exact h)
    | unlock | poison | storeMd | storeStatus | deref | retire | pushDeferred | addCount | storeSlot | retireTable =>
      exact .inl (by rw [show σ = _ from he]; exact h)
  | _ => exact .inl h

/-- **C68** A map in incremental mode that is only ever written through `compute`, `update`, `get_or_insert_with`, … keeps its first table
for ever. -/
theorem C68_first_table (hc : C.mode = .incremental n) (hr : Reach C ps) (hb : ∀ o c, HEv.inv o c ∈ ps.hist → c.bystands = true) :
    ps.mem.root = none ∨ ps.mem.root = some 0 := by
  suffices hk : (ps.mem.root = none ∨ ps.mem.root = some 0) ∧ ∀ t c p, ps.th t = .run c p → c.bystands = true from hk.1
  induction hr with
  | init h =>
    refine ⟨?_, fun t c p hp => by rw [h.2.1] at hp; cases hp⟩
    have h := h.1
    unfold initSt at h
    dsimp only at h
    split at h
    · rw [← Option.some.inj h]; exact .inl rfl
    · obtain ⟨_, _, h⟩ := Option.map_eq_some_iff.1 h
      rw [← h]; exact .inr rfl
  | @step q ps' hr hs ih =>
    have hp : q.hist <+: ps'.hist := steps_hist (.single hs)
    obtain ⟨i1, i2⟩ := ih fun o c h => hb o c (hp.subset h)
    refine ⟨?_, bystand_step i2 hs fun t c hi => hb (t, q.seq t + 1) c (by rw [hi]; simp)⟩
    rcases i1 with i1 | i1
    · obtain ⟨S, g, ⟨g1, g2, _⟩, _⟩ := hr.pinv 1
      have h0 : q.mem.nTabs = 0 := by
        rw [← g1] at i1 ⊢
        exact (g2.s.none i1).1
      rw [← h0]
      exact root_once i1 hs
    · exact .inr ((step_standstill (hr.aloofAll hc) i2 hs).root 0 i1)

/-! ### Thirty keys: three tables, none of them complete -/

def fillWith (n : Nat) : List (Cmd Nat Nat) :=
  (List.range n).flatMap fun k => [.call 0 (.getOrInsertWith k (.pure fun _ => 10 * k)) pure_wf, .fin 0 5000]

/-- Three tables; nothing has been moved. -/
def quietTables (ps : PSt Nat Nat) : Bool :=
  ps.mem.root == some 0 && (ps.mem.next 0 == some 1 && (ps.mem.next 1 == some 2 && ps.mem.copied 1 == 0))

def bystandB : HEv Nat Nat → Bool
  | .inv _ c => c.bystands
  | _ => true

-- The hypotheses of both theorems are met by an execution that allocates three tables.
example : ∃ ps ps' : PSt Nat Nat, cfgI.mode = .incremental 2 ∧ Reach cfgI ps ∧ Steps cfgI ps ps' ∧ OnlyBystanders ps ps' ∧
    (∀ o c, HEv.inv o c ∈ ps'.hist → c.bystands = true) ∧ ps'.mem.root = some 0 ∧ ps'.mem.next 0 = some 1 ∧ ps'.mem.next 1 = some 2 ∧
    ps'.hist.length = 60 := by
  have h : (runMap cfgI ([.pin 0] ++ fillWith 30)).any (fun ps => quietTables ps && (ps.hist.all bystandB && ps.hist.length == 60)) = true := by decide +kernel
  obtain ⟨ps', h1, h2⟩ := (Option.any_eq_true _ _).1 h
  simp only [runMap, initPSt, Option.bind_eq_some_iff, Option.map_eq_some_iff] at h1
  obtain ⟨_, ⟨σ, h3, rfl⟩, h4⟩ := h1
  simp only [quietTables, Bool.and_eq_true, beq_iff_eq] at h2
  obtain ⟨⟨h5, h6, h7, _⟩, h8, h9⟩ := h2
  have h10 : ∀ o c, HEv.inv o c ∈ ps'.hist → c.bystands = true := fun o c hc => List.all_eq_true.1 h8 _ hc
  exact ⟨_, ps', rfl, .init ⟨h3, rfl, rfl, rfl, rfl⟩, (runCmds_steps h4 (initSt_bounded h3)).1,
    ⟨(fun t c p hp => by cases hp), fun o c hc _ => h10 o c hc⟩, h10, h5, h6, h7, h9⟩

-- With `insert` instead, the two resizes are complete.
example : ∃ ps : PSt Nat Nat, Reach cfgI ps ∧ ps.mem.root = some 2 := by
  obtain ⟨ps, _, h1, h2⟩ := demo_run (C := cfgI) (l := fill 30) (P := fun ps => ps.mem.root == some 2) (by decide +kernel)
  exact ⟨ps, h1, by simpa using h2⟩

end Papaya
