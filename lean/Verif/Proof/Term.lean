import Verif.Proof.PInv
import Verif.Spec.Solo

/-! # Termination of operations executed alone

`Tm C t sp p σ Q`: executed alone by guard `t` from the state `σ`, the program `p` is never stuck, and after finitely many steps it
panics or returns a value in `Q`. It may be assumed that all states satisfy the global invariant. With `sp = false`, weak
compare-exchanges fail only if the slot has another value. -/

set_option linter.unusedSectionVars false
set_option linter.unusedVariables false

namespace Papaya

variable {K V : Type} [DecidableEq K]

open GSt

/-- The state satisfies the invariant. -/
def GoodSt (C : Cfg K) (σ : St K V) : Prop := ∃ S : GSt K V, S.toSt = σ ∧ S.Inv C

/-- One action, alone. -/
structure ExecA (C : Cfg K) (t : Tid) (sp : Bool) {β : Type} (a : Act K V β) (σ : St K V) (r : β) (σ' : St K V) : Prop where
  exec : Exec C t a σ r σ'
  nsp : sp = false → NoSpurious σ a r
  good : GoodSt C σ'

inductive Tm (C : Cfg K) (t : Tid) (sp : Bool) : {α : Type} → Prog K V α → St K V → (α → St K V → Prop) → Prop
  | ret {α : Type} {x : α} {σ} {Q : α → St K V → Prop} (h : Q x σ) : Tm C t sp (.ret x) σ Q
  | panic {α : Type} {r} {σ} {Q : α → St K V → Prop} : Tm C t sp (.panic r) σ Q
  | act {α β : Type} {a : Act K V β} {k : β → Prog K V α} {σ} {Q : α → St K V → Prop}
      (h1 : ∃ r σ', Exec C t a σ r σ' ∧ NoSpurious σ a r)
      (h2 : ∀ r σ', ExecA C t sp a σ r σ' → Tm C t sp (k r) σ' Q) : Tm C t sp (.act a k) σ Q
  | iter {α β s : Type} {body : s → Prog K V (s ⊕ β)} {x : s} {k : β → Prog K V α} {σ} {Q : α → St K V → Prop}
      (h : Tm C t sp (Prog.unfoldIter body x k) σ Q) : Tm C t sp (.iter body x k) σ Q

variable {C : Cfg K} {t : Tid} {sp : Bool}

theorem Tm.bind {α γ : Type} {p : Prog K V α} {f : α → Prog K V γ} {σ : St K V} {R : α → St K V → Prop}
    {Q : γ → St K V → Prop} (h : Tm C t sp p σ R) (hf : ∀ x σ, R x σ → Tm C t sp (f x) σ Q) : Tm C t sp (p.bind f) σ Q := by
  induction h with
  | ret h => exact hf _ _ h
  | panic => exact .panic
  | act h1 h2 ih => exact .act h1 fun r σ' he => ih r σ' he hf
  | iter h ih =>
    rename_i body x k σ R
    refine .iter ?_
    have := ih hf
    show Tm C t sp (Prog.unfoldIter body x fun x => (k x).bind f) _ Q
    unfold Prog.unfoldIter at this ⊢
    rw [Prog.bind_assoc] at this
    convert this using 2
    funext y
    cases y <;> rfl

theorem Tm.post {α : Type} {p : Prog K V α} {σ : St K V} {R Q : α → St K V → Prop} (h : Tm C t sp p σ R)
    (hQ : ∀ x σ, R x σ → Q x σ) : Tm C t sp p σ Q := by
  induction h with
  | ret h => exact .ret (hQ _ _ h)
  | panic => exact .panic
  | act h1 h2 ih => exact .act h1 fun r σ' he => ih r σ' he hQ
  | iter h ih => exact .iter (ih hQ)

/-- Started in `P` (and in a good state), `p` terminates in `Q` (and in a good state). -/
def Tt (C : Cfg K) (t : Tid) (sp : Bool) {α : Type} (P : St K V → Prop) (p : Prog K V α) (Q : α → St K V → Prop) : Prop :=
  ∀ σ, GoodSt C σ → P σ → Tm C t sp p σ fun x σ' => GoodSt C σ' ∧ Q x σ'

namespace Tt

variable {α β γ : Type} {P P' : St K V → Prop}

theorem ret {x : α} {Q : α → St K V → Prop} (h : ∀ σ, GoodSt C σ → P σ → Q x σ) : Tt C t sp P (pure x) Q :=
  fun σ hg hp => .ret ⟨hg, h σ hg hp⟩

theorem panic {r : PanicReason} {Q : α → St K V → Prop} : Tt C t sp P (.panic r) Q := fun _ _ _ => .panic

theorem bind {p : Prog K V α} {f : α → Prog K V β} (R : α → St K V → Prop) {Q : β → St K V → Prop} (h : Tt C t sp P p R)
    (hf : ∀ x, Tt C t sp (R x) (f x) Q) : Tt C t sp P (p >>= f) Q :=
  fun σ hg hp => (h σ hg hp).bind fun x σ' hx => hf x σ' hx.1 hx.2

theorem conseq {p : Prog K V α} {R Q : α → St K V → Prop} (h : Tt C t sp P p R) (hP : ∀ σ, GoodSt C σ → P' σ → P σ)
    (hQ : ∀ x σ, GoodSt C σ → R x σ → Q x σ) : Tt C t sp P' p Q :=
  fun σ hg hp => (h σ hg (hP σ hg hp)).post fun x σ' hx => ⟨hx.1, hQ x σ' hx.1 hx.2⟩

theorem pre {p : Prog K V α} {Q : α → St K V → Prop} (h : ∀ σ, GoodSt C σ → P σ → Tt C t sp (fun τ => τ = σ) p Q) :
    Tt C t sp P p Q := fun σ hg hp => h σ hg hp σ hg rfl

/-- Loops: a measure decreases. -/
theorem loop {σs : Type} {body : σs → Prog K V (σs ⊕ β)} {M : Type} [WellFoundedRelation M] (I : σs → St K V → Prop)
    (μ : σs → St K V → M) {s : σs} {Q : β → St K V → Prop}
    (h : ∀ s m, Tt C t sp (fun σ => I s σ ∧ μ s σ = m) (body s) fun x σ => match x with
      | .inl s' => I s' σ ∧ WellFoundedRelation.rel (μ s' σ) m
      | .inr b => Q b σ) : Tt C t sp (I s) (Prog.loop s body) Q := by
  intro σ hg hp
  have key : ∀ (m : M) s σ, GoodSt C σ → I s σ → μ s σ = m →
      Tm C t sp (Prog.loop s body) σ fun x σ' => GoodSt C σ' ∧ Q x σ' := by
    intro m
    induction m using WellFounded.induction (WellFoundedRelation.wf (α := M)) with
    | _ m ih =>
      intro s σ hg hp hm
      refine .iter ?_
      unfold Prog.unfoldIter
      refine (h s m σ hg ⟨hp, hm⟩).bind ?_
      rintro x σ' ⟨hg', hx⟩
      cases x with
      | inl s' => exact ih _ hx.2 s' σ' hg' hx.1 rfl
      | inr b => exact .ret ⟨hg', hx⟩
  exact key _ s σ hg hp rfl

/-- Loops with a bounded counter. -/
theorem loopN {σs : Type} {body : σs → Prog K V (σs ⊕ β)} (I : σs → St K V → Prop)
    (μ : σs → Nat) {s : σs} {Q : β → St K V → Prop}
    (h : ∀ s, Tt C t sp (I s) (body s) fun x σ => match x with
      | .inl s' => I s' σ ∧ μ s' < μ s
      | .inr b => Q b σ) : Tt C t sp (I s) (Prog.loop s body) Q := by
  refine loop I (fun s _ => μ s) fun s m => ?_
  rintro σ hg ⟨hp, rfl⟩
  refine (h s σ hg hp).post ?_
  rintro x σ' ⟨hg', hx⟩
  refine ⟨hg', ?_⟩
  cases x with
  | inl s' => exact hx
  | inr b => exact hx

/-- Loops that are never repeated. -/
theorem loop1 {σs : Type} {body : σs → Prog K V (σs ⊕ β)} {s : σs} {Q : β → St K V → Prop}
    (h : Tt C t sp P (body s) fun x σ => match x with
      | .inl _ => False
      | .inr b => Q b σ) : Tt C t sp P (Prog.loop s body) Q := by
  intro σ hg hp
  refine .iter ?_
  unfold Prog.unfoldIter
  refine (h σ hg hp).bind ?_
  rintro x σ' ⟨hg', hx⟩
  cases x with
  | inl s' => exact hx.elim
  | inr b => exact .ret ⟨hg', hx⟩

theorem ite {c : Prop} [Decidable c] {p q : Prog K V α} {Q : α → St K V → Prop} (h1 : c → Tt C t sp P p Q)
    (h2 : ¬ c → Tt C t sp P q Q) : Tt C t sp P (if c then p else q) Q := by
  split
  · exact h1 ‹_›
  · exact h2 ‹_›

theorem absurd' {p : Prog K V α} {Q : α → St K V → Prop} (h : ∀ σ, GoodSt C σ → ¬ P σ) : Tt C t sp P p Q :=
  fun σ hg hp => (h σ hg hp).elim

theorem act {a : Act K V β} {Q : β → St K V → Prop} (h1 : ∀ σ, GoodSt C σ → P σ → ∃ r σ', Exec C t a σ r σ' ∧ NoSpurious σ a r)
    (h2 : ∀ σ r σ', GoodSt C σ → P σ → ExecA C t sp a σ r σ' → Q r σ') : Tt C t sp P (.prim a) Q :=
  fun σ hg hp => .act (h1 σ hg hp) fun r σ' he => .ret ⟨he.good, h2 σ r σ' hg hp he⟩

/-- An action, followed by the rest. -/
theorem step {a : Act K V β} {f : β → Prog K V α} {Q : α → St K V → Prop}
    (h1 : ∀ σ, GoodSt C σ → P σ → ∃ r σ', Exec C t a σ r σ' ∧ NoSpurious σ a r)
    (h2 : ∀ r, Tt C t sp (fun σ' => ∃ σ, GoodSt C σ ∧ P σ ∧ ExecA C t sp a σ r σ') (f r) Q) : Tt C t sp P (.prim a >>= f) Q :=
  bind _ (act h1 fun σ r σ' hg hp he => ⟨σ, hg, hp, he⟩) h2

/-- Reading actions: they do not change the state. -/
def _root_.Papaya.Act.read (σ : St K V) : {β : Type} → Act K V β → Option β
  | _, .loadRoot => some (σ.root.map σ.handle)
  | _, .peekRoot => some σ.root
  | _, .loadNext T => some ((σ.next T).map σ.handle)
  | _, .loadMd T i => some (σ.md T i)
  | _, .loadSlot T i => some (σ.slot T i)
  | _, .loadStatus T => some (σ.status T)
  | _, .loadClaim T => some (σ.claim T)
  | _, .loadCopied T => some (σ.copied T)
  | _, .loadShard j => some (σ.shard j)
  | _, .deref _ => some ()
  | _, .sameTable T T' => some (decide (T = T'))
  | _, .sameEntry x y => some (decide (x = y))
  | _, _ => none

theorem read_exec {a : Act K V β} {σ : St K V} {x : β} (h : a.read σ = some x) : (∃ r σ', Exec C t a σ r σ' ∧ NoSpurious σ a r) ∧
    ∀ r σ', Exec C t a σ r σ' → r = x ∧ σ' = σ := by
  cases a <;> first | (cases h; done) | skip
  all_goals cases h
  case deref e => exact ⟨⟨(), σ, rfl, trivial⟩, fun r σ' h => ⟨rfl, h⟩⟩
  all_goals exact ⟨⟨_, σ, ⟨rfl, rfl⟩, trivial⟩, fun r σ' h => h⟩

/-- A read, followed by the rest. -/
theorem read {a : Act K V β} {f : β → Prog K V α} {Q : α → St K V → Prop} (g : St K V → β) (hr : ∀ σ, a.read σ = some (g σ))
    (h : ∀ r, Tt C t sp (fun σ => P σ ∧ r = g σ) (f r) Q) : Tt C t sp P (.prim a >>= f) Q := by
  refine step (fun σ _ _ => (read_exec (hr σ)).1) fun r σ' hg ⟨σ, _, hp, he⟩ => ?_
  obtain ⟨rfl, rfl⟩ := (read_exec (hr σ)).2 r σ' he.exec
  exact h _ _ hg ⟨hp, rfl⟩

/-- Comparing two table pointers. -/
theorem sameTable {x y : Nat} {p q : Prog K V α} {Q : α → St K V → Prop} (h1 : x = y → Tt C t sp P p Q)
    (h2 : x ≠ y → Tt C t sp P q Q) : Tt C t sp P (A.sameTable x y >>= fun b => if b = true then p else q) Q := by
  refine read (fun _ => decide (x = y)) (fun _ => rfl) fun r => ?_
  refine ite (fun h => ?_) fun h => ?_
  · intro σ hg hp
    exact h1 (of_decide_eq_true (hp.2 ▸ h)) σ hg hp.1
  · intro σ hg hp
    exact h2 (fun h' => h (hp.2 ▸ decide_eq_true h')) σ hg hp.1

/-- Comparing two entry pointers. -/
theorem sameEntry {x y : Nat} {p q : Prog K V α} {Q : α → St K V → Prop} (h1 : x = y → Tt C t sp P p Q)
    (h2 : x ≠ y → Tt C t sp P q Q) : Tt C t sp P (A.sameEntry x y >>= fun b => if b = true then p else q) Q := by
  refine read (fun _ => decide (x = y)) (fun _ => rfl) fun r => ?_
  refine ite (fun h => ?_) fun h => ?_
  · intro σ hg hp
    exact h1 (of_decide_eq_true (hp.2 ▸ h)) σ hg hp.1
  · intro σ hg hp
    exact h2 (fun h' => h (hp.2 ▸ decide_eq_true h')) σ hg hp.1

theorem read' {a : Act K V β} {Q : β → St K V → Prop} (g : St K V → β) (hr : ∀ σ, a.read σ = some (g σ))
    (h : ∀ σ, GoodSt C σ → P σ → Q (g σ) σ) : Tt C t sp P (.prim a) Q := by
  refine act (fun σ _ _ => (read_exec (hr σ)).1) fun σ r σ' hg hp he => ?_
  obtain ⟨rfl, rfl⟩ := (read_exec (hr σ)).2 r σ' he.exec
  exact h _ hg hp

/-- Actions that always succeed and have a trivial result: stores. -/
def _root_.Papaya.Act.store (C : Cfg K) (t : Tid) (σ : St K V) : {β : Type} → Act K V β → Option (St K V)
  | _, .unlock T => some { σ with lock := fun T' => if T' = T then .free else σ.lock T' }
  | _, .poison T => some { σ with lock := fun T' => if T' = T then .poisoned else σ.lock T' }
  | _, .storeMd T i m => some (σ.setMd T i m)
  | _, .storeSlot T i s => some (σ.setSlot T i s)
  | _, .storeStatus T s => some { σ with status := fun T' => if T' = T then s else σ.status T' }
  | _, .retire e => some (σ.retireEntry e)
  | _, .retireTable T => some { σ with
              tabRetired := fun x => if x = T then true else σ.tabRetired x
              tabBlockers := fun x u => if x = T then σ.pinned u else σ.tabBlockers x u }
  | _, .pushDeferred T e => some { σ with deferred := fun T' => if T' = T then e :: σ.deferred T else σ.deferred T' }
  | _, .addCount d => some { σ with shard := fun j => if j = C.shardOf t % (C.shards + 1) then σ.shard j + d else σ.shard j }
  | _, _ => none

theorem store_exec {β : Type} {a : Act K V β} {σ τ : St K V} (h : a.store C t σ = some τ) :
    (∃ r σ', Exec C t a σ r σ' ∧ NoSpurious σ a r) ∧ ∀ r σ', Exec C t a σ r σ' → σ' = τ := by
  cases a <;> first | (cases h; done) | skip
  all_goals cases h
  all_goals exact ⟨⟨(), _, rfl, trivial⟩, fun r σ' h => h⟩

theorem store {a : Act K V Unit} {f : Unit → Prog K V α} {Q : α → St K V → Prop} (g : St K V → St K V)
    (hr : ∀ σ, a.store C t σ = some (g σ))
    (h : Tt C t sp (fun σ' => ∃ σ, GoodSt C σ ∧ P σ ∧ σ' = g σ) (f ()) Q) : Tt C t sp P (.prim a >>= f) Q := by
  refine step (fun σ _ _ => (store_exec (hr σ)).1) fun r σ' hg ⟨σ, hg0, hp, he⟩ => ?_
  exact h _ hg ⟨σ, hg0, hp, (store_exec (hr σ)).2 r σ' he.exec⟩

theorem store' {a : Act K V Unit} {Q : Unit → St K V → Prop} (g : St K V → St K V) (hr : ∀ σ, a.store C t σ = some (g σ))
    (h : ∀ σ, GoodSt C σ → P σ → Q () (g σ)) : Tt C t sp P (.prim a) Q := by
  refine act (fun σ _ _ => (store_exec (hr σ)).1) fun σ r σ' hg hp he => ?_
  rw [(store_exec (hr σ)).2 r σ' he.exec]
  exact h σ hg hp

end Tt

end Papaya
