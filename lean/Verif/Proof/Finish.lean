import Verif.Model.Pool
import Verif.Proof.Logic

/-! # Duties: what an operation has to do before it returns

A logic about programs alone (no state): an action may create a duty — after `fetch_or(COPYING)` the slot has to be
marked `COPIED`, after the promotion CAS the old table has to be retired, after locking the mutex it has to be unlocked,
after publishing a next table of the root (blocking mode) the root has to be replaced. `Sh` says that a program cannot return
(nor let a panic of a user closure escape) before its duty is done. -/

set_option linter.unusedSectionVars false
set_option linter.unusedVariables false

namespace Papaya

variable {K V : Type}

/-- Duties. -/
inductive Duty
  /-- do not return while table `T` is the root -/
  | stay (T : Nat)
  /-- store slot `i` of `T` -/
  | store (T i : Nat)
  /-- retire table `T` -/
  | retire (T : Nat)
  /-- unlock the mutex of `T` -/
  | unlock (T : Nat)
deriving DecidableEq

/-- Duties created by an action. -/
def Act.duties (inc : Bool) : {β : Type} → Act K V β → β → List Duty
  | _, .storeNext T _, _ => if inc then [] else [.stay T]
  | _, .fetchOrCopying T i, s => if inc && s.ptr.isSome then [.store T i] else []
  | _, .casRoot T _, b => if b then [.retire T] else []
  | _, .tryLock T, b => if b then [.unlock T] else []
  | _, .lockWait T, b => if b then [.unlock T] else []
  | _, _, _ => []

/-- The action fulfils the duty. -/
def Duty.doneBy : Duty → {β : Type} → Act K V β → Prop
  | .stay T, _, .casRoot T' _ => T' = T
  | .store T i, _, .storeSlot T' i' _ => T' = T ∧ i' = i
  | .retire T, _, .retireTable T' => T' = T
  | .unlock T, _, .unlock T' => T' = T
  | .unlock T, _, .poison T' => T' = T
  | _, _, _ => False

/-- Results the action may have (for the duty `stay T`: while `T` is the root). -/
def Obs : Option Duty → {β : Type} → Act K V β → β → Prop
  | _, _, .loadNext T, r => ∀ N, r = some N → T < N.id
  | _, _, .storeNext T _, r => T < r.id
  | _, _, .sameTable T T', r => r = decide (T = T')
  | some (.stay T), _, .loadRoot, r => r.map Table.id = some T
  | some (.stay T), _, .peekRoot, r => r = some T
  | some (.stay T), _, .loadStatus N, r => r = .promoted → N ≤ T
  | _, _, _, _ => True

/-- Panics after which a duty may be left undone: those of table allocation (the other reasons never occur). -/
def PanicReason.hard : PanicReason → Bool
  | .user => false
  | .removeNone => false
  | .capacityOverflow => false
  | _ => true

/-- For `n` steps: the program does its duty `o`, and those created by its actions, before it returns. -/
def Sh (inc : Bool) {α : Type} : Nat → Option Duty → Prog K V α → (Option Duty → α → Prop) → Prop
  | 0, _, _, _ => True
  | _ + 1, o, .ret x, Q => Q o x
  | _ + 1, o, .panic r, _ => o = none ∨ r.hard = true
  | n + 1, o, .act a k, Q => ∀ r, Obs o a r → (∀ d ∈ a.duties inc r, Sh inc n (some d) (k r) Q) ∧
      ((∀ d, o = some d → ¬ d.doneBy a) → Sh inc n o (k r) Q)
  | n + 1, o, .iter body s k, Q => Sh inc n o (Prog.unfoldIter body s k) Q

variable {inc : Bool}

theorem Sh.mono {α : Type} {n m : Nat} {o : Option Duty} {p : Prog K V α} {Q : Option Duty → α → Prop}
    (h : Sh inc n o p Q) (hm : m ≤ n) : Sh inc m o p Q := by
  induction m generalizing n p o with
  | zero => cases p <;> trivial
  | succ m ih =>
    obtain ⟨n, rfl⟩ : ∃ n', n = n' + 1 := ⟨n - 1, by omega⟩
    cases p with
    | ret x => exact h
    | panic r => exact h
    | act a k =>
      intro r hr
      obtain ⟨h1, h2⟩ := h r hr
      exact ⟨fun d hd => ih (h1 d hd) (by omega), fun hn => ih (h2 hn) (by omega)⟩
    | iter body s k => exact ih (n := n) h (by omega)

theorem Sh.bind {α γ : Type} {n : Nat} {o : Option Duty} {p : Prog K V α} {f : α → Prog K V γ}
    {R : Option Duty → α → Prop} {Q : Option Duty → γ → Prop}
    (h : Sh inc n o p R) (hf : ∀ x o m, m ≤ n → R o x → Sh inc m o (f x) Q) : Sh inc n o (p.bind f) Q := by
  induction n generalizing p o with
  | zero => cases p.bind f <;> trivial
  | succ n ih =>
    cases p with
    | ret x => exact hf x o _ (Nat.le_refl _) h
    | panic r => exact h
    | act a k =>
      intro r hr
      obtain ⟨h1, h2⟩ := h r hr
      exact ⟨fun d hd => ih (h1 d hd) fun x o m hm => hf x o m (by omega),
        fun hn => ih (h2 hn) fun x o m hm => hf x o m (by omega)⟩
    | iter body s k =>
      have h' : Sh inc n o (Prog.unfoldIter body s k) R := h
      have := ih h' fun x o m hm => hf x o m (by omega)
      show Sh inc n o (Prog.unfoldIter body s fun x => (k x).bind f) Q
      unfold Prog.unfoldIter at this ⊢
      rw [Prog.bind_assoc] at this
      convert this using 2
      funext x
      cases x <;> rfl

theorem Sh.post {α : Type} {n : Nat} {o : Option Duty} {p : Prog K V α} {R Q : Option Duty → α → Prop}
    (h : Sh inc n o p R) (hQ : ∀ o x, R o x → Q o x) : Sh inc n o p Q := by
  induction n generalizing p o with
  | zero => cases p <;> trivial
  | succ n ih =>
    cases p with
    | ret x => exact hQ _ _ h
    | panic r => exact h
    | act a k =>
      intro r hr
      obtain ⟨h1, h2⟩ := h r hr
      exact ⟨fun d hd => ih (h1 d hd), fun hn => ih (h2 hn)⟩
    | iter body s k => exact ih h

/-- `p`, started with a duty in `P`, returns only in `Q`. -/
def Du (inc : Bool) {α : Type} (P : Option Duty → Prop) (p : Prog K V α) (Q : Option Duty → α → Prop) : Prop :=
  ∀ n o, P o → Sh inc n o p Q

namespace Du

variable {α β γ : Type} {P P' : Option Duty → Prop}

theorem ret {x : α} {Q : Option Duty → α → Prop} (h : ∀ o, P o → Q o x) : Du (K := K) (V := V) inc P (pure x) Q := by
  intro n o hp
  cases n with
  | zero => trivial
  | succ n => exact h o hp

theorem panic {r : PanicReason} {Q : Option Duty → α → Prop} (h : (∀ o, P o → o = none) ∨ r.hard = true) :
    Du (K := K) (V := V) inc P (.panic r) Q := by
  intro n o hp
  cases n with
  | zero => trivial
  | succ n => exact h.imp (fun h => h o hp) id

theorem bind {p : Prog K V α} {f : α → Prog K V β} (R : Option Duty → α → Prop) {Q : Option Duty → β → Prop}
    (h : Du inc P p R) (hf : ∀ x, Du inc (fun o => R o x) (f x) Q) : Du inc P (p >>= f) Q := by
  intro n o hp
  exact (h n o hp).bind fun x o m _ hx => hf x m o hx

theorem loop {σ : Type} {body : σ → Prog K V (σ ⊕ β)} (I : Option Duty → σ → Prop) {s : σ} {Q : Option Duty → β → Prop}
    (h : ∀ s, Du inc (fun o => I o s) (body s) (fun o x => Sum.elim (I o) (Q o) x)) :
    Du inc (fun o => I o s) (Prog.loop s body) Q := by
  intro n o hp
  induction n generalizing s o with
  | zero => trivial
  | succ n ih =>
    show Sh inc n o (Prog.unfoldIter body s .ret) Q
    unfold Prog.unfoldIter
    refine (h s n o hp).bind ?_
    intro x o' m hm hx
    cases x with
    | inl s' => exact (ih o' hx).mono hm
    | inr b =>
      cases m with
      | zero => trivial
      | succ m => exact hx

theorem ite {c : Prop} [Decidable c] {p q : Prog K V α} {Q : Option Duty → α → Prop} (h1 : c → Du inc P p Q)
    (h2 : ¬ c → Du inc P q Q) : Du inc P (if c then p else q) Q := by
  split
  · exact h1 ‹_›
  · exact h2 ‹_›

theorem conseq {p : Prog K V α} {R Q : Option Duty → α → Prop} (h : Du inc P p R) (hP : ∀ o, P' o → P o)
    (hQ : ∀ o x, R o x → Q o x) : Du inc P' p Q := fun n o hp => (h n o (hP o hp)).post hQ

theorem act {a : Act K V β} {Q : Option Duty → β → Prop}
    (h : ∀ o r, P o → Obs o a r → (∀ d ∈ a.duties inc r, Q (some d) r) ∧ ((∀ d, o = some d → ¬ d.doneBy a) → Q o r)) :
    Du inc P (.prim a) Q := by
  intro n o hp
  cases n with
  | zero => trivial
  | succ n =>
    intro r hr
    obtain ⟨h1, h2⟩ := h o r hp hr
    cases n with
    | zero => exact ⟨fun _ _ => trivial, fun _ => trivial⟩
    | succ n => exact ⟨h1, h2⟩

theorem absurd' {p : Prog K V α} {Q : Option Duty → α → Prop} (h : ∀ o, ¬ P o) : Du inc P p Q :=
  fun _ o hp => absurd hp (h o)

/-- Programs without duties, started with none. -/
abbrev Plain (inc : Bool) (p : Prog K V α) : Prop := Du inc (fun o => o = none) p fun o _ => o = none

/-- Actions that create no duty. -/
def _root_.Papaya.Act.plain (inc : Bool) : {β : Type} → Act K V β → Bool
  | _, .storeNext _ _ => inc
  | _, .fetchOrCopying _ _ => !inc
  | _, .casRoot _ _ => false
  | _, .tryLock _ => false
  | _, .lockWait _ => false
  | _, _ => true

theorem duties_plain {a : Act K V β} (h : a.plain inc = true) (r : β) : a.duties inc r = [] := by
  cases a <;> first | rfl | (exact absurd h Bool.false_ne_true) | (cases inc <;> first | rfl | (exact absurd h Bool.false_ne_true))

theorem plainPrim {a : Act K V β} (h : a.plain inc = true) : Plain inc (.prim a) :=
  act fun o r ho _ => ⟨fun d hd => (by rw [duties_plain h] at hd; cases hd), fun _ => ho⟩

theorem plainBind {p : Prog K V α} {f : α → Prog K V β} (h : Plain inc p) (hf : ∀ x, Plain inc (f x)) :
    Plain inc (p >>= f) := bind (fun o _ => o = none) h fun x => hf x

theorem plainLoop {σ : Type} {body : σ → Prog K V (σ ⊕ β)} {s : σ} (h : ∀ s, Plain inc (body s)) :
    Plain inc (Prog.loop s body) :=
  loop (fun o _ => o = none) fun s => (h s).conseq (fun _ h => h) fun o x h => by cases x <;> exact h

theorem plainPanic {r : PanicReason} : Plain (K := K) (V := V) (α := α) inc (.panic r) := panic (.inl fun _ h => h)
theorem plainRet {x : α} : Plain (K := K) (V := V) inc (pure x) := ret fun _ h => h
theorem plainRet' {x : α} : Plain (K := K) (V := V) inc (.ret x) := ret fun _ h => h

/-- Programs that neither create nor need duties: any duty is kept. -/
abbrev Idle (inc : Bool) (p : Prog K V α) : Prop := ∀ o, Du inc (fun o' => o' = o) p fun o' _ => o' = o

theorem idlePrim {a : Act K V β} (h : a.plain inc = true) : Idle inc (.prim a) :=
  fun o => act fun o' r ho _ => ⟨fun d hd => (by rw [duties_plain h] at hd; cases hd), fun _ => ho⟩

theorem idleBind {p : Prog K V α} {f : α → Prog K V β} (h : Idle inc p) (hf : ∀ x, Idle inc (f x)) :
    Idle inc (p >>= f) := fun o => bind (fun o' _ => o' = o) (h o) fun x => hf x o

theorem idleLoop {σ : Type} {body : σ → Prog K V (σ ⊕ β)} {s : σ} (h : ∀ s, Idle inc (body s)) :
    Idle inc (Prog.loop s body) :=
  fun o => loop (fun o' _ => o' = o) fun s => (h s o).conseq (fun _ h => h) fun o x h => by cases x <;> exact h

theorem idleRet {x : α} : Idle (K := K) (V := V) inc (pure x) := fun o => ret fun _ h => h
theorem idleRet' {x : α} : Idle (K := K) (V := V) inc (.ret x) := fun o => ret fun _ h => h
theorem idlePanic {r : PanicReason} (h : r.hard = true) : Idle (K := K) (V := V) (α := α) inc (.panic r) :=
  fun o => panic (.inr h)

theorem Idle.plain {p : Prog K V α} (h : Idle inc p) : Plain inc p := h none

theorem Idle.keep {p : Prog K V α} (h : Idle inc p) : Du inc P p fun o _ => P o :=
  fun n o hp => (h o n o rfl).post fun _ _ h => h ▸ hp

end Du

end Papaya
