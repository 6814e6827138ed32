import Verif.Model.Pool
import Verif.Proof.Logic

/-! # What a program does if its actions have certain results

A logic about programs alone: `Ob D n p Q` — if every action has a result allowed by `D.res`, then for `n` steps `p` performs only
actions allowed by `D.ok`, returns only values in `Q`, and panics only for reasons
allowed by `D.pan`. -/

set_option linter.unusedSectionVars false
set_option linter.unusedVariables false

namespace Papaya

variable {K V : Type}

/-- Allowed actions and their possible results. -/
structure ObsSys (K V : Type) where
  ok : {β : Type} → Act K V β → Prop
  res : {β : Type} → Act K V β → β → Prop
  /-- the panics that may occur -/
  pan : PanicReason → Prop := fun r => r = .unreachableCode ∨ r = .unwrapNone

def Ob (D : ObsSys K V) {α : Type} : Nat → Prog K V α → (α → Prop) → Prop
  | 0, _, _ => True
  | _ + 1, .ret x, Q => Q x
  | _ + 1, .panic r, _ => D.pan r
  | n + 1, .act a k, Q => D.ok a ∧ ∀ r, D.res a r → Ob D n (k r) Q
  | n + 1, .iter body s k, Q => Ob D n (Prog.unfoldIter body s k) Q

variable {D : ObsSys K V}

theorem Ob.mono {α : Type} {n m : Nat} {p : Prog K V α} {Q : α → Prop} (h : Ob D n p Q) (hm : m ≤ n) : Ob D m p Q := by
  induction m generalizing n p with
  | zero => cases p <;> trivial
  | succ m ih =>
    obtain ⟨n, rfl⟩ : ∃ n', n = n' + 1 := ⟨n - 1, by omega⟩
    cases p with
    | ret x => exact h
    | panic r => exact h
    | act a k => exact ⟨h.1, fun r hr => ih (h.2 r hr) (by omega)⟩
    | iter body s k => exact ih (n := n) h (by omega)

theorem Ob.bind {α γ : Type} {n : Nat} {p : Prog K V α} {f : α → Prog K V γ} {R : α → Prop} {Q : γ → Prop}
    (h : Ob D n p R) (hf : ∀ x m, m ≤ n → R x → Ob D m (f x) Q) : Ob D n (p.bind f) Q := by
  induction n generalizing p with
  | zero => cases p.bind f <;> trivial
  | succ n ih =>
    cases p with
    | ret x => exact hf x _ (Nat.le_refl _) h
    | panic r => exact h
    | act a k => exact ⟨h.1, fun r hr => ih (h.2 r hr) fun x m hm => hf x m (by omega)⟩
    | iter body s k =>
      have h' : Ob D n (Prog.unfoldIter body s k) R := h
      have := ih h' fun x m hm => hf x m (by omega)
      show Ob D n (Prog.unfoldIter body s fun x => (k x).bind f) Q
      unfold Prog.unfoldIter at this ⊢
      rw [Prog.bind_assoc] at this
      convert this using 2
      funext x
      cases x <;> rfl

theorem Ob.post {α : Type} {n : Nat} {p : Prog K V α} {R Q : α → Prop} (h : Ob D n p R) (hQ : ∀ x, R x → Q x) :
    Ob D n p Q := by
  induction n generalizing p with
  | zero => cases p <;> trivial
  | succ n ih =>
    cases p with
    | ret x => exact hQ _ h
    | panic r => exact h
    | act a k => exact ⟨h.1, fun r hr => ih (h.2 r hr)⟩
    | iter body s k => exact ih h

/-- For any number of steps. -/
def Obs' (D : ObsSys K V) {α : Type} (p : Prog K V α) (Q : α → Prop) : Prop := ∀ n, Ob D n p Q

namespace Obs'

variable {α β γ : Type}

theorem ret {x : α} {Q : α → Prop} (h : Q x) : Obs' D (pure x) Q := by
  intro n
  cases n with
  | zero => trivial
  | succ n => exact h

theorem ret' {x : α} {Q : α → Prop} (h : Q x) : Obs' D (.ret x) Q := ret h

theorem panic {r : PanicReason} {Q : α → Prop} (h : D.pan r) : Obs' D (.panic r) Q := by
  intro n
  cases n with
  | zero => trivial
  | succ n => exact h

theorem bind {p : Prog K V α} {f : α → Prog K V β} (R : α → Prop) {Q : β → Prop} (h : Obs' D p R)
    (hf : ∀ x, R x → Obs' D (f x) Q) : Obs' D (p >>= f) Q := fun n => (h n).bind fun x m _ hx => hf x hx m

theorem loop {σ : Type} {body : σ → Prog K V (σ ⊕ β)} (I : σ → Prop) {s : σ} {Q : β → Prop} (hs : I s)
    (h : ∀ s, I s → Obs' D (body s) (fun x => Sum.elim I Q x)) : Obs' D (Prog.loop s body) Q := by
  intro n
  induction n generalizing s with
  | zero => trivial
  | succ n ih =>
    show Ob D n (Prog.unfoldIter body s .ret) Q
    unfold Prog.unfoldIter
    refine (h s hs n).bind ?_
    intro x m hm hx
    cases x with
    | inl s' => exact (ih hx).mono hm
    | inr b =>
      cases m with
      | zero => trivial
      | succ m => exact hx

theorem ite {c : Prop} [Decidable c] {p q : Prog K V α} {Q : α → Prop} (h1 : c → Obs' D p Q) (h2 : ¬ c → Obs' D q Q) :
    Obs' D (if c then p else q) Q := by
  split
  · exact h1 ‹_›
  · exact h2 ‹_›

theorem post {p : Prog K V α} {R Q : α → Prop} (h : Obs' D p R) (hQ : ∀ x, R x → Q x) : Obs' D p Q :=
  fun n => (h n).post hQ

theorem act {a : Act K V β} {Q : β → Prop} (h0 : D.ok a) (h : ∀ r, D.res a r → Q r) : Obs' D (.prim a) Q := by
  intro n
  cases n with
  | zero => trivial
  | succ n =>
    refine ⟨h0, fun r hr => ?_⟩
    cases n with
    | zero => trivial
    | succ n => exact h r hr

/-- An action followed by the rest. -/
theorem step {a : Act K V β} {f : β → Prog K V α} {Q : α → Prop} (h0 : D.ok a)
    (h : ∀ r, D.res a r → Obs' D (f r) Q) : Obs' D (.prim a >>= f) Q :=
  bind (D.res a) (act h0 fun _ h => h) h

end Obs'

end Papaya
