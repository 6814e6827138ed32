import Verif.Model.Prog
import Mathlib.Tactic.Convert

/-! # Rely–guarantee logic for `Prog`

`Safe n t p Q S`: for the next `n` steps, thread `t` running `p` from the (physical and ghost) state `S` keeps the
global invariant, respects what the other threads rely on, makes only changes allowed by `Gd`, performs only permitted actions, panics only for allowed
reasons, and if it returns, `Q` holds. Between two of its steps the other threads may change the state in any way
allowed by its rely. The ghost part of the state after a step is chosen by the proof; the physical one is dictated
by `Exec`. -/

namespace Papaya

variable {K V : Type}

/-- Parameters of the logic. -/
structure RG (K V : Type) where
  G : Type
  phys : G → St K V
  Inv : G → Prop
  Rely : Tid → G → G → Prop
  /-- side condition under which a thread may perform an action (memory safety) -/
  Ok : {β : Type} → Tid → Act K V β → G → Prop
  refl : ∀ t S, Rely t S S
  trans : ∀ t S S' S'', Rely t S S' → Rely t S' S'' → Rely t S S''

variable (C : Cfg K) (L : RG K V)

theorem Prog.bind_assoc {α β γ : Type} (p : Prog K V α) (f : α → Prog K V β) (g : β → Prog K V γ) :
    (p.bind f).bind g = p.bind fun x => (f x).bind g := by
  induction p with
  | ret x => rfl
  | panic r => rfl
  | act a k ih => simp only [Prog.bind, ih]
  | iter b s k _ ih => simp only [Prog.bind, ih]

/-- See the module documentation. -/
def Safe (t : Tid) (A : PanicReason → L.G → Prop) (Gd : L.G → L.G → Prop) {α : Type} :
    Nat → Prog K V α → (α → L.G → Prop) → L.G → Prop
  | 0, _, _, _ => True
  | _ + 1, .ret x, Q, S => Q x S
  | _ + 1, .panic r, _, S => A r S
  | n + 1, .act a k, Q, S => ∀ S', L.Inv S' → L.Rely t S S' → L.Ok t a S' ∧
      ∀ r σ'', Exec C t a (L.phys S') r σ'' → ∃ S'', L.phys S'' = σ'' ∧ L.Inv S'' ∧
        (∀ t', t' ≠ t → L.Rely t' S' S'') ∧ Gd S' S'' ∧ Safe t A Gd n (k r) Q S''
  | n + 1, .iter body s k, Q, S => Safe t A Gd n (Prog.unfoldIter body s k) Q S

/-- Hoare triple. -/
def Hoare (t : Tid) (A : PanicReason → L.G → Prop) (Gd : L.G → L.G → Prop) {α : Type} (P : L.G → Prop) (p : Prog K V α)
    (Q : α → L.G → Prop) : Prop :=
  ∀ n S, L.Inv S → P S → Safe C L t A Gd n p Q S

/-- Assertions that other threads cannot invalidate. -/
class Stable (t : Tid) (P : L.G → Prop) : Prop where
  stable : ∀ S S', L.Inv S → L.Inv S' → L.Rely t S S' → P S → P S'

variable {C L}

theorem Safe.mono {t : Tid} {A : PanicReason → L.G → Prop} {Gd : L.G → L.G → Prop} {α : Type} {n m : Nat} {p : Prog K V α}
    {Q : α → L.G → Prop} {S : L.G} (h : Safe C L t A Gd n p Q S) (hm : m ≤ n) : Safe C L t A Gd m p Q S := by
  induction m generalizing n p S with
  | zero => cases p <;> trivial
  | succ m ih =>
    obtain ⟨n, rfl⟩ : ∃ n', n = n' + 1 := ⟨n - 1, by omega⟩
    cases p with
    | ret x => exact h
    | panic r => exact h
    | act a k =>
      intro S' hi hr
      obtain ⟨hok, h⟩ := h S' hi hr
      refine ⟨hok, fun r σ'' he => ?_⟩
      obtain ⟨S'', h1, h2, h3, h3', h4⟩ := h r σ'' he
      exact ⟨S'', h1, h2, h3, h3', ih h4 (by omega)⟩
    | iter body s k => exact ih (n := n) h (by omega)

theorem Safe.conseq {t : Tid} {A : PanicReason → L.G → Prop} {Gd : L.G → L.G → Prop} {α : Type} {n : Nat} {p : Prog K V α}
    {Q Q' : α → L.G → Prop} {S : L.G} (h : Safe C L t A Gd n p Q S) (hS : L.Inv S)
    (hQ : ∀ x S, L.Inv S → Q x S → Q' x S) : Safe C L t A Gd n p Q' S := by
  induction n generalizing p S with
  | zero => cases p <;> trivial
  | succ n ih =>
    cases p with
    | ret x => exact hQ _ _ hS h
    | panic r => exact h
    | act a k =>
      intro S' hi hr
      obtain ⟨hok, h⟩ := h S' hi hr
      refine ⟨hok, fun r σ'' he => ?_⟩
      obtain ⟨S'', h1, h2, h3, h3', h4⟩ := h r σ'' he
      exact ⟨S'', h1, h2, h3, h3', ih h4 h2⟩
    | iter body s k => exact ih h hS

/-- If other threads move, a thread stays safe. -/
theorem Safe.rely {t : Tid} {A : PanicReason → L.G → Prop} {Gd : L.G → L.G → Prop} {α : Type} {n : Nat} {p : Prog K V α}
    {Q : α → L.G → Prop} {S S' : L.G} (h : Safe C L t A Gd n p Q S) (hS : L.Inv S) (hS' : L.Inv S')
    (hr : L.Rely t S S') (hA : ∀ r, Stable L t (A r)) (hQ : ∀ x, Stable L t (Q x)) :
    Safe C L t A Gd n p Q S' := by
  induction n generalizing p with
  | zero => cases p <;> trivial
  | succ n ih =>
    cases p with
    | ret x => exact (hQ x).stable S S' hS hS' hr h
    | panic r => exact (hA r).stable S S' hS hS' hr h
    | act a k =>
      intro S'' hi hr'
      exact h S'' hi (L.trans _ _ _ _ hr hr')
    | iter body s k => exact ih h

theorem Safe.bind {t : Tid} {A : PanicReason → L.G → Prop} {Gd : L.G → L.G → Prop} {α γ : Type} {n : Nat} {p : Prog K V α}
    {f : α → Prog K V γ} {R : α → L.G → Prop} {Q : γ → L.G → Prop} {S : L.G}
    (h : Safe C L t A Gd n p R S) (hS : L.Inv S)
    (hf : ∀ x S m, m ≤ n → L.Inv S → R x S → Safe C L t A Gd m (f x) Q S) : Safe C L t A Gd n (p.bind f) Q S := by
  induction n generalizing p S with
  | zero => cases p.bind f <;> trivial
  | succ n ih =>
    cases p with
    | ret x => exact hf x S _ (Nat.le_refl _) hS h
    | panic r => exact h
    | act a k =>
      intro S' hi hr
      obtain ⟨hok, h⟩ := h S' hi hr
      refine ⟨hok, fun r σ'' he => ?_⟩
      obtain ⟨S'', h1, h2, h3, h3', h4⟩ := h r σ'' he
      exact ⟨S'', h1, h2, h3, h3', ih h4 h2 fun x S m hm => hf x S m (by omega)⟩
    | iter body s k =>
      have h' : Safe C L t A Gd n (Prog.unfoldIter body s k) R S := h
      have := ih h' hS fun x S m hm => hf x S m (by omega)
      show Safe C L t A Gd n (Prog.unfoldIter body s fun x => (k x).bind f) Q S
      unfold Prog.unfoldIter at this ⊢
      rw [Prog.bind_assoc] at this
      convert this using 2
      funext x
      cases x <;> rfl

variable {t : Tid} {A : PanicReason → L.G → Prop} {Gd : L.G → L.G → Prop}

theorem Hoare.ret {α : Type} {P : L.G → Prop} {x : α} {Q : α → L.G → Prop}
    (h : ∀ S, L.Inv S → P S → Q x S) : Hoare C L t A Gd P (.ret x) Q := by
  intro n S hi hp
  cases n with
  | zero => trivial
  | succ n => exact h S hi hp

theorem Hoare.panic {α : Type} {P : L.G → Prop} {r : PanicReason} {Q : α → L.G → Prop}
    (h : ∀ S, L.Inv S → P S → A r S) : Hoare C L t A Gd P (.panic r) Q := by
  intro n S hi hp
  cases n with
  | zero => trivial
  | succ n => exact h S hi hp

theorem Hoare.bind {α γ : Type} {P : L.G → Prop} {p : Prog K V α} {f : α → Prog K V γ}
    (R : α → L.G → Prop) {Q : γ → L.G → Prop} (h : Hoare C L t A Gd P p R)
    (hf : ∀ x, Hoare C L t A Gd (R x) (f x) Q) : Hoare C L t A Gd P (p.bind f) Q := by
  intro n S hi hp
  exact (h n S hi hp).bind hi fun x S m _ hS hR => hf x m S hS hR

theorem Hoare.conseq {α : Type} {P P' : L.G → Prop} {p : Prog K V α} {Q Q' : α → L.G → Prop}
    (h : Hoare C L t A Gd P p Q) (hP : ∀ S, L.Inv S → P' S → P S) (hQ : ∀ x S, L.Inv S → Q x S → Q' x S) :
    Hoare C L t A Gd P' p Q' := by
  intro n S hi hp
  exact (h n S hi (hP S hi hp)).conseq hi hQ

theorem Hoare.pre {α : Type} {P P' : L.G → Prop} {p : Prog K V α} {Q : α → L.G → Prop}
    (h : Hoare C L t A Gd P p Q) (hP : ∀ S, L.Inv S → P' S → P S) : Hoare C L t A Gd P' p Q :=
  h.conseq hP fun _ _ _ h => h

theorem Hoare.post {α : Type} {P : L.G → Prop} {p : Prog K V α} {Q Q' : α → L.G → Prop}
    (h : Hoare C L t A Gd P p Q) (hQ : ∀ x S, L.Inv S → Q x S → Q' x S) : Hoare C L t A Gd P p Q' :=
  h.conseq (fun _ _ h => h) hQ

theorem Hoare.exists {α ι : Type} {P : ι → L.G → Prop} {p : Prog K V α} {Q : α → L.G → Prop}
    (h : ∀ i, Hoare C L t A Gd (P i) p Q) : Hoare C L t A Gd (fun S => ∃ i, P i S) p Q := by
  intro n S hi ⟨i, hp⟩
  exact h i n S hi hp

theorem Hoare.pure {α : Type} {φ : Prop} {P : L.G → Prop} {p : Prog K V α} {Q : α → L.G → Prop}
    (h : φ → Hoare C L t A Gd P p Q) : Hoare C L t A Gd (fun S => φ ∧ P S) p Q := by
  intro n S hi ⟨hφ, hp⟩
  exact h hφ n S hi hp

/-- Extract a pure consequence of the precondition. -/
theorem Hoare.extract {α : Type} {φ : Prop} {P : L.G → Prop} {p : Prog K V α} {Q : α → L.G → Prop}
    (hφ : ∀ S, L.Inv S → P S → φ) (h : φ → Hoare C L t A Gd P p Q) : Hoare C L t A Gd P p Q := by
  intro n S hi hp
  exact h (hφ S hi hp) n S hi hp

theorem Hoare.or {α : Type} {P P' : L.G → Prop} {p : Prog K V α} {Q : α → L.G → Prop}
    (h : Hoare C L t A Gd P p Q) (h' : Hoare C L t A Gd P' p Q) : Hoare C L t A Gd (fun S => P S ∨ P' S) p Q := by
  intro n S hi hp
  rcases hp with hp | hp
  · exact h n S hi hp
  · exact h' n S hi hp

theorem Hoare.false {α : Type} {P : L.G → Prop} {p : Prog K V α} {Q : α → L.G → Prop}
    (h : ∀ S, L.Inv S → ¬ P S) : Hoare C L t A Gd P p Q := by
  intro n S hi hp
  exact absurd hp (h S hi)

/-- One action. -/
theorem Hoare.prim {β : Type} {a : Act K V β} {P : L.G → Prop} {Q : β → L.G → Prop} [hst : Stable L t P]
    (hok : ∀ S, L.Inv S → P S → L.Ok t a S)
    (h : ∀ S r σ'', L.Inv S → P S → Exec C t a (L.phys S) r σ'' → ∃ S'', L.phys S'' = σ'' ∧ L.Inv S'' ∧
        (∀ t', t' ≠ t → L.Rely t' S S'') ∧ Gd S S'' ∧ Q r S'') : Hoare C L t A Gd P (.prim a) Q := by
  intro n S hi hp
  cases n with
  | zero => trivial
  | succ n =>
    intro S' hi' hr
    have hp' := hst.stable S S' hi hi' hr hp
    refine ⟨hok S' hi' hp', fun r σ'' he => ?_⟩
    obtain ⟨S'', h1, h2, h3, h3', h4⟩ := h S' r σ'' hi' hp' he
    refine ⟨S'', h1, h2, h3, h3', ?_⟩
    cases n with
    | zero => trivial
    | succ n => exact h4

/-- An action that does not change the physical state. -/
theorem Hoare.load {β : Type} {a : Act K V β} {P : L.G → Prop} (Q : β → L.G → Prop) [Stable L t P]
    (hok : ∀ S, L.Inv S → P S → L.Ok t a S)
    (hg : ∀ S, Gd S S)
    (hl : ∀ σ r σ'', Exec C t a σ r σ'' → σ'' = σ)
    (h : ∀ S r, L.Inv S → P S → Exec C t a (L.phys S) r (L.phys S) → Q r S) :
    Hoare C L t A Gd P (.prim a) Q := by
  apply Hoare.prim hok
  intro S r σ'' hi hp he
  have := hl _ _ _ he
  subst this
  exact ⟨S, rfl, hi, fun t' _ => L.refl t' S, hg S, h S r hi hp he⟩

/-- Loops: `I` is an invariant of the loop state. -/
theorem Hoare.loop {σ β : Type} {body : σ → Prog K V (σ ⊕ β)} (I : σ → L.G → Prop) {s : σ}
    {Q : β → L.G → Prop}
    (h : ∀ s, Hoare C L t A Gd (I s) (body s) (Sum.elim I Q)) : Hoare C L t A Gd (I s) (Prog.loop s body) Q := by
  intro n S hi hp
  induction n generalizing s S with
  | zero => trivial
  | succ n ih =>
    show Safe C L t A Gd n (Prog.unfoldIter body s .ret) Q S
    unfold Prog.unfoldIter
    refine (h s n S hi hp).bind hi ?_
    intro x S' m hm hi' hx
    cases x with
    | inl s' => exact (ih (s := s') S' hi' hx).mono hm
    | inr b =>
      cases m with
      | zero => trivial
      | succ m => exact hx

theorem Safe.guar {t : Tid} {A : PanicReason → L.G → Prop} {Gd Gd' : L.G → L.G → Prop} {α : Type} {n : Nat}
    {p : Prog K V α} {Q : α → L.G → Prop} {S : L.G} (h : Safe C L t A Gd n p Q S)
    (hg : ∀ S S', Gd S S' → Gd' S S') : Safe C L t A Gd' n p Q S := by
  induction n generalizing p S with
  | zero => cases p <;> trivial
  | succ n ih =>
    cases p with
    | ret x => exact h
    | panic r => exact h
    | act a k =>
      intro S' hi hr
      obtain ⟨hok, h⟩ := h S' hi hr
      refine ⟨hok, fun r σ'' he => ?_⟩
      obtain ⟨S'', h1, h2, h3, h3', h4⟩ := h r σ'' he
      exact ⟨S'', h1, h2, h3, hg _ _ h3', ih h4⟩
    | iter body s k => exact ih h

theorem Hoare.guar {Gd' : L.G → L.G → Prop} {α : Type} {P : L.G → Prop} {p : Prog K V α} {Q : α → L.G → Prop}
    (h : Hoare C L t A Gd P p Q) (hg : ∀ S S', Gd S S' → Gd' S S') : Hoare C L t A Gd' P p Q :=
  fun n S hi hp => (h n S hi hp).guar hg

theorem Safe.panics {t : Tid} {A A' : PanicReason → L.G → Prop} {Gd : L.G → L.G → Prop} {α : Type} {n : Nat}
    {p : Prog K V α} {Q : α → L.G → Prop} {S : L.G} (h : Safe C L t A Gd n p Q S)
    (hS : L.Inv S) (hg : ∀ r S, L.Inv S → A r S → A' r S) : Safe C L t A' Gd n p Q S := by
  induction n generalizing p S with
  | zero => cases p <;> trivial
  | succ n ih =>
    cases p with
    | ret x => exact h
    | panic r => exact hg _ _ hS h
    | act a k =>
      intro S' hi hr
      obtain ⟨hok, h⟩ := h S' hi hr
      refine ⟨hok, fun r σ'' he => ?_⟩
      obtain ⟨S'', h1, h2, h3, h3', h4⟩ := h r σ'' he
      exact ⟨S'', h1, h2, h3, h3', ih h4 h2⟩
    | iter body s k => exact ih h hS

theorem Hoare.panics {A' : PanicReason → L.G → Prop} {α : Type} {P : L.G → Prop} {p : Prog K V α} {Q : α → L.G → Prop}
    (h : Hoare C L t A Gd P p Q) (hg : ∀ r S, L.Inv S → A r S → A' r S) : Hoare C L t A' Gd P p Q :=
  fun n S hi hp => (h n S hi hp).panics hi hg

/-- Framing a stable assertion; it also holds if the program panics. -/
theorem Hoare.frameP {α : Type} {P : L.G → Prop} {p : Prog K V α} {Q : α → L.G → Prop} {F : L.G → Prop}
    (h : Hoare C L t A Gd P p Q)
    (hF : ∀ S S', L.Inv S → L.Inv S' → Gd S S' → F S → F S') [hst : Stable L t F] :
    Hoare C L t (fun r S => A r S ∧ F S) Gd (fun S => P S ∧ F S) p (fun x S => Q x S ∧ F S) := by
  intro n S hi ⟨hp, hf⟩
  have hs := h n S hi hp
  clear hp h
  induction n generalizing p S with
  | zero => cases p <;> trivial
  | succ n ih =>
    cases p with
    | ret x => exact ⟨hs, hf⟩
    | panic r => exact ⟨hs, hf⟩
    | act a k =>
      intro S' hi' hr
      obtain ⟨hok, hs⟩ := hs S' hi' hr
      refine ⟨hok, fun r σ'' he => ?_⟩
      obtain ⟨S'', h1, h2, h3, h3', h4⟩ := hs r σ'' he
      exact ⟨S'', h1, h2, h3, h3', ih S'' h2 (hF S' S'' hi' h2 h3' (hst.stable S S' hi hi' hr hf)) h4⟩
    | iter body s k => exact ih S hi hf hs

/-- Framing a stable assertion. -/
theorem Hoare.frame {α : Type} {P : L.G → Prop} {p : Prog K V α} {Q : α → L.G → Prop} {F : L.G → Prop}
    (h : Hoare C L t A Gd P p Q)
    (hF : ∀ S S', L.Inv S → L.Inv S' → Gd S S' → F S → F S') [hst : Stable L t F] :
    Hoare C L t A Gd (fun S => P S ∧ F S) p (fun x S => Q x S ∧ F S) :=
  (h.frameP hF).panics fun _ _ _ h => h.1

/-! Stability of compound assertions. -/

instance Stable.and {P Q : L.G → Prop} [hp : Stable L t P] [hq : Stable L t Q] :
    Stable L t fun S => P S ∧ Q S :=
  ⟨fun S S' h1 h2 h3 h => ⟨hp.stable S S' h1 h2 h3 h.1, hq.stable S S' h1 h2 h3 h.2⟩⟩

instance Stable.or {P Q : L.G → Prop} [hp : Stable L t P] [hq : Stable L t Q] :
    Stable L t fun S => P S ∨ Q S :=
  ⟨fun S S' h1 h2 h3 h => h.imp (hp.stable S S' h1 h2 h3) (hq.stable S S' h1 h2 h3)⟩

instance Stable.exists {ι : Sort _} {P : ι → L.G → Prop} [hp : ∀ i, Stable L t (P i)] :
    Stable L t fun S => ∃ i, P i S :=
  ⟨fun S S' h1 h2 h3 ⟨i, h⟩ => ⟨i, (hp i).stable S S' h1 h2 h3 h⟩⟩

instance Stable.forall {ι : Sort _} {P : ι → L.G → Prop} [hp : ∀ i, Stable L t (P i)] :
    Stable L t fun S => ∀ i, P i S :=
  ⟨fun S S' h1 h2 h3 h i => (hp i).stable S S' h1 h2 h3 (h i)⟩

instance Stable.const {φ : Prop} : Stable L t fun _ => φ := ⟨fun _ _ _ _ _ h => h⟩

instance Stable.imp {φ : Prop} {P : L.G → Prop} [hp : Stable L t P] : Stable L t fun S => φ → P S :=
  ⟨fun S S' h1 h2 h3 h hφ => hp.stable S S' h1 h2 h3 (h hφ)⟩

end Papaya
