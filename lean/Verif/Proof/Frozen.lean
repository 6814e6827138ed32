import Verif.Proof.TermBase

/-! # A logic for programs that run while the memory stays as it is

`FE σ p Q`: as long as the relevant part of the memory is that of `σ` (`Frozen`), the program `p` executes finitely many steps; if it
returns, then a value in `Q`. Nothing is claimed about what happens once the memory has been changed, by whomever.

`Gd w p Q`: whatever the other operations do, at every point of its execution `p` is such a program; it publishes at most `w` new
entries; if it returns a value, then one in `Q`. -/

set_option linter.unusedSectionVars false
set_option linter.unusedVariables false

namespace Papaya

variable {K V : Type} [DecidableEq K]

/-- Bounds: `N` for the number of tables, `B` for their lengths. -/
structure Box where
  N : Nat
  B : Nat

/-- A handle of one of these tables. -/
def Table.In (D : Box) (T : Table) : Prop := T.id < D.N ∧ T.len ≤ D.B

/-- What is always known of the result of an action. -/
def Sees (D : Box) : {β : Type} → Act K V β → β → Prop
  | _, .loadRoot, r => ∀ T, r = some T → T.In D
  | _, .casRootInit _, T => T.In D
  | _, .loadNext U, r => ∀ T, r = some T → T.In D ∧ U < T.id
  | _, .storeNext U _, T => T.In D ∧ U < T.id
  | _, _, _ => True

/-- What is known of the result of an action that finds the memory as in `σ` and leaves it so. -/
def SeesF (D : Box) (σ : St K V) : {β : Type} → Act K V β → β → Prop
  | _, .loadRoot, r => r = σ.root.map σ.handle
  | _, .peekRoot, r => r = σ.root
  | _, .loadNext U, r => r = (σ.next U).map σ.handle
  | _, .storeNext _ _, _ => False
  | _, .loadSlot T i, r => r = σ.slot T i
  | _, .cas _ T i e n, r => (r = some (σ.slot T i) ∧ σ.slot T i ≠ e) ∨ (r = none ∧ e = n)
  | _, .casNew _ T i e _ _, r => r = .inr (σ.slot T i) ∧ σ.slot T i ≠ e
  | _, .loadStatus T, r => r = σ.status T
  | _, .parkStatus T, _ => σ.status T ≠ .pending
  | _, .loadClaim T, r => min r D.B = min (σ.claim T) D.B
  | _, .addClaim T n _, r => min r D.B = min (σ.claim T) D.B ∧ (0 < n → D.B ≤ r)
  | _, .casRoot T N, r => (r = true ∧ T = N) ∨ (r = false ∧ σ.root ≠ some T)
  | _, .sameTable T T', r => r = decide (T = T')
  | _, _, _ => True

/-- Finitely many steps, as long as the memory is that of `σ`. -/
inductive FE (D : Box) (σ : St K V) : {α : Type} → Prog K V α → (α → Prop) → Prop
  | ret {α : Type} {x : α} {Q : α → Prop} (h : Q x) : FE D σ (.ret x) Q
  | panic {α : Type} {r} {Q : α → Prop} : FE D σ (.panic r) Q
  | act {α β : Type} {a : Act K V β} {k : β → Prog K V α} {Q : α → Prop}
      (h : ∀ r, Sees D a r → SeesF D σ a r → FE D σ (k r) Q) : FE D σ (.act a k) Q
  | iter {α β s : Type} {body : s → Prog K V (s ⊕ β)} {x : s} {k : β → Prog K V α} {Q : α → Prop}
      (h : FE D σ (Prog.unfoldIter body x k) Q) : FE D σ (.iter body x k) Q

namespace FE

variable {D : Box} {σ : St K V} {α β γ : Type}

theorem bind {p : Prog K V α} {f : α → Prog K V γ} {R : α → Prop} {Q : γ → Prop} (h : FE D σ p R)
    (hf : ∀ x, R x → FE D σ (f x) Q) : FE D σ (p.bind f) Q := by
  induction h with
  | ret h => exact hf _ h
  | panic => exact .panic
  | act h ih => exact .act fun r h1 h2 => ih r h1 h2 hf
  | iter h ih =>
    rename_i body x k R
    refine .iter ?_
    have := ih hf
    show FE D σ (Prog.unfoldIter body x fun x => (k x).bind f) Q
    unfold Prog.unfoldIter at this ⊢
    rw [Prog.bind_assoc] at this
    convert this using 2
    funext y
    cases y <;> rfl

theorem post {p : Prog K V α} {R Q : α → Prop} (h : FE D σ p R) (hQ : ∀ x, R x → Q x) : FE D σ p Q := by
  induction h with
  | ret h => exact .ret (hQ _ h)
  | panic => exact .panic
  | act h ih => exact .act fun r h1 h2 => ih r h1 h2 hQ
  | iter h ih => exact .iter (ih hQ)

/-- Both. -/
theorem both {p : Prog K V α} {R Q : α → Prop} (h : FE D σ p R) (h' : FE D σ p Q) : FE D σ p fun x => R x ∧ Q x := by
  induction h with
  | ret h => cases h' with | ret h' => exact .ret ⟨h, h'⟩
  | panic => exact .panic
  | act h ih => cases h' with | act h' => exact .act fun r h1 h2 => ih r h1 h2 (h' r h1 h2)
  | iter h ih => cases h' with | iter h' => exact .iter (ih h')

theorem loop {σs : Type} {body : σs → Prog K V (σs ⊕ β)} (I : σs → Prop) (μ : σs → Nat) {Q : β → Prop}
    (h : ∀ s, I s → FE D σ (body s) fun x => Sum.elim (fun s' => I s' ∧ μ s' < μ s) Q x) {s : σs} (hs : I s) :
    FE D σ (Prog.loop s body) Q := by
  generalize hm : μ s = m
  induction m using Nat.strong_induction_on generalizing s with
  | _ m ih =>
    subst hm
    refine .iter ((h s hs).bind fun x hx => ?_)
    cases x with
    | inl s' => exact ih _ hx.2 hx.1 rfl
    | inr b => exact .ret hx

/-- An action followed by the rest. -/
theorem step {a : Act K V β} {f : β → Prog K V α} {Q : α → Prop} (h : ∀ r, Sees D a r → SeesF D σ a r → FE D σ (f r) Q) :
    FE D σ (Prog.prim a >>= f) Q := .act h

theorem prim {a : Act K V β} {Q : β → Prop} (h : ∀ r, Sees D a r → SeesF D σ a r → Q r) : FE D σ (Prog.prim a) Q :=
  .act fun r h1 h2 => .ret (h r h1 h2)

theorem ite {c : Prop} [Decidable c] {p q : Prog K V α} {Q : α → Prop} (h1 : c → FE D σ p Q) (h2 : ¬ c → FE D σ q Q) :
    FE D σ (if c then p else q) Q := by
  split
  · exact h1 ‹_›
  · exact h2 ‹_›

end FE

/-- What is known of all memories. -/
structure FOk (C : Cfg K) (D : Box) (σ : St K V) : Prop where
  len : ∀ T, T < σ.nTabs → σ.cap T ≤ D.B
  copying : ∀ T i, (σ.slot T i).copying = true → σ.next T ≠ none
  incab : C.inc = true → ∀ T, σ.status T ≠ .aborted
  prom : ∀ r n, σ.root = some r → σ.next r = some n → σ.status n ≠ .promoted

/-- The arguments of compare-exchanges and stores: slots are filled, emptied for good, or marked as copied. -/
def Act.Shaped : {β : Type} → Act K V β → Prop
  | _, .cas _ _ _ e n => (e = Slot.null ∧ n.ptr ≠ none) ∨ (e.ptr ≠ none ∧ e.copying = false ∧ n = Slot.tombstone)
  | _, .storeSlot _ _ s => s.ptr ≠ none ∧ s.copying = true ∧ s.copied = true
  | _, _ => True

/-- The action may publish a new entry. -/
def Act.publishes : {β : Type} → Act K V β → Prop
  | _, .casNew _ _ _ _ _ _ => True
  | _, _ => False

/-- Entries that may still be published after the action returned `r`. -/
def Act.left (w : Nat) : {β : Type} → Act K V β → β → Nat
  | _, .casNew _ _ _ _ _ _, .inl _ => w - 1
  | _, _, _ => w

/-- At most `n` steps are looked at. -/
def GdN (C : Cfg K) (D : Box) : {α : Type} → Nat → Nat → Prog K V α → (α → Nat → Prop) → Prop
  | _, 0, _, p, Q => ∀ σ, FOk C D σ → FE D σ p fun x => ∃ w', Q x w'
  | _, _ + 1, w, .ret x, Q => Q x w
  | _, _ + 1, _, .panic _, _ => True
  | _, n + 1, w, .act a k, Q => (∀ σ, FOk C D σ → FE D σ (.act a k) fun x => ∃ w', Q x w') ∧ a.Shaped ∧ (a.publishes → 1 ≤ w) ∧
      ∀ r, Sees D a r → GdN C D n (a.left w r) (k r) Q
  | _, n + 1, w, .iter body s k, Q => (∀ σ, FOk C D σ → FE D σ (.iter body s k) fun x => ∃ w', Q x w') ∧
      GdN C D n w (Prog.unfoldIter body s k) Q

/-- For any number of steps. -/
def Gd (C : Cfg K) (D : Box) {α : Type} (w : Nat) (p : Prog K V α) (Q : α → Nat → Prop) : Prop := ∀ n, GdN C D n w p Q

variable {C : Cfg K} {D : Box} {α β γ : Type} {w : Nat}

theorem GdN.fe {n : Nat} {p : Prog K V α} {Q : α → Nat → Prop} (h : GdN C D n w p Q) {σ : St K V} (hσ : FOk C D σ) :
    FE D σ p fun x => ∃ w', Q x w' := by
  cases n with
  | zero => exact h σ hσ
  | succ n =>
    cases p with
    | ret x => exact .ret ⟨w, h⟩
    | panic r => exact .panic
    | act a k => exact h.1 σ hσ
    | iter body s k => exact h.1 σ hσ

theorem GdN.mono {n m : Nat} {p : Prog K V α} {Q : α → Nat → Prop} (h : GdN C D n w p Q) (hm : m ≤ n) : GdN C D m w p Q := by
  induction m generalizing n p w with
  | zero => intro σ hσ; exact h.fe hσ
  | succ m ih =>
    obtain ⟨n, rfl⟩ : ∃ n', n = n' + 1 := ⟨n - 1, by omega⟩
    cases p with
    | ret x => exact h
    | panic r => exact trivial
    | act a k => exact ⟨h.1, h.2.1, h.2.2.1, fun r hr => ih (h.2.2.2 r hr) (by omega)⟩
    | iter body s k => exact ⟨h.1, ih (n := n) h.2 (by omega)⟩

theorem GdN.bind {n : Nat} {p : Prog K V α} {f : α → Prog K V γ} {R : α → Nat → Prop} {Q : γ → Nat → Prop}
    (h : GdN C D n w p R) (hf : ∀ x w', R x w' → Gd C D w' (f x) Q) : GdN C D n w (p.bind f) Q := by
  have hfe : ∀ σ, FOk C D σ → FE D σ (p.bind f) fun x => ∃ w', Q x w' := fun σ hσ =>
    (h.fe hσ).bind fun x ⟨w', hx⟩ => (hf x w' hx 0).fe hσ
  induction n generalizing p w with
  | zero => exact hfe
  | succ n ih =>
    cases p with
    | ret x => exact hf x w h _
    | panic r => exact trivial
    | act a k =>
      refine ⟨hfe, h.2.1, h.2.2.1, fun r hr => ih (h.2.2.2 r hr) fun σ hσ => ?_⟩
      exact ((h.2.2.2 r hr).fe hσ).bind fun x ⟨w', hx⟩ => (hf x w' hx 0).fe hσ
    | iter body s k =>
      have h' := h.2
      have := ih h' fun σ hσ => (h'.fe hσ).bind fun x ⟨w', hx⟩ => (hf x w' hx 0).fe hσ
      refine ⟨hfe, ?_⟩
      show GdN C D n w (Prog.unfoldIter body s fun x => (k x).bind f) Q
      unfold Prog.unfoldIter at this ⊢
      rw [Prog.bind_assoc] at this
      convert this using 2
      funext y
      cases y <;> rfl

theorem GdN.post {n : Nat} {p : Prog K V α} {R Q : α → Nat → Prop} (h : GdN C D n w p R) (hQ : ∀ x w', R x w' → Q x w') :
    GdN C D n w p Q := by
  have hfe : ∀ σ, FOk C D σ → FE D σ p fun x => ∃ w', Q x w' := fun σ hσ =>
    (h.fe hσ).post fun x ⟨w', hx⟩ => ⟨w', hQ x w' hx⟩
  induction n generalizing p w with
  | zero => exact hfe
  | succ n ih =>
    cases p with
    | ret x => exact hQ _ _ h
    | panic r => exact trivial
    | act a k =>
      exact ⟨hfe, h.2.1, h.2.2.1, fun r hr => ih (h.2.2.2 r hr) fun σ hσ =>
        ((h.2.2.2 r hr).fe hσ).post fun x ⟨w', hx⟩ => ⟨w', hQ x w' hx⟩⟩
    | iter body s k =>
      exact ⟨hfe, ih h.2 fun σ hσ => (h.2.fe hσ).post fun x ⟨w', hx⟩ => ⟨w', hQ x w' hx⟩⟩

/-- A program that publishes nothing keeps the right to publish. -/
theorem GdN.frame {n : Nat} {p : Prog K V α} {Q : α → Prop} (h : GdN C D n 0 p fun x _ => Q x) (w : Nat) :
    GdN C D n w p fun x w' => w' = w ∧ Q x := by
  induction n generalizing p with
  | zero => exact fun σ hσ => (h σ hσ).post fun x ⟨_, hx⟩ => ⟨w, rfl, hx⟩
  | succ n ih =>
    cases p with
    | ret x => exact ⟨rfl, h⟩
    | panic r => exact trivial
    | act a k =>
      refine ⟨fun σ hσ => (h.1 σ hσ).post fun x ⟨_, hx⟩ => ⟨w, rfl, hx⟩, h.2.1, fun hp => absurd (h.2.2.1 hp) (by omega), fun r hr => ?_⟩
      have h1 := h.2.2.2 r hr
      have h2 := h.2.2.1
      cases a
      case casNew => exact absurd (h2 trivial) (by omega)
      all_goals exact ih h1
    | iter body s k => exact ⟨fun σ hσ => (h.1 σ hσ).post fun x ⟨_, hx⟩ => ⟨w, rfl, hx⟩, ih h.2⟩

namespace Gd

theorem fe {p : Prog K V α} {Q : α → Nat → Prop} (h : Gd C D w p Q) {σ : St K V} (hσ : FOk C D σ) : FE D σ p fun x => ∃ w', Q x w' :=
  (h 0).fe hσ

theorem ret {x : α} {Q : α → Nat → Prop} (h : Q x w) : Gd C D (K := K) (V := V) w (pure x) Q := by
  intro n
  cases n with
  | zero => exact fun σ _ => .ret ⟨w, h⟩
  | succ n => exact h

theorem panic {r : PanicReason} {Q : α → Nat → Prop} : Gd C D (K := K) (V := V) w (.panic r) Q := by
  intro n
  cases n with
  | zero => exact fun σ _ => .panic
  | succ n => exact trivial

theorem bind {p : Prog K V α} {f : α → Prog K V β} (R : α → Nat → Prop) {Q : β → Nat → Prop} (h : Gd C D w p R)
    (hf : ∀ x w', R x w' → Gd C D w' (f x) Q) : Gd C D w (p >>= f) Q := fun n => (h n).bind hf

theorem post {p : Prog K V α} {R Q : α → Nat → Prop} (h : Gd C D w p R) (hQ : ∀ x w', R x w' → Q x w') : Gd C D w p Q :=
  fun n => (h n).post hQ

/-- Composition with a program that publishes nothing. -/
theorem bind0 {p : Prog K V α} {f : α → Prog K V β} (R : α → Prop) {Q : β → Nat → Prop} (h : Gd C D 0 p fun x _ => R x)
    (hf : ∀ x, R x → Gd C D w (f x) Q) : Gd C D w (p >>= f) Q :=
  fun n => ((h n).frame w).bind fun x w' ⟨hw, hx⟩ => hw ▸ hf x hx

theorem frame {p : Prog K V α} {Q : α → Prop} (h : Gd C D 0 p fun x _ => Q x) : Gd C D w p fun x w' => w' = w ∧ Q x :=
  fun n => (h n).frame w

theorem ite {c : Prop} [Decidable c] {p q : Prog K V α} {Q : α → Nat → Prop} (h1 : c → Gd C D w p Q) (h2 : ¬ c → Gd C D w q Q) :
    Gd C D w (if c then p else q) Q := by
  split
  · exact h1 ‹_›
  · exact h2 ‹_›

/-- An action followed by the rest. -/
theorem step {a : Act K V β} {f : β → Prog K V α} {Q : α → Nat → Prop} (h1 : a.Shaped) (h2 : a.publishes → 1 ≤ w)
    (h : ∀ r, Sees D a r → Gd C D (a.left w r) (f r) Q) : Gd C D w (Prog.prim a >>= f) Q := by
  have hfe : ∀ σ, FOk C D σ → FE D σ (Prog.prim a >>= f) fun x => ∃ w', Q x w' := fun σ hσ =>
    .act fun r hr _ => (h r hr).fe hσ
  intro n
  cases n with
  | zero => exact hfe
  | succ n => exact ⟨hfe, h1, h2, fun r hr => h r hr n⟩

theorem prim {a : Act K V β} {Q : β → Nat → Prop} (h1 : a.Shaped) (h2 : a.publishes → 1 ≤ w)
    (h : ∀ r, Sees D a r → Q r (a.left w r)) : Gd C D w (Prog.prim a) Q := by
  have hfe : ∀ σ, FOk C D σ → FE D σ (Prog.prim a) fun x => ∃ w', Q x w' := fun σ hσ =>
    .act fun r hr _ => .ret ⟨_, h r hr⟩
  intro n
  cases n with
  | zero => exact hfe
  | succ n =>
    refine ⟨hfe, h1, h2, fun r hr => ?_⟩
    cases n with
    | zero => exact fun σ _ => .ret ⟨_, h r hr⟩
    | succ n => exact h r hr

/-- An action that has no conditions. -/
theorem go {a : Act K V β} {f : β → Prog K V α} {Q : α → Nat → Prop} (h : ∀ r, Sees D a r → Gd C D w (f r) Q)
    (h1 : a.Shaped := by trivial) (h2 : ¬ a.publishes := by exact fun h => h) (h3 : ∀ r, a.left w r = w := by intros; rfl) :
    Gd C D w (Prog.prim a >>= f) Q := step h1 (fun h => absurd h h2) fun r hr => (h3 r).symm ▸ h r hr

/-- Loops: finitely many repetitions while the memory does not change. -/
theorem loop {σs : Type} {body : σs → Prog K V (σs ⊕ β)} (I : σs → Nat → Prop) {Q : β → Nat → Prop}
    (h : ∀ s w, I s w → Gd C D w (body s) fun x w' => Sum.elim (fun s' => I s' w') (fun b => Q b w') x)
    (hF : ∀ σ s w, FOk C D σ → I s w → FE D σ (Prog.loop s body) fun x => ∃ w', Q x w') {s : σs} (hs : I s w) :
    Gd C D w (Prog.loop s body) Q := by
  intro n
  induction n generalizing s w with
  | zero => exact fun σ hσ => hF σ s w hσ hs
  | succ n ih =>
    refine ⟨fun σ hσ => hF σ s w hσ hs, ?_⟩
    show GdN C D n w (Prog.unfoldIter body s .ret) Q
    unfold Prog.unfoldIter
    have key : ∀ m, m ≤ n → ∀ (p : Prog K V (σs ⊕ β)) w,
        GdN C D m w p (fun x w' => Sum.elim (fun s' => I s' w') (fun b => Q b w') x) →
        GdN C D m w (p.bind fun x => match x with | .inl s' => .iter body s' .ret | .inr b => .ret b) Q := by
      intro m
      induction m with
      | zero =>
        intro _ p w hp σ hσ
        refine (hp.fe hσ).bind fun x ⟨w', hx⟩ => ?_
        cases x with
        | inl s' => exact hF σ s' w' hσ hx
        | inr b => exact .ret ⟨w', hx⟩
      | succ m ihm =>
        intro hm p w hp
        have hfe : ∀ σ, FOk C D σ → FE D σ (p.bind fun x => match x with | .inl s' => .iter body s' .ret | .inr b => .ret b)
            fun x => ∃ w', Q x w' := by
          intro σ hσ
          refine (hp.fe hσ).bind fun x ⟨w', hx⟩ => ?_
          cases x with
          | inl s' => exact hF σ s' w' hσ hx
          | inr b => exact .ret ⟨w', hx⟩
        cases p with
        | ret x =>
          cases x with
          | inl s' => exact (ih (s := s') hp).mono hm
          | inr b => exact hp
        | panic r => exact trivial
        | act a k => exact ⟨hfe, hp.2.1, hp.2.2.1, fun r hr => ihm (by omega) _ _ (hp.2.2.2 r hr)⟩
        | iter b' s' k' =>
          refine ⟨hfe, ?_⟩
          have := ihm (by omega) _ _ hp.2
          unfold Prog.unfoldIter at this ⊢
          rw [Prog.bind_assoc] at this
          convert this using 2
          funext y
          cases y <;> rfl
    exact key n (Nat.le_refl _) _ w (h s w hs n)

/-- Loops in which a counter decreases in any case. -/
theorem count {σs : Type} {body : σs → Prog K V (σs ⊕ β)} (I : σs → Nat → Prop) (μ : σs → Nat) {Q : β → Nat → Prop}
    (h : ∀ s w, I s w → Gd C D w (body s) fun x w' => Sum.elim (fun s' => I s' w' ∧ μ s' < μ s) (fun b => Q b w') x)
    {s : σs} (hs : I s w) : Gd C D w (Prog.loop s body) Q := by
  refine loop I (fun s w hs => (h s w hs).post fun x w' hx => ?_) (fun σ s w hσ hs => ?_) hs
  · cases x with
    | inl s' => exact hx.1
    | inr b => exact hx
  · refine FE.loop (fun s => ∃ w, I s w) μ (fun s ⟨w, hs⟩ => ((h s w hs).fe hσ).post fun x ⟨w', hx⟩ => ?_) ⟨w, hs⟩
    cases x with
    | inl s' => exact ⟨⟨w', hx.1⟩, hx.2⟩
    | inr b => exact ⟨w', hx⟩

end Gd

/-- Programs that publish nothing. -/
abbrev G0 (C : Cfg K) (D : Box) {α : Type} (p : Prog K V α) (Q : α → Prop) : Prop := Gd C D 0 p fun x _ => Q x

theorem G0.count {σs : Type} {body : σs → Prog K V (σs ⊕ β)} (I : σs → Prop) (μ : σs → Nat) {Q : β → Prop}
    (h : ∀ s, I s → G0 C D (body s) fun x => Sum.elim (fun s' => I s' ∧ μ s' < μ s) Q x) {s : σs} (hs : I s) :
    G0 C D (Prog.loop s body) Q :=
  Gd.count (w := 0) (fun s w => I s ∧ w = 0) μ (fun s w ⟨hs, hw⟩ => by
    subst hw
    refine ((h s hs).frame (w := 0)).post fun x w' ⟨hw, hx⟩ => ?_
    subst hw
    cases x with
    | inl s' => exact ⟨⟨hx.1, rfl⟩, hx.2⟩
    | inr b => exact hx) ⟨hs, rfl⟩

theorem G0.loop {σs : Type} {body : σs → Prog K V (σs ⊕ β)} (I : σs → Prop) {Q : β → Prop}
    (h : ∀ s, I s → G0 C D (body s) fun x => Sum.elim I Q x)
    (hF : ∀ σ s, FOk C D σ → I s → FE D σ (Prog.loop s body) Q) {s : σs} (hs : I s) : G0 C D (Prog.loop s body) Q :=
  Gd.loop (w := 0) (fun s w => I s ∧ w = 0) (fun s w ⟨hs, hw⟩ => by
    subst hw
    refine ((h s hs).frame (w := 0)).post fun x w' ⟨hw, hx⟩ => ?_
    subst hw
    cases x with
    | inl s' => exact ⟨hx, rfl⟩
    | inr b => exact hx) (fun σ s w hσ hs => (hF σ s hσ hs.1).post fun x hx => ⟨0, hx⟩) ⟨hs, rfl⟩

end Papaya
