import Verif.Spec.LockFree
import Verif.Proof.TermSettled

/-! # A logic that counts steps, retries and writes of an operation while the map is not resized -/

set_option linter.unusedSectionVars false
set_option linter.unusedVariables false

namespace Papaya

variable {K V : Type} [DecidableEq K]

/-- What an operation knows of the current contents of a slot. -/
abbrev Know (K V : Type) := Option (Nat × Nat × Slot K V)

/-- The actions executed while the map is not resized; with the mutex only if `al`. -/
def Act.calm (al : Bool) : {β : Type} → Act K V β → Bool
  | _, .tryLock _ | _, .lockWait _ | _, .unlock _ | _, .poison _ | _, .storeNext _ _ => al
  | _, .loadRoot | _, .loadNext _
  | _, .loadMd _ _ | _, .storeMd _ _ _ | _, .loadSlot _ _ | _, .cas _ _ _ _ _ | _, .casNew _ _ _ _ _ _
  | _, .sameTable _ _ | _, .sameEntry _ _ | _, .deref _ | _, .retire _ | _, .loadShard _ | _, .addCount _ => true
  | _, _ => false

/-- What an action may return while `T` is the root, has no successor, and `κ` is known; and the number of writes left. -/
def CFits (T : Table) (κ : Know K V) (w : Nat) : {β : Type} → Act K V β → β → Nat → Prop
  | _, .loadRoot, r, w' => r = some T ∧ w' = w
  | _, .loadNext U, r, w' => (U = T.id → r = none) ∧ w' = w
  | _, .storeNext U _, _, w' => U ≠ T.id ∧ w' = w
  | _, .loadSlot U _, r, w' => (U = T.id → r.copying = false) ∧ w' = w
  | _, .cas _ U i e _, none, w' => w' = w - 1
  | _, .cas _ U i e _, some s, w' => (U = T.id → s.copying = false) ∧ κ ≠ some (U, i, e) ∧ w' = w
  | _, .casNew _ U i e _ _, .inl _, w' => w' = w - 1
  | _, .casNew _ U i e _ _, .inr s, w' => (U = T.id → s.copying = false) ∧ κ ≠ some (U, i, e) ∧ w' = w
  | _, .sameTable x y, r, w' => r = decide (x = y) ∧ w' = w
  | _, _, _, w' => w' = w

/-- What is known after an action. -/
def cupd (κ : Know K V) : {β : Type} → Act K V β → β → Know K V
  | _, .loadSlot U i, r => some (U, i, r)
  | _, .cas _ U i _ _, some s => some (U, i, s)
  | _, .cas _ _ _ _ _, none => none
  | _, .casNew _ U i _ _ _, .inr s => some (U, i, s)
  | _, .casNew _ _ _ _ _ _, .inl _ => none
  | _, _, _ => κ

/-- The action may write a slot. -/
def Act.writes {β : Type} (a : Act K V β) : Prop := a.expects ≠ none

/-- What a retry costs. -/
def retryCost : Nat := 4

/-- `LF al T κ m b w p Q`: while `T` is the root without successor, the program `p`, knowing `κ`, ends within `b + retryCost · m` steps if the
other threads interfere at most `m` times; it writes at most `w` slots; it uses the mutex only if `al`; in the end `Q` holds of the result and what is then left. -/
inductive LF (al : Bool) (T : Table) : {α : Type} → Know K V → Nat → Nat → Nat → Prog K V α → (α → Know K V → Nat → Nat → Nat → Prop) → Prop
  | ret {α : Type} {a : α} {κ m b w Q} (h : Q a κ m b w) : LF al T κ m b w (.ret a) Q
  | panic {α : Type} {why : PanicReason} {κ m b w} {Q : α → Know K V → Nat → Nat → Nat → Prop} : LF al T κ m (b + 1) w (.panic why) Q
  | iter {α β σ : Type} {body : σ → Prog K V (σ ⊕ β)} {s : σ} {k : β → Prog K V α} {κ m b w Q}
      (h : LF al T κ m b w (Prog.unfoldIter body s k) Q) : LF al T κ m (b + 1) w (.iter body s k) Q
  | act {α β : Type} {a : Act K V β} {k : β → Prog K V α} {κ m b w Q} (hc : a.calm al = true) (hw : a.writes → 1 ≤ w)
      (good : ∀ r w', CFits T κ w a r w' → LF al T (cupd κ a r) m b w' (k r) Q)
      (bad : ∀ m', m' < m → ∀ r w', CFits T none w a r w' → LF al T (cupd none a r) m' (b + retryCost * (m - m')) w' (k r) Q) :
      LF al T κ m (b + 1) w (.act a k) Q

namespace LF

variable {al : Bool} {T : Table} {κ : Know K V} {m b w : Nat} {α β : Type}

theorem bind {p : Prog K V α} {f : α → Prog K V β} {Q : β → Know K V → Nat → Nat → Nat → Prop}
    (h : LF al T κ m b w p fun a κ' m' b' w' => LF al T κ' m' b' w' (f a) Q) : LF al T κ m b w (p.bind f) Q := by
  generalize hR : (fun a κ' m' b' w' => LF al T κ' m' b' w' (f a) Q) = R at h
  induction h with
  | ret h => subst hR; exact h
  | panic => exact .panic
  | iter h ih =>
    refine .iter ?_
    have := ih hR
    unfold Prog.unfoldIter at this ⊢
    rw [Prog.bind_assoc] at this
    convert this using 2
    funext x
    cases x <;> rfl
  | act hc hw good bad ih1 ih2 =>
    exact .act hc hw (fun r w' hr => ih1 r w' hr hR) fun m' hm r w' hr => ih2 m' hm r w' hr hR

theorem conseq {p : Prog K V α} {Q Q' : α → Know K V → Nat → Nat → Nat → Prop} (h : LF al T κ m b w p Q)
    (hq : ∀ a κ' m' b' w', b' + retryCost * m' ≤ b + retryCost * m → Q a κ' m' b' w' → Q' a κ' m' b' w') : LF al T κ m b w p Q' := by
  induction h with
  | ret h => exact .ret (hq _ _ _ _ _ (Nat.le_refl _) h)
  | panic => exact .panic
  | iter h ih => exact .iter (ih fun a κ' m' b' w' hle => hq a κ' m' b' w' (by omega))
  | @act _ _ _ κ m b w _ hc hw good bad ih1 ih2 =>
    refine .act hc hw (fun r w' hr => ih1 r w' hr fun a κ' m' b' w'' hle => hq a κ' m' b' w'' (by omega)) fun m' hm r w' hr => ?_
    refine ih2 m' hm r w' hr fun a κ' m'' b' w'' hle => hq a κ' m'' b' w'' ?_
    obtain ⟨d, rfl⟩ : ∃ d, m = m' + d := ⟨m - m', by omega⟩
    have : m' + d - m' = d := by omega
    rw [this] at hle
    rw [Nat.mul_add]
    omega

/-- Loops. -/
theorem loop {σ : Type} {body : σ → Prog K V (σ ⊕ β)} {Q : β → Know K V → Nat → Nat → Nat → Prop}
    (I : σ → Know K V → Nat → Nat → Prop)
    (h : ∀ s κ m b w, I s κ b w → ∃ b0, b = b0 + 1 ∧
      LF al T κ m b0 w (body s) fun x κ' m' b' w' => Sum.elim (fun s' => I s' κ' b' w') (fun r => Q r κ' m' b' w') x)
    {s : σ} (hs : I s κ b w) : LF al T κ m b w (Prog.loop s body) Q := by
  generalize hn : b + retryCost * m = n
  induction n using Nat.strong_induction_on generalizing s κ m b w with
  | _ n ih =>
    obtain ⟨b0, rfl, hb⟩ := h s κ m b w hs
    refine .iter (bind (hb.conseq ?_))
    rintro x κ' m' b' w' hle hx
    cases x with
    | inl s' => exact ih (b' + retryCost * m') (by omega) hx rfl
    | inr r => exact .ret hx

/-- A loop that is executed once. -/
theorem loop1 {σ : Type} {body : σ → Prog K V (σ ⊕ β)} {Q : β → Know K V → Nat → Nat → Nat → Prop} {s : σ}
    (h : LF al T κ m b w (body s) fun x κ' m' b' w' => ∃ r, x = .inr r ∧ Q r κ' m' b' w') : LF al T κ m (b + 1) w (Prog.loop s body) Q := by
  refine .iter (bind (h.conseq ?_))
  rintro x κ' m' b' w' _ ⟨r, rfl, hx⟩
  exact .ret hx

end LF

/-- At least `x` steps are left; `retryCost` more, unless `κ` is known. -/
def Pot (κ : Know K V) (z : Nat × Nat × Slot K V) (x b : Nat) : Prop := (κ = some z ∧ x ≤ b) ∨ x + retryCost ≤ b

theorem Pot.le {κ : Know K V} {z : Nat × Nat × Slot K V} {x b : Nat} (h : Pot κ z x b) : x ≤ b := by
  rcases h with h | h <;> omega

theorem Pot.mono {κ : Know K V} {z : Nat × Nat × Slot K V} {x y b : Nat} (h : Pot κ z x b) (hy : y ≤ x) : Pot κ z y b := by
  rcases h with h | h
  · exact .inl ⟨h.1, by omega⟩
  · exact .inr (by omega)

/-- What a step costs. -/
structure Cost (κ : Know K V) (b : Nat) (κ' : Know K V) (b' : Nat) (c : Nat) : Prop where
  le : b ≤ b' + c
  pot : ∀ z x, Pot κ z (x + c) b → Pot κ' z x b'

theorem Cost.refl {κ : Know K V} {b : Nat} : Cost κ b κ b 0 := ⟨Nat.le_refl _, fun _ _ h => h⟩

theorem Cost.mono {κ κ' : Know K V} {b b' c c' : Nat} (h : Cost κ b κ' b' c) (hc : c ≤ c') : Cost κ b κ' b' c' :=
  ⟨by have := h.le; omega, fun z x hz => (h.pot z (x + (c' - c)) (by rwa [show x + (c' - c) + c = x + c' by omega])).mono (by omega)⟩

theorem Cost.trans {κ κ' κ'' : Know K V} {b b' b'' c c' : Nat} (h : Cost κ b κ' b' c) (h' : Cost κ' b' κ'' b'' c') :
    Cost κ b κ'' b'' (c + c') :=
  ⟨by have := h.le; have := h'.le; omega, fun z x hz => h'.pot z x (h.pot z (x + c') (by rwa [show x + c' + c = x + (c + c') by omega]))⟩

namespace LF

variable {al : Bool} {T : Table} {κ : Know K V} {m b w : Nat} {α β : Type}

/-- Actions that do not concern the slots. -/
def _root_.Papaya.Act.noSlot (al : Bool) : {β : Type} → Act K V β → Bool
  | _, .tryLock _ | _, .lockWait _ | _, .unlock _ | _, .poison _ | _, .storeNext _ _ => al
  | _, .loadRoot | _, .loadNext _
  | _, .loadMd _ _ | _, .storeMd _ _ _ | _, .sameTable _ _ | _, .sameEntry _ _ | _, .deref _ | _, .retire _ | _, .loadShard _
  | _, .addCount _ => true
  | _, _ => false

theorem plain {a : Act K V β} {f : β → Prog K V α} {Q : α → Know K V → Nat → Nat → Nat → Prop} (hp : a.noSlot al = true) (hb : 1 ≤ b)
    (h : ∀ r κ' m' b', CFits T none w a r w → Cost κ b κ' b' 1 → LF al T κ' m' b' w (f r) Q) : LF al T κ m b w ((Prog.prim a).bind f) Q := by
  obtain ⟨b, rfl⟩ : ∃ c, b = c + 1 := ⟨b - 1, by omega⟩
  have hc : a.calm al = true := by cases a <;> first | rfl | exact hp | cases hp
  have hw : a.writes → 1 ≤ w := fun h => by exfalso; apply h; cases a <;> first | rfl | cases hp
  have hfit : ∀ κ r w', CFits T κ w a r w' → CFits T none w a r w ∧ w' = w := fun κ r w' hr => by
    cases a <;> first
      | exact ⟨⟨hr.1, rfl⟩, hr.2⟩
      | exact ⟨rfl, hr⟩
      | cases hp
  have hu : ∀ κ r, cupd κ a r = κ := fun κ r => by cases a <;> first | rfl | cases hp
  refine .act hc hw (fun r w' hr => ?_) fun m' hm r w' hr => ?_
  · obtain ⟨h1, rfl⟩ := hfit _ _ _ hr
    rw [hu]
    refine h r κ m b h1 ⟨Nat.le_refl _, fun z x hz => ?_⟩
    rcases hz with ⟨h1, h2⟩ | h2
    · exact .inl ⟨h1, by omega⟩
    · exact .inr (by omega)
  · obtain ⟨h1, rfl⟩ := hfit _ _ _ hr
    rw [hu]
    have : retryCost * 1 ≤ retryCost * (m - m') := Nat.mul_le_mul_left _ (by omega)
    refine h r none m' _ h1 ⟨by omega, fun z x hz => .inr ?_⟩
    have := hz.le
    omega

theorem loadSlot {i : Nat} {f : Slot K V → Prog K V α} {Q : α → Know K V → Nat → Nat → Nat → Prop} (hb : 1 ≤ b)
    (h : ∀ s m' b', s.copying = false → b ≤ b' + 1 → LF al T (some (T.id, i, s)) m' b' w (f s) Q) :
    LF al T κ m b w ((A.loadSlot T.id i).bind f) Q := by
  obtain ⟨b, rfl⟩ : ∃ c, b = c + 1 := ⟨b - 1, by omega⟩
  refine .act rfl (fun h => absurd rfl h) (fun r w' hr => ?_) fun m' hm r w' hr => ?_
  · obtain ⟨h1, rfl⟩ := hr
    exact h r m b (h1 rfl) (Nat.le_refl _)
  · obtain ⟨h1, rfl⟩ := hr
    exact h r m' _ (h1 rfl) (by omega)

/-- A compare-exchange that is expected to succeed. -/
theorem cas {wk : Bool} {i x : Nat} {e n : Slot K V} {f : Option (Slot K V) → Prog K V α} {Q : α → Know K V → Nat → Nat → Nat → Prop}
    (hp : Pot κ (T.id, i, e) (x + 1) b) (hw : 1 ≤ w)
    (h1 : ∀ κ' m' b', x ≤ b' → LF al T κ' m' b' (w - 1) (f none) Q)
    (h2 : ∀ s m' b', s.copying = false → x + retryCost ≤ b' → LF al T (some (T.id, i, s)) m' b' w (f (some s)) Q) :
    LF al T κ m b w ((A.cas wk T.id i e n).bind f) Q := by
  have := hp.le
  obtain ⟨b, rfl⟩ : ∃ c, b = c + 1 := ⟨b - 1, by omega⟩
  refine .act rfl (fun _ => hw) (fun r w' hr => ?_) fun m' hm r w' hr => ?_
  · cases r with
    | none => obtain rfl : w' = w - 1 := hr; exact h1 _ _ _ (by omega)
    | some s =>
      obtain ⟨g1, g2, rfl⟩ := hr
      rcases hp with ⟨h3, _⟩ | h3
      · exact absurd h3 g2
      · exact h2 s _ _ (g1 rfl) (by omega)
  · have : retryCost * 1 ≤ retryCost * (m - m') := Nat.mul_le_mul_left _ (by omega)
    cases r with
    | none => obtain rfl : w' = w - 1 := hr; exact h1 _ _ _ (by omega)
    | some s =>
      obtain ⟨g1, g2, rfl⟩ := hr
      exact h2 s _ _ (g1 rfl) (by omega)

theorem casNew {wk : Bool} {i x : Nat} {e : Slot K V} {k : K} {v : V} {f : Entry K V ⊕ Slot K V → Prog K V α}
    {Q : α → Know K V → Nat → Nat → Nat → Prop} (hp : Pot κ (T.id, i, e) (x + 1) b) (hw : 1 ≤ w)
    (h1 : ∀ e κ' m' b', x ≤ b' → LF al T κ' m' b' (w - 1) (f (.inl e)) Q)
    (h2 : ∀ s m' b', s.copying = false → x + retryCost ≤ b' → LF al T (some (T.id, i, s)) m' b' w (f (.inr s)) Q) :
    LF al T κ m b w ((A.casNew wk T.id i e k v).bind f) Q := by
  have := hp.le
  obtain ⟨b, rfl⟩ : ∃ c, b = c + 1 := ⟨b - 1, by omega⟩
  refine .act rfl (fun _ => hw) (fun r w' hr => ?_) fun m' hm r w' hr => ?_
  · cases r with
    | inl e => obtain rfl : w' = w - 1 := hr; exact h1 _ _ _ _ (by omega)
    | inr s =>
      obtain ⟨g1, g2, rfl⟩ := hr
      rcases hp with ⟨h3, _⟩ | h3
      · exact absurd h3 g2
      · exact h2 s _ _ (g1 rfl) (by omega)
  · have : retryCost * 1 ≤ retryCost * (m - m') := Nat.mul_le_mul_left _ (by omega)
    cases r with
    | inl e => obtain rfl : w' = w - 1 := hr; exact h1 _ _ _ _ (by omega)
    | inr s =>
      obtain ⟨g1, g2, rfl⟩ := hr
      exact h2 s _ _ (g1 rfl) (by omega)

/-- A compare-exchange that is not repeated. -/
theorem casNew1 {wk : Bool} {i : Nat} {e : Slot K V} {k : K} {v : V} {f : Entry K V ⊕ Slot K V → Prog K V α}
    {Q : α → Know K V → Nat → Nat → Nat → Prop} (hb : 1 ≤ b) (hw : 1 ≤ w)
    (h1 : ∀ e κ' m' b', b ≤ b' + 1 → LF al T κ' m' b' (w - 1) (f (.inl e)) Q)
    (h2 : ∀ s m' b', s.copying = false → b ≤ b' + 1 → LF al T (some (T.id, i, s)) m' b' w (f (.inr s)) Q) :
    LF al T κ m b w ((A.casNew wk T.id i e k v).bind f) Q := by
  obtain ⟨b, rfl⟩ : ∃ c, b = c + 1 := ⟨b - 1, by omega⟩
  refine .act rfl (fun _ => hw) (fun r w' hr => ?_) fun m' hm r w' hr => ?_
  · cases r with
    | inl e => obtain rfl : w' = w - 1 := hr; exact h1 _ _ _ _ (by omega)
    | inr s => obtain ⟨g1, g2, rfl⟩ := hr; exact h2 s _ _ (g1 rfl) (by omega)
  · cases r with
    | inl e => obtain rfl : w' = w - 1 := hr; exact h1 _ _ _ _ (by omega)
    | inr s => obtain ⟨g1, g2, rfl⟩ := hr; exact h2 s _ _ (g1 rfl) (by omega)

theorem panic' {why : PanicReason} {Q : α → Know K V → Nat → Nat → Nat → Prop} (hb : 1 ≤ b) : LF al T κ m b w (.panic why) Q := by
  obtain ⟨b, rfl⟩ : ∃ c, b = c + 1 := ⟨b - 1, by omega⟩
  exact .panic

end LF

end Papaya
