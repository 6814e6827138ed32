import Verif.Spec.Latency
import Verif.Proof.Logic

/-! # Operations that never contribute to a resize in incremental mode

`Aloof p`: the program `p` marks no slot, adds nothing to the count of copied slots, does not replace the root and retires no table,
whatever its actions return. -/

set_option linter.unusedSectionVars false
set_option linter.unusedVariables false

namespace Papaya

variable {K V : Type}

/-- The actions of which a resize consists, once the next table has been allocated. -/
def Act.settles : {β : Type} → Act K V β → Nat
  | _, .fetchOrCopying _ _ => 1
  | _, .storeSlot _ _ _ => 1
  | _, .cas _ _ _ _ new => if new.copying then 1 else 0
  | _, .addCopied _ _ _ => 1
  | _, .casRoot _ _ => 1
  | _, .retireTable _ => 1
  | _, _ => 0

def FrN {α : Type} : Nat → Nat → Prog K V α → (α → Nat → Prop) → Prop
  | 0, _, _, _ => True
  | _ + 1, b, .ret x, Q => Q x b
  | _ + 1, _, .panic _, _ => True
  | n + 1, b, .act a k, Q => a.settles ≤ b ∧ ∀ r, FrN n (b - a.settles) (k r) Q
  | n + 1, b, .iter body s k, Q => FrN n b (Prog.unfoldIter body s k) Q

def Fr {α : Type} (b : Nat) (p : Prog K V α) (Q : α → Nat → Prop) : Prop := ∀ n, FrN n b p Q

variable {C : Cfg K} {α β γ : Type} {b : Nat}

theorem FrN.zero {p : Prog K V α} {Q : α → Nat → Prop} : FrN 0 b p Q := by cases p <;> trivial

theorem FrN.mono {n m : Nat} {p : Prog K V α} {Q Q' : α → Nat → Prop} (h : FrN n b p Q) (hm : m ≤ n) (hQ : ∀ x b', b' ≤ b → Q x b' → Q' x b') :
    FrN m b p Q' := by
  induction m generalizing n p b with
  | zero => exact .zero
  | succ m ih =>
    obtain ⟨n, rfl⟩ : ∃ n', n = n' + 1 := ⟨n - 1, by omega⟩
    cases p with
    | ret x => exact hQ _ _ (Nat.le_refl _) h
    | panic w => trivial
    | act a k => exact ⟨h.1, fun r => ih (h.2 r) (by omega) fun x b' hb => hQ x b' (by omega)⟩
    | iter body s k => exact ih (n := n) h (by omega) hQ

theorem FrN.bind {n : Nat} {p : Prog K V α} {g : α → Prog K V γ} {Q : γ → Nat → Prop}
    (h : FrN n b p fun x b' => ∀ m, m ≤ n → FrN m b' (g x) Q) : FrN n b (p.bind g) Q := by
  induction n generalizing p b with
  | zero => exact .zero
  | succ n ih =>
    cases p with
    | ret x => exact h _ (Nat.le_refl _)
    | panic w => trivial
    | act a k => exact ⟨h.1, fun r => ih ((h.2 r).mono (Nat.le_refl _) fun x b' _ h m hm => h m (by omega))⟩
    | iter body s k =>
      have h' : FrN n b (Prog.unfoldIter body s k) _ := h
      have := ih (h'.mono (Nat.le_refl _) fun x b' _ h m hm => h m (by omega))
      show FrN n b (Prog.unfoldIter body s fun x => (k x).bind g) Q
      unfold Prog.unfoldIter at this ⊢
      rw [Prog.bind_assoc] at this
      convert this using 2
      funext x
      cases x <;> rfl

namespace Fr

theorem mono {p : Prog K V α} {Q Q' : α → Nat → Prop} (h : Fr b p Q) (hQ : ∀ x b', b' ≤ b → Q x b' → Q' x b') : Fr b p Q' :=
  fun n => (h n).mono (Nat.le_refl _) hQ

theorem ret {x : α} {Q : α → Nat → Prop} (h : Q x b) : Fr b (pure x : Prog K V α) Q := fun n => by
  cases n with
  | zero => exact .zero
  | succ n => exact h

theorem ret' {x : α} {Q : α → Nat → Prop} (h : Q x b) : Fr b (.ret x : Prog K V α) Q := ret h

theorem panic {w : PanicReason} {Q : α → Nat → Prop} : Fr b (.panic w : Prog K V α) Q := fun n => by cases n <;> trivial

theorem bind {p : Prog K V α} {g : α → Prog K V γ} {Q : γ → Nat → Prop} (h : Fr b p fun x b' => Fr b' (g x) Q) : Fr b (p >>= g) Q :=
  fun n => FrN.bind ((h n).mono (Nat.le_refl _) fun x b' _ h m _ => h m)

theorem loop {σ : Type} {body : σ → Prog K V (σ ⊕ β)} {s : σ} {Q : β → Nat → Prop} (I : σ → Nat → Prop) (hI : I s b)
    (h : ∀ s b, I s b → Fr b (body s) fun y b' => Sum.elim (fun s => I s b') (fun x => Q x b') y) : Fr b (Prog.loop s body) Q := by
  intro n
  induction n using Nat.strongRecOn generalizing s b with
  | _ n ih =>
    cases n with
    | zero => exact .zero
    | succ n =>
      show FrN n b (Prog.unfoldIter body s .ret) Q
      unfold Prog.unfoldIter
      refine FrN.bind ((h s b hI n).mono (Nat.le_refl _) fun x b' _ hx m hm => ?_)
      cases x with
      | inl s' => exact ih m (by omega) hx
      | inr y => exact Fr.ret' (K := K) (V := V) (Q := Q) hx m

theorem act {a : Act K V β} {Q : β → Nat → Prop} (h : a.settles ≤ b) (hQ : ∀ r, Q r (b - a.settles)) : Fr b (.prim a) Q := by
  intro n
  cases n with
  | zero => exact .zero
  | succ n => exact ⟨h, fun r => Fr.ret' (K := K) (V := V) (hQ r) n⟩

end Fr

/-- No action of a resize is executed. -/
def Aloof {α : Type} (p : Prog K V α) : Prop := Fr 0 p fun _ _ => True

theorem FrN.aloof {n : Nat} {p : Prog K V α} (h : FrN n 0 p fun _ _ => True) : FrN n b p fun _ b' => b' = b := by
  induction n generalizing p with
  | zero => exact .zero
  | succ n ih =>
    cases p with
    | ret x => exact rfl
    | panic w => trivial
    | act a k =>
      have h1 : a.settles = 0 := Nat.le_zero.1 h.1
      refine ⟨by omega, fun r => ?_⟩
      have := h.2 r
      rw [h1] at this ⊢
      exact ih this
    | iter body s k => exact ih (p := Prog.unfoldIter body s k) h

/-- A aloof program leaves the budget alone. -/
theorem Aloof.bd {p : Prog K V α} {Q : α → Nat → Prop} (h : Aloof p) (hQ : ∀ x, Q x b) : Fr b p Q :=
  fun n => (h n).aloof.mono (Nat.le_refl _) fun x b' _ hb => by subst hb; exact hQ x

namespace Aloof

theorem ret {x : α} : Aloof (pure x : Prog K V α) := Fr.ret trivial
theorem ret' {x : α} : Aloof (.ret x : Prog K V α) := Fr.ret trivial
theorem panic {w : PanicReason} : Aloof (.panic w : Prog K V α) := Fr.panic
theorem bind {p : Prog K V α} {g : α → Prog K V γ} (h : Aloof p) (hg : ∀ x, Aloof (g x)) : Aloof (p >>= g) :=
  Fr.bind (h.mono fun x b' hb _ => by rw [Nat.le_zero.1 hb]; exact hg x)
theorem loop {σ : Type} {body : σ → Prog K V (σ ⊕ β)} {s : σ} (h : ∀ s, Aloof (body s)) : Aloof (Prog.loop s body) :=
  Fr.loop (fun _ b => b = 0) rfl fun s b hb => by
    subst hb
    exact (h s).mono fun x b' hb _ => by cases x <;> first | exact Nat.le_zero.1 hb | trivial
theorem act {a : Act K V β} (h : a.settles = 0) : Aloof (.prim a) := Fr.act (by omega) fun _ => trivial

end Aloof

macro "aloof_step" : tactic => `(tactic| first
  | with_reducible exact Aloof.ret
  | with_reducible exact Aloof.ret'
  | with_reducible exact Aloof.panic
  | with_reducible refine Aloof.bind ?_ fun _ => ?_
  | with_reducible refine Aloof.loop fun _ => ?_
  | (with_reducible refine Aloof.act ?_); exact rfl
  | split
  | dsimp only)

syntax "aloof" "[" term,* "]" : tactic
macro_rules
  | `(tactic| aloof [$ts,*]) => do
    let ts := ts.getElems
    `(tactic| repeat' first $[| with_reducible exact $ts]* | aloof_step)

macro "aloof" : tactic => `(tactic| repeat' aloof_step)

variable {T next : Table}

theorem aloof_len : Aloof (V := V) (len C) := by unfold len; aloof
theorem aloof_init {c : Option Nat} : Aloof (K := K) (V := V) (initTable C c) := by unfold initTable; aloof

theorem aloof_allocLocked {c : Option Nat} : Aloof (V := V) (allocNextLocked C c T) := by
  unfold allocNextLocked; aloof [aloof_len]

theorem aloof_alloc {c : Option Nat} : Aloof (V := V) (getOrAllocNext C c T) := by
  unfold getOrAllocNext; aloof [aloof_allocLocked]

theorem aloof_waitCopied {i : Nat} : Aloof (V := V) (waitCopied C i T) := by unfold waitCopied; aloof

theorem aloof_defer {e : Entry K V} {s : Slot K V} : Aloof (deferRetire C e s T) := by unfold deferRetire; aloof

theorem aloof_invoke {I O : Type} {f : Closure I O} {st : f.Tr} {i : I} : Aloof (K := K) (V := V) (f.invoke st i) := by
  unfold Closure.invoke; aloof

section ops

variable [DecidableEq K] {k : K} {v : V} {n : Nat}

theorem aloof_get : Aloof (V := V) (get C k) := by unfold get getProbe; aloof

theorem aloof_insertAt {i m : Nat} : Aloof (insertAt C i m k v T) := by unfold insertAt; aloof

theorem aloof_updNew {i : Nat} {e : Entry K V} {s : Slot K V} : Aloof (updateAtNew C i e s k v T) := by
  unfold updateAtNew; aloof [aloof_defer]

theorem aloof_updTomb {i : Nat} {e : Entry K V} {s : Slot K V} : Aloof (updateAtTomb C i e s T) := by
  unfold updateAtTomb; aloof [aloof_defer]

theorem aloof_insertProbe {b : Bool} : Aloof (insertProbe C k v b T) := by
  unfold insertProbe insertFound insertSlow; aloof [aloof_insertAt, aloof_updNew]

theorem aloof_removeProbe {f : Closure (K × V) Bool} {st : f.Tr} : Aloof (removeProbe C k f st T) := by
  unfold removeProbe removeLoop; aloof [aloof_updTomb, aloof_invoke]

/-- Preparing a retry without helping. -/
theorem aloof_retryIns {i : Option Nat} (hc : C.mode = .incremental n) : Aloof (V := V) (prepareRetryInsert C i false T) := by
  unfold prepareRetryInsert
  rw [hc]
  aloof [aloof_alloc, aloof_waitCopied]
  all_goals contradiction

theorem aloof_retry {i : Option Nat} (hc : C.mode = .incremental n) : Aloof (V := V) (prepareRetry C i false T) := by
  unfold prepareRetry
  rw [hc]
  aloof [aloof_waitCopied]
  all_goals contradiction

theorem aloof_next {R : Type} {f : Closure (Option (K × V)) (Operation V R)} {c : CState K V R f} {e : Option (Entry K V)} :
    Aloof (c.next e) := by
  unfold CState.next; aloof [aloof_invoke]

theorem aloof_restore {R : Type} {f : Closure (Option (K × V)) (Operation V R)} {c : CState K V R f} {o : Option (Entry K V)} {y : Operation V R} :
    Aloof (c.restore o y) := by
  unfold CState.restore; aloof

theorem aloof_computeFailure {R : Type} {f : Closure (Option (K × V)) (Operation V R)} {p : Probe} {c : CState K V R f} {s : EStat K V} :
    Aloof (computeFailure T p c s) := by
  unfold computeFailure; aloof [aloof_next, aloof_restore]

theorem aloof_computeProbe {R : Type} {f : Closure (Option (K × V)) (Operation V R)} {c : CState K V R f} :
    Aloof (computeProbe C k T c) := by
  unfold computeProbe computeFound computeLoop
  aloof [aloof_next, aloof_restore, aloof_insertAt, aloof_computeFailure, aloof_updNew, aloof_updTomb]

theorem aloof_computeInit {R : Type} {f : Closure (Option (K × V)) (Operation V R)} {c : CState K V R f} :
    Aloof (computeInit C c) := by
  unfold computeInit; aloof [aloof_next, aloof_restore, aloof_init]

/-- `compute` never helps in incremental mode. -/
theorem aloof_compute {R : Type} {f : Closure (Option (K × V)) (Operation V R)} (hc : C.mode = .incremental n) : Aloof (compute C k f) := by
  have h1 : ∀ {T : Table} {i : Option Nat}, Aloof (V := V) (prepareRetry C i false T) := aloof_retry hc
  have h2 : ∀ {T : Table} {i : Option Nat}, Aloof (V := V) (prepareRetryInsert C i false T) := aloof_retryIns hc
  unfold compute
  refine .bind aloof_computeInit fun x => ?_
  split
  · exact .ret
  refine Fr.loop (fun s b => s.2.1 = false ∧ b = 0) ⟨rfl, rfl⟩ fun s b hs => ?_
  obtain ⟨T, h, c⟩ := s
  obtain ⟨rfl, rfl⟩ : h = false ∧ b = 0 := hs
  refine .bind (aloof_computeProbe.bd fun y => ?_)
  obtain ⟨c, y⟩ := y
  cases y with
  | done r => exact .ret trivial
  | retry i =>
    refine .bind (h1.bd fun x => ?_)
    cases x with
    | some n => exact .ret ⟨rfl, rfl⟩
    | none =>
      refine .bind (aloof_next.bd fun x => ?_)
      obtain ⟨c, op⟩ := x
      cases op with
      | insert v => exact .bind (h2.bd fun x => .bind (aloof_restore.bd fun c => .ret ⟨rfl, rfl⟩))
      | abort a => exact .ret trivial
      | remove => exact .panic

theorem aloof_tryInsertWith {f : Closure Unit V} (hc : C.mode = .incremental n) : Aloof (tryInsertWith C k f) := by
  unfold tryInsertWith; aloof [aloof_compute hc]

/-- Every operation that moves no slot. -/
theorem aloof_call {c : Call K V} (hc : C.mode = .incremental n) (hb : c.moveBound 1 = some 0) : Aloof (c.prog C) := by
  cases c with
  | get => exact aloof_get
  | containsKey => exact .bind aloof_get fun _ => .ret
  | insert => cases hb
  | tryInsert => cases hb
  | tryInsertWith => exact aloof_tryInsertWith hc
  | getOrInsert => cases hb
  | getOrInsertWith =>
    show Aloof (getOrInsertWith C _ _)
    unfold getOrInsertWith; aloof [aloof_tryInsertWith hc]
  | update =>
    show Aloof (update C _ _)
    unfold update; aloof [aloof_compute hc]
  | updateOrInsert =>
    show Aloof (updateOrInsertWith C _ _ _)
    unfold updateOrInsertWith; aloof [aloof_compute hc]
  | updateOrInsertWith =>
    show Aloof (updateOrInsertWith C _ _ _)
    unfold updateOrInsertWith; aloof [aloof_compute hc]
  | compute => exact aloof_compute hc
  | remove => cases hb
  | removeIf => cases hb
  | clear => cases hb
  | retain => cases hb
  | iter => cases hb
  | iterTake => cases hb
  | len => exact aloof_len
  | isEmpty => exact .bind aloof_len fun _ => .ret
  | reserve => cases hb

end ops

end Papaya
