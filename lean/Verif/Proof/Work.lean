import Verif.Proof.Finish

/-! # Work in progress: who waits for whom

A second logic of duties, for the absence of deadlocks: an operation that has claimed a chunk of a copy copies it and counts
it, or aborts the copy; the one that counts the last slot promotes the table; after the promotion the new status is stored;
a slot marked `COPYING` (incremental mode) is marked `COPIED`; a mutex is unlocked; `unpark` is called — and on the way there the operation
does not wait for any of those things itself. -/

set_option linter.unusedSectionVars false
set_option linter.unusedVariables false

namespace Papaya

variable {K V : Type}

/-- Duties. -/
inductive WDuty
  /-- count the slots `[a, a + n)` of table `s` (of length `len`) as copied to `N`, or abort the copy -/
  | chunk (N s len a n : Nat)
  /-- try to replace the root table `s` by `N` -/
  | prom (N s : Nat)
  /-- store the status of the new root `N` -/
  | stat (N : Nat)
  /-- store slot `i` of `T` -/
  | store (T i : Nat)
  /-- unlock the mutex of `T` -/
  | unlock (T : Nat)
  /-- wake up those who wait for the end of the copy to `N` -/
  | wakeStatus (N : Nat)
  /-- wake up those who wait for slot `i` of `T` -/
  | wakeSlot (T i : Nat)
deriving DecidableEq

/-- Duties created by an action. -/
def Act.wduties (inc : Bool) : {β : Type} → Act K V β → β → List WDuty
  | _, .addClaim N n src, a => if a < src.len ∧ 0 < n then [.chunk N src.id src.len a n] else []
  | _, .addCopied N c src, r => if r + c = src.len then [.prom N src.id] else []
  | _, .casRoot _ N, b => if b then [.stat N] else []
  | _, .fetchOrCopying T i, s => if inc && s.ptr.isSome then [.store T i] else []
  | _, .tryLock T, b => if b then [.unlock T] else []
  | _, .lockWait T, b => if b then [.unlock T] else []
  | _, .storeStatus N s, _ => if s = .promoted then [.wakeStatus N] else []
  | _, .storeSlot T i _, _ => [.wakeSlot T i]
  | _, _, _ => []

/-- The action fulfils the duty. -/
def WDuty.doneBy : WDuty → {β : Type} → Act K V β → Prop
  | .chunk N _ len a n, _, .addCopied N' c _ => N' = N ∧ c = min n (len - a)
  | .chunk N _ _ _ _, _, .storeStatus N' st => N' = N ∧ st = .aborted
  | .prom N s, _, .casRoot T N' => T = s ∧ N' = N
  | .stat N, _, .storeStatus N' st => N' = N ∧ st = .promoted
  | .store T i, _, .storeSlot T' i' _ => T' = T ∧ i' = i
  | .unlock T, _, .unlock T' => T' = T
  | .unlock T, _, .poison T' => T' = T
  | .wakeStatus N, _, .unparkStatus N' => N' = N
  | .wakeSlot T i, _, .unparkSlot T' i' => T' = T ∧ i' = i
  | _, _, _ => False

/-- What an operation may do while it has a duty. -/
def Act.allowed (inc : Bool) : Option WDuty → {β : Type} → Act K V β → Bool
  | none, _, .parkSlot _ _ => inc
  | none, _, _ => true
  | some _, _, .parkStatus _ => false
  | some _, _, .parkSlot _ _ => false
  | some (.chunk _ _ _ _ _), _, .addClaim _ _ _ => false
  | some (.unlock _), _, .tryLock _ => false
  | some (.unlock _), _, .lockWait _ => false
  | some _, _, _ => true

/-- Results the action may have (for the duty `prom N s`: while `s` is the root). -/
def WObs : Option WDuty → {β : Type} → Act K V β → β → Prop
  | _, _, .sameTable T T', r => r = decide (T = T')
  | some (.prom _ s), _, .peekRoot, r => r = some s
  | _, _, _, _ => True

/-- For `n` steps: the program does its duty `o`, and those created by its actions, before it returns, and does nothing
that is not allowed before that. -/
def WSh (inc : Bool) {α : Type} : Nat → Option WDuty → Prog K V α → (Option WDuty → α → Prop) → Prop
  | 0, _, _, _ => True
  | _ + 1, o, .ret x, Q => Q o x
  | _ + 1, o, .panic r, _ => o = none ∨ r.hard = true
  | n + 1, o, .act a k, Q => a.allowed inc o = true ∧ ∀ r, WObs o a r → (∀ d ∈ a.wduties inc r, WSh inc n (some d) (k r) Q) ∧
      ((∀ d, o = some d → ¬ d.doneBy a) → WSh inc n o (k r) Q)
  | n + 1, o, .iter body s k, Q => WSh inc n o (Prog.unfoldIter body s k) Q

variable {inc : Bool}

theorem WSh.mono {α : Type} {n m : Nat} {o : Option WDuty} {p : Prog K V α} {Q : Option WDuty → α → Prop}
    (h : WSh inc n o p Q) (hm : m ≤ n) : WSh inc m o p Q := by
  induction m generalizing n p o with
  | zero => cases p <;> trivial
  | succ m ih =>
    obtain ⟨n, rfl⟩ : ∃ n', n = n' + 1 := ⟨n - 1, by omega⟩
    cases p with
    | ret x => exact h
    | panic r => exact h
    | act a k =>
      refine ⟨h.1, fun r hr => ?_⟩
      obtain ⟨h1, h2⟩ := h.2 r hr
      exact ⟨fun d hd => ih (h1 d hd) (by omega), fun hn => ih (h2 hn) (by omega)⟩
    | iter body s k => exact ih (n := n) h (by omega)

theorem WSh.bind {α γ : Type} {n : Nat} {o : Option WDuty} {p : Prog K V α} {f : α → Prog K V γ}
    {R : Option WDuty → α → Prop} {Q : Option WDuty → γ → Prop}
    (h : WSh inc n o p R) (hf : ∀ x o m, m ≤ n → R o x → WSh inc m o (f x) Q) : WSh inc n o (p.bind f) Q := by
  induction n generalizing p o with
  | zero => cases p.bind f <;> trivial
  | succ n ih =>
    cases p with
    | ret x => exact hf x o _ (Nat.le_refl _) h
    | panic r => exact h
    | act a k =>
      refine ⟨h.1, fun r hr => ?_⟩
      obtain ⟨h1, h2⟩ := h.2 r hr
      exact ⟨fun d hd => ih (h1 d hd) fun x o m hm => hf x o m (by omega),
        fun hn => ih (h2 hn) fun x o m hm => hf x o m (by omega)⟩
    | iter body s k =>
      have h' : WSh inc n o (Prog.unfoldIter body s k) R := h
      have := ih h' fun x o m hm => hf x o m (by omega)
      show WSh inc n o (Prog.unfoldIter body s fun x => (k x).bind f) Q
      unfold Prog.unfoldIter at this ⊢
      rw [Prog.bind_assoc] at this
      convert this using 2
      funext x
      cases x <;> rfl

theorem WSh.post {α : Type} {n : Nat} {o : Option WDuty} {p : Prog K V α} {R Q : Option WDuty → α → Prop}
    (h : WSh inc n o p R) (hQ : ∀ o x, R o x → Q o x) : WSh inc n o p Q := by
  induction n generalizing p o with
  | zero => cases p <;> trivial
  | succ n ih =>
    cases p with
    | ret x => exact hQ _ _ h
    | panic r => exact h
    | act a k =>
      refine ⟨h.1, fun r hr => ?_⟩
      obtain ⟨h1, h2⟩ := h.2 r hr
      exact ⟨fun d hd => ih (h1 d hd), fun hn => ih (h2 hn)⟩
    | iter body s k => exact ih h

/-- `p`, started with a duty in `P`, returns only in `Q`. -/
def Wd (inc : Bool) {α : Type} (P : Option WDuty → Prop) (p : Prog K V α) (Q : Option WDuty → α → Prop) : Prop :=
  ∀ n o, P o → WSh inc n o p Q

namespace Wd

variable {α β γ : Type} {P P' : Option WDuty → Prop}

theorem ret {x : α} {Q : Option WDuty → α → Prop} (h : ∀ o, P o → Q o x) : Wd (K := K) (V := V) inc P (pure x) Q := by
  intro n o hp
  cases n with
  | zero => trivial
  | succ n => exact h o hp

theorem panic {r : PanicReason} {Q : Option WDuty → α → Prop} (h : (∀ o, P o → o = none) ∨ r.hard = true) :
    Wd (K := K) (V := V) inc P (.panic r) Q := by
  intro n o hp
  cases n with
  | zero => trivial
  | succ n => exact h.imp (fun h => h o hp) id

theorem bind {p : Prog K V α} {f : α → Prog K V β} (R : Option WDuty → α → Prop) {Q : Option WDuty → β → Prop}
    (h : Wd inc P p R) (hf : ∀ x, Wd inc (fun o => R o x) (f x) Q) : Wd inc P (p >>= f) Q := by
  intro n o hp
  exact (h n o hp).bind fun x o m _ hx => hf x m o hx

theorem loop {σ : Type} {body : σ → Prog K V (σ ⊕ β)} (I : Option WDuty → σ → Prop) {s : σ} {Q : Option WDuty → β → Prop}
    (h : ∀ s, Wd inc (fun o => I o s) (body s) (fun o x => Sum.elim (I o) (Q o) x)) :
    Wd inc (fun o => I o s) (Prog.loop s body) Q := by
  intro n o hp
  induction n generalizing s o with
  | zero => trivial
  | succ n ih =>
    show WSh inc n o (Prog.unfoldIter body s .ret) Q
    unfold Prog.unfoldIter
    refine (h s n o hp).bind ?_
    intro x o' m hm hx
    cases x with
    | inl s' => exact (ih o' hx).mono hm
    | inr b =>
      cases m with
      | zero => trivial
      | succ m => exact hx

theorem ite {c : Prop} [Decidable c] {p q : Prog K V α} {Q : Option WDuty → α → Prop} (h1 : c → Wd inc P p Q)
    (h2 : ¬ c → Wd inc P q Q) : Wd inc P (if c then p else q) Q := by
  split
  · exact h1 ‹_›
  · exact h2 ‹_›

theorem conseq {p : Prog K V α} {R Q : Option WDuty → α → Prop} (h : Wd inc P p R) (hP : ∀ o, P' o → P o)
    (hQ : ∀ o x, R o x → Q o x) : Wd inc P' p Q := fun n o hp => (h n o (hP o hp)).post hQ

theorem act {a : Act K V β} {Q : Option WDuty → β → Prop} (h0 : ∀ o, P o → a.allowed inc o = true)
    (h : ∀ o r, P o → WObs o a r → (∀ d ∈ a.wduties inc r, Q (some d) r) ∧ ((∀ d, o = some d → ¬ d.doneBy a) → Q o r)) :
    Wd inc P (.prim a) Q := by
  intro n o hp
  cases n with
  | zero => trivial
  | succ n =>
    refine ⟨h0 o hp, fun r hr => ?_⟩
    obtain ⟨h1, h2⟩ := h o r hp hr
    cases n with
    | zero => exact ⟨fun _ _ => trivial, fun _ => trivial⟩
    | succ n => exact ⟨h1, h2⟩

theorem absurd' {p : Prog K V α} {Q : Option WDuty → α → Prop} (h : ∀ o, ¬ P o) : Wd inc P p Q :=
  fun _ o hp => absurd hp (h o)

/-- Programs without duties, started with none. -/
abbrev Plain (inc : Bool) (p : Prog K V α) : Prop := Wd inc (fun o => o = none) p fun o _ => o = none

/-- Actions that create no duty and are always allowed. -/
def _root_.Papaya.Act.quietly (inc : Bool) : {β : Type} → Act K V β → Bool
  | _, .addClaim _ _ _ => false
  | _, .addCopied _ _ _ => false
  | _, .casRoot _ _ => false
  | _, .fetchOrCopying _ _ => !inc
  | _, .tryLock _ => false
  | _, .lockWait _ => false
  | _, .parkStatus _ => false
  | _, .parkSlot _ _ => false
  | _, .storeStatus _ s => s != .promoted
  | _, .storeSlot _ _ _ => false
  | _, _ => true

theorem duties_quietly {a : Act K V β} (h : a.quietly inc = true) (r : β) : a.wduties inc r = [] := by
  cases a with
  | storeStatus N s => cases s <;> first | rfl | (exact absurd (show (Status.promoted != Status.promoted) = true from h) (by decide))
  | _ => first | rfl | (exact absurd h Bool.false_ne_true) | (cases inc <;> first | rfl | (exact absurd h Bool.false_ne_true))

theorem allowed_quietly {a : Act K V β} (h : a.quietly inc = true) (o : Option WDuty) : a.allowed inc o = true := by
  cases a <;> first | (exact absurd h Bool.false_ne_true) | (cases o with
    | none => rfl
    | some d => cases d <;> rfl)

theorem quietPrim {a : Act K V β} (h : a.quietly inc = true) : Wd inc P (.prim a) fun o _ => P o :=
  act (fun o _ => allowed_quietly h o) fun o r ho _ => ⟨fun d hd => (by rw [duties_quietly h] at hd; cases hd), fun _ => ho⟩

theorem plainPrim {a : Act K V β} (h : a.quietly inc = true) : Plain inc (.prim a) := quietPrim h

theorem plainParkStatus {T : Nat} : Plain inc (.prim (.parkStatus T : Act K V Unit)) :=
  act (fun o h => by subst h; rfl) fun o r ho _ => ⟨fun d hd => (by cases hd), fun _ => ho⟩

theorem plainParkSlot {T i : Nat} (hi : inc = true) : Plain inc (.prim (.parkSlot T i : Act K V Unit)) :=
  act (fun o h => by subst h; exact hi) fun o r ho _ => ⟨fun d hd => (by cases hd), fun _ => ho⟩

theorem plainBind {p : Prog K V α} {f : α → Prog K V β} (h : Plain inc p) (hf : ∀ x, Plain inc (f x)) :
    Plain inc (p >>= f) := bind (fun o _ => o = none) h fun x => hf x

theorem plainLoop {σ : Type} {body : σ → Prog K V (σ ⊕ β)} {s : σ} (h : ∀ s, Plain inc (body s)) :
    Plain inc (Prog.loop s body) :=
  loop (fun o _ => o = none) fun s => (h s).conseq (fun _ h => h) fun o x h => by cases x <;> exact h

theorem plainPanic {r : PanicReason} : Plain (K := K) (V := V) (α := α) inc (.panic r) := panic (.inl fun _ h => h)
theorem plainRet {x : α} : Plain (K := K) (V := V) inc (pure x) := ret fun _ h => h
theorem plainRet' {x : α} : Plain (K := K) (V := V) inc (.ret x) := ret fun _ h => h

/-- Programs that neither create nor need duties and do nothing forbidden: any duty is kept. -/
abbrev Idle (inc : Bool) (p : Prog K V α) : Prop := ∀ o, Wd inc (fun o' => o' = o) p fun o' _ => o' = o

theorem idlePrim {a : Act K V β} (h : a.quietly inc = true) : Idle inc (.prim a) := fun o => quietPrim h

theorem idleBind {p : Prog K V α} {f : α → Prog K V β} (h : Idle inc p) (hf : ∀ x, Idle inc (f x)) :
    Idle inc (p >>= f) := fun o => bind (fun o' _ => o' = o) (h o) fun x => hf x o

theorem idleLoop {σ : Type} {body : σ → Prog K V (σ ⊕ β)} {s : σ} (h : ∀ s, Idle inc (body s)) :
    Idle inc (Prog.loop s body) :=
  fun o => loop (fun o' _ => o' = o) fun s => (h s o).conseq (fun _ h => h) fun o x h => by cases x <;> exact h

theorem idleRet {x : α} : Idle (K := K) (V := V) inc (pure x) := fun o => ret fun _ h => h
theorem idleRet' {x : α} : Idle (K := K) (V := V) inc (.ret x) := fun o => ret fun _ h => h
theorem idlePanic {r : PanicReason} (h : r.hard = true) : Idle (K := K) (V := V) (α := α) inc (.panic r) :=
  fun o => panic (.inr h)

theorem Idle.plain {p : Prog K V α} (h : Idle inc p) : Plain inc p := h none

theorem Idle.keep {p : Prog K V α} (h : Idle inc p) : Wd inc P p fun o _ => P o :=
  fun n o hp => (h o n o rfl).post fun _ _ h => h ▸ hp

/-- No duty to unlock a mutex. -/
def NoLock (o : Option WDuty) : Prop := ∀ T, o ≠ some (.unlock T)

/-- Programs that keep any duty but that of unlocking a mutex. -/
abbrev Mid (inc : Bool) (p : Prog K V α) : Prop := ∀ o, NoLock o → Wd inc (fun o' => o' = o) p fun o' _ => o' = o

theorem Idle.mid {p : Prog K V α} (h : Idle inc p) : Mid inc p := fun o _ => h o
theorem Mid.plain {p : Prog K V α} (h : Mid inc p) : Plain inc p := h none fun _ h => nomatch h
theorem Mid.keep {p : Prog K V α} (h : Mid inc p) (hP : ∀ o, P o → NoLock o) : Wd inc P p fun o _ => P o :=
  fun n o hp => (h o (hP o hp) n o rfl).post fun _ _ h => h ▸ hp

theorem midBind {p : Prog K V α} {f : α → Prog K V β} (h : Mid inc p) (hf : ∀ x, Mid inc (f x)) :
    Mid inc (p >>= f) := fun o ho => bind (fun o' _ => o' = o) (h o ho) fun x => hf x o ho

theorem midLoop {σ : Type} {body : σ → Prog K V (σ ⊕ β)} {s : σ} (h : ∀ s, Mid inc (body s)) :
    Mid inc (Prog.loop s body) :=
  fun o ho => loop (fun o' _ => o' = o) fun s => (h s o ho).conseq (fun _ h => h) fun o x h => by cases x <;> exact h

end Wd

end Papaya
