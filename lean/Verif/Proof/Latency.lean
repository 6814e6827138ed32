import Verif.Spec.Latency
import Verif.Proof.Logic

/-! # A budget for moving slots

`Bd b p Q`: with the budget `b`, the program `p` marks at most `b` slots, whatever its actions return, and when it ends, `Q` holds of the result
and the rest of the budget. -/

set_option linter.unusedSectionVars false
set_option linter.unusedVariables false

namespace Papaya

variable {K V : Type}

/-- The cost of an action. -/
def Act.moves : {β : Type} → Act K V β → Nat
  | _, .fetchOrCopying _ _ => 1
  | _, _ => 0

def BdN {α : Type} : Nat → Nat → Prog K V α → (α → Nat → Prop) → Prop
  | 0, _, _, _ => True
  | _ + 1, b, .ret x, Q => Q x b
  | _ + 1, _, .panic _, _ => True
  | n + 1, b, .act a k, Q => a.moves ≤ b ∧ ∀ r, BdN n (b - a.moves) (k r) Q
  | n + 1, b, .iter body s k, Q => BdN n b (Prog.unfoldIter body s k) Q

def Bd {α : Type} (b : Nat) (p : Prog K V α) (Q : α → Nat → Prop) : Prop := ∀ n, BdN n b p Q

variable {C : Cfg K} {α β γ : Type} {b : Nat}

theorem BdN.zero {p : Prog K V α} {Q : α → Nat → Prop} : BdN 0 b p Q := by cases p <;> trivial

theorem BdN.mono {n m : Nat} {p : Prog K V α} {Q Q' : α → Nat → Prop} (h : BdN n b p Q) (hm : m ≤ n) (hQ : ∀ x b', b' ≤ b → Q x b' → Q' x b') :
    BdN m b p Q' := by
  induction m generalizing n p b with
  | zero => exact .zero
  | succ m ih =>
    obtain ⟨n, rfl⟩ : ∃ n', n = n' + 1 := ⟨n - 1, by omega⟩
    cases p with
    | ret x => exact hQ _ _ (Nat.le_refl _) h
    | panic w => trivial
    | act a k => exact ⟨h.1, fun r => ih (h.2 r) (by omega) fun x b' hb => hQ x b' (by omega)⟩
    | iter body s k => exact ih (n := n) h (by omega) hQ

theorem BdN.bind {n : Nat} {p : Prog K V α} {g : α → Prog K V γ} {Q : γ → Nat → Prop}
    (h : BdN n b p fun x b' => ∀ m, m ≤ n → BdN m b' (g x) Q) : BdN n b (p.bind g) Q := by
  induction n generalizing p b with
  | zero => exact .zero
  | succ n ih =>
    cases p with
    | ret x => exact h _ (Nat.le_refl _)
    | panic w => trivial
    | act a k => exact ⟨h.1, fun r => ih ((h.2 r).mono (Nat.le_refl _) fun x b' _ h m hm => h m (by omega))⟩
    | iter body s k =>
      have h' : BdN n b (Prog.unfoldIter body s k) _ := h
      have := ih (h'.mono (Nat.le_refl _) fun x b' _ h m hm => h m (by omega))
      show BdN n b (Prog.unfoldIter body s fun x => (k x).bind g) Q
      unfold Prog.unfoldIter at this ⊢
      rw [Prog.bind_assoc] at this
      convert this using 2
      funext x
      cases x <;> rfl

namespace Bd

theorem mono {p : Prog K V α} {Q Q' : α → Nat → Prop} (h : Bd b p Q) (hQ : ∀ x b', b' ≤ b → Q x b' → Q' x b') : Bd b p Q' :=
  fun n => (h n).mono (Nat.le_refl _) hQ

theorem ret {x : α} {Q : α → Nat → Prop} (h : Q x b) : Bd b (pure x : Prog K V α) Q := fun n => by
  cases n with
  | zero => exact .zero
  | succ n => exact h

theorem ret' {x : α} {Q : α → Nat → Prop} (h : Q x b) : Bd b (.ret x : Prog K V α) Q := ret h

theorem panic {w : PanicReason} {Q : α → Nat → Prop} : Bd b (.panic w : Prog K V α) Q := fun n => by cases n <;> trivial

theorem bind {p : Prog K V α} {g : α → Prog K V γ} {Q : γ → Nat → Prop} (h : Bd b p fun x b' => Bd b' (g x) Q) : Bd b (p >>= g) Q :=
  fun n => BdN.bind ((h n).mono (Nat.le_refl _) fun x b' _ h m _ => h m)

theorem loop {σ : Type} {body : σ → Prog K V (σ ⊕ β)} {s : σ} {Q : β → Nat → Prop} (I : σ → Nat → Prop) (hI : I s b)
    (h : ∀ s b, I s b → Bd b (body s) fun y b' => Sum.elim (fun s => I s b') (fun x => Q x b') y) : Bd b (Prog.loop s body) Q := by
  intro n
  induction n using Nat.strongRecOn generalizing s b with
  | _ n ih =>
    cases n with
    | zero => exact .zero
    | succ n =>
      show BdN n b (Prog.unfoldIter body s .ret) Q
      unfold Prog.unfoldIter
      refine BdN.bind ((h s b hI n).mono (Nat.le_refl _) fun x b' _ hx m hm => ?_)
      cases x with
      | inl s' => exact ih m (by omega) hx
      | inr y => exact Bd.ret' (K := K) (V := V) (Q := Q) hx m

theorem act {a : Act K V β} {Q : β → Nat → Prop} (h : a.moves ≤ b) (hQ : ∀ r, Q r (b - a.moves)) : Bd b (.prim a) Q := by
  intro n
  cases n with
  | zero => exact .zero
  | succ n => exact ⟨h, fun r => Bd.ret' (K := K) (V := V) (hQ r) n⟩

end Bd

/-- The program moves no slot. -/
def Still {α : Type} (p : Prog K V α) : Prop := Bd 0 p fun _ _ => True

theorem BdN.still {n : Nat} {p : Prog K V α} (h : BdN n 0 p fun _ _ => True) : BdN n b p fun _ b' => b' = b := by
  induction n generalizing p with
  | zero => exact .zero
  | succ n ih =>
    cases p with
    | ret x => exact rfl
    | panic w => trivial
    | act a k =>
      have h1 : a.moves = 0 := Nat.le_zero.1 h.1
      refine ⟨by omega, fun r => ?_⟩
      have := h.2 r
      rw [h1] at this ⊢
      exact ih this
    | iter body s k => exact ih (p := Prog.unfoldIter body s k) h

/-- A program that moves no slot leaves the budget alone. -/
theorem Still.bd {p : Prog K V α} {Q : α → Nat → Prop} (h : Still p) (hQ : ∀ x, Q x b) : Bd b p Q :=
  fun n => (h n).still.mono (Nat.le_refl _) fun x b' _ hb => by subst hb; exact hQ x

namespace Still

theorem ret {x : α} : Still (pure x : Prog K V α) := Bd.ret trivial
theorem ret' {x : α} : Still (.ret x : Prog K V α) := Bd.ret trivial
theorem panic {w : PanicReason} : Still (.panic w : Prog K V α) := Bd.panic
theorem bind {p : Prog K V α} {g : α → Prog K V γ} (h : Still p) (hg : ∀ x, Still (g x)) : Still (p >>= g) :=
  Bd.bind (h.mono fun x b' hb _ => by rw [Nat.le_zero.1 hb]; exact hg x)
theorem loop {σ : Type} {body : σ → Prog K V (σ ⊕ β)} {s : σ} (h : ∀ s, Still (body s)) : Still (Prog.loop s body) :=
  Bd.loop (fun _ b => b = 0) rfl fun s b hb => by
    subst hb
    exact (h s).mono fun x b' hb _ => by cases x <;> first | exact Nat.le_zero.1 hb | trivial
theorem act {a : Act K V β} (h : a.moves = 0) : Still (.prim a) := Bd.act (by omega) fun _ => trivial

end Still

macro "still_step" : tactic => `(tactic| first
  | with_reducible exact Still.ret
  | with_reducible exact Still.ret'
  | with_reducible exact Still.panic
  | with_reducible refine Still.bind ?_ fun _ => ?_
  | with_reducible refine Still.loop fun _ => ?_
  | (with_reducible refine Still.act ?_); exact rfl
  | split
  | dsimp only)

syntax "still" "[" term,* "]" : tactic
macro_rules
  | `(tactic| still [$ts,*]) => do
    let ts := ts.getElems
    `(tactic| repeat' first $[| with_reducible exact $ts]* | still_step)

macro "still" : tactic => `(tactic| repeat' still_step)

variable {T next : Table}

theorem nomove_len : Still (V := V) (len C) := by unfold len; still
theorem nomove_init {c : Option Nat} : Still (K := K) (V := V) (initTable C c) := by unfold initTable; still

theorem nomove_allocLocked {c : Option Nat} : Still (V := V) (allocNextLocked C c T) := by
  unfold allocNextLocked; still [nomove_len]

theorem nomove_alloc {c : Option Nat} : Still (V := V) (getOrAllocNext C c T) := by
  unfold getOrAllocNext; still [nomove_allocLocked]

theorem nomove_promote {n : Nat} : Still (K := K) (V := V) (tryPromote T next n) := by unfold tryPromote; still

theorem nomove_insertCopy {e : Entry K V} {s : Slot K V} {b : Bool} : Still (insertCopy C e s b T) := by
  unfold insertCopy; still [nomove_alloc]

theorem nomove_waitCopied {i : Nat} : Still (V := V) (waitCopied C i T) := by unfold waitCopied; still

theorem nomove_defer {e : Entry K V} {s : Slot K V} : Still (deferRetire C e s T) := by unfold deferRetire; still

theorem nomove_invoke {I O : Type} {f : Closure I O} {st : f.Tr} {i : I} : Still (K := K) (V := V) (f.invoke st i) := by
  unfold Closure.invoke; still

/-- One slot. -/
theorem bd_copyAt {i : Nat} (hb : 1 ≤ b) {Q : Unit → Nat → Prop} (hQ : Q () (b - 1)) : Bd (V := V) b (copyAtIncremental C i T next) Q := by
  unfold copyAtIncremental
  refine .bind (.act hb fun s => ?_)
  refine Still.bd ?_ fun _ => hQ
  still [nomove_insertCopy]

/-- One chunk. -/
theorem bd_copyChunk {a n : Nat} (hb : n ≤ b) : Bd (V := V) b (copyChunkIncremental C T next a n) fun _ _ => True := by
  unfold copyChunkIncremental
  refine .loop (fun j b => n ≤ j + b) (by omega) fun j b hb => ?_
  split
  · split
    · refine .bind (bd_copyAt (by omega) ?_)
      refine .ret ?_
      show n ≤ j + 1 + (b - 1)
      omega
    · exact .ret trivial
  · exact .ret trivial

/-- Helping without having to finish. -/
theorem bd_helpIncremental {n : Nat} (hb : n ≤ b) : Bd (V := V) b (helpCopyIncremental C n false) fun _ _ => True := by
  unfold helpCopyIncremental
  refine .bind (.act (Nat.zero_le _) fun x => ?_)
  split
  · exact .ret trivial
  rename_i T
  refine .bind (.act (Nat.zero_le _) fun x => ?_)
  split
  · exact .ret trivial
  rename_i next
  refine .bind (.loop (fun _ b => n ≤ b) hb fun _ b hb => ?_)
  refine .bind (nomove_promote.bd fun p => ?_)
  split
  · exact .ret (Bd.ret trivial)
  refine .bind (Bd.mono (Q := fun y _ => ∀ n, y ≠ CopyOut.retry n) ?_ fun y b' _ hy => ?_)
  · refine .loop (fun _ b => n ≤ b) hb fun _ b hb => ?_
    refine .bind (.act (Nat.zero_le _) fun x => ?_)
    split
    · exact .ret fun n h => by cases h
    refine .bind (.act (Nat.zero_le _) fun x => ?_)
    refine .bind ((bd_copyChunk (b := b) hb).mono fun x b' _ _ => ?_)
    refine .bind (nomove_promote.bd fun p => ?_)
    rw [if_pos (Or.inr rfl)]
    exact .ret fun n h => by cases h
  · cases y with
    | done n => exact .ret (Bd.ret trivial)
    | retry n => exact absurd rfl (hy n)
    | brk => exact .ret (Bd.ret trivial)

theorem bd_help {n : Nat} (hc : C.mode = .incremental n) (hb : n ≤ b) : Bd (V := V) b (helpCopy C false T) fun _ _ => True := by
  unfold helpCopy
  split
  · rename_i h; rw [hc] at h; cases h
  rename_i m h
  obtain rfl : m = n := by rw [hc] at h; cases h; rfl
  refine .bind ((bd_helpIncremental hb).mono fun x b' _ _ => ?_)
  refine Still.bd ?_ fun _ => trivial
  still

section ops

variable [DecidableEq K] {k : K} {v : V} {n : Nat}

theorem nomove_get : Still (V := V) (get C k) := by unfold get getProbe; still

theorem nomove_insertAt {i m : Nat} : Still (insertAt C i m k v T) := by unfold insertAt; still

theorem nomove_updNew {i : Nat} {e : Entry K V} {s : Slot K V} : Still (updateAtNew C i e s k v T) := by
  unfold updateAtNew; still [nomove_defer]

theorem nomove_updTomb {i : Nat} {e : Entry K V} {s : Slot K V} : Still (updateAtTomb C i e s T) := by
  unfold updateAtTomb; still [nomove_defer]

theorem nomove_insertProbe {b : Bool} : Still (insertProbe C k v b T) := by
  unfold insertProbe insertFound insertSlow; still [nomove_insertAt, nomove_updNew]

theorem nomove_removeProbe {f : Closure (K × V) Bool} {st : f.Tr} : Still (removeProbe C k f st T) := by
  unfold removeProbe removeLoop; still [nomove_updTomb, nomove_invoke]

/-- Preparing a retry: one chunk if helping, nothing otherwise. -/
theorem bd_retryIns {i : Option Nat} {h : Bool} (hc : C.mode = .incremental n) (hb : h = true → n ≤ b) :
    Bd (V := V) b (prepareRetryInsert C i h T) fun _ _ => True := by
  unfold prepareRetryInsert
  refine .bind (nomove_alloc.bd fun x => ?_)
  rw [hc]
  refine .bind (Q := fun _ _ => True) ?_
  have hk : ∀ (x : Table) b', Bd (V := V) b' (match i with
      | some i => do
        waitCopied C i T
        return x
      | none => return x) fun _ _ => True := fun x b' => Still.bd (by still [nomove_waitCopied]) fun _ => trivial
  cases h with
  | true => exact (bd_help hc (hb rfl)).mono fun x b' _ _ => hk x b'
  | false => exact .ret (hk _ _)

theorem bd_retry {i : Option Nat} {h : Bool} (hc : C.mode = .incremental n) (hb : h = true → n ≤ b) :
    Bd (V := V) b (prepareRetry C i h T) fun _ _ => True := by
  unfold prepareRetry
  rw [hc]
  refine .bind (.act (Nat.zero_le _) fun x => ?_)
  split
  · exact .ret trivial
  rename_i next
  have hk : ∀ b', Bd (V := V) b' (match i with
      | some i => do
        waitCopied C i T
        return some next
      | none => return some next) fun _ _ => True := fun b' => Still.bd (by still [nomove_waitCopied]) fun _ => trivial
  cases h with
  | true => exact .bind ((bd_help hc (hb rfl)).mono fun x b' _ _ => hk b')
  | false => exact hk _

theorem bd_insert {r : Bool} (hc : C.mode = .incremental n) (hb : n ≤ b) : Bd b (insert C k v r) fun _ _ => True := by
  unfold insert
  refine .bind (Bd.mono (Q := fun _ _ => True) ?_ fun x b' _ _ => ?_)
  · unfold insertInner
    refine .bind (Still.bd (by still [nomove_init]) fun T => ?_)
    refine .loop (fun s b => s.2 = true → n ≤ b) (fun _ => hb) fun s b hs => ?_
    obtain ⟨T, h⟩ := s
    refine .bind (nomove_insertProbe.bd fun y => ?_)
    cases y with
    | done r => exact .ret trivial
    | retry i =>
      refine .bind ((bd_retryIns hc hs).mono fun x b' _ _ => ?_)
      exact .ret fun h => by cases h
  · refine Still.bd ?_ fun _ => trivial
    still

theorem bd_removeIf {f : Closure (K × V) Bool} (hc : C.mode = .incremental n) (hb : n ≤ b) : Bd b (removeIf C k f) fun _ _ => True := by
  unfold removeIf
  refine .bind (.act (Nat.zero_le _) fun x => ?_)
  split
  · exact .ret trivial
  refine .loop (fun s b => s.2.1 = true → n ≤ b) (fun _ => hb) fun s b hs => ?_
  obtain ⟨T, h, st⟩ := s
  refine .bind (nomove_removeProbe.bd fun y => ?_)
  obtain ⟨st, y⟩ := y
  cases y with
  | done r => exact .ret trivial
  | retry i =>
    refine .bind ((bd_retry hc hs).mono fun x b' _ _ => ?_)
    cases x with
    | none => exact .ret trivial
    | some n => exact .ret fun h => by cases h

theorem nomove_next {R : Type} {f : Closure (Option (K × V)) (Operation V R)} {c : CState K V R f} {e : Option (Entry K V)} :
    Still (c.next e) := by
  unfold CState.next; still [nomove_invoke]

theorem nomove_restore {R : Type} {f : Closure (Option (K × V)) (Operation V R)} {c : CState K V R f} {o : Option (Entry K V)} {y : Operation V R} :
    Still (c.restore o y) := by
  unfold CState.restore; still

theorem nomove_computeFailure {R : Type} {f : Closure (Option (K × V)) (Operation V R)} {p : Probe} {c : CState K V R f} {s : EStat K V} :
    Still (computeFailure T p c s) := by
  unfold computeFailure; still [nomove_next, nomove_restore]

theorem nomove_computeProbe {R : Type} {f : Closure (Option (K × V)) (Operation V R)} {c : CState K V R f} :
    Still (computeProbe C k T c) := by
  unfold computeProbe computeFound computeLoop
  still [nomove_next, nomove_restore, nomove_insertAt, nomove_computeFailure, nomove_updNew, nomove_updTomb]

theorem nomove_computeInit {R : Type} {f : Closure (Option (K × V)) (Operation V R)} {c : CState K V R f} :
    Still (computeInit C c) := by
  unfold computeInit; still [nomove_next, nomove_restore, nomove_init]

/-- `compute` never helps in incremental mode. -/
theorem nomove_compute {R : Type} {f : Closure (Option (K × V)) (Operation V R)} (hc : C.mode = .incremental n) : Still (compute C k f) := by
  have h1 : ∀ {T : Table} {i : Option Nat}, Still (V := V) (prepareRetry C i false T) := bd_retry hc fun h => by cases h
  have h2 : ∀ {T : Table} {i : Option Nat}, Still (V := V) (prepareRetryInsert C i false T) := bd_retryIns hc fun h => by cases h
  unfold compute
  refine .bind nomove_computeInit fun x => ?_
  split
  · exact .ret
  refine Bd.loop (fun s b => s.2.1 = false ∧ b = 0) ⟨rfl, rfl⟩ fun s b hs => ?_
  obtain ⟨T, h, c⟩ := s
  obtain ⟨rfl, rfl⟩ : h = false ∧ b = 0 := hs
  refine .bind (nomove_computeProbe.bd fun y => ?_)
  obtain ⟨c, y⟩ := y
  cases y with
  | done r => exact .ret trivial
  | retry i =>
    refine .bind (h1.bd fun x => ?_)
    cases x with
    | some n => exact .ret ⟨rfl, rfl⟩
    | none =>
      refine .bind (nomove_next.bd fun x => ?_)
      obtain ⟨c, op⟩ := x
      cases op with
      | insert v => exact .bind (h2.bd fun x => .bind (nomove_restore.bd fun c => .ret ⟨rfl, rfl⟩))
      | abort a => exact .ret trivial
      | remove => exact .panic

theorem nomove_tryInsertWith {f : Closure Unit V} (hc : C.mode = .incremental n) : Still (tryInsertWith C k f) := by
  unfold tryInsertWith; still [nomove_compute hc]

/-- Every operation with a bound. -/
theorem bd_call {c : Call K V} (hc : C.mode = .incremental n) (hb : c.moveBound n = some b) : Bd b (c.prog C) fun _ _ => True := by
  have hs : ∀ {α : Type} {p : Prog K V α}, Still p → Bd b p fun _ _ => True := fun h => h.bd fun _ => trivial
  have ht : n ≤ b → ∀ {k : K} {v : V}, Bd b (Call.tryInsertProg C k v) fun _ _ => True := by
    intro hb k v
    unfold Call.tryInsertProg
    refine .bind ((bd_insert hc hb).mono fun r b' _ _ => ?_)
    refine Still.bd ?_ fun _ => trivial
    still
  cases c with
  | get => exact hs nomove_get
  | containsKey => exact hs (.bind nomove_get fun _ => .ret)
  | insert =>
    cases hb
    refine .bind ((bd_insert hc (Nat.le_refl _)).mono fun r b' _ _ => ?_)
    cases r with
    | inserted => exact .ret trivial
    | replaced => exact .ret trivial
    | error => exact .panic
  | tryInsert => cases hb; exact ht (Nat.le_refl _)
  | tryInsertWith => exact hs (nomove_tryInsertWith hc)
  | getOrInsert =>
    cases hb
    refine .bind ((ht (Nat.le_refl _)).mono fun r b' _ _ => ?_)
    cases r <;> exact .ret trivial
  | getOrInsertWith => exact hs (by
      show Still (getOrInsertWith C _ _)
      unfold getOrInsertWith; still [nomove_tryInsertWith hc])
  | update => exact hs (by
      show Still (update C _ _)
      unfold update; still [nomove_compute hc])
  | updateOrInsert => exact hs (by
      show Still (updateOrInsertWith C _ _ _)
      unfold updateOrInsertWith; still [nomove_compute hc])
  | updateOrInsertWith => exact hs (by
      show Still (updateOrInsertWith C _ _ _)
      unfold updateOrInsertWith; still [nomove_compute hc])
  | compute => exact hs (nomove_compute hc)
  | remove =>
    cases hb
    show Bd _ (remove C _) _
    unfold remove
    refine .bind ((bd_removeIf hc (Nat.le_refl _)).mono fun r b' _ _ => ?_)
    refine Still.bd ?_ fun _ => trivial
    still
  | removeIf => cases hb; exact bd_removeIf hc (Nat.le_refl _)
  | clear => cases hb
  | retain => cases hb
  | iter => cases hb
  | iterTake => cases hb
  | len => exact hs nomove_len
  | isEmpty => exact hs (.bind nomove_len fun _ => .ret)
  | reserve => cases hb

end ops

end Papaya
