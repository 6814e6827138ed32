import Verif.Model.Pool
import Verif.Model.Wrap
import Verif.Proof.Park

/-! # Chunks are claimed only after a look at the counter

`Arm C p`: in the program `p`, every `fetch_add` on the claim counter of a table immediately follows a load of this counter that
returned less than the number of slots to be copied, and it adds the size of a chunk. -/

set_option linter.unusedSectionVars false
set_option linter.unusedVariables false

namespace Papaya

variable {K V : Type}

/-- How many slots are claimed at once — src/raw/mod.rs:2030 (blocking), 1998 (incremental). -/
def Cfg.chunk (C : Cfg K) (len : Nat) : Nat :=
  match C.mode with
  | .blocking => min len 4096
  | .incremental n => n

/-- The largest chunk. -/
def Cfg.maxChunk (C : Cfg K) : Nat :=
  match C.mode with
  | .blocking => 4096
  | .incremental n => n

theorem Cfg.chunk_le (C : Cfg K) (len : Nat) : C.chunk len ≤ C.maxChunk := by
  unfold Cfg.chunk Cfg.maxChunk
  cases C.mode with
  | blocking => exact Nat.min_le_right _ _
  | incremental n => exact Nat.le_refl _

/-- The action may follow a step after which `f` is known: the claim counter of a table was just seen to have a certain value. -/
def Act.armedBy (C : Cfg K) (f : Option (Nat × Nat)) : {β : Type} → Act K V β → Prop
  | _, .addClaim U m S => m = C.chunk S.len ∧ ∃ x, f = some (U, x) ∧ x < S.len
  | _, _ => True

/-- What is known after the action returned `r`. -/
def Act.arms : {β : Type} → Act K V β → β → Option (Nat × Nat)
  | _, .loadClaim U, x => some (U, x)
  | _, _, _ => none

def ArmN (C : Cfg K) {α : Type} : Option (Nat × Nat) → Nat → Prog K V α → Prop
  | _, 0, _ => True
  | _, _ + 1, .ret _ => True
  | _, _ + 1, .panic _ => True
  | f, n + 1, .act a k => a.armedBy C f ∧ ∀ r, ArmN C (a.arms r) n (k r)
  | _, n + 1, .iter body s k => ArmN C none n (Prog.unfoldIter body s k)

/-- For any number of steps. -/
def ArmF (C : Cfg K) {α : Type} (f : Option (Nat × Nat)) (p : Prog K V α) : Prop := ∀ n, ArmN C f n p

/-- Without knowledge. -/
def Arm (C : Cfg K) {α : Type} (p : Prog K V α) : Prop := ArmF C none p

variable {C : Cfg K} {α β γ : Type}

theorem ArmN.mono {f : Option (Nat × Nat)} {n m : Nat} {p : Prog K V α} (h : ArmN C f n p) (hm : m ≤ n) : ArmN C f m p := by
  induction m generalizing n p f with
  | zero => cases p <;> trivial
  | succ m ih =>
    obtain ⟨n, rfl⟩ : ∃ n', n = n' + 1 := ⟨n - 1, by omega⟩
    cases p with
    | ret x => trivial
    | panic w => trivial
    | act a k => exact ⟨h.1, fun r => ih (h.2 r) (by omega)⟩
    | iter body s k => exact ih (n := n) h (by omega)

theorem ArmN.any {f : Option (Nat × Nat)} {n : Nat} {p : Prog K V α} (h : ArmN C none n p) : ArmN C f n p := by
  cases n with
  | zero => cases p <;> trivial
  | succ n =>
    cases p with
    | ret x => trivial
    | panic w => trivial
    | act a k =>
      refine ⟨?_, h.2⟩
      have h1 := h.1
      cases a <;> try trivial
      obtain ⟨_, x, h2, _⟩ := h1
      cases h2
    | iter body s k => exact h

theorem ArmN.bind {f : Option (Nat × Nat)} {n : Nat} {p : Prog K V α} {g : α → Prog K V γ} (h : ArmN C f n p)
    (hg : ∀ x m, m ≤ n → ArmN C none m (g x)) : ArmN C f n (p.bind g) := by
  induction n generalizing p f with
  | zero => cases p.bind g <;> trivial
  | succ n ih =>
    cases p with
    | ret x => exact (hg x _ (Nat.le_refl _)).any
    | panic w => trivial
    | act a k => exact ⟨h.1, fun r => ih (h.2 r) fun x m hm => hg x m (by omega)⟩
    | iter body s k =>
      have h' : ArmN C none n (Prog.unfoldIter body s k) := h
      have := ih h' fun x m hm => hg x m (by omega)
      show ArmN C none n (Prog.unfoldIter body s fun x => (k x).bind g)
      unfold Prog.unfoldIter at this ⊢
      rw [Prog.bind_assoc] at this
      convert this using 2
      funext x
      cases x <;> rfl

namespace Arm

theorem ret {x : α} : Arm C (K := K) (V := V) (pure x) := fun n => by cases n <;> trivial
theorem ret' {x : α} : Arm C (K := K) (V := V) (.ret x) := fun n => by cases n <;> trivial
theorem panic {w : PanicReason} : Arm C (K := K) (V := V) (α := α) (.panic w) := fun n => by cases n <;> trivial

theorem bind {p : Prog K V α} {g : α → Prog K V γ} (h : Arm C p) (hg : ∀ x, Arm C (g x)) : Arm C (p >>= g) :=
  fun n => (h n).bind fun x m _ => hg x m

theorem loop {σ : Type} {body : σ → Prog K V (σ ⊕ β)} {s : σ} (h : ∀ s, Arm C (body s)) : Arm C (Prog.loop s body) := by
  intro n
  induction n generalizing s with
  | zero => trivial
  | succ n ih =>
    show ArmN C none n (Prog.unfoldIter body s .ret)
    unfold Prog.unfoldIter
    refine (h s n).bind fun x m hm => ?_
    cases x with
    | inl s' => exact (ih (s := s')).mono hm
    | inr b => cases m <;> trivial

theorem act {a : Act K V β} (h : a.armedBy C none) : Arm C (.prim a) := by
  intro n
  cases n with
  | zero => trivial
  | succ n => exact ⟨h, fun r => by cases n <;> trivial⟩

/-- A chunk is claimed. -/
theorem claim {U : Nat} {T : Table} {g : Prog K V γ} {h : Nat → Prog K V γ} {m : Nat} (hm : m = C.chunk T.len) (h1 : Arm C g) (h2 : ∀ x, Arm C (h x)) :
    Arm C (do if (← A.loadClaim U) ≥ T.len then g else let a ← A.addClaim U m T; h a) := by
  intro n
  cases n with
  | zero => trivial
  | succ n =>
    refine ⟨trivial, fun (r : Nat) => ?_⟩
    show ArmN C (some (U, r)) n (if r ≥ T.len then g else _)
    split
    · exact (h1 n).any
    · rename_i hr
      cases n with
      | zero => trivial
      | succ n => exact ⟨⟨hm, r, rfl, Nat.not_le.1 hr⟩, fun x => h2 x n⟩

end Arm

/-- Programs without claims. -/
macro "arm_step" : tactic => `(tactic| first
  | with_reducible exact Arm.ret
  | with_reducible exact Arm.ret'
  | with_reducible exact Arm.panic
  | with_reducible refine Arm.bind ?_ fun _ => ?_
  | with_reducible refine Arm.loop fun _ => ?_
  | (with_reducible refine Arm.act ?_); exact True.intro
  | split
  | dsimp only)

syntax "arm" "[" term,* "]" : tactic
macro_rules
  | `(tactic| arm [$ts,*]) => do
    let ts := ts.getElems
    `(tactic| repeat' first $[| with_reducible exact $ts]* | arm_step)

macro "arm" : tactic => `(tactic| repeat' arm_step)

variable {T next : Table}

theorem arm_len : Arm C (V := V) (len C) := by unfold len; arm
theorem arm_init {c : Option Nat} : Arm C (V := V) (initTable C c) := by unfold initTable; arm

theorem arm_allocLocked {c : Option Nat} : Arm C (V := V) (allocNextLocked C c T) := by
  unfold allocNextLocked; arm [arm_len]

theorem arm_alloc {c : Option Nat} : Arm C (V := V) (getOrAllocNext C c T) := by
  unfold getOrAllocNext; arm [arm_allocLocked]

theorem arm_promote {n : Nat} : Arm C (V := V) (tryPromote T next n) := by unfold tryPromote; arm

theorem arm_insertCopy {e : Entry K V} {s : Slot K V} {b : Bool} : Arm C (insertCopy C e s b T) := by
  unfold insertCopy; arm [arm_alloc]

theorem arm_copyAtBlocking {i : Nat} : Arm C (V := V) (copyAtBlocking C i T next) := by
  unfold copyAtBlocking; arm [arm_insertCopy]

theorem arm_copyAtIncremental {i : Nat} : Arm C (V := V) (copyAtIncremental C i T next) := by
  unfold copyAtIncremental; arm [arm_insertCopy]

theorem arm_copyChunkBlocking {a n : Nat} : Arm C (V := V) (copyChunkBlocking C T next a n) := by
  unfold copyChunkBlocking; arm [arm_copyAtBlocking]

theorem arm_copyChunkIncremental {a n : Nat} : Arm C (V := V) (copyChunkIncremental C T next a n) := by
  unfold copyChunkIncremental; arm [arm_copyAtIncremental]

theorem arm_helpBlocking (hb : C.mode = .blocking) : Arm C (V := V) (helpCopyBlocking C T) := by
  have hm : min T.len 4096 = C.chunk T.len := by unfold Cfg.chunk; rw [hb]
  unfold helpCopyBlocking
  refine .bind (.act trivial) fun x => ?_
  split
  · exact .panic
  refine .loop fun next => ?_
  refine .bind (by arm [arm_promote, arm_alloc, arm_copyChunkBlocking]) fun next => ?_
  refine .bind arm_promote fun b => ?_
  split
  · exact .ret
  refine .bind (.loop fun _ => .claim hm .ret fun x => by arm [arm_promote, arm_alloc, arm_copyChunkBlocking]) fun out => ?_
  arm [arm_promote, arm_alloc, arm_copyChunkBlocking]

theorem arm_helpIncremental {n : Nat} {b : Bool} (hi : C.mode = .incremental n) : Arm C (V := V) (helpCopyIncremental C n b) := by
  have hm : ∀ m, n = C.chunk m := fun m => by unfold Cfg.chunk; rw [hi]
  unfold helpCopyIncremental
  refine .bind (.act trivial) fun x => ?_
  split
  · exact .ret
  refine .bind (.act trivial) fun x => ?_
  split
  · exact .ret
  refine .bind (.loop fun _ => ?_) fun _ => .ret
  refine .bind arm_promote fun b => ?_
  split
  · exact .ret
  refine .bind (.loop fun _ => .claim (hm _) .ret fun x => by arm [arm_promote, arm_alloc, arm_copyChunkIncremental]) fun out => ?_
  arm [arm_promote, arm_alloc, arm_copyChunkIncremental]

theorem arm_help {b : Bool} : Arm C (V := V) (helpCopy C b T) := by
  unfold helpCopy
  split
  · rename_i h; exact arm_helpBlocking h
  · rename_i h
    refine .bind (arm_helpIncremental h) fun _ => ?_
    arm

theorem arm_linearize : Arm C (V := V) (linearize C T) := by
  unfold linearize; arm [arm_help]

theorem arm_waitCopied {i : Nat} : Arm C (V := V) (waitCopied C i T) := by unfold waitCopied; arm

theorem arm_defer {e : Entry K V} {s : Slot K V} : Arm C (deferRetire C e s T) := by unfold deferRetire; arm

theorem arm_invoke {I O : Type} {f : Closure I O} {st : f.Tr} {i : I} : Arm C (K := K) (V := V) (f.invoke st i) := by
  unfold Closure.invoke; arm

section ops

variable [DecidableEq K] {k : K} {v : V}

theorem arm_get : Arm C (V := V) (get C k) := by unfold get getProbe; arm

theorem arm_insertAt {i m : Nat} : Arm C (insertAt C i m k v T) := by unfold insertAt; arm

theorem arm_updNew {i : Nat} {e : Entry K V} {s : Slot K V} : Arm C (updateAtNew C i e s k v T) := by
  unfold updateAtNew; arm [arm_defer]

theorem arm_updTomb {i : Nat} {e : Entry K V} {s : Slot K V} : Arm C (updateAtTomb C i e s T) := by
  unfold updateAtTomb; arm [arm_defer]

theorem arm_retryIns {i : Option Nat} {b : Bool} : Arm C (V := V) (prepareRetryInsert C i b T) := by
  unfold prepareRetryInsert; arm [arm_alloc, arm_help, arm_waitCopied]

theorem arm_retry {i : Option Nat} {b : Bool} : Arm C (V := V) (prepareRetry C i b T) := by
  unfold prepareRetry; arm [arm_help, arm_waitCopied]

theorem arm_insert {b : Bool} : Arm C (insert C k v b) := by
  unfold insert insertInner insertProbe insertFound insertSlow; arm [arm_retryIns, arm_insertAt, arm_updNew, arm_init]

theorem arm_removeIf {f : Closure (K × V) Bool} : Arm C (removeIf C k f) := by
  unfold removeIf removeProbe removeLoop; arm [arm_retry, arm_updTomb, arm_invoke]

theorem arm_remove : Arm C (V := V) (remove C k) := by
  unfold remove; arm [arm_removeIf]

theorem arm_next {R : Type} {f : Closure (Option (K × V)) (Operation V R)} {c : CState K V R f} {e : Option (Entry K V)} : Arm C (c.next e) := by
  unfold CState.next; arm [arm_invoke]

theorem arm_restore {R : Type} {f : Closure (Option (K × V)) (Operation V R)} {c : CState K V R f} {o : Option (Entry K V)} {y : Operation V R} :
    Arm C (c.restore o y) := by
  unfold CState.restore; arm

theorem arm_computeFailure {R : Type} {f : Closure (Option (K × V)) (Operation V R)} {p : Probe} {c : CState K V R f} {s : EStat K V} :
    Arm C (computeFailure T p c s) := by
  unfold computeFailure; arm [arm_next, arm_restore]

theorem arm_computeLoop {R : Type} {f : Closure (Option (K × V)) (Operation V R)} {p : Probe} {c : CState K V R f} {e : Entry K V} {s : Slot K V} :
    Arm C (computeLoop C k T p c e s) := by
  unfold computeLoop; arm [arm_next, arm_restore, arm_computeFailure, arm_updNew, arm_updTomb]

theorem arm_computeFound {R : Type} {f : Closure (Option (K × V)) (Operation V R)} {p : Probe} {c : CState K V R f} {e : Entry K V} {s : Slot K V} :
    Arm C (computeFound C k T p c e s) := by
  unfold computeFound; arm [arm_computeLoop]

theorem arm_computeProbe {R : Type} {f : Closure (Option (K × V)) (Operation V R)} {c : CState K V R f} :
    Arm C (computeProbe C k T c) := by
  unfold computeProbe; arm [arm_computeFound, arm_next, arm_restore, arm_insertAt]

theorem arm_computeInit {R : Type} {f : Closure (Option (K × V)) (Operation V R)} {c : CState K V R f} :
    Arm C (computeInit C c) := by
  unfold computeInit; arm [arm_next, arm_restore, arm_init]

theorem arm_compute {R : Type} {f : Closure (Option (K × V)) (Operation V R)} : Arm C (compute C k f) := by
  unfold compute; arm [arm_computeInit, arm_computeProbe, arm_retry, arm_retryIns, arm_next, arm_restore]

theorem arm_tryInsertWith {f : Closure Unit V} : Arm C (tryInsertWith C k f) := by
  unfold tryInsertWith; arm [arm_compute]

theorem arm_getOrInsertWith {f : Closure Unit V} : Arm C (getOrInsertWith C k f) := by
  unfold getOrInsertWith; arm [arm_tryInsertWith]

theorem arm_update {f : Closure V V} : Arm C (update C k f) := by
  unfold update; arm [arm_compute]

theorem arm_updateOrInsertWith {u : Closure V V} {f : Closure Unit V} : Arm C (updateOrInsertWith C k u f) := by
  unfold updateOrInsertWith; arm [arm_compute]

theorem arm_reserve {n : Nat} : Arm C (V := V) (reserve C n) := by
  unfold reserve; arm [arm_len, arm_alloc, arm_help, arm_init]

theorem arm_deleteLoop {f : Closure (K × V) Bool} {i : Nat} {st : f.Tr} {s : Slot K V} : Arm C (deleteLoop C f T i st s) := by
  unfold deleteLoop; arm [arm_invoke, arm_defer]

theorem arm_clear : Arm C (V := V) (clear C) := by
  unfold clear clearPass; arm [arm_deleteLoop, arm_linearize, arm_help]

theorem arm_retain {f : Closure (K × V) Bool} : Arm C (retain C f) := by
  unfold retain retainPass; arm [arm_deleteLoop, arm_linearize, arm_help]

theorem arm_iterUpTo {l : Option Nat} : Arm C (V := V) (iterUpTo C l) := by
  unfold iterUpTo; arm [arm_linearize]

/-- Every operation. -/
theorem arm_call {c : Call K V} : Arm C (c.prog C) := by
  have ht : ∀ {k : K} {v : V}, Arm C (Call.tryInsertProg C k v) := by
    intro k v; unfold Call.tryInsertProg; arm [arm_insert]
  cases c with
  | get => exact arm_get
  | containsKey => exact .bind arm_get fun _ => .ret
  | insert =>
    refine .bind arm_insert fun r => ?_
    cases r with
    | inserted => exact .ret
    | replaced => exact .ret
    | error => exact .panic
  | tryInsert => exact ht
  | tryInsertWith => exact arm_tryInsertWith
  | getOrInsert =>
    refine .bind ht fun r => ?_
    cases r <;> exact .ret
  | getOrInsertWith => exact arm_getOrInsertWith
  | update => exact arm_update
  | updateOrInsert => exact arm_updateOrInsertWith
  | updateOrInsertWith => exact arm_updateOrInsertWith
  | compute => exact arm_compute
  | remove => exact arm_remove
  | removeIf => exact arm_removeIf
  | clear => exact arm_clear
  | retain => exact arm_retain
  | iter => exact arm_iterUpTo
  | iterTake => exact arm_iterUpTo
  | len => exact arm_len
  | isEmpty => exact .bind arm_len fun _ => .ret
  | reserve => exact arm_reserve

end ops

end Papaya
