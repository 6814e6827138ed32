import Verif.Model.Counter

/-! # What a step does to the shards of the length counter

A structural property of programs, `Prog.Units q`: `q` changes the length counter by one at a time. -/

set_option linter.unusedSectionVars false
set_option linter.unusedVariables false

namespace Papaya

variable {K V : Type}

/-- The action changes the length by one, if at all. -/
def Act.unit : {β : Type} → Act K V β → Prop
  | _, .addCount d => d.natAbs ≤ 1
  | _, _ => True

def Prog.Units : {α : Type} → Prog K V α → Prop
  | _, .ret _ => True
  | _, .act a k => a.unit ∧ ∀ x, (k x).Units
  | _, .iter body s k => (∀ s, (body s).Units) ∧ ∀ b, (k b).Units
  | _, .panic _ => True

namespace Prog

theorem units_bind {α γ : Type} {q : Prog K V α} {g : α → Prog K V γ} (h : q.Units) (hg : ∀ a, (g a).Units) :
    (q.bind g).Units := by
  induction q with
  | ret a => exact hg a
  | panic r => exact h
  | act a k ih => exact ⟨h.1, fun x => ih x (h.2 x) hg⟩
  | iter body s k _ ih => exact ⟨h.1, fun b => ih b (h.2 b) hg⟩

theorem units_bind' {α γ : Type} {q : Prog K V α} {g : α → Prog K V γ} (h : q.Units) (hg : ∀ a, (g a).Units) :
    (q >>= g).Units := units_bind h hg

theorem units_loop {σ β : Type} {s : σ} {body : σ → Prog K V (σ ⊕ β)} (h : ∀ s, (body s).Units) :
    (Prog.loop s body).Units := ⟨h, fun _ => trivial⟩

theorem units_prim {β : Type} {a : Act K V β} (h : a.unit) : (Prog.prim a).Units := ⟨h, fun _ => trivial⟩

theorem Units.unfold {α β σ : Type} {body : σ → Prog K V (σ ⊕ β)} {s : σ} {k : β → Prog K V α} (h : (Prog.iter body s k).Units) :
    (unfoldIter body s k).Units :=
  units_bind (h.1 s) fun x => match x with
    | .inl s' => h
    | .inr b => h.2 b

end Prog

variable [DecidableEq K]

macro "units" : tactic => `(tactic| repeat' (first
  | exact trivial
  | solve_by_elim
  | exact Prog.units_prim trivial
  | exact Prog.units_prim (a := .addCount _) (by show Int.natAbs _ ≤ 1; decide)
  | refine Prog.units_bind' ?_ (fun _ => ?_) | refine Prog.units_bind ?_ (fun _ => ?_)
  | refine Prog.units_loop (fun _ => ?_) | split | (dsimp only)))

variable (C : Cfg K)

theorem units_initTable (cap : Option Nat) : (initTable C cap : Prog K V _).Units := by unfold initTable; units
theorem units_len : (len C : Prog K V _).Units := by unfold len; units
theorem units_allocNextLocked (cap : Option Nat) (T : Table) : (allocNextLocked C cap T : Prog K V _).Units := by
  have := @units_len K V _ C
  unfold allocNextLocked; units
theorem units_getOrAllocNext (cap : Option Nat) (T : Table) : (getOrAllocNext C cap T : Prog K V _).Units := by
  have := @units_allocNextLocked K V _ C
  unfold getOrAllocNext; units
theorem units_tryPromote (T next : Table) (n : Nat) : (tryPromote T next n : Prog K V _).Units := by
  unfold tryPromote; units
theorem units_deferRetire (e : Entry K V) (s : Slot K V) (T : Table) : (deferRetire C e s T).Units := by
  unfold deferRetire; units
theorem units_insertAt (i m : Nat) (k : K) (v : V) (T : Table) : (insertAt C i m k v T).Units := by
  unfold insertAt; units
theorem units_updateAtNew (i : Nat) (e : Entry K V) (s : Slot K V) (k : K) (v : V) (T : Table) : (updateAtNew C i e s k v T).Units := by
  have := @units_deferRetire K V _ C
  unfold updateAtNew; units
theorem units_updateAtTomb (i : Nat) (e : Entry K V) (s : Slot K V) (T : Table) : (updateAtTomb C i e s T).Units := by
  have := @units_deferRetire K V _ C
  unfold updateAtTomb; units
theorem units_waitCopied (i : Nat) (T : Table) : (waitCopied C i T : Prog K V _).Units := by
  unfold waitCopied; units
theorem units_insertCopy (e : Entry K V) (s : Slot K V) (resize : Bool) (T : Table) : (insertCopy C e s resize T).Units := by
  have := @units_getOrAllocNext K V _ C
  unfold insertCopy; units
theorem units_copyAtBlocking (i : Nat) (T next : Table) : (copyAtBlocking C i T next : Prog K V _).Units := by
  have := @units_insertCopy K V _ C
  unfold copyAtBlocking; units
theorem units_copyAtIncremental (i : Nat) (T next : Table) : (copyAtIncremental C i T next : Prog K V _).Units := by
  have := @units_insertCopy K V _ C
  unfold copyAtIncremental; units
theorem units_copyChunkBlocking (T next : Table) (a b : Nat) : (copyChunkBlocking C T next a b : Prog K V _).Units := by
  have := @units_copyAtBlocking K V _ C
  unfold copyChunkBlocking; units
theorem units_copyChunkIncremental (T next : Table) (a b : Nat) : (copyChunkIncremental C T next a b : Prog K V _).Units := by
  have := @units_copyAtIncremental K V _ C
  unfold copyChunkIncremental; units
theorem units_helpCopyBlocking (T : Table) : (helpCopyBlocking C T : Prog K V _).Units := by
  have := @units_copyChunkBlocking K V _ C
  have := @units_getOrAllocNext K V _ C
  have := @units_tryPromote K V _
  unfold helpCopyBlocking; units
theorem units_helpCopyIncremental (n : Nat) (b : Bool) : (helpCopyIncremental C n b : Prog K V _).Units := by
  have := @units_copyChunkIncremental K V _ C
  have := @units_getOrAllocNext K V _ C
  have := @units_tryPromote K V _
  unfold helpCopyIncremental; units
theorem units_helpCopy (all : Bool) (T : Table) : (helpCopy C all T : Prog K V _).Units := by
  have := @units_helpCopyBlocking K V _ C
  have := @units_helpCopyIncremental K V _ C
  unfold helpCopy; units
theorem units_prepareRetry (copying : Option Nat) (help : Bool) (T : Table) : (prepareRetry C copying help T : Prog K V _).Units := by
  have := @units_helpCopy K V _ C
  have := @units_waitCopied K V _ C
  unfold prepareRetry; units
theorem units_prepareRetryInsert (copying : Option Nat) (help : Bool) (T : Table) :
    (prepareRetryInsert C copying help T : Prog K V _).Units := by
  have := @units_helpCopy K V _ C
  have := @units_waitCopied K V _ C
  have := @units_getOrAllocNext K V _ C
  unfold prepareRetryInsert; units

variable {R : Type} {f : Closure (Option (K × V)) (Operation V R)} {g : Closure (K × V) Bool}

theorem units_invoke {I O : Type} {f : Closure I O} (st : f.Tr) (i : I) : (f.invoke st i : Prog K V _).Units := by
  unfold Closure.invoke; units
theorem units_linearize (T : Table) : (linearize C T : Prog K V _).Units := by
  have := @units_helpCopy K V _ C
  unfold linearize; units
theorem units_get (k : K) : (Papaya.get C k : Prog K V _).Units := by
  unfold Papaya.get; units
theorem units_insertSlow (i : Nat) (e : Entry K V) (s : Slot K V) (k : K) (v : V) (T : Table) : (insertSlow C i e s k v T).Units := by
  have := @units_updateAtNew K V _ C
  unfold insertSlow; units
theorem units_insertFound (k : K) (v : V) (b : Bool) (T : Table) (p : Probe) (e : Entry K V) (s : Slot K V) :
    (insertFound C k v b T p e s).Units := by
  have := @units_insertSlow K V _ C
  unfold insertFound; units
theorem units_insertProbe (k : K) (v : V) (b : Bool) (T : Table) : (insertProbe C k v b T).Units := by
  have := @units_insertFound K V _ C
  have := @units_insertAt K V _ C
  unfold insertProbe; units
theorem units_insertInner (k : K) (v : V) (b : Bool) : (insertInner C k v b).Units := by
  have := @units_insertProbe K V _ C
  have := @units_initTable K V _ C
  have := @units_prepareRetryInsert K V _ C
  unfold insertInner; units
theorem units_insert (k : K) (v : V) (b : Bool) : (insert C k v b).Units := by
  have := @units_insertInner K V _ C
  unfold insert; units
theorem units_removeLoop (T : Table) (i : Nat) (st : g.Tr) (e : Entry K V) (s : Slot K V) :
    (removeLoop C g T i st e s).Units := by
  have := @units_updateAtTomb K V _ C
  have hi := @units_invoke K V
  unfold removeLoop; units
theorem units_removeProbe (k : K) (st : g.Tr) (T : Table) : (removeProbe C k g st T).Units := by
  have := @units_removeLoop K V _ C g
  unfold removeProbe; units
theorem units_removeIf (k : K) : (removeIf C k g).Units := by
  have := @units_removeProbe K V _ C g
  have := @units_prepareRetry K V _ C
  unfold removeIf; units
theorem units_remove (k : K) : (remove C k : Prog K V _).Units := by
  have := @units_removeIf K V _ C
  unfold remove; units
theorem units_next (c : CState K V R f) (e : Option (Entry K V)) : (c.next e).Units := by
  have hi := @units_invoke K V
  unfold CState.next; units
theorem units_restore (c : CState K V R f) (e : Option (Entry K V)) (op : Operation V R) : (c.restore e op).Units := by
  unfold CState.restore; units
theorem units_computeFailure (T : Table) (p : Probe) (c : CState K V R f) (st : EStat K V) :
    (computeFailure T p c st).Units := by
  have := @units_next K V _ R f
  have := @units_restore K V _ R f
  unfold computeFailure; units
theorem units_computeLoop (k : K) (T : Table) (p : Probe) (c : CState K V R f) (e : Entry K V) (s : Slot K V) :
    (computeLoop C k T p c e s).Units := by
  have := @units_next K V _ R f
  have := @units_restore K V _ R f
  have := @units_computeFailure K V _ R f
  have := @units_updateAtTomb K V _ C
  have := @units_updateAtNew K V _ C
  unfold computeLoop; units

theorem units_computeFound (k : K) (T : Table) (p : Probe) (c : CState K V R f) (e : Entry K V) (s : Slot K V) :
    (computeFound C k T p c e s).Units := by
  have := @units_computeLoop K V _ C R f
  unfold computeFound; units
theorem units_computeProbe (k : K) (T : Table) (c : CState K V R f) : (computeProbe C k T c).Units := by
  have := @units_computeFound K V _ C R f
  have := @units_next K V _ R f
  have := @units_restore K V _ R f
  have := @units_insertAt K V _ C
  unfold computeProbe; units
theorem units_computeInit (c : CState K V R f) : (computeInit C c).Units := by
  have := @units_next K V _ R f
  have := @units_restore K V _ R f
  have := @units_initTable K V _ C
  unfold computeInit; units
theorem units_compute (k : K) : (compute C k f).Units := by
  have := @units_computeInit K V _ C R f
  have := @units_computeProbe K V _ C R f
  have := @units_next K V _ R f
  have := @units_restore K V _ R f
  have := @units_prepareRetry K V _ C
  have := @units_prepareRetryInsert K V _ C
  unfold compute; units
theorem units_reserve (n : Nat) : (reserve C n : Prog K V _).Units := by
  have := @units_len K V _ C
  have := @units_initTable K V _ C
  have := @units_getOrAllocNext K V _ C
  have := @units_helpCopy K V _ C
  unfold reserve; units
theorem units_deleteLoop (T : Table) (i : Nat) (st : g.Tr) (s : Slot K V) : (deleteLoop C g T i st s).Units := by
  have := @units_deferRetire K V _ C
  have hi := @units_invoke K V
  unfold deleteLoop; units
theorem units_clearPass (T : Table) : (clearPass C T : Prog K V _).Units := by
  have := @units_deleteLoop K V _ C
  unfold clearPass; units
theorem units_clear : (clear C : Prog K V _).Units := by
  have := @units_clearPass K V _ C
  have := @units_linearize K V _ C
  have := @units_helpCopy K V _ C
  unfold clear; units
theorem units_retainPass (st : g.Tr) (T : Table) : (retainPass C g st T).Units := by
  have := @units_deleteLoop K V _ C
  unfold retainPass; units
theorem units_retain : (retain C g).Units := by
  have := @units_retainPass K V _ C
  have := @units_linearize K V _ C
  have := @units_helpCopy K V _ C
  unfold retain; units
theorem units_iterUpTo (lim : Option Nat) : (iterUpTo C lim : Prog K V _).Units := by
  have := @units_linearize K V _ C
  unfold iterUpTo; units
theorem units_tryInsertWith {f : Closure Unit V} (k : K) : (tryInsertWith C k f).Units := by
  have := @units_compute K V _ C
  unfold tryInsertWith; units
theorem units_getOrInsertWith {f : Closure Unit V} (k : K) : (getOrInsertWith C k f).Units := by
  have := @units_tryInsertWith K V _ C
  unfold getOrInsertWith; units
theorem units_update {f : Closure V V} (k : K) : (update C k f).Units := by
  have := @units_compute K V _ C
  unfold update; units
theorem units_updateOrInsertWith {u : Closure V V} {f : Closure Unit V} (k : K) :
    (updateOrInsertWith C k u f).Units := by
  have := @units_compute K V _ C
  unfold updateOrInsertWith; units
theorem units_tryInsertProg (k : K) (v : V) : (Call.tryInsertProg C k v).Units := by
  have := @units_insert K V _ C
  unfold Call.tryInsertProg; units

theorem units_call (c : Call K V) : (c.prog C).Units := by
  have h1 := @units_get K V _ C
  have h2 := @units_insert K V _ C
  have h3 := @units_tryInsertProg K V _ C
  have h4 := @units_len K V _ C
  cases c with
  | get k => exact h1 k
  | containsKey k => exact Prog.units_bind' (h1 k) fun _ => trivial
  | insert k v => exact Prog.units_bind' (h2 k v true) fun r => by cases r <;> units
  | tryInsert k v => exact h3 k v
  | tryInsertWith k f => exact units_tryInsertWith C k
  | getOrInsert k v => exact Prog.units_bind' (h3 k v) fun r => by rcases r with _ | ⟨_, _⟩ <;> exact trivial
  | getOrInsertWith k f => exact units_getOrInsertWith C k
  | update k f => exact units_update C k
  | updateOrInsert k u v => exact units_updateOrInsertWith C k
  | updateOrInsertWith k u f => exact units_updateOrInsertWith C k
  | compute k f => exact units_compute C k
  | remove k => exact units_remove C k
  | removeIf k f => exact units_removeIf C k
  | clear => exact units_clear C
  | retain f => exact units_retain C
  | iter => exact units_iterUpTo C none
  | iterTake n => exact units_iterUpTo C _
  | len => exact h4
  | isEmpty => exact Prog.units_bind' h4 fun _ => trivial
  | reserve n => exact units_reserve C n

end Papaya
