import Verif.Model.Pool

/-! # Who poisons the allocation lock

A structural property of programs: `Prog.Clean q` — `q` poisons a lock only if it panics at once because a table could not be
allocated, and it panics for a poisoned lock only after it has found one. -/

set_option linter.unusedSectionVars false
set_option linter.unusedVariables false

namespace Papaya

variable {K V : Type}

/-- A table could not be allocated. -/
def AllocFailed (w : PanicReason) : Prop := w = .layoutOverflow ∨ w = .maxCapacity ∨ w = .notPowerOfTwo

/-- `lock()` finds the mutex poisoned. -/
def Act.refused : {β : Type} → Act K V β → β → Prop
  | _, .lockWait _, false => True
  | _, _, _ => False

def Act.poisons : {β : Type} → Act K V β → Prop
  | _, .poison _ => True
  | _, _ => False

def Prog.Clean : {α : Type} → Prog K V α → Prop
  | _, .ret _ => True
  | _, .act a k => (∀ x, (k x).Clean ∨ (a.refused x ∧ k x = .panic .poisonedLock)) ∧
      (a.poisons → ∀ x, ∃ w, AllocFailed w ∧ k x = .panic w)
  | _, .iter body s k => (∀ s, (body s).Clean) ∧ ∀ b, (k b).Clean
  | _, .panic w => w ≠ .poisonedLock

namespace Prog

theorem clean_bind {α γ : Type} {q : Prog K V α} {g : α → Prog K V γ} (h : q.Clean) (hg : ∀ a, (g a).Clean) :
    (q.bind g).Clean := by
  induction q with
  | ret a => exact hg a
  | panic r => exact h
  | act a k ih =>
    refine ⟨fun x => ?_, fun hp x => ?_⟩
    · rcases h.1 x with h1 | ⟨h1, h2⟩
      · exact .inl (ih x h1 hg)
      · exact .inr ⟨h1, by show (k x).bind g = _; rw [h2]; rfl⟩
    · obtain ⟨w, h1, h2⟩ := h.2 hp x
      exact ⟨w, h1, by show (k x).bind g = _; rw [h2]; rfl⟩
  | iter body s k _ ih => exact ⟨h.1, fun b => ih b (h.2 b) hg⟩

theorem clean_bind' {α γ : Type} {q : Prog K V α} {g : α → Prog K V γ} (h : q.Clean) (hg : ∀ a, (g a).Clean) :
    (q >>= g).Clean := clean_bind h hg

theorem clean_loop {σ β : Type} {s : σ} {body : σ → Prog K V (σ ⊕ β)} (h : ∀ s, (body s).Clean) :
    (Prog.loop s body).Clean := ⟨h, fun _ => trivial⟩

theorem clean_prim {β : Type} {a : Act K V β} (h : ¬ a.poisons) : (Prog.prim a).Clean :=
  ⟨fun _ => .inl trivial, fun hp => (h hp).elim⟩

theorem clean_panic {α : Type} {w : PanicReason} (h : w ≠ .poisonedLock) : (Prog.panic w : Prog K V α).Clean := h

theorem clean_poison {α : Type} {T : Nat} {w : PanicReason} (h : AllocFailed w) :
    (A.poison T >>= fun _ => Prog.panic w : Prog K V α).Clean :=
  ⟨fun _ => .inl (by rintro rfl; rcases h with h | h | h <;> cases h), fun _ _ => ⟨w, h, rfl⟩⟩

theorem clean_lockWait {α : Type} {T : Nat} {g : Bool → Prog K V α} (h1 : (g true).Clean) (h2 : g false = .panic .poisonedLock) :
    (A.lockWait T >>= g).Clean :=
  ⟨fun x => match x with | true => .inl h1 | false => .inr ⟨trivial, h2⟩, fun h => h.elim⟩

theorem Clean.unfold {α β σ : Type} {body : σ → Prog K V (σ ⊕ β)} {s : σ} {k : β → Prog K V α} (h : (Prog.iter body s k).Clean) :
    (unfoldIter body s k).Clean :=
  clean_bind (h.1 s) fun x => match x with
    | .inl s' => h
    | .inr b => h.2 b

end Prog

/-- The closure does not claim that a lock is poisoned. -/
def Closure.Np {I O : Type} (f : Closure I O) : Prop := ∀ s i r, f.call s i = .error r → r ≠ .poisonedLock

theorem Closure.WF.np {I O : Type} {f : Closure I O} (h : f.WF) : f.Np := by
  rintro s i _ he rfl; cases h _ _ _ he

theorem Closure.np_pure {I O : Type} (g : I → O) : (Closure.pure g).Np := by
  intro s i r he; cases he

variable [DecidableEq K]

macro "clean" : tactic => `(tactic| repeat' (first
  | exact trivial
  | solve_by_elim
  | exact Prog.clean_prim (fun h => h)
  | exact Prog.clean_poison (.inl rfl) | exact Prog.clean_poison (.inr (.inl rfl)) | exact Prog.clean_poison (.inr (.inr rfl))
  | exact Prog.clean_panic (by decide)
  | refine Prog.clean_bind' ?_ (fun _ => ?_) | refine Prog.clean_bind ?_ (fun _ => ?_)
  | refine Prog.clean_loop (fun _ => ?_)
  | exact Prog.clean_panic ((by assumption : Closure.Np _) _ _ _ (by assumption)) | split | (dsimp only)))

variable (C : Cfg K)

theorem clean_initTable (cap : Option Nat) : (initTable C cap : Prog K V _).Clean := by unfold initTable; clean
theorem clean_len : (len C : Prog K V _).Clean := by unfold len; clean
theorem clean_allocNextLocked (cap : Option Nat) (T : Table) : (allocNextLocked C cap T : Prog K V _).Clean := by
  have := @clean_len K V _ C
  unfold allocNextLocked; clean
theorem clean_getOrAllocNext (cap : Option Nat) (T : Table) : (getOrAllocNext C cap T : Prog K V _).Clean := by
  have := @clean_allocNextLocked K V _ C
  have hw : ∀ T : Table, (A.lockWait T.id >>= fun b => if b = true then allocNextLocked C cap T else .panic .poisonedLock : Prog K V _).Clean :=
    fun T => Prog.clean_lockWait (by simpa using this _ _) (by simp)
  unfold getOrAllocNext; clean
theorem clean_tryPromote (T next : Table) (n : Nat) : (tryPromote T next n : Prog K V _).Clean := by
  unfold tryPromote; clean
theorem clean_deferRetire (e : Entry K V) (s : Slot K V) (T : Table) : (deferRetire C e s T).Clean := by
  unfold deferRetire; clean
theorem clean_insertAt (i m : Nat) (k : K) (v : V) (T : Table) : (insertAt C i m k v T).Clean := by
  unfold insertAt; clean
theorem clean_updateAtNew (i : Nat) (e : Entry K V) (s : Slot K V) (k : K) (v : V) (T : Table) : (updateAtNew C i e s k v T).Clean := by
  have := @clean_deferRetire K V _ C
  unfold updateAtNew; clean
theorem clean_updateAtTomb (i : Nat) (e : Entry K V) (s : Slot K V) (T : Table) : (updateAtTomb C i e s T).Clean := by
  have := @clean_deferRetire K V _ C
  unfold updateAtTomb; clean
theorem clean_waitCopied (i : Nat) (T : Table) : (waitCopied C i T : Prog K V _).Clean := by
  unfold waitCopied; clean
theorem clean_insertCopy (e : Entry K V) (s : Slot K V) (resize : Bool) (T : Table) : (insertCopy C e s resize T).Clean := by
  have := @clean_getOrAllocNext K V _ C
  unfold insertCopy; clean
theorem clean_copyAtBlocking (i : Nat) (T next : Table) : (copyAtBlocking C i T next : Prog K V _).Clean := by
  have := @clean_insertCopy K V _ C
  unfold copyAtBlocking; clean
theorem clean_copyAtIncremental (i : Nat) (T next : Table) : (copyAtIncremental C i T next : Prog K V _).Clean := by
  have := @clean_insertCopy K V _ C
  unfold copyAtIncremental; clean
theorem clean_copyChunkBlocking (T next : Table) (a b : Nat) : (copyChunkBlocking C T next a b : Prog K V _).Clean := by
  have := @clean_copyAtBlocking K V _ C
  unfold copyChunkBlocking; clean
theorem clean_copyChunkIncremental (T next : Table) (a b : Nat) : (copyChunkIncremental C T next a b : Prog K V _).Clean := by
  have := @clean_copyAtIncremental K V _ C
  unfold copyChunkIncremental; clean
theorem clean_helpCopyBlocking (T : Table) : (helpCopyBlocking C T : Prog K V _).Clean := by
  have := @clean_copyChunkBlocking K V _ C
  have := @clean_getOrAllocNext K V _ C
  have := @clean_tryPromote K V _
  unfold helpCopyBlocking; clean
theorem clean_helpCopyIncremental (n : Nat) (b : Bool) : (helpCopyIncremental C n b : Prog K V _).Clean := by
  have := @clean_copyChunkIncremental K V _ C
  have := @clean_getOrAllocNext K V _ C
  have := @clean_tryPromote K V _
  unfold helpCopyIncremental; clean
theorem clean_helpCopy (all : Bool) (T : Table) : (helpCopy C all T : Prog K V _).Clean := by
  have := @clean_helpCopyBlocking K V _ C
  have := @clean_helpCopyIncremental K V _ C
  unfold helpCopy; clean
theorem clean_prepareRetry (copying : Option Nat) (help : Bool) (T : Table) : (prepareRetry C copying help T : Prog K V _).Clean := by
  have := @clean_helpCopy K V _ C
  have := @clean_waitCopied K V _ C
  unfold prepareRetry; clean
theorem clean_prepareRetryInsert (copying : Option Nat) (help : Bool) (T : Table) :
    (prepareRetryInsert C copying help T : Prog K V _).Clean := by
  have := @clean_helpCopy K V _ C
  have := @clean_waitCopied K V _ C
  have := @clean_getOrAllocNext K V _ C
  unfold prepareRetryInsert; clean

variable {R : Type} {f : Closure (Option (K × V)) (Operation V R)} {g : Closure (K × V) Bool}

theorem clean_invoke {I O : Type} {f : Closure I O} (hf : f.Np) (st : f.Tr) (i : I) : (f.invoke st i : Prog K V _).Clean := by
  unfold Closure.invoke; clean
theorem clean_linearize (T : Table) : (linearize C T : Prog K V _).Clean := by
  have := @clean_helpCopy K V _ C
  unfold linearize; clean
theorem clean_get (k : K) : (Papaya.get C k : Prog K V _).Clean := by
  unfold Papaya.get; clean
theorem clean_insertSlow (i : Nat) (e : Entry K V) (s : Slot K V) (k : K) (v : V) (T : Table) : (insertSlow C i e s k v T).Clean := by
  have := @clean_updateAtNew K V _ C
  unfold insertSlow; clean
theorem clean_insertFound (k : K) (v : V) (b : Bool) (T : Table) (p : Probe) (e : Entry K V) (s : Slot K V) :
    (insertFound C k v b T p e s).Clean := by
  have := @clean_insertSlow K V _ C
  unfold insertFound; clean
theorem clean_insertProbe (k : K) (v : V) (b : Bool) (T : Table) : (insertProbe C k v b T).Clean := by
  have := @clean_insertFound K V _ C
  have := @clean_insertAt K V _ C
  unfold insertProbe; clean
theorem clean_insertInner (k : K) (v : V) (b : Bool) : (insertInner C k v b).Clean := by
  have := @clean_insertProbe K V _ C
  have := @clean_initTable K V _ C
  have := @clean_prepareRetryInsert K V _ C
  unfold insertInner; clean
theorem clean_insert (k : K) (v : V) (b : Bool) : (insert C k v b).Clean := by
  have := @clean_insertInner K V _ C
  unfold insert; clean
theorem clean_removeLoop (hg : g.Np) (T : Table) (i : Nat) (st : g.Tr) (e : Entry K V) (s : Slot K V) :
    (removeLoop C g T i st e s).Clean := by
  have := @clean_updateAtTomb K V _ C
  have hi := fun st i => clean_invoke (K := K) (V := V) hg st i
  unfold removeLoop; clean
theorem clean_removeProbe (hg : g.Np) (k : K) (st : g.Tr) (T : Table) : (removeProbe C k g st T).Clean := by
  have := @clean_removeLoop K V _ C g hg
  unfold removeProbe; clean
theorem clean_removeIf (hg : g.Np) (k : K) : (removeIf C k g).Clean := by
  have := @clean_removeProbe K V _ C g hg
  have := @clean_prepareRetry K V _ C
  unfold removeIf; clean
theorem clean_remove (k : K) : (remove C k : Prog K V _).Clean := by
  have := @clean_removeIf K V _ C _ (Closure.np_pure (fun _ => true))
  unfold remove; clean
theorem clean_next (hf : f.Np) (c : CState K V R f) (e : Option (Entry K V)) : (c.next e).Clean := by
  have hi := fun st i => clean_invoke (K := K) (V := V) hf st i
  unfold CState.next; clean
theorem clean_restore (c : CState K V R f) (e : Option (Entry K V)) (op : Operation V R) : (c.restore e op).Clean := by
  unfold CState.restore; clean
theorem clean_computeFailure (hf : f.Np) (T : Table) (p : Probe) (c : CState K V R f) (st : EStat K V) :
    (computeFailure T p c st).Clean := by
  have := @clean_next K V _ R f hf
  have := @clean_restore K V _ R f
  unfold computeFailure; clean
theorem clean_computeLoop (hf : f.Np) (k : K) (T : Table) (p : Probe) (c : CState K V R f) (e : Entry K V) (s : Slot K V) :
    (computeLoop C k T p c e s).Clean := by
  have := @clean_next K V _ R f hf
  have := @clean_restore K V _ R f
  have := @clean_computeFailure K V _ R f hf
  have := @clean_updateAtTomb K V _ C
  have := @clean_updateAtNew K V _ C
  unfold computeLoop; clean

theorem clean_computeFound (hf : f.Np) (k : K) (T : Table) (p : Probe) (c : CState K V R f) (e : Entry K V) (s : Slot K V) :
    (computeFound C k T p c e s).Clean := by
  have := @clean_computeLoop K V _ C R f hf
  unfold computeFound; clean
theorem clean_computeProbe (hf : f.Np) (k : K) (T : Table) (c : CState K V R f) : (computeProbe C k T c).Clean := by
  have := @clean_computeFound K V _ C R f hf
  have := @clean_next K V _ R f hf
  have := @clean_restore K V _ R f
  have := @clean_insertAt K V _ C
  unfold computeProbe; clean
theorem clean_computeInit (hf : f.Np) (c : CState K V R f) : (computeInit C c).Clean := by
  have := @clean_next K V _ R f hf
  have := @clean_restore K V _ R f
  have := @clean_initTable K V _ C
  unfold computeInit; clean
theorem clean_compute (hf : f.Np) (k : K) : (compute C k f).Clean := by
  have := @clean_computeInit K V _ C R f hf
  have := @clean_computeProbe K V _ C R f hf
  have := @clean_next K V _ R f hf
  have := @clean_restore K V _ R f
  have := @clean_prepareRetry K V _ C
  have := @clean_prepareRetryInsert K V _ C
  unfold compute; clean
theorem np_tryInsert {f : Closure Unit V} (hf : f.Np) : (tryInsertClosure f : Closure (Option (K × V)) _).Np := by
  intro s i r h
  rcases i with _ | ⟨a, b⟩
  · cases s with
    | none => cases h; decide
    | some s =>
      simp only [tryInsertClosure] at h
      split at h
      · cases h
      · cases h; exact hf _ _ _ (by assumption)
  · cases h
theorem np_update {f : Closure V V} (hf : f.Np) : (updateClosure f : Closure (Option (K × V)) _).Np := by
  intro s i r h
  rcases i with _ | ⟨a, b⟩
  · cases h
  · simp only [updateClosure] at h
    split at h
    · cases h
    · cases h; exact hf _ _ _ (by assumption)
theorem np_updateOrInsert {u : Closure V V} {f : Closure Unit V} (hu : u.Np) (hf : f.Np) :
    (updateOrInsertClosure u f : Closure (Option (K × V)) _).Np := by
  intro s i r h
  rcases i with _ | ⟨a, b⟩
  · simp only [updateOrInsertClosure] at h
    repeat' split at h
    all_goals first
      | cases h; done
      | (cases h; decide)
      | (cases h; exact hf _ _ _ (by assumption))
  · simp only [updateOrInsertClosure] at h
    split at h
    · cases h
    · cases h; exact hu _ _ _ (by assumption)
theorem clean_reserve (n : Nat) : (reserve C n : Prog K V _).Clean := by
  have := @clean_len K V _ C
  have := @clean_initTable K V _ C
  have := @clean_getOrAllocNext K V _ C
  have := @clean_helpCopy K V _ C
  unfold reserve; clean
theorem clean_deleteLoop (hg : g.Np) (T : Table) (i : Nat) (st : g.Tr) (s : Slot K V) : (deleteLoop C g T i st s).Clean := by
  have := @clean_deferRetire K V _ C
  have hi := fun st i => clean_invoke (K := K) (V := V) hg st i
  unfold deleteLoop; clean
theorem clean_clearPass (T : Table) : (clearPass C T : Prog K V _).Clean := by
  have := @clean_deleteLoop K V _ C _ (Closure.np_pure fun _ => false)
  unfold clearPass; clean
theorem clean_clear : (clear C : Prog K V _).Clean := by
  have := @clean_clearPass K V _ C
  have := @clean_linearize K V _ C
  have := @clean_helpCopy K V _ C
  unfold clear; clean
theorem clean_retainPass (hg : g.Np) (st : g.Tr) (T : Table) : (retainPass C g st T).Clean := by
  have := @clean_deleteLoop K V _ C _ hg
  unfold retainPass; clean
theorem clean_retain (hg : g.Np) : (retain C g).Clean := by
  have := @clean_retainPass K V _ C _ hg
  have := @clean_linearize K V _ C
  have := @clean_helpCopy K V _ C
  unfold retain; clean
theorem clean_iterUpTo (lim : Option Nat) : (iterUpTo C lim : Prog K V _).Clean := by
  have := @clean_linearize K V _ C
  unfold iterUpTo; clean
theorem clean_tryInsertWith {f : Closure Unit V} (hf : f.Np) (k : K) : (tryInsertWith C k f).Clean := by
  have := @clean_compute K V _ C _ _ (np_tryInsert (K := K) hf)
  unfold tryInsertWith; clean
theorem clean_getOrInsertWith {f : Closure Unit V} (hf : f.Np) (k : K) : (getOrInsertWith C k f).Clean := by
  have := @clean_tryInsertWith K V _ C _ hf
  unfold getOrInsertWith; clean
theorem clean_update {f : Closure V V} (hf : f.Np) (k : K) : (update C k f).Clean := by
  have := @clean_compute K V _ C _ _ (np_update (K := K) hf)
  unfold update; clean
theorem clean_updateOrInsertWith {u : Closure V V} {f : Closure Unit V} (hu : u.Np) (hf : f.Np) (k : K) :
    (updateOrInsertWith C k u f).Clean := by
  have := @clean_compute K V _ C _ _ (np_updateOrInsert (K := K) hu hf)
  unfold updateOrInsertWith; clean
theorem clean_tryInsertProg (k : K) (v : V) : (Call.tryInsertProg C k v).Clean := by
  have := @clean_insert K V _ C
  unfold Call.tryInsertProg; clean

theorem clean_call (c : Call K V) (h : c.WF) : (c.prog C).Clean := by
  have h1 := @clean_get K V _ C
  have h2 := @clean_insert K V _ C
  have h3 := @clean_tryInsertProg K V _ C
  have h4 := @clean_len K V _ C
  cases c with
  | get k => exact h1 k
  | containsKey k => exact Prog.clean_bind' (h1 k) fun _ => trivial
  | insert k v => exact Prog.clean_bind' (h2 k v true) fun r => by cases r <;> clean
  | tryInsert k v => exact h3 k v
  | tryInsertWith k f => exact clean_tryInsertWith C h.np k
  | getOrInsert k v => exact Prog.clean_bind' (h3 k v) fun r => by rcases r with _ | ⟨_, _⟩ <;> exact trivial
  | getOrInsertWith k f => exact clean_getOrInsertWith C h.np k
  | update k f => exact clean_update C h.np k
  | updateOrInsert k u v => exact clean_updateOrInsertWith C (Closure.WF.np h) (Closure.np_pure _) k
  | updateOrInsertWith k u f => exact clean_updateOrInsertWith C h.1.np h.2.np k
  | compute k f => exact clean_compute C h.np k
  | remove k => exact clean_remove C k
  | removeIf k f => exact clean_removeIf C h.np k
  | clear => exact clean_clear C
  | retain f => exact clean_retain C h.np
  | iter => exact clean_iterUpTo C none
  | iterTake n => exact clean_iterUpTo C _
  | len => exact h4
  | isEmpty => exact Prog.clean_bind' h4 fun _ => trivial
  | reserve n => exact clean_reserve C n

end Papaya
