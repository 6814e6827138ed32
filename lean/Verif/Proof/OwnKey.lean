import Verif.Proof.Observe
import Verif.Spec.OwnKey

/-! # Operations on one key wait only for slots of their key

`kwSys k F`: `F` is the set of the slots which have held the key `k`. A program may wait for the copy of a slot only if it is one of them, and never for the
end of a resize. -/

set_option linter.unusedSectionVars false
set_option linter.unusedVariables false

namespace Papaya

variable {K V : Type}

def Act.kwOk (F : Nat → Nat → Prop) : {β : Type} → Act K V β → Prop
  | _, .parkSlot T i => F T i
  | _, .parkStatus _ => False
  | _, _ => True

def Act.kwRes (k : K) (F : Nat → Nat → Prop) : {β : Type} → Act K V β → β → Prop
  | _, .loadSlot T i, r => ∀ e, r.ptr = some e → e.key = k → F T i
  | _, .casNew _ T i _ _ _, r => ∀ s e, r = .inr s → s.ptr = some e → e.key = k → F T i
  | _, _, _ => True

def kwSys (V : Type) (k : K) (F : Nat → Nat → Prop) : ObsSys K V := ⟨fun a => a.kwOk F, fun a r => a.kwRes k F r, fun _ => True⟩

/-- The program waits only for slots of the key. -/
abbrev Kw (k : K) (F : Nat → Nat → Prop) {α : Type} (p : Prog K V α) : Prop := Obs' (kwSys V k F) p fun _ => True

variable {C : Cfg K} {α β γ : Type} {k : K} {F : Nat → Nat → Prop}

namespace Kw

theorem ret {x : α} : Kw k F (pure x : Prog K V α) := Obs'.ret trivial
theorem ret' {x : α} : Kw k F (.ret x : Prog K V α) := Obs'.ret trivial
theorem panic {w : PanicReason} {Q : α → Prop} : Obs' (kwSys V k F) (.panic w : Prog K V α) Q := Obs'.panic (D := kwSys V k F) trivial
theorem bind {p : Prog K V α} {g : α → Prog K V γ} {Q : γ → Prop} (h : Kw k F p) (hg : ∀ x, Obs' (kwSys V k F) (g x) Q) :
    Obs' (kwSys V k F) (p >>= g) Q := Obs'.bind (fun _ => True) h fun x _ => hg x
theorem loop {σ : Type} {body : σ → Prog K V (σ ⊕ β)} {s : σ} (h : ∀ s, Kw k F (body s)) : Kw k F (Prog.loop s body) :=
  Obs'.loop (fun _ => True) trivial fun s _ => (h s).post fun x _ => by cases x <;> trivial
theorem act {a : Act K V β} (h : a.kwOk F) : Kw k F (.prim a) := Obs'.act h fun _ _ => trivial

end Kw

macro "kw_step" : tactic => `(tactic| first
  | with_reducible exact Kw.ret
  | with_reducible exact Kw.ret'
  | with_reducible exact Kw.panic
  | with_reducible refine Kw.bind ?_ fun _ => ?_
  | with_reducible refine Kw.loop fun _ => ?_
  | (with_reducible refine Kw.act ?_); exact trivial
  | split
  | dsimp only)

syntax "kw" "[" term,* "]" : tactic
macro_rules
  | `(tactic| kw [$ts,*]) => do
    let ts := ts.getElems
    `(tactic| repeat' first $[| with_reducible exact $ts]* | kw_step)

variable {T next : Table}

theorem kw_len : Kw (V := V) k F (len C) := by unfold len; kw []
theorem kw_init {c : Option Nat} : Kw (V := V) k F (initTable C c) := by unfold initTable; kw []
theorem kw_allocLocked {c : Option Nat} : Kw (V := V) k F (allocNextLocked C c T) := by unfold allocNextLocked; kw [kw_len]
theorem kw_alloc {c : Option Nat} : Kw (V := V) k F (getOrAllocNext C c T) := by unfold getOrAllocNext; kw [kw_allocLocked]
theorem kw_promote {n : Nat} : Kw (V := V) k F (tryPromote T next n) := by unfold tryPromote; kw []
theorem kw_insertCopy {e : Entry K V} {s : Slot K V} {b : Bool} : Kw k F (insertCopy C e s b T) := by
  unfold insertCopy; kw [kw_alloc]
theorem kw_copyAt {i : Nat} : Kw (V := V) k F (copyAtIncremental C i T next) := by unfold copyAtIncremental; kw [kw_insertCopy]
theorem kw_chunk {a n : Nat} : Kw (V := V) k F (copyChunkIncremental C T next a n) := by unfold copyChunkIncremental; kw [kw_copyAt]
theorem kw_help {n : Nat} : Kw (V := V) k F (helpCopyIncremental C n false) := by
  unfold helpCopyIncremental; kw [kw_promote, kw_chunk]
  all_goals contradiction
theorem kw_helpCopy {n : Nat} (hc : C.mode = .incremental n) : Kw (V := V) k F (helpCopy C false T) := by
  unfold helpCopy
  rw [hc]
  kw [kw_help]
theorem kw_wait {i : Nat} (h : F T.id i) : Kw (V := V) k F (waitCopied C i T) := by
  unfold waitCopied
  refine Kw.bind ?_ fun b => ?_
  · kw []
  · split
    · exact Obs'.ret' trivial
    · exact Kw.act h
theorem kw_defer {e : Entry K V} {s : Slot K V} : Kw k F (deferRetire C e s T) := by unfold deferRetire; kw []
theorem kw_invoke {I O : Type} {f : Closure I O} {st : f.Tr} {i : I} : Kw (V := V) k F (f.invoke st i) := by
  unfold Closure.invoke; kw []

/-- The slot for whose copy the writer will wait. -/
def WOut.Mine {R : Type} (F : Nat → Nat → Prop) (T : Table) : WOut R → Prop
  | .retry (some i) => F T.id i
  | _ => True

section ops

variable [DecidableEq K] {v : V} {n : Nat}

theorem kw_get : Kw (V := V) k F (get C k) := by unfold get getProbe; kw []

theorem kw_insertAt {i m : Nat} : Obs' (kwSys V k F) (insertAt C i m k v T) fun r => ∀ e s, (r = .found (.value e s) ∨ r = .found (.copied e s)) →
    e.key = k → F T.id i := by
  unfold insertAt
  refine Obs'.step trivial fun r hr => ?_
  cases r with
  | inl e => exact Kw.bind (Kw.act trivial) fun _ => Obs'.ret (by rintro _ _ (h | h) <;> cases h)
  | inr s =>
    dsimp only
    split
    · rename_i e he
      refine Kw.bind (Kw.act trivial) fun _ => Kw.bind (Kw.act trivial) fun _ => ?_
      have : ∀ e' s', (InsStat.found (EStat.value e s) = .found (.value e' s') ∨ InsStat.found (EStat.value e s) = .found (.copied e' s')) →
          e'.key = k → F T.id i := by
        rintro _ _ (h | h) hk
        · cases h; exact hr s _ rfl he hk
        · cases h
      split
      · exact Kw.bind (Kw.act trivial) fun _ => Obs'.ret this
      · exact Obs'.ret this
    · refine Kw.bind (Kw.act trivial) fun _ => ?_
      split
      · exact Kw.bind (Kw.act trivial) fun _ => Obs'.ret (by rintro _ _ (h | h) <;> cases h)
      · exact Obs'.ret (by rintro _ _ (h | h) <;> cases h)

theorem kw_updNew {i : Nat} {e : Entry K V} {s : Slot K V} : Kw k F (updateAtNew C i e s k v T) := by
  unfold updateAtNew; kw [kw_defer]

theorem kw_updTomb {i : Nat} {e : Entry K V} {s : Slot K V} : Kw k F (updateAtTomb C i e s T) := by
  unfold updateAtTomb; kw [kw_defer]

theorem kw_insertSlow {i : Nat} {e : Entry K V} {s : Slot K V} : Kw k F (insertSlow C i e s k v T) := by
  unfold insertSlow; kw [kw_updNew]

theorem kw_insertFound {b : Bool} {p : Probe} {e : Entry K V} {s : Slot K V} (h : e.key = k → F T.id p.i) :
    Obs' (kwSys V k F) (insertFound C k v b T p e s) (Sum.elim (fun _ => True) fun o => o.Mine F T) := by
  unfold insertFound
  refine Kw.bind (Kw.act trivial) fun _ => ?_
  split
  · split
    · exact Obs'.ret (h ‹_›)
    · split
      · exact Obs'.ret trivial
      · refine Kw.bind kw_insertSlow fun r => ?_
        split
        · exact Obs'.ret trivial
        · exact Obs'.ret (h ‹_›)
        · exact Obs'.ret trivial
        · exact Obs'.ret trivial
  · exact Obs'.ret trivial

theorem kw_insertProbe {b : Bool} : Obs' (kwSys V k F) (insertProbe C k v b T) fun o => o.Mine F T := by
  unfold insertProbe
  refine Obs'.loop (fun _ => True) trivial fun p _ => ?_
  split
  · refine Kw.bind (Kw.act trivial) fun m => ?_
    split
    · refine Obs'.bind _ kw_insertAt fun r hr => ?_
      split
      · exact Obs'.ret trivial
      · exact kw_insertFound (hr _ _ (.inl rfl))
      · exact kw_insertFound (hr _ _ (.inr rfl))
      · exact Obs'.ret trivial
    · split
      · refine Obs'.step trivial fun s hs => ?_
        split
        · exact Obs'.ret trivial
        · exact kw_insertFound (hs _ ‹_›)
      · exact Obs'.ret trivial
  · exact Obs'.ret trivial

theorem kw_retryIns {i : Option Nat} {b : Bool} (hc : C.mode = .incremental n) (h : ∀ j, i = some j → F T.id j) :
    Kw (V := V) k F (prepareRetryInsert C i b T) := by
  unfold prepareRetryInsert
  rw [hc]
  refine Kw.bind kw_alloc fun _ => Kw.bind ?_ fun _ => ?_
  · split
    · exact kw_helpCopy hc
    · exact Obs'.ret trivial
  · cases i with
    | none => exact Obs'.ret trivial
    | some j => exact Kw.bind (kw_wait (h j rfl)) fun _ => Obs'.ret trivial

theorem kw_retry {i : Option Nat} {b : Bool} (hc : C.mode = .incremental n) (h : ∀ j, i = some j → F T.id j) :
    Kw (V := V) k F (prepareRetry C i b T) := by
  unfold prepareRetry
  rw [hc]
  refine Kw.bind (Kw.act trivial) fun r => ?_
  cases r with
  | none => exact Obs'.ret trivial
  | some next =>
    dsimp only
    have h2 : Kw (V := V) k F (match i with
        | some i => do
          waitCopied C i T
          pure (some next)
        | none => pure (some next)) := by
      cases i with
      | none => exact Obs'.ret trivial
      | some j => exact Kw.bind (kw_wait (h j rfl)) fun _ => Obs'.ret trivial
    split
    · exact Kw.bind (kw_helpCopy hc) fun _ => h2
    · exact Kw.bind Kw.ret' fun _ => h2

theorem WOut.Mine.some {R : Type} {i : Option Nat} (h : (WOut.retry i : WOut R).Mine F T) : ∀ j, i = some j → F T.id j := by
  rintro j rfl; exact h

theorem kw_insertInner {b : Bool} (hc : C.mode = .incremental n) : Kw k F (insertInner C k v b) := by
  unfold insertInner
  refine Kw.bind ?_ fun T => ?_
  · refine Kw.bind (Kw.act trivial) fun r => ?_
    split
    · exact Obs'.ret trivial
    · exact kw_init
  · refine Kw.loop fun s => ?_
    obtain ⟨T, help⟩ := s
    refine Obs'.bind _ kw_insertProbe fun o ho => ?_
    cases o with
    | done r => exact Obs'.ret trivial
    | retry i => exact Kw.bind (kw_retryIns hc ho.some) fun _ => Obs'.ret trivial

theorem kw_insert {b : Bool} (hc : C.mode = .incremental n) : Kw k F (insert C k v b) := by
  unfold insert
  refine Kw.bind (kw_insertInner hc) fun r => ?_
  kw []

theorem kw_removeLoop {f : Closure (K × V) Bool} {st : f.Tr} {i : Nat} {e : Entry K V} {s : Slot K V} (h : F T.id i) :
    Obs' (kwSys V k F) (removeLoop C f T i st e s) fun x => x.2.Mine F T := by
  unfold removeLoop
  refine Obs'.loop (fun _ => True) trivial fun s _ => ?_
  obtain ⟨st, e, s⟩ := s
  refine Kw.bind (Kw.act trivial) fun _ => Kw.bind kw_invoke fun x => ?_
  obtain ⟨st, b⟩ := x
  dsimp only
  split
  · exact Obs'.ret trivial
  · refine Kw.bind kw_updTomb fun r => ?_
    split
    · exact Kw.bind (Kw.act trivial) fun _ => Kw.bind (Kw.act trivial) fun _ => Obs'.ret trivial
    · exact Obs'.ret h
    · exact Obs'.ret trivial
    · exact Obs'.ret trivial

theorem kw_removeProbe {f : Closure (K × V) Bool} {st : f.Tr} :
    Obs' (kwSys V k F) (removeProbe C k f st T) fun x => x.2.Mine F T := by
  unfold removeProbe
  refine Obs'.loop (fun _ => True) trivial fun p _ => ?_
  split
  · refine Kw.bind (Kw.act trivial) fun m => ?_
    split
    · exact Obs'.ret trivial
    · split
      · exact Obs'.ret trivial
      · refine Obs'.step trivial fun s hs => ?_
        split
        · exact Obs'.ret trivial
        · rename_i e he
          refine Kw.bind (Kw.act trivial) fun _ => ?_
          split
          · exact Obs'.ret trivial
          · have hm := hs e he (by simpa using ‹¬ e.key ≠ k›)
            split
            · exact Obs'.ret hm
            · exact Obs'.bind _ (kw_removeLoop hm) fun x hx => Obs'.ret hx
  · exact Obs'.ret trivial

theorem kw_removeIf {f : Closure (K × V) Bool} (hc : C.mode = .incremental n) : Kw k F (removeIf C k f) := by
  unfold removeIf
  refine Kw.bind (Kw.act trivial) fun r => ?_
  split
  · exact Obs'.ret trivial
  · refine Kw.loop fun s => ?_
    obtain ⟨T, help, st⟩ := s
    refine Obs'.bind _ kw_removeProbe fun o ho => ?_
    obtain ⟨st, o⟩ := o
    cases o with
    | done r => exact Obs'.ret trivial
    | retry i =>
      refine Kw.bind (kw_retry hc (WOut.Mine.some ho)) fun r => ?_
      split <;> exact Obs'.ret trivial

theorem kw_remove (hc : C.mode = .incremental n) : Kw (V := V) k F (remove C k) := by
  unfold remove
  exact Kw.bind (kw_removeIf hc) fun r => by kw []

theorem kw_next {R : Type} {f : Closure (Option (K × V)) (Operation V R)} {c : CState K V R f} {e : Option (Entry K V)} :
    Kw k F (c.next e) := by
  unfold CState.next; kw [kw_invoke]

theorem kw_restore {R : Type} {f : Closure (Option (K × V)) (Operation V R)} {c : CState K V R f} {o : Option (Entry K V)} {y : Operation V R} :
    Kw k F (c.restore o y) := by
  unfold CState.restore; kw []

/-- The slot for whose copy `compute` will wait. -/
def CMine {R σ : Type} {X Y : Type} (F : Nat → Nat → Prop) (T : Table) : (X ⊕ (Y × WOut R)) → Prop
  | .inl _ => True
  | .inr (_, o) => o.Mine F T

theorem kw_computeFailure {R : Type} {f : Closure (Option (K × V)) (Operation V R)} {p : Probe} {c : CState K V R f} {s : EStat K V}
    (h : F T.id p.i) : Obs' (kwSys V k F) (computeFailure T p c s) (Sum.elim (fun _ => True) (Sum.elim (fun _ => True) fun x => x.2.Mine F T)) := by
  unfold computeFailure
  split
  · exact Obs'.ret h
  · refine Kw.bind kw_next fun x => ?_
    obtain ⟨c, op⟩ := x
    cases op with
    | insert v => exact Kw.bind kw_restore fun _ => Obs'.ret trivial
    | remove => exact Kw.panic
    | abort a => exact Obs'.ret trivial
  · exact Obs'.ret trivial

theorem kw_computeLoop {R : Type} {f : Closure (Option (K × V)) (Operation V R)} {p : Probe} {c : CState K V R f} {e : Entry K V} {s : Slot K V}
    (h : F T.id p.i) : Obs' (kwSys V k F) (computeLoop C k T p c e s) (Sum.elim (fun _ => True) fun x => x.2.Mine F T) := by
  unfold computeLoop
  refine Obs'.loop (fun _ => True) trivial fun x _ => ?_
  obtain ⟨c, e, s⟩ := x
  refine Kw.bind kw_next fun x => ?_
  obtain ⟨c, op⟩ := x
  cases op with
  | abort a => exact Obs'.ret trivial
  | insert v =>
    refine Kw.bind kw_updNew fun r => ?_
    split
    · exact Obs'.ret trivial
    · exact Kw.panic
    · exact Kw.bind kw_restore fun c => kw_computeFailure h
  | remove =>
    refine Kw.bind kw_updTomb fun r => ?_
    split
    · exact Kw.bind (Kw.act trivial) fun _ => Kw.bind (Kw.act trivial) fun _ => Obs'.ret trivial
    · exact Kw.bind kw_restore fun c => kw_computeFailure h

theorem kw_computeFound {R : Type} {f : Closure (Option (K × V)) (Operation V R)} {p : Probe} {c : CState K V R f} {e : Entry K V} {s : Slot K V}
    (h : e.key = k → F T.id p.i) : Obs' (kwSys V k F) (computeFound C k T p c e s) (Sum.elim (fun _ => True) fun x => x.2.Mine F T) := by
  unfold computeFound
  refine Kw.bind (Kw.act trivial) fun _ => ?_
  split
  · exact Obs'.ret trivial
  · have hm := h (by simpa using ‹¬ e.key ≠ k›)
    split
    · exact Obs'.ret hm
    · exact kw_computeLoop hm

theorem kw_computeProbe {R : Type} {f : Closure (Option (K × V)) (Operation V R)} {c : CState K V R f} :
    Obs' (kwSys V k F) (computeProbe C k T c) fun x => x.2.Mine F T := by
  unfold computeProbe
  refine Obs'.loop (fun _ => True) trivial fun x _ => ?_
  obtain ⟨c, p⟩ := x
  dsimp only
  split
  · refine Kw.bind (Kw.act trivial) fun m => ?_
    split
    · refine Kw.bind kw_next fun x => ?_
      obtain ⟨c, op⟩ := x
      cases op with
      | remove => exact Kw.panic
      | abort a => exact Obs'.ret trivial
      | insert v =>
        refine Obs'.bind _ kw_insertAt fun r hr => ?_
        split
        · exact Kw.bind (Kw.act trivial) fun _ => Obs'.ret trivial
        · exact Kw.bind kw_restore fun c => kw_computeFound (hr _ _ (.inl rfl))
        · exact Kw.bind kw_restore fun c => kw_computeFound (hr _ _ (.inr rfl))
        · exact Kw.bind kw_restore fun c => Obs'.ret trivial
    · split
      · refine Obs'.step trivial fun s hs => ?_
        split
        · exact Obs'.ret trivial
        · exact kw_computeFound (hs _ ‹_›)
      · exact Obs'.ret trivial
  · exact Obs'.ret trivial

theorem kw_computeInit {R : Type} {f : Closure (Option (K × V)) (Operation V R)} {c : CState K V R f} :
    Kw k F (computeInit C c) := by
  unfold computeInit; kw [kw_next, kw_restore, kw_init]

theorem kw_compute {R : Type} {f : Closure (Option (K × V)) (Operation V R)} (hc : C.mode = .incremental n) : Kw k F (compute C k f) := by
  unfold compute
  refine Kw.bind kw_computeInit fun x => ?_
  split
  · exact Obs'.ret trivial
  refine Kw.loop fun s => ?_
  obtain ⟨T, h, c⟩ := s
  refine Obs'.bind _ kw_computeProbe fun y hy => ?_
  obtain ⟨c, y⟩ := y
  cases y with
  | done r => exact Obs'.ret trivial
  | retry i =>
    refine Kw.bind (kw_retry hc (WOut.Mine.some hy)) fun x => ?_
    cases x with
    | some n => exact Obs'.ret trivial
    | none =>
      refine Kw.bind kw_next fun x => ?_
      obtain ⟨c, op⟩ := x
      cases op with
      | insert v => exact Kw.bind (kw_retryIns hc nofun) fun _ => Kw.bind kw_restore fun c => Obs'.ret trivial
      | abort a => exact Obs'.ret trivial
      | remove => exact Kw.panic

theorem kw_tryInsertWith {f : Closure Unit V} (hc : C.mode = .incremental n) : Kw k F (tryInsertWith C k f) := by
  unfold tryInsertWith; kw [kw_compute hc]

/-- Every operation on a single key. -/
theorem kw_call {c : Call K V} (hc : C.mode = .incremental n) (hk : c.key? = some k) : Kw k F (c.prog C) := by
  cases c with
  | get => cases hk; exact kw_get
  | containsKey => cases hk; exact Kw.bind kw_get fun _ => Obs'.ret trivial
  | insert =>
    cases hk
    refine Kw.bind (kw_insert hc) fun r => ?_
    kw [] <;> exact Obs'.ret trivial
  | tryInsert =>
    cases hk
    show Kw _ _ (Call.tryInsertProg C _ _)
    unfold Call.tryInsertProg
    refine Kw.bind (kw_insert hc) fun r => ?_
    kw []
  | tryInsertWith => cases hk; exact kw_tryInsertWith hc
  | getOrInsert =>
    cases hk
    refine Kw.bind ?_ fun r => ?_
    · unfold Call.tryInsertProg
      refine Kw.bind (kw_insert hc) fun r => ?_
      kw []
    · kw [] <;> exact Obs'.ret trivial
  | getOrInsertWith =>
    cases hk
    show Kw _ _ (getOrInsertWith C _ _)
    unfold getOrInsertWith; kw [kw_tryInsertWith hc]
  | update =>
    cases hk
    show Kw _ _ (update C _ _)
    unfold update; kw [kw_compute hc]
  | updateOrInsert =>
    cases hk
    show Kw _ _ (updateOrInsertWith C _ _ _)
    unfold updateOrInsertWith; kw [kw_compute hc]
  | updateOrInsertWith =>
    cases hk
    show Kw _ _ (updateOrInsertWith C _ _ _)
    unfold updateOrInsertWith; kw [kw_compute hc]
  | compute => cases hk; exact kw_compute hc
  | remove => cases hk; exact kw_remove hc
  | removeIf => cases hk; exact kw_removeIf hc
  | clear => cases hk
  | retain => cases hk
  | iter => cases hk
  | iterTake => cases hk
  | len => cases hk
  | isEmpty => cases hk
  | reserve => cases hk

end ops

end Papaya
