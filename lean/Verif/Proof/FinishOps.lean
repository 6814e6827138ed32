import Verif.Proof.Finish

/-! # The operations do their duties -/

set_option linter.unusedSectionVars false
set_option linter.unusedVariables false

namespace Papaya

variable {K V : Type} [DecidableEq K] {inc : Bool} {C : Cfg K}

open Du

/-- Close goals of the form `Idle inc p`. -/
macro "idle" : tactic => `(tactic| repeat' (first
  | assumption | (with_reducible exact idleRet) | (with_reducible exact idleRet') | (with_reducible exact idlePanic (by decide))
  | (with_reducible exact idlePrim rfl)
  | (with_reducible refine idleBind ?_ fun _ => ?_) | (with_reducible refine idleLoop fun _ => ?_) | split))

/-- Close goals of the form `Plain inc p`. -/
macro "plain" : tactic => `(tactic| repeat' (first
  | assumption | (with_reducible exact plainRet) | (with_reducible exact plainRet') | (with_reducible exact plainPanic)
  | (with_reducible exact plainPrim rfl)
  | (with_reducible refine plainBind ?_ fun _ => ?_) | (with_reducible refine plainLoop fun _ => ?_) | split))

theorem idle_len : Idle inc (len (V := V) C) := by unfold len; idle

theorem idle_insertCopy {e : Entry K V} {s : Slot K V} {T : Table} : Idle inc (insertCopy C e s Bool.false T) := by
  unfold insertCopy
  simp only [Bool.false_eq_true, if_false]
  idle

theorem obs_sameTable {o : Option Duty} {x y : Nat} {r : Bool} (h : Obs o (.sameTable (K := K) (V := V) x y) r) :
    r = decide (x = y) := by
  cases o with
  | none => exact h
  | some d => cases d <;> exact h

theorem obs_loadNext {o : Option Duty} {T : Nat} {r : Option Table} (h : Obs o (.loadNext (K := K) (V := V) T) r) :
    ∀ N, r = some N → T < N.id := by
  cases o with
  | none => exact h
  | some d => cases d <;> exact h

theorem obs_storeNext {o : Option Duty} {T c : Nat} {r : Table} (h : Obs o (.storeNext (K := K) (V := V) T c) r) :
    T < r.id := by
  cases o with
  | none => exact h
  | some d => cases d <;> exact h

theorem du_loadNext {P : Option Duty → Prop} {T : Nat} :
    Du inc P (A.loadNext (K := K) (V := V) T) fun o r => P o ∧ ∀ N, r = some N → T < N.id :=
  act fun o r hp ho => ⟨fun d hd => (by cases hd), fun _ => ⟨hp, obs_loadNext ho⟩⟩

theorem du_unlock {P : Option Duty → Prop} {T : Nat} :
    Du inc (fun o => P o ∨ o = some (.unlock T)) (A.unlock (K := K) (V := V) T) fun o _ => P o :=
  act fun o r hp ho => ⟨fun d hd => (by cases hd), fun hn => hp.elim id fun h => absurd rfl (hn _ h)⟩

theorem du_poison {P : Option Duty → Prop} {T : Nat} :
    Du inc (fun o => P o ∨ o = some (.unlock T)) (A.poison (K := K) (V := V) T) fun o _ => P o :=
  act fun o r hp ho => ⟨fun d hd => (by cases hd), fun hn => hp.elim id fun h => absurd rfl (hn _ h)⟩

/-- The duties after a call to `get_or_alloc_next`: none new, or (in blocking mode) to see the promotion through. -/
def GanPost (inc : Bool) (o0 : Option Duty) (T : Nat) (o : Option Duty) (N : Table) : Prop :=
  T < N.id ∧ (o = o0 ∨ (inc = false ∧ o = some (.stay T)))

theorem du_allocNextLocked {o0 : Option Duty} {cap : Option Nat} {T : Table} :
    Du inc (fun o => o = o0 ∨ o = some (.unlock T.id)) (allocNextLocked (V := V) C cap T) (GanPost inc o0 T.id) := by
  unfold allocNextLocked
  refine bind _ du_loadNext fun r => ?_
  cases r with
  | some next =>
    refine bind (fun o _ => o = o0 ∧ T.id < next.id) ?_ fun _ => ?_
    · exact (du_unlock (P := fun o => o = o0 ∧ T.id < next.id)).conseq
        (fun o h => h.1.imp (fun h1 => ⟨h1, h.2 _ rfl⟩) id) fun _ _ h => h
    · exact ret fun o h => ⟨h.2, .inl h.1⟩
  | none =>
    have hp : ∀ {r : PanicReason}, r.hard = true → Du inc (fun o => o = o0 ∨ o = some (.unlock T.id))
        (A.poison (K := K) (V := V) T.id >>= fun _ => Prog.panic r) (GanPost inc o0 T.id) := fun hr =>
      bind _ du_poison fun _ => panic (.inr hr)
    refine bind (fun o _ => o = o0 ∨ o = some (.unlock T.id))
      (idle_len.keep.conseq (fun o h => h.1) fun _ _ h => h) fun n => ?_
    refine ite (fun _ => ite (fun _ => ite (fun _ => ?_) fun _ => hp (by decide)) fun _ => hp (by decide)) fun _ => hp (by decide)
    refine bind (fun o (N : Table) => (T.id < N.id ∧ (o = o0 ∨ (inc = false ∧ o = some (.stay T.id)))) ∨ o = some (.unlock T.id)) ?_
      fun N => bind (fun o _ => T.id < N.id ∧ (o = o0 ∨ (inc = false ∧ o = some (.stay T.id)))) du_unlock fun _ => ret fun o h => h
    refine act fun o r hp ho => ⟨fun d hd => ?_, fun _ => ?_⟩
    · cases inc with
      | true => cases hd
      | false =>
        rw [show d = .stay T.id from List.mem_singleton.1 hd]
        exact .inl ⟨obs_storeNext ho, .inr ⟨rfl, rfl⟩⟩
    · rcases hp with h | h
      · exact .inl ⟨obs_storeNext ho, .inl h⟩
      · exact .inr h

theorem du_lock {o0 : Option Duty} {a : Act K V Bool} {T : Nat}
    (ha : ∀ r : Bool, a.duties inc r = if r then [.unlock T] else []) :
    Du inc (fun o => o = o0) (.prim a) fun o r => o = o0 ∨ (r = true ∧ o = some (.unlock T)) :=
  act fun o r hp ho => ⟨fun d hd => by
    rw [ha] at hd
    cases r with
    | false => cases hd
    | true => exact .inr ⟨rfl, by rw [List.mem_singleton.1 hd]⟩, fun _ => .inl hp⟩

theorem du_getOrAllocNext {o0 : Option Duty} {cap : Option Nat} {T : Table} :
    Du inc (fun o => o = o0) (getOrAllocNext (V := V) C cap T) (GanPost inc o0 T.id) := by
  unfold getOrAllocNext
  refine bind _ du_loadNext fun r => ?_
  cases r with
  | some next => exact ret fun o h => ⟨h.2 _ rfl, .inl h.1⟩
  | none =>
    refine bind _ ((du_lock (T := T.id) fun _ => rfl).conseq (fun o h => h.1) fun _ _ h => h) fun b => ?_
    refine ite (fun hb => du_allocNextLocked.conseq (fun o h => h.imp id (·.2)) fun _ _ h => h) fun hb => ?_
    refine bind (fun o r => o = o0 ∧ ∀ N, r = some N → T.id < N.id) ?_ fun r => ?_
    · refine (loop (fun o _ => o = o0) fun s => ?_).conseq (fun o h => h.elim id fun h => absurd h.1 hb) fun _ _ h => h
      refine ite (fun _ => ?_) fun _ => ret fun o h => ⟨h, fun _ h => by cases h⟩
      refine bind _ du_loadNext fun r => ?_
      cases r with
      | some next => exact ret fun o h => ⟨h.1, fun N hN => by cases hN; exact h.2 _ rfl⟩
      | none => exact ret fun o h => h.1
    · cases r with
      | some next => exact ret fun o h => ⟨h.2 _ rfl, .inl h.1⟩
      | none =>
        refine bind _ ((du_lock (T := T.id) fun _ => rfl).conseq (fun o h => h.1) fun _ _ h => h) fun b => ?_
        exact ite (fun hb => du_allocNextLocked.conseq (fun o h => h.imp id (·.2)) fun _ _ h => h) fun hb =>
          panic (.inr (by decide))

theorem idle_getOrAllocNext {cap : Option Nat} {T : Table} : Idle Bool.true (getOrAllocNext (V := V) C cap T) := fun o =>
  du_getOrAllocNext.conseq (fun _ h => h) fun o x h => h.2.elim id fun h => absurd h.1 (by decide)

theorem idle_insertCopy' {e : Entry K V} {s : Slot K V} {T : Table} {b : Bool} :
    Idle Bool.true (insertCopy C e s b T) := by
  unfold insertCopy
  have := fun cap T => idle_getOrAllocNext (V := V) (C := C) (cap := cap) (T := T)
  repeat' (first | (exact this _ _) | idle)

/-- With a duty `stay`, `try_promote` returns only `false`. -/
theorem du_tryPromote {o0 : Option Duty} (h0 : o0 = none ∨ ∃ T0, o0 = some (.stay T0)) {T N : Table} {c : Nat} :
    Du inc (fun o => o = o0) (tryPromote (K := K) (V := V) T N c) (fun o b => o = o0 ∧ (o0 ≠ none → b = false)) := by
  unfold tryPromote
  have hi : Idle inc ((if c > 0 then do
      let old ← A.addCopied (K := K) (V := V) N.id c T
      return old + c
    else do
      A.loadCopied N.id) : Prog K V Nat) := by idle
  refine bind _ hi.keep fun m => ?_
  refine ite (fun hm => ?_) fun hm => ret fun o h => ⟨h, fun _ => rfl⟩
  refine bind (fun o r => o = o0 ∧ Obs o0 (.peekRoot (K := K) (V := V)) r)
    (act fun o r ho hr => ⟨fun d hd => (by cases hd), fun _ => ⟨ho, ho ▸ hr⟩⟩) fun root => ?_
  cases root with
  | none => exact ret fun o h => ⟨h.1, fun _ => rfl⟩
  | some root =>
  refine bind (fun o b => (o = o0 ∧ Obs o0 (.peekRoot (K := K) (V := V)) (some root)) ∧ b = decide (T.id = root))
    (act fun o r ho hr => ⟨fun d hd => (by cases hd), fun _ => ⟨ho, obs_sameTable hr⟩⟩) fun b => ?_
  refine ite (fun hb0 => ?_) fun hr => ret fun o h => ⟨h.1.1, fun _ => rfl⟩
  refine bind (fun o b => (b = true ∧ o = some (.retire T.id)) ∨ (o = none ∧ o0 = none)) ?_ fun b => ?_
  · refine act fun o r ho hr' => ⟨fun d hd => ?_, fun hn => ?_⟩
    · cases r with
      | false => cases hd
      | true => exact .inl ⟨rfl, by rw [List.mem_singleton.1 hd]⟩
    · rcases h0 with h0 | ⟨T0, h0⟩
      · exact .inr ⟨ho.1.1.trans h0, h0⟩
      · have h1 := ho.1.2
        rw [h0] at h1
        have h1 : some root = some T0 := h1
        have h2 : T.id = root := of_decide_eq_true (ho.2 ▸ hb0)
        exact absurd (h2.trans (Option.some.inj h1)) (hn _ (ho.1.1.trans h0))
  · refine ite (fun hb => ?_) fun hb => bind _ (Idle.keep (idlePrim rfl)) fun _ => ret fun o h => ?_
    · refine bind (fun o _ => o = some (.retire T.id) ∨ (o = none ∧ o0 = none)) ?_ fun _ => ?_
      · exact (Idle.keep (idlePrim rfl)).conseq (fun o h => h.imp (·.2) id) fun _ _ h => h
      · refine bind (fun o _ => o = none ∧ o0 = none) ?_ fun _ =>
          bind _ (Idle.keep (idlePrim rfl)) fun _ => ret fun o h => ⟨h.1.trans h.2.symm, fun hn => absurd h.2 hn⟩
        exact act fun o r ho _ => ⟨fun d hd => (by cases hd), fun hn => ho.elim (fun h => absurd rfl (hn _ h)) id⟩
    · rcases h with h | h
      · exact absurd h.1 hb
      · exact ⟨h.1.trans h.2.symm, fun hn => absurd h.2 hn⟩

theorem plain_tryPromote {T N : Table} {c : Nat} : Plain inc (tryPromote (K := K) (V := V) T N c) :=
  (du_tryPromote (.inl rfl)).conseq (fun _ h => h) fun _ _ h => h.1

theorem plain_copyAtIncremental {i : Nat} {T N : Table} : Plain Bool.true (copyAtIncremental (V := V) C i T N) := by
  unfold copyAtIncremental
  refine bind (fun o s => o = none ∨ (s.ptr.isSome = true ∧ o = some (.store T.id i))) ?_ fun s => ?_
  · refine act fun o r ho _ => ⟨fun d hd => ?_, fun _ => .inl ho⟩
    change d ∈ (if (true && r.ptr.isSome) = true then [Duty.store T.id i] else []) at hd
    split at hd
    · exact .inr ⟨by simpa using ‹_›, by rw [List.mem_singleton.1 hd]⟩
    · cases hd
  · split
    · rename_i hs
      have : Plain Bool.true (if s.copying = false ∧ s.copied = true ∧ s.borrowed = false then pure ()
          else A.storeMd (K := K) (V := V) T.id i TOMBSTONE) := by plain
      refine this.conseq (fun o h => h.elim id fun h => ?_) fun _ _ h => h
      rw [hs] at h; cases h.1
    · refine bind (fun o _ => o = none ∨ o = some (.store T.id i)) (idle_insertCopy'.keep.conseq (fun o h => h.imp id (·.2)) fun _ _ h => h)
        fun r => ?_
      cases r with
      | none => exact panic (.inr (by decide))
      | some x =>
        refine bind (fun o _ => o = none) ?_ fun _ => plainPrim rfl
        exact act fun o r ho _ => ⟨fun d hd => (by cases hd), fun hn => ho.elim id fun h => absurd ⟨rfl, rfl⟩ (hn _ h)⟩

theorem plain_copyChunkIncremental {T N : Table} {s c : Nat} : Plain Bool.true (copyChunkIncremental (V := V) C T N s c) := by
  unfold copyChunkIncremental
  have := fun i T N => plain_copyAtIncremental (V := V) (C := C) (i := i) (T := T) (N := N)
  repeat' (first | (exact this _ _ _) | plain)

theorem plain_helpCopyIncremental {c : Nat} {b : Bool} : Plain Bool.true (helpCopyIncremental (V := V) C c b) := by
  unfold helpCopyIncremental
  have h1 := fun T N s c => plain_copyChunkIncremental (V := V) (C := C) (T := T) (N := N) (s := s) (c := c)
  have h2 := fun T N c => plain_tryPromote (K := K) (V := V) (inc := Bool.true) (T := T) (N := N) (c := c)
  repeat' (first | (exact h1 _ _ _ _) | (exact h2 _ _ _) | plain)

theorem idle_copyAtBlocking {i : Nat} {T N : Table} : Idle Bool.false (copyAtBlocking (V := V) C i T N) := by
  unfold copyAtBlocking
  have := fun e s T => idle_insertCopy (inc := Bool.false) (C := C) (e := e) (s := s) (T := T) (V := V)
  repeat' (first | (exact this _ _ _) | idle)

theorem idle_copyChunkBlocking {T N : Table} {s c : Nat} : Idle Bool.false (copyChunkBlocking (V := V) C T N s c) := by
  unfold copyChunkBlocking
  have := fun i T N => idle_copyAtBlocking (V := V) (C := C) (i := i) (T := T) (N := N)
  repeat' (first | (exact this _ _ _) | idle)

/-- The duties during `help_copy_blocking`. -/
def Hb (o : Option Duty) (N : Nat) : Prop := o = none ∨ ∃ T0, T0 < N ∧ o = some (.stay T0)

theorem Hb.gan {o o' : Option Duty} {N : Nat} {M : Table} (h : Hb o N) (hg : GanPost Bool.false o N o' M) : Hb o' M.id := by
  obtain ⟨h1, h2 | ⟨_, h2⟩⟩ := hg
  · rw [h2]
    exact h.imp id fun ⟨T0, h, h'⟩ => ⟨T0, by omega, h'⟩
  · exact .inr ⟨N, h1, h2⟩

theorem hb_gan {T : Table} {cap : Option Nat} :
    Du Bool.false (fun o => Hb o T.id) (getOrAllocNext (V := V) C cap T) fun o N => Hb o N.id := fun n o h =>
  (du_getOrAllocNext n o rfl).post fun _ _ hg => h.gan hg

theorem hb_tryPromote {T N : Table} {c : Nat} :
    Du Bool.false (fun o => Hb o N.id) (tryPromote (K := K) (V := V) T N c) fun o b => Hb o N.id ∧ (b = true → o = none) := by
  intro n o h
  refine (du_tryPromote (h.imp id fun ⟨T0, _, h⟩ => ⟨T0, h⟩) n o rfl).post fun o' b h' => ?_
  refine ⟨h'.1 ▸ h, fun hb => ?_⟩
  by_contra hc
  have := h'.2 (h'.1 ▸ hc)
  rw [hb] at this; cases this

theorem du_helpCopyBlocking {T : Table} :
    Du Bool.false (fun o => o = none ∨ o = some (.stay T.id)) (helpCopyBlocking (V := V) C T) fun o _ => o = none := by
  unfold helpCopyBlocking
  refine bind _ du_loadNext fun r => ?_
  cases r with
  | none => exact panic (.inr (by decide))
  | some next =>
    refine (loop (fun o (N : Table) => Hb o N.id) fun next => ?_).conseq (fun o h => ?_) fun _ _ h => h
    · refine bind (fun o N => Hb o N.id) ?_ fun next => ?_
      · refine loop (fun o (N : Table) => Hb o N.id) fun next => ?_
        refine bind (fun o _ => Hb o next.id) (Idle.keep (idlePrim rfl)) fun st => ?_
        refine ite (fun _ => ?_) fun _ => ret fun o h => h
        exact bind _ hb_gan fun N => ret fun o h => h
      · refine bind _ hb_tryPromote fun b => ?_
        refine ite (fun hb => ret fun o h => h.2 hb) fun hb => ?_
        refine bind (fun o (x : CopyOut) => match x with
          | .brk => Hb o next.id
          | .retry N => Hb o N.id
          | .done _ => o = none) ?_ fun out => ?_
        · refine (loop (fun o (_ : Unit) => Hb o next.id) fun _ => ?_).conseq (fun o h => h.1) fun _ _ h => h
          refine bind (fun o _ => Hb o next.id) (Idle.keep (idlePrim rfl)) fun cl => ?_
          refine ite (fun _ => ret fun o h => h) fun _ => ?_
          refine bind (fun o _ => Hb o next.id) (Idle.keep (idlePrim rfl)) fun start => ?_
          refine bind (fun o _ => Hb o next.id) idle_copyChunkBlocking.keep fun r => ?_
          cases r with
          | none =>
            refine bind (fun o _ => Hb o next.id) (Idle.keep (idlePrim rfl)) fun _ => ?_
            exact bind _ hb_gan fun N => bind _ (Idle.keep (idlePrim rfl)) fun _ => ret fun o h => h
          | some c =>
            refine bind _ hb_tryPromote fun b => ?_
            refine ite (fun hb => ret fun o h => h.2 hb) fun hb => ?_
            refine bind (fun o _ => Hb o next.id) ((Idle.keep (idlePrim rfl)).conseq (fun o h => h.1) fun _ _ h => h) fun st => ?_
            exact ite (fun _ => ret fun o h => h) fun _ => ret fun o h => h
        · cases out with
          | done n => exact ret fun o h => h
          | retry n => exact ret fun o h => h
          | brk =>
            refine bind (fun o (b : Bool) => Hb o next.id ∧ (b = true → o = none)) ?_ fun ok => ?_
            · refine loop (fun o (_ : Nat) => Hb o next.id) fun _ => ?_
              refine bind (fun o st => Hb o next.id ∧ (st = .promoted → o = none)) ?_ fun st => ?_
              · refine act fun o r ho hr => ⟨fun d hd => (by cases hd), fun _ => ⟨ho, fun hp => ?_⟩⟩
                rcases ho with ho | ⟨T0, h1, h2⟩
                · exact ho
                · subst h2
                  have : next.id ≤ T0 := hr hp
                  omega
              · cases st with
                | aborted => exact ret fun o h => ⟨h.1, fun h => by cases h⟩
                | promoted => exact ret fun o h => ⟨h.1, fun _ => h.2 rfl⟩
                | pending =>
                  refine ite (fun _ => ret fun o h => h.1) fun _ => ?_
                  exact bind (fun o _ => Hb o next.id) ((Idle.keep (idlePrim rfl)).conseq (fun o h => h.1) fun _ _ h => h) fun _ => ret fun o h => h
            · exact ite (fun hb => ret fun o h => h.2 hb) fun hb => ret fun o h => h.1
    · rcases h.1 with h1 | h1
      · exact .inl h1
      · exact .inr ⟨T.id, h.2 _ rfl, h1⟩

/-! The operations, in the mode of the map. -/

theorem cfg_inc : (C.inc = true ∧ ∃ c, C.mode = .incremental c) ∨ (C.inc = false ∧ C.mode = .blocking) := by
  unfold Cfg.inc
  cases C.mode with
  | blocking => exact .inr ⟨rfl, rfl⟩
  | incremental c => exact .inl ⟨rfl, c, rfl⟩

theorem plain_helpCopy {b : Bool} {T : Table} : Plain C.inc (helpCopy (V := V) C b T) := by
  rcases cfg_inc (C := C) with ⟨h1, c, h2⟩ | ⟨h1, h2⟩
  · rw [h1]
    unfold helpCopy
    rw [h2]
    have h3 := fun c b => plain_helpCopyIncremental (V := V) (C := C) (c := c) (b := b)
    refine plainBind (h3 _ _) fun x => ?_
    plain
  · rw [h1]
    unfold helpCopy
    rw [h2]
    exact du_helpCopyBlocking.conseq (fun o h => .inl h) fun _ _ h => h

/-- `get_or_alloc_next` followed by `help_copy`. -/
theorem plain_ganHelp {β : Type} {cap : Option Nat} {b : Bool} {T : Table} {f : Table → Table → Prog K V β}
    (hf : ∀ x y, Plain C.inc (f x y)) :
    Plain C.inc (getOrAllocNext (V := V) C cap T >>= fun x => helpCopy C b T >>= f x) := by
  rcases cfg_inc (C := C) with ⟨h1, c, h2⟩ | ⟨h1, h2⟩
  · refine plainBind ?_ fun x => plainBind plain_helpCopy fun y => hf x y
    rw [h1]; exact idle_getOrAllocNext.plain
  · rw [h1] at hf ⊢
    refine bind _ du_getOrAllocNext fun x => bind (fun o _ => o = none) ?_ fun y => hf x y
    unfold helpCopy
    rw [h2]
    exact du_helpCopyBlocking.conseq (fun o h => h.2.imp id (·.2)) fun _ _ h => h

theorem plain_ganHelp' {cap : Option Nat} {b : Bool} {T : Table} :
    Plain C.inc (getOrAllocNext (V := V) C cap T >>= fun _ => helpCopy C b T) := by
  rcases cfg_inc (C := C) with ⟨h1, c, h2⟩ | ⟨h1, h2⟩
  · refine plainBind ?_ fun x => plain_helpCopy
    rw [h1]; exact idle_getOrAllocNext.plain
  · rw [h1]
    refine bind _ du_getOrAllocNext fun x => ?_
    unfold helpCopy
    rw [h2]
    exact du_helpCopyBlocking.conseq (fun o h => h.2.imp id (·.2)) fun _ _ h => h

theorem plain_linearize {T : Table} : Plain C.inc (linearize (V := V) C T) := by
  unfold linearize
  have h1 := fun b T => plain_helpCopy (V := V) (C := C) (b := b) (T := T)
  repeat' (first | (exact h1 _ _) | plain)

theorem idle_waitCopied {i : Nat} {T : Table} : Idle inc (waitCopied (V := V) C i T) := by
  unfold waitCopied; idle

theorem idle_deferRetire {e : Entry K V} {s : Slot K V} {T : Table} : Idle inc (deferRetire C e s T) := by
  unfold deferRetire; idle

theorem idle_initTable {c : Option Nat} : Idle inc (initTable (K := K) (V := V) C c) := by
  unfold initTable; dsimp only; idle

theorem plain_get {k : K} : Plain inc (get (V := V) C k) := by
  unfold get getProbe; plain

theorem idle_insertAt {i m : Nat} {k : K} {v : V} {T : Table} : Idle inc (insertAt C i m k v T) := by
  unfold insertAt; idle

theorem idle_updateAtNew {i : Nat} {e : Entry K V} {s : Slot K V} {k : K} {v : V} {T : Table} :
    Idle inc (updateAtNew C i e s k v T) := by
  unfold updateAtNew
  have h1 := fun e s T => idle_deferRetire (inc := inc) (C := C) (e := e) (s := s) (T := T) (V := V)
  repeat' (first | (exact h1 _ _ _) | idle)

theorem idle_updateAtTomb {i : Nat} {e : Entry K V} {s : Slot K V} {T : Table} :
    Idle inc (updateAtTomb C i e s T) := by
  unfold updateAtTomb
  have h1 := fun e s T => idle_deferRetire (inc := inc) (C := C) (e := e) (s := s) (T := T) (V := V)
  repeat' (first | (exact h1 _ _ _) | idle)

theorem plain_prepareRetryInsert {c : Option Nat} {b : Bool} {T : Table} :
    Plain C.inc (prepareRetryInsert (V := V) C c b T) := by
  unfold prepareRetryInsert
  rcases cfg_inc (C := C) with ⟨h1, ch, h2⟩ | ⟨h1, h2⟩
  · simp only [h2]
    have h3 := fun b T => plain_helpCopy (V := V) (C := C) (b := b) (T := T)
    have h4 := fun i T => (idle_waitCopied (V := V) (C := C) (inc := C.inc) (i := i) (T := T)).plain
    refine plainBind (by rw [h1]; exact idle_getOrAllocNext.plain) fun _ => ?_
    repeat' (first | (exact h3 _ _) | (exact h4 _ _) | plain)
  · simp only [h2]
    exact plain_ganHelp'

theorem plain_prepareRetry {c : Option Nat} {b : Bool} {T : Table} :
    Plain C.inc (prepareRetry (V := V) C c b T) := by
  unfold prepareRetry
  have h3 := fun b T => plain_helpCopy (V := V) (C := C) (b := b) (T := T)
  have h4 := fun i T => (idle_waitCopied (V := V) (C := C) (inc := C.inc) (i := i) (T := T)).plain
  repeat' (first | (exact h3 _ _) | (exact h4 _ _) | plain)

theorem plain_insert {k : K} {v : V} {b : Bool} : Plain C.inc (insert C k v b) := by
  unfold insert insertInner insertProbe insertFound insertSlow
  have h1 := fun c b T => plain_prepareRetryInsert (V := V) (C := C) (c := c) (b := b) (T := T)
  have h2 := fun i m k v T => (idle_insertAt (V := V) (inc := C.inc) (C := C) (i := i) (m := m) (k := k) (v := v) (T := T)).plain
  have h3 := fun i e s k v T => (idle_updateAtNew (V := V) (inc := C.inc) (C := C) (i := i) (e := e) (s := s) (k := k) (v := v) (T := T)).plain
  have h4 := fun c => (idle_initTable (K := K) (V := V) (C := C) (inc := C.inc) (c := c)).plain
  repeat' (first | (exact h1 _ _ _) | (exact h2 _ _ _ _ _) | (exact h3 _ _ _ _ _ _) | (exact h4 _) | plain)

theorem plain_invoke {I O : Type} {f : Closure I O} {s : f.Tr} {i : I} : Plain (K := K) (V := V) inc (f.invoke s i) := by
  unfold Closure.invoke
  plain

theorem plain_removeIf {k : K} {f : Closure (K × V) Bool} : Plain C.inc (removeIf C k f) := by
  unfold removeIf removeProbe removeLoop
  have h1 := fun c b T => plain_prepareRetry (V := V) (C := C) (c := c) (b := b) (T := T)
  have h3 := fun i e s T => (idle_updateAtTomb (V := V) (inc := C.inc) (C := C) (i := i) (e := e) (s := s) (T := T)).plain
  have h4 := fun s i => (plain_invoke (K := K) (V := V) (inc := C.inc) (f := f) (s := s) (i := i))
  repeat' (first | (exact h1 _ _ _) | (exact h3 _ _ _ _) | (exact h4 _ _) | plain)

theorem plain_remove {k : K} : Plain C.inc (remove (V := V) C k) := by
  unfold remove
  have h1 := fun f => plain_removeIf (V := V) (C := C) (k := k) (f := f)
  repeat' (first | (exact h1 _) | plain)

section
variable {R : Type} {f : Closure (Option (K × V)) (Operation V R)}

theorem plain_next {c : CState K V R f} {e : Option (Entry K V)} : Plain inc (c.next e) := by
  unfold CState.next
  have h4 := fun s i => (plain_invoke (K := K) (V := V) (inc := inc) (f := f) (s := s) (i := i))
  repeat' (first | (exact h4 _ _) | plain)

theorem idle_restore {c : CState K V R f} {e : Option (Entry K V)} {o : Operation V R} : Idle inc (c.restore e o) := by
  unfold CState.restore
  idle

theorem plain_computeFailure {T : Table} {p : Probe} {c : CState K V R f} {s : EStat K V} :
    Plain inc (computeFailure T p c s) := by
  unfold computeFailure
  have h1 := fun c e => plain_next (inc := inc) (f := f) (c := c) (e := e)
  have h2 := fun c e o => (idle_restore (inc := inc) (f := f) (c := c) (e := e) (o := o)).plain
  repeat' (first | (exact h1 _ _) | (exact h2 _ _ _) | plain)

theorem plain_computeLoop {k : K} {T : Table} {p : Probe} {c : CState K V R f} {e : Entry K V} {s : Slot K V} :
    Plain inc (computeLoop C k T p c e s) := by
  unfold computeLoop
  have h1 := fun c e => plain_next (inc := inc) (f := f) (c := c) (e := e)
  have h2 := fun c e o => (idle_restore (inc := inc) (f := f) (c := c) (e := e) (o := o)).plain
  have h3 := fun i e s k v T => (idle_updateAtNew (V := V) (inc := inc) (C := C) (i := i) (e := e) (s := s) (k := k) (v := v) (T := T)).plain
  have h4 := fun i e s T => (idle_updateAtTomb (V := V) (inc := inc) (C := C) (i := i) (e := e) (s := s) (T := T)).plain
  have h5 := fun T p c s => plain_computeFailure (inc := inc) (f := f) (T := T) (p := p) (c := c) (s := s)
  repeat' (first | (exact h1 _ _) | (exact h2 _ _ _) | (exact h3 _ _ _ _ _ _) | (exact h4 _ _ _ _) | (exact h5 _ _ _ _) | plain)

theorem plain_computeProbe {k : K} {T : Table} {c : CState K V R f} : Plain inc (computeProbe C k T c) := by
  unfold computeProbe computeFound
  have h1 := fun c e => plain_next (inc := inc) (f := f) (c := c) (e := e)
  have h2 := fun c e o => (idle_restore (inc := inc) (f := f) (c := c) (e := e) (o := o)).plain
  have h3 := fun i m k v T => (idle_insertAt (V := V) (inc := inc) (C := C) (i := i) (m := m) (k := k) (v := v) (T := T)).plain
  have h5 := fun p c e s => plain_computeLoop (C := C) (inc := inc) (f := f) (k := k) (T := T) (p := p) (c := c) (e := e) (s := s)
  repeat' (first | (exact h1 _ _) | (exact h2 _ _ _) | (exact h3 _ _ _ _ _) | (exact h5 _ _ _ _) | plain)

theorem plain_compute {k : K} : Plain C.inc (compute C k f) := by
  unfold compute computeInit
  have h1 := fun c e => plain_next (inc := C.inc) (f := f) (c := c) (e := e)
  have h2 := fun c e o => (idle_restore (inc := C.inc) (f := f) (c := c) (e := e) (o := o)).plain
  have h3 := fun T c => plain_computeProbe (C := C) (inc := C.inc) (f := f) (k := k) (T := T) (c := c)
  have h4 := fun c b T => plain_prepareRetry (V := V) (C := C) (c := c) (b := b) (T := T)
  have h5 := fun c b T => plain_prepareRetryInsert (V := V) (C := C) (c := c) (b := b) (T := T)
  have h6 := fun c => (idle_initTable (K := K) (V := V) (C := C) (inc := C.inc) (c := c)).plain
  repeat' (first | (exact h1 _ _) | (exact h2 _ _ _) | (exact h3 _ _) | (exact h4 _ _ _) | (exact h5 _ _ _) | (exact h6 _) | plain)

end

theorem plain_tryInsertWith {k : K} {f : Closure Unit V} : Plain C.inc (tryInsertWith C k f) := by
  unfold tryInsertWith
  refine plainBind plain_compute fun _ => ?_
  plain

theorem plain_updateOrInsertWith {k : K} {u : Closure V V} {f : Closure Unit V} :
    Plain C.inc (updateOrInsertWith C k u f) := by
  unfold updateOrInsertWith
  refine plainBind plain_compute fun _ => ?_
  plain

theorem plain_update {k : K} {u : Closure V V} : Plain C.inc (update C k u) := by
  unfold update
  refine plainBind plain_compute fun _ => ?_
  plain

theorem plain_reserve {n : Nat} : Plain C.inc (reserve (V := V) C n) := by
  unfold reserve
  have h6 := fun c => (idle_initTable (K := K) (V := V) (C := C) (inc := C.inc) (c := c)).plain
  refine plainBind ?_ fun T => plainLoop fun T => plainBind idle_len.plain fun m => ?_
  · repeat' (first | (with_reducible exact h6 _) | plain)
  · split
    · split
      · plain
      · split
        · plain
        · exact plain_ganHelp fun _ _ => plainRet
    · plain

theorem plain_deleteLoop {f : Closure (K × V) Bool} {T : Table} {i : Nat} {st : f.Tr} {s : Slot K V} :
    Plain inc (deleteLoop C f T i st s) := by
  unfold deleteLoop
  have h1 := fun e s T => (idle_deferRetire (inc := inc) (C := C) (e := e) (s := s) (T := T) (V := V)).plain
  have h4 := fun s i => (plain_invoke (K := K) (V := V) (inc := inc) (f := f) (s := s) (i := i))
  repeat' (first | (exact h1 _ _ _) | (exact h4 _ _) | plain)

theorem plain_clear : Plain C.inc (clear (V := V) C) := by
  unfold clear clearPass
  have h1 := fun f T i st s => plain_deleteLoop (inc := C.inc) (C := C) (V := V) (f := f) (T := T) (i := i) (st := st) (s := s)
  have h2 := fun b T => plain_helpCopy (V := V) (C := C) (b := b) (T := T)
  have h3 := fun T => plain_linearize (V := V) (C := C) (T := T)
  repeat' (first | (exact h1 _ _ _ _ _) | (exact h2 _ _) | (exact h3 _) | plain)

theorem plain_retain {f : Closure (K × V) Bool} : Plain C.inc (retain (V := V) C f) := by
  unfold retain retainPass
  have h1 := fun T i st s => plain_deleteLoop (inc := C.inc) (C := C) (V := V) (f := f) (T := T) (i := i) (st := st) (s := s)
  have h2 := fun b T => plain_helpCopy (V := V) (C := C) (b := b) (T := T)
  have h3 := fun T => plain_linearize (V := V) (C := C) (T := T)
  repeat' (first | (exact h1 _ _ _ _) | (exact h2 _ _) | (exact h3 _) | plain)

theorem plain_iterUpTo {lim : Option Nat} : Plain C.inc (iterUpTo (V := V) C lim) := by
  unfold iterUpTo
  have h3 := fun T => plain_linearize (V := V) (C := C) (T := T)
  repeat' (first | (exact h3 _) | plain)

/-- Every operation does its duties before it returns. -/
theorem plain_call (c : Call K V) : Plain C.inc (c.prog C) := by
  cases c with
  | get k => exact plain_get
  | containsKey k => exact plainBind plain_get fun _ => plainRet
  | insert k v =>
    refine plainBind plain_insert fun x => ?_
    cases x
    · exact plainRet
    · exact plainRet
    · exact plainPanic
  | tryInsert k v =>
    refine plainBind plain_insert fun x => ?_
    cases x
    · exact plainRet
    · exact plainPanic
    · exact plainRet
  | tryInsertWith k f => exact plain_tryInsertWith
  | getOrInsert k v =>
    refine plainBind (plainBind plain_insert fun x => ?_) fun y => ?_
    · cases x
      · exact plainRet
      · exact plainPanic
      · exact plainRet
    · cases y <;> exact plainRet
  | getOrInsertWith k f =>
    refine plainBind plain_tryInsertWith fun y => ?_
    cases y <;> exact plainRet
  | update k f => exact plain_update
  | updateOrInsert k u v => exact plain_updateOrInsertWith
  | updateOrInsertWith k u f => exact plain_updateOrInsertWith
  | compute k f => exact plain_compute
  | remove k => exact plain_remove
  | removeIf k f => exact plain_removeIf
  | clear => exact plain_clear
  | retain f => exact plain_retain
  | iter => exact plain_iterUpTo
  | iterTake n => exact plain_iterUpTo
  | len => exact idle_len.plain
  | isEmpty => exact plainBind idle_len.plain fun _ => plainRet
  | reserve n => exact plain_reserve

end Papaya
