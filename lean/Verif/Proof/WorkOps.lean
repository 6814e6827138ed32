import Verif.Proof.Work

/-! # The operations do their work before they wait -/

set_option linter.unusedSectionVars false
set_option linter.unusedVariables false

namespace Papaya.Wk

variable {K V : Type} [DecidableEq K] {inc : Bool} {C : Cfg K}

open Wd

/-- Close goals of the form `Idle inc p`. -/
macro "widle" : tactic => `(tactic| repeat' (first
  | assumption | (with_reducible exact idleRet) | (with_reducible exact idleRet') | (with_reducible exact idlePanic (by decide))
  | (with_reducible exact idlePrim rfl)
  | (with_reducible refine idleBind ?_ fun _ => ?_) | (with_reducible refine idleLoop fun _ => ?_) | split))

/-- Close goals of the form `Mid inc p`. -/
macro "wmid" : tactic => `(tactic| repeat' (first
  | assumption | (with_reducible exact idleRet.mid) | (with_reducible exact idleRet'.mid)
  | (with_reducible exact (idlePanic (by decide)).mid)
  | (with_reducible exact (idlePrim rfl).mid)
  | (with_reducible refine midBind ?_ fun _ => ?_) | (with_reducible refine midLoop fun _ => ?_) | split))

/-- Close goals of the form `Plain inc p`. -/
macro "wplain" : tactic => `(tactic| repeat' (first
  | assumption | (with_reducible exact plainRet) | (with_reducible exact plainRet') | (with_reducible exact plainPanic)
  | (with_reducible exact plainPrim rfl) | (with_reducible exact plainParkStatus)
  | (with_reducible refine plainBind ?_ fun _ => ?_) | (with_reducible refine plainLoop fun _ => ?_) | split))

theorem idle_len : Idle inc (len (V := V) C) := by unfold len; widle

theorem idle_insertCopy {e : Entry K V} {s : Slot K V} {T : Table} : Idle inc (insertCopy C e s Bool.false T) := by
  unfold insertCopy
  simp only [Bool.false_eq_true, if_false]
  widle

theorem wobs_sameTable {o : Option WDuty} {x y : Nat} {r : Bool} (h : WObs o (.sameTable (K := K) (V := V) x y) r) :
    r = decide (x = y) := by
  cases o with
  | none => exact h
  | some d => cases d <;> exact h

theorem wd_unlock {P : Option WDuty → Prop} {T : Nat} :
    Wd inc (fun o => P o ∨ o = some (.unlock T)) (A.unlock (K := K) (V := V) T) fun o _ => P o :=
  act (fun o _ => allowed_quietly rfl o) fun o r hp ho =>
    ⟨fun d hd => (by cases hd), fun hn => hp.elim id fun h => absurd rfl (hn _ h)⟩

theorem wd_poison {P : Option WDuty → Prop} {T : Nat} :
    Wd inc (fun o => P o ∨ o = some (.unlock T)) (A.poison (K := K) (V := V) T) fun o _ => P o :=
  act (fun o _ => allowed_quietly rfl o) fun o r hp ho =>
    ⟨fun d hd => (by cases hd), fun hn => hp.elim id fun h => absurd rfl (hn _ h)⟩

theorem wd_allocNextLocked {o0 : Option WDuty} {cap : Option Nat} {T : Table} :
    Wd inc (fun o => o = o0 ∨ o = some (.unlock T.id)) (allocNextLocked (V := V) C cap T) fun o _ => o = o0 := by
  unfold allocNextLocked
  refine bind (fun o _ => o = o0 ∨ o = some (.unlock T.id)) (quietPrim rfl) fun r => ?_
  cases r with
  | some next => exact bind (fun o _ => o = o0) wd_unlock fun _ => ret fun o h => h
  | none =>
    have hp : ∀ {r : PanicReason}, r.hard = true → Wd inc (fun o => o = o0 ∨ o = some (.unlock T.id))
        (A.poison (K := K) (V := V) T.id >>= fun _ => Prog.panic r) (fun o (_ : Table) => o = o0) := fun hr =>
      bind _ (wd_poison (P := fun o => o = o0)) fun _ => panic (.inr hr)
    refine bind (fun o _ => o = o0 ∨ o = some (.unlock T.id)) idle_len.keep fun n => ?_
    refine ite (fun _ => ite (fun _ => ite (fun _ => ?_) fun _ => hp (by decide)) fun _ => hp (by decide)) fun _ => hp (by decide)
    refine bind (fun o _ => o = o0 ∨ o = some (.unlock T.id)) (quietPrim rfl) fun N => ?_
    exact bind (fun o _ => o = o0) wd_unlock fun _ => ret fun o h => h

theorem wd_lock {o0 : Option WDuty} {a : Act K V Bool} {T : Nat} (h0 : a.allowed inc o0 = true)
    (ha : ∀ r : Bool, a.wduties inc r = if r then [.unlock T] else []) :
    Wd inc (fun o => o = o0) (.prim a) fun o r => o = o0 ∨ (r = true ∧ o = some (.unlock T)) :=
  act (fun o h => h ▸ h0) fun o r hp ho => ⟨fun d hd => by
    rw [ha] at hd
    cases r with
    | false => cases hd
    | true => exact .inr ⟨rfl, by rw [List.mem_singleton.1 hd]⟩, fun _ => .inl hp⟩

theorem allowed_tryLock {o : Option WDuty} (h : NoLock o) {T : Nat} : (Act.tryLock T : Act K V Bool).allowed inc o = true := by
  cases o with
  | none => rfl
  | some d => cases d <;> first | rfl | exact absurd rfl (h _)

theorem allowed_lockWait {o : Option WDuty} (h : NoLock o) {T : Nat} : (Act.lockWait T : Act K V Bool).allowed inc o = true := by
  cases o with
  | none => rfl
  | some d => cases d <;> first | rfl | exact absurd rfl (h _)

theorem mid_getOrAllocNext {cap : Option Nat} {T : Table} : Mid inc (getOrAllocNext (V := V) C cap T) := by
  intro o0 h0
  unfold getOrAllocNext
  refine bind (fun o _ => o = o0) (quietPrim rfl) fun r => ?_
  cases r with
  | some next => exact ret fun o h => h
  | none =>
    refine bind _ (wd_lock (T := T.id) (allowed_tryLock h0) fun _ => rfl) fun b => ?_
    refine ite (fun hb => wd_allocNextLocked.conseq (fun o h => h.imp id (·.2)) fun _ _ h => h) fun hb => ?_
    refine bind (fun o _ => o = o0) ?_ fun r => ?_
    · refine (loop (fun o _ => o = o0) fun s => ?_).conseq (fun o h => h.elim id fun h => absurd h.1 hb) fun _ _ h => h
      refine ite (fun _ => ?_) fun _ => ret fun o h => h
      refine bind (fun o _ => o = o0) (quietPrim rfl) fun r => ?_
      cases r with
      | some next => exact ret fun o h => h
      | none => exact ret fun o h => h
    · cases r with
      | some next => exact ret fun o h => h
      | none =>
        refine bind _ (wd_lock (T := T.id) (allowed_lockWait h0) fun _ => rfl) fun b => ?_
        exact ite (fun hb => wd_allocNextLocked.conseq (fun o h => h.imp id (·.2)) fun _ _ h => h) fun hb =>
          panic (.inr (by decide))

theorem mid_insertCopy {e : Entry K V} {s : Slot K V} {T : Table} {b : Bool} : Mid inc (insertCopy C e s b T) := by
  unfold insertCopy
  have := fun cap T => mid_getOrAllocNext (V := V) (C := C) (inc := inc) (cap := cap) (T := T)
  repeat' (first | (exact this _ _) | wmid)

/-- The duty of counting `c` copied slots, if there is any. -/
def ChunkD (T N : Table) (a n : Nat) (o : Option WDuty) : Prop :=
  o = none ∨ (o = some (.chunk N.id T.id T.len a n) ∧ a < T.len ∧ 0 < n)

theorem ChunkD.noLock {T N : Table} {a n : Nat} {o : Option WDuty} (h : ChunkD T N a n o) : NoLock o := by
  intro U hU
  rcases h with h | ⟨h, _⟩ <;> (rw [h] at hU; cases hU)

/-- `try_promote` counts the slots; who counts the last one promotes the table. -/
theorem wd_tryPromote {T N : Table} {a n c : Nat} :
    Wd inc (fun o => ChunkD T N a n o ∧ (o ≠ none → c = min n (T.len - a))) (tryPromote (K := K) (V := V) T N c)
      (fun o _ => o = none) := by
  unfold tryPromote
  refine bind (fun o m => o = none ∨ (o = some (.prom N.id T.id) ∧ m = T.len)) ?_ fun m => ?_
  · refine ite (fun hc => ?_) fun hc => ?_
    · refine bind (fun o old => o = none ∨ (o = some (.prom N.id T.id) ∧ old + c = T.len)) ?_ fun old => ret fun o h => h
      refine act (fun o h => ?_) fun o r hp _ => ⟨fun d hd => ?_, fun hn => ?_⟩
      · rcases h.1 with h | ⟨h, _⟩ <;> (subst h; rfl)
      · change d ∈ (if r + c = T.len then [WDuty.prom N.id T.id] else []) at hd
        split at hd
        · exact .inr ⟨by rw [List.mem_singleton.1 hd], ‹_›⟩
        · cases hd
      · rcases hp.1 with h | ⟨h, _⟩
        · exact .inl h
        · exact absurd ⟨rfl, hp.2 (by rw [h]; simp)⟩ (hn _ h)
    · refine (quietPrim (P := fun o => o = none) rfl).conseq (fun o h => ?_) fun _ _ h => .inl h
      rcases h.1 with h1 | ⟨h1, h2, h3⟩
      · exact h1
      · have := h.2 (by rw [h1]; simp)
        omega
  refine ite (fun hm => ?_) fun hm => ret fun o h => h.elim id fun h => absurd h.2 hm
  refine bind (fun o root => o = none ∨ (o = some (.prom N.id T.id) ∧ root = some T.id)) ?_ fun root => ?_
  · refine act (fun o _ => allowed_quietly rfl o) fun o r hp ho => ⟨fun d hd => (by cases hd), fun _ => ?_⟩
    rcases hp with h | ⟨h, _⟩
    · exact .inl h
    · subst h; exact .inr ⟨rfl, ho⟩
  cases root with
  | none => exact ret fun o h => h.elim id fun h => by cases h.2
  | some root =>
  refine bind (fun o b => (o = none ∨ (o = some (.prom N.id T.id) ∧ root = T.id)) ∧ b = decide (T.id = root))
    (act (fun o _ => allowed_quietly rfl o) fun o r hp ho => ⟨fun d hd => (by cases hd), fun _ =>
      ⟨hp.imp id fun h => ⟨h.1, Option.some.inj h.2⟩, wobs_sameTable ho⟩⟩) fun b => ?_
  refine ite (fun hb => ?_) fun hb => ret fun o h => h.1.elim id fun h' => ?_
  swap
  · refine absurd ?_ hb
    rw [h.2]; exact decide_eq_true h'.2.symm
  refine bind (fun o b => o = none ∨ (b = true ∧ o = some (.stat N.id))) ?_ fun b => ?_
  · refine act (fun o h => ?_) fun o r hp _ => ⟨fun d hd => ?_, fun hn => ?_⟩
    · rcases h.1 with h | ⟨h, _⟩ <;> (subst h; rfl)
    · cases r with
      | false => cases hd
      | true => exact .inr ⟨rfl, by rw [List.mem_singleton.1 hd]⟩
    · rcases hp.1 with h | ⟨h, _⟩
      · exact .inl h
      · exact absurd ⟨rfl, rfl⟩ (hn _ h)
  · refine ite (fun hb => ?_) fun hb => bind _ (quietPrim rfl) fun _ => ret fun o h => h.elim id fun h => absurd h.1 hb
    refine bind (fun o _ => o = none ∨ o = some (.wakeStatus N.id)) ?_ fun _ =>
      bind (fun o _ => o = none ∨ o = some (.wakeStatus N.id)) (quietPrim rfl) fun _ => ?_
    · refine act (fun o h => ?_) fun o r hp _ => ⟨fun d hd => .inr (by rw [List.mem_singleton.1 hd]), fun hn => ?_⟩
      · rcases h with h | ⟨_, h⟩ <;> (subst h; rfl)
      · exact hp.elim .inl fun h => absurd ⟨rfl, rfl⟩ (hn _ h.2)
    · refine bind (fun o _ => o = none) ?_ fun _ => ret fun o h => h
      refine act (fun o _ => allowed_quietly rfl o) fun o r hp _ => ⟨fun d hd => (by cases hd), fun hn => ?_⟩
      exact hp.elim id fun h => absurd rfl (hn _ h)

theorem plain_tryPromote {T N : Table} {c : Nat} : Plain inc (tryPromote (K := K) (V := V) T N c) :=
  (wd_tryPromote (a := 0) (n := 0)).conseq (fun o h => ⟨.inl h, fun hn => absurd h hn⟩) fun _ _ h => h

theorem mid_copyAtIncremental {i : Nat} {T N : Table} : Mid Bool.true (copyAtIncremental (V := V) C i T N) := by
  intro o0 h0
  unfold copyAtIncremental
  refine bind (fun o s => o = o0 ∨ (s.ptr.isSome = true ∧ o = some (.store T.id i))) ?_ fun s => ?_
  · refine act (fun o h => ?_) fun o r ho _ => ⟨fun d hd => ?_, fun _ => .inl ho⟩
    · cases o with
      | none => rfl
      | some d => cases d <;> rfl
    · change d ∈ (if (true && r.ptr.isSome) = true then [WDuty.store T.id i] else []) at hd
      split at hd
      · exact .inr ⟨by simpa using ‹_›, by rw [List.mem_singleton.1 hd]⟩
      · cases hd
  · split
    · rename_i hs
      have : Idle Bool.true (if s.copying = false ∧ s.copied = true ∧ s.borrowed = false then pure ()
          else A.storeMd (K := K) (V := V) T.id i TOMBSTONE) := by widle
      refine (this o0).conseq (fun o h => h.elim id fun h => ?_) fun _ _ h => h
      rw [hs] at h; cases h.1
    · refine bind (fun o _ => o = o0 ∨ o = some (.store T.id i))
        ((mid_insertCopy.keep (P := fun o => o = o0 ∨ o = some (.store T.id i)) ?_).conseq (fun o h => h.imp id (·.2)) fun _ _ h => h)
        fun r => ?_
      · rintro o (h | h) U hU
        · exact h0 U (h ▸ hU)
        · rw [h] at hU; cases hU
      cases r with
      | none => exact panic (.inr (by decide))
      | some x =>
        refine bind (fun o _ => o = o0 ∨ o = some (.wakeSlot T.id i)) ?_ fun _ => ?_
        · refine act (fun o h => ?_) fun o r ho _ =>
            ⟨fun d hd => .inr (by rw [List.mem_singleton.1 hd]), fun hn => ho.elim .inl fun h => absurd ⟨rfl, rfl⟩ (hn _ h)⟩
          cases o with
          | none => rfl
          | some d => cases d <;> rfl
        · exact act (fun o _ => allowed_quietly rfl o) fun o r ho _ =>
            ⟨fun d hd => (by cases hd), fun hn => ho.elim id fun h => absurd ⟨rfl, rfl⟩ (hn _ h)⟩

/-- A chunk is claimed. -/
theorem wd_addClaim {T N : Table} {n : Nat} :
    Wd inc (fun o => o = none) (A.addClaim (K := K) (V := V) N.id n T) fun o a => ChunkD T N a n o := by
  refine act (fun o h => by subst h; rfl) fun o r ho _ => ⟨fun d hd => ?_, fun _ => .inl ho⟩
  change d ∈ (if r < T.len ∧ 0 < n then [WDuty.chunk N.id T.id T.len r n] else []) at hd
  split at hd
  · rename_i h
    exact .inr ⟨by rw [List.mem_singleton.1 hd], h⟩
  · cases hd

theorem wd_copyChunkIncremental {T N : Table} {a n : Nat} :
    Wd Bool.true (ChunkD T N a n) (copyChunkIncremental (V := V) C T N a n)
      fun o c => ChunkD T N a n o ∧ (o ≠ none → c = min n (T.len - a)) := by
  unfold copyChunkIncremental
  refine (loop (fun o j => ChunkD T N a n o ∧ (o ≠ none → j ≤ n ∧ a + j ≤ T.len)) fun j => ?_).conseq
    (fun o h => ⟨h, fun hn => ⟨Nat.zero_le _, ?_⟩⟩) fun _ _ h => h
  swap
  · rcases h with h | h
    · exact absurd h hn
    · have := h.2.1; omega
  refine ite (fun h1 => ite (fun h2 => ?_) fun h2 => ret fun o h => ⟨h.1, fun hn => ?_⟩) fun h1 => ret fun o h => ⟨h.1, fun hn => ?_⟩
  · refine bind (fun o _ => ChunkD T N a n o ∧ (o ≠ none → j ≤ n ∧ a + j ≤ T.len))
      (mid_copyAtIncremental.keep fun o h => h.1.noLock) fun _ => ret fun o h => ⟨h.1, fun hn => ⟨by omega, by omega⟩⟩
  · have := h.2 hn; omega
  · have := h.2 hn; omega

theorem plain_helpCopyIncremental {n : Nat} {b : Bool} : Plain Bool.true (helpCopyIncremental (V := V) C n b) := by
  unfold helpCopyIncremental
  have h2 := fun T N c => plain_tryPromote (K := K) (V := V) (inc := Bool.true) (T := T) (N := N) (c := c)
  refine plainBind (by wplain) fun r => ?_
  split
  · exact plainRet
  rename_i T
  refine plainBind (by wplain) fun r => ?_
  split
  · exact plainRet
  rename_i N
  refine plainBind (plainLoop fun _ => plainBind (h2 _ _ _) fun p => ?_) fun _ => plainRet
  split
  · exact plainRet
  refine plainBind (plainLoop fun _ => plainBind (by wplain) fun cl => ?_) fun out => ?_
  · split
    · exact plainRet
    refine bind _ wd_addClaim fun a => ?_
    refine bind _ wd_copyChunkIncremental fun c => ?_
    refine bind (fun o _ => o = none) wd_tryPromote fun p => ?_
    wplain
  · wplain

theorem idle_copyAtBlocking {i : Nat} {T N : Table} : Idle Bool.false (copyAtBlocking (V := V) C i T N) := by
  unfold copyAtBlocking
  have := fun e s T => idle_insertCopy (inc := Bool.false) (C := C) (e := e) (s := s) (T := T) (V := V)
  repeat' (first | (exact this _ _ _) | widle)

theorem wd_copyChunkBlocking {T N : Table} {a n : Nat} :
    Wd Bool.false (ChunkD T N a n) (copyChunkBlocking (V := V) C T N a n)
      fun o r => ChunkD T N a n o ∧ ∀ c, r = some c → o ≠ none → c = min n (T.len - a) := by
  unfold copyChunkBlocking
  refine (loop (fun o j => ChunkD T N a n o ∧ (o ≠ none → j ≤ n ∧ a + j ≤ T.len)) fun j => ?_).conseq
    (fun o h => ⟨h, fun hn => ⟨Nat.zero_le _, ?_⟩⟩) fun _ _ h => h
  swap
  · rcases h with h | h
    · exact absurd h hn
    · have := h.2.1; omega
  refine ite (fun h1 => ite (fun h2 => ?_) fun h2 => ret fun o h => ⟨h.1, fun c hc hn => ?_⟩) fun h1 =>
    ret fun o h => ⟨h.1, fun c hc hn => ?_⟩
  · refine bind (fun o _ => ChunkD T N a n o ∧ (o ≠ none → j ≤ n ∧ a + j ≤ T.len))
      idle_copyAtBlocking.keep fun b => ite (fun _ => ret fun o h => ⟨h.1, fun hn => ⟨by omega, by omega⟩⟩) fun _ =>
        ret fun o h => ⟨h.1, fun c hc => by cases hc⟩
  · cases hc
    have := h.2 hn; omega
  · cases hc
    have := h.2 hn; omega

theorem plain_helpCopyBlocking {T : Table} : Plain Bool.false (helpCopyBlocking (V := V) C T) := by
  unfold helpCopyBlocking
  have h1 := fun cap T => (mid_getOrAllocNext (V := V) (C := C) (inc := Bool.false) (cap := cap) (T := T)).plain
  have h2 := fun T N c => plain_tryPromote (K := K) (V := V) (inc := Bool.false) (T := T) (N := N) (c := c)
  refine plainBind (by wplain) fun r => ?_
  split
  · exact plainPanic
  refine plainLoop fun N => plainBind ?_ fun N => plainBind (h2 _ _ _) fun p => ?_
  · repeat' (first | (exact h1 _ _) | wplain)
  split
  · exact plainRet
  refine plainBind (plainLoop fun _ => plainBind (by wplain) fun cl => ?_) fun out => ?_
  · split
    · exact plainRet
    refine bind _ wd_addClaim fun a => ?_
    refine bind _ wd_copyChunkBlocking fun c => ?_
    cases c with
    | none =>
      refine bind (fun o _ => o = none) ?_ fun _ => plainBind (h1 _ _) fun _ => plainBind (plainPrim rfl) fun _ => plainRet
      refine act (fun o _ => allowed_quietly rfl o) fun o r hp _ => ⟨fun d hd => (by cases hd), fun hn => ?_⟩
      rcases hp.1 with h | ⟨h, _⟩
      · exact h
      · exact absurd ⟨rfl, rfl⟩ (hn _ h)
    | some c =>
      refine bind (fun o _ => o = none) (wd_tryPromote.conseq (fun o h => ⟨h.1, h.2 c rfl⟩) fun _ _ h => h) fun p => ?_
      wplain
  · wplain

theorem cfg_inc : (C.inc = true ∧ ∃ c, C.mode = .incremental c) ∨ (C.inc = false ∧ C.mode = .blocking) := by
  unfold Cfg.inc
  cases C.mode with
  | blocking => exact .inr ⟨rfl, rfl⟩
  | incremental c => exact .inl ⟨rfl, c, rfl⟩

theorem plain_helpCopy {b : Bool} {T : Table} : Plain C.inc (helpCopy (V := V) C b T) := by
  rcases cfg_inc (C := C) with ⟨h1, c, h2⟩ | ⟨h1, h2⟩
  · rw [h1]
    unfold helpCopy
    rw [h2]
    have h3 := fun c b => plain_helpCopyIncremental (V := V) (C := C) (n := c) (b := b)
    refine plainBind (h3 _ _) fun x => ?_
    wplain
  · rw [h1]
    unfold helpCopy
    rw [h2]
    exact plain_helpCopyBlocking

theorem plain_linearize {T : Table} : Plain C.inc (linearize (V := V) C T) := by
  unfold linearize
  have h1 := fun b T => plain_helpCopy (V := V) (C := C) (b := b) (T := T)
  repeat' (first | (exact h1 _ _) | wplain)

theorem plain_waitCopied {i : Nat} {T : Table} : Plain Bool.true (waitCopied (V := V) C i T) := by
  unfold waitCopied
  repeat' (first | (exact plainParkSlot rfl) | wplain)

theorem plain_gan {cap : Option Nat} {T : Table} : Plain inc (getOrAllocNext (V := V) C cap T) := mid_getOrAllocNext.plain

theorem idle_deferRetire {e : Entry K V} {s : Slot K V} {T : Table} : Idle inc (deferRetire C e s T) := by
  unfold deferRetire; widle

theorem idle_initTable {c : Option Nat} : Idle inc (initTable (K := K) (V := V) C c) := by
  unfold initTable; dsimp only; widle

theorem plain_get {k : K} : Plain inc (get (V := V) C k) := by
  unfold get getProbe; wplain

theorem idle_insertAt {i m : Nat} {k : K} {v : V} {T : Table} : Idle inc (insertAt C i m k v T) := by
  unfold insertAt; widle

theorem idle_updateAtNew {i : Nat} {e : Entry K V} {s : Slot K V} {k : K} {v : V} {T : Table} :
    Idle inc (updateAtNew C i e s k v T) := by
  unfold updateAtNew
  have h1 := fun e s T => idle_deferRetire (inc := inc) (C := C) (e := e) (s := s) (T := T) (V := V)
  repeat' (first | (exact h1 _ _ _) | widle)

theorem idle_updateAtTomb {i : Nat} {e : Entry K V} {s : Slot K V} {T : Table} :
    Idle inc (updateAtTomb C i e s T) := by
  unfold updateAtTomb
  have h1 := fun e s T => idle_deferRetire (inc := inc) (C := C) (e := e) (s := s) (T := T) (V := V)
  repeat' (first | (exact h1 _ _ _) | widle)

theorem plain_prepareRetryInsert {c : Option Nat} {b : Bool} {T : Table} :
    Plain C.inc (prepareRetryInsert (V := V) C c b T) := by
  unfold prepareRetryInsert
  have h3 := fun b T => plain_helpCopy (V := V) (C := C) (b := b) (T := T)
  have h5 := fun cap T => plain_gan (V := V) (inc := C.inc) (C := C) (cap := cap) (T := T)
  rcases cfg_inc (C := C) with ⟨h1, ch, h2⟩ | ⟨h1, h2⟩
  · simp only [h2]
    have h4 : ∀ i T, Plain C.inc (waitCopied (V := V) C i T) := by rw [h1]; exact fun i T => plain_waitCopied
    repeat' (first | (exact h3 _ _) | (exact h4 _ _) | (exact h5 _ _) | wplain)
  · simp only [h2]
    repeat' (first | (exact h3 _ _) | (exact h5 _ _) | wplain)

theorem plain_prepareRetry {c : Option Nat} {b : Bool} {T : Table} :
    Plain C.inc (prepareRetry (V := V) C c b T) := by
  unfold prepareRetry
  have h3 := fun b T => plain_helpCopy (V := V) (C := C) (b := b) (T := T)
  rcases cfg_inc (C := C) with ⟨h1, ch, h2⟩ | ⟨h1, h2⟩
  · simp only [h2]
    have h4 : ∀ i T, Plain C.inc (waitCopied (V := V) C i T) := by rw [h1]; exact fun i T => plain_waitCopied
    repeat' (first | (exact h3 _ _) | (exact h4 _ _) | wplain)
  · simp only [h2]
    repeat' (first | (exact h3 _ _) | wplain)

theorem plain_insert {k : K} {v : V} {b : Bool} : Plain C.inc (insert C k v b) := by
  unfold insert insertInner insertProbe insertFound insertSlow
  have h1 := fun c b T => plain_prepareRetryInsert (V := V) (C := C) (c := c) (b := b) (T := T)
  have h2 := fun i m k v T => (idle_insertAt (V := V) (inc := C.inc) (C := C) (i := i) (m := m) (k := k) (v := v) (T := T)).plain
  have h3 := fun i e s k v T => (idle_updateAtNew (V := V) (inc := C.inc) (C := C) (i := i) (e := e) (s := s) (k := k) (v := v) (T := T)).plain
  have h4 := fun c => (idle_initTable (K := K) (V := V) (C := C) (inc := C.inc) (c := c)).plain
  repeat' (first | (exact h1 _ _ _) | (exact h2 _ _ _ _ _) | (exact h3 _ _ _ _ _ _) | (exact h4 _) | wplain)

theorem plain_invoke {I O : Type} {f : Closure I O} {s : f.Tr} {i : I} : Plain (K := K) (V := V) inc (f.invoke s i) := by
  unfold Closure.invoke
  wplain

theorem plain_removeIf {k : K} {f : Closure (K × V) Bool} : Plain C.inc (removeIf C k f) := by
  unfold removeIf removeProbe removeLoop
  have h1 := fun c b T => plain_prepareRetry (V := V) (C := C) (c := c) (b := b) (T := T)
  have h3 := fun i e s T => (idle_updateAtTomb (V := V) (inc := C.inc) (C := C) (i := i) (e := e) (s := s) (T := T)).plain
  have h4 := fun s i => (plain_invoke (K := K) (V := V) (inc := C.inc) (f := f) (s := s) (i := i))
  repeat' (first | (exact h1 _ _ _) | (exact h3 _ _ _ _) | (exact h4 _ _) | wplain)

theorem plain_remove {k : K} : Plain C.inc (remove (V := V) C k) := by
  unfold remove
  have h1 := fun f => plain_removeIf (V := V) (C := C) (k := k) (f := f)
  repeat' (first | (exact h1 _) | wplain)

section
variable {R : Type} {f : Closure (Option (K × V)) (Operation V R)}

theorem plain_next {c : CState K V R f} {e : Option (Entry K V)} : Plain inc (c.next e) := by
  unfold CState.next
  have h4 := fun s i => (plain_invoke (K := K) (V := V) (inc := inc) (f := f) (s := s) (i := i))
  repeat' (first | (exact h4 _ _) | wplain)

theorem idle_restore {c : CState K V R f} {e : Option (Entry K V)} {o : Operation V R} : Idle inc (c.restore e o) := by
  unfold CState.restore
  widle

theorem plain_computeFailure {T : Table} {p : Probe} {c : CState K V R f} {s : EStat K V} :
    Plain inc (computeFailure T p c s) := by
  unfold computeFailure
  have h1 := fun c e => plain_next (inc := inc) (f := f) (c := c) (e := e)
  have h2 := fun c e o => (idle_restore (inc := inc) (f := f) (c := c) (e := e) (o := o)).plain
  repeat' (first | (exact h1 _ _) | (exact h2 _ _ _) | wplain)

theorem plain_computeLoop {k : K} {T : Table} {p : Probe} {c : CState K V R f} {e : Entry K V} {s : Slot K V} :
    Plain inc (computeLoop C k T p c e s) := by
  unfold computeLoop
  have h1 := fun c e => plain_next (inc := inc) (f := f) (c := c) (e := e)
  have h2 := fun c e o => (idle_restore (inc := inc) (f := f) (c := c) (e := e) (o := o)).plain
  have h3 := fun i e s k v T => (idle_updateAtNew (V := V) (inc := inc) (C := C) (i := i) (e := e) (s := s) (k := k) (v := v) (T := T)).plain
  have h4 := fun i e s T => (idle_updateAtTomb (V := V) (inc := inc) (C := C) (i := i) (e := e) (s := s) (T := T)).plain
  have h5 := fun T p c s => plain_computeFailure (inc := inc) (f := f) (T := T) (p := p) (c := c) (s := s)
  repeat' (first | (exact h1 _ _) | (exact h2 _ _ _) | (exact h3 _ _ _ _ _ _) | (exact h4 _ _ _ _) | (exact h5 _ _ _ _) | wplain)

theorem plain_computeProbe {k : K} {T : Table} {c : CState K V R f} : Plain inc (computeProbe C k T c) := by
  unfold computeProbe computeFound
  have h1 := fun c e => plain_next (inc := inc) (f := f) (c := c) (e := e)
  have h2 := fun c e o => (idle_restore (inc := inc) (f := f) (c := c) (e := e) (o := o)).plain
  have h3 := fun i m k v T => (idle_insertAt (V := V) (inc := inc) (C := C) (i := i) (m := m) (k := k) (v := v) (T := T)).plain
  have h5 := fun p c e s => plain_computeLoop (C := C) (inc := inc) (f := f) (k := k) (T := T) (p := p) (c := c) (e := e) (s := s)
  repeat' (first | (exact h1 _ _) | (exact h2 _ _ _) | (exact h3 _ _ _ _ _) | (exact h5 _ _ _ _) | wplain)

theorem plain_compute {k : K} : Plain C.inc (compute C k f) := by
  unfold compute computeInit
  have h1 := fun c e => plain_next (inc := C.inc) (f := f) (c := c) (e := e)
  have h2 := fun c e o => (idle_restore (inc := C.inc) (f := f) (c := c) (e := e) (o := o)).plain
  have h3 := fun T c => plain_computeProbe (C := C) (inc := C.inc) (f := f) (k := k) (T := T) (c := c)
  have h4 := fun c b T => plain_prepareRetry (V := V) (C := C) (c := c) (b := b) (T := T)
  have h5 := fun c b T => plain_prepareRetryInsert (V := V) (C := C) (c := c) (b := b) (T := T)
  have h6 := fun c => (idle_initTable (K := K) (V := V) (C := C) (inc := C.inc) (c := c)).plain
  repeat' (first | (exact h1 _ _) | (exact h2 _ _ _) | (exact h3 _ _) | (exact h4 _ _ _) | (exact h5 _ _ _) | (exact h6 _) | wplain)

end

theorem plain_tryInsertWith {k : K} {f : Closure Unit V} : Plain C.inc (tryInsertWith C k f) := by
  unfold tryInsertWith
  refine plainBind plain_compute fun _ => ?_
  wplain

theorem plain_updateOrInsertWith {k : K} {u : Closure V V} {f : Closure Unit V} :
    Plain C.inc (updateOrInsertWith C k u f) := by
  unfold updateOrInsertWith
  refine plainBind plain_compute fun _ => ?_
  wplain

theorem plain_update {k : K} {u : Closure V V} : Plain C.inc (update C k u) := by
  unfold update
  refine plainBind plain_compute fun _ => ?_
  wplain

theorem plain_reserve {n : Nat} : Plain C.inc (reserve (V := V) C n) := by
  unfold reserve
  have h6 := fun c => (idle_initTable (K := K) (V := V) (C := C) (inc := C.inc) (c := c)).plain
  refine plainBind ?_ fun T => plainLoop fun T => plainBind idle_len.plain fun m => ?_
  · repeat' (first | (with_reducible exact h6 _) | wplain)
  · split
    · split
      · wplain
      · split
        · wplain
        · exact plainBind plain_gan fun _ => plainBind plain_helpCopy fun _ => plainRet
    · wplain

theorem plain_deleteLoop {f : Closure (K × V) Bool} {T : Table} {i : Nat} {st : f.Tr} {s : Slot K V} :
    Plain inc (deleteLoop C f T i st s) := by
  unfold deleteLoop
  have h1 := fun e s T => (idle_deferRetire (inc := inc) (C := C) (e := e) (s := s) (T := T) (V := V)).plain
  have h4 := fun s i => (plain_invoke (K := K) (V := V) (inc := inc) (f := f) (s := s) (i := i))
  repeat' (first | (exact h1 _ _ _) | (exact h4 _ _) | wplain)

theorem plain_clear : Plain C.inc (clear (V := V) C) := by
  unfold clear clearPass
  have h1 := fun f T i st s => plain_deleteLoop (inc := C.inc) (C := C) (V := V) (f := f) (T := T) (i := i) (st := st) (s := s)
  have h2 := fun b T => plain_helpCopy (V := V) (C := C) (b := b) (T := T)
  have h3 := fun T => plain_linearize (V := V) (C := C) (T := T)
  repeat' (first | (exact h1 _ _ _ _ _) | (exact h2 _ _) | (exact h3 _) | wplain)

theorem plain_retain {f : Closure (K × V) Bool} : Plain C.inc (retain (V := V) C f) := by
  unfold retain retainPass
  have h1 := fun T i st s => plain_deleteLoop (inc := C.inc) (C := C) (V := V) (f := f) (T := T) (i := i) (st := st) (s := s)
  have h2 := fun b T => plain_helpCopy (V := V) (C := C) (b := b) (T := T)
  have h3 := fun T => plain_linearize (V := V) (C := C) (T := T)
  repeat' (first | (exact h1 _ _ _ _) | (exact h2 _ _) | (exact h3 _) | wplain)

theorem plain_iterUpTo {lim : Option Nat} : Plain C.inc (iterUpTo (V := V) C lim) := by
  unfold iterUpTo
  have h3 := fun T => plain_linearize (V := V) (C := C) (T := T)
  repeat' (first | (exact h3 _) | wplain)

/-- Every operation does its duties before it returns, and does not wait while it has one. -/
theorem plain_call (c : Call K V) : Plain C.inc (c.prog C) := by
  cases c with
  | get k => exact plain_get
  | containsKey k => exact plainBind plain_get fun _ => plainRet
  | insert k v =>
    refine plainBind plain_insert fun x => ?_
    cases x
    · exact plainRet
    · exact plainRet
    · exact plainPanic
  | tryInsert k v =>
    refine plainBind plain_insert fun x => ?_
    cases x
    · exact plainRet
    · exact plainPanic
    · exact plainRet
  | tryInsertWith k f => exact plain_tryInsertWith
  | getOrInsert k v =>
    refine plainBind (plainBind plain_insert fun x => ?_) fun y => ?_
    · cases x
      · exact plainRet
      · exact plainPanic
      · exact plainRet
    · cases y <;> exact plainRet
  | getOrInsertWith k f =>
    refine plainBind plain_tryInsertWith fun y => ?_
    cases y <;> exact plainRet
  | update k f => exact plain_update
  | updateOrInsert k u v => exact plain_updateOrInsertWith
  | updateOrInsertWith k u f => exact plain_updateOrInsertWith
  | compute k f => exact plain_compute
  | remove k => exact plain_remove
  | removeIf k f => exact plain_removeIf
  | clear => exact plain_clear
  | retain f => exact plain_retain
  | iter => exact plain_iterUpTo
  | iterTake n => exact plain_iterUpTo
  | len => exact idle_len.plain
  | isEmpty => exact plainBind idle_len.plain fun _ => plainRet
  | reserve n => exact plain_reserve

end Papaya.Wk
