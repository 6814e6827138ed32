import Verif.Proof.Observe
import Verif.Model.Pool
import Verif.Props.Probe

/-! # What operations do while a copy that was claimed to the end is never finished (blocking resizes)

`stallSys s N H HN`: the root is the table `s` (with handle `H`), its successor is `N` (with handle `HN`), all the slots of `s` have been
claimed, but not all have been counted, and the status of `N` is `PENDING`. In this situation no operation allocates, promotes or aborts
anything, and those that need the copy wait. -/

set_option linter.unusedSectionVars false
set_option linter.unusedVariables false

namespace Papaya

variable {K V : Type}

/-- The actions that operations perform in this situation. -/
def Act.stallOk (s N : Nat) : {β : Type} → Act K V β → Prop
  | _, .peekRoot => False
  | _, .loadNext T => T = s
  | _, .tryLock _ => False
  | _, .lockWait _ => False
  | _, .unlock _ => False
  | _, .poison _ => False
  | _, .storeNext _ _ => False
  | _, .fetchOrCopying _ _ => False
  | _, .storeSlot _ _ _ => False
  | _, .loadStatus T => T = N
  | _, .parkStatus T => T = N
  | _, .parkSlot _ _ => False
  | _, .unparkStatus _ => False
  | _, .unparkSlot _ _ => False
  | _, .storeStatus _ _ => False
  | _, .loadClaim T => T = N
  | _, .addClaim _ _ _ => False
  | _, .loadCopied T => T = N
  | _, .addCopied _ _ _ => False
  | _, .casRoot _ _ => False
  | _, .retireTable _ => False
  | _, .pushDeferred _ _ => False
  | _, _ => True

/-- Their possible results. -/
def Act.stallRes (H HN : Table) : {β : Type} → Act K V β → β → Prop
  | _, .loadRoot, r => r = some H
  | _, .casRootInit _, r => r = H
  | _, .loadNext _, r => r = some HN
  | _, .loadStatus _, r => r = .pending
  | _, .parkStatus _, _ => False
  | _, .loadClaim _, r => H.len ≤ r
  | _, .loadCopied _, r => r ≠ H.len
  | _, _, _ => True

def stallSys (K V : Type) (H HN : Table) : ObsSys K V :=
  ⟨fun a => a.stallOk H.id HN.id, fun a r => a.stallRes H HN r, fun _ => True⟩

variable {C : Cfg K} {α β γ : Type} {H HN : Table}

/-- The operation never gets beyond waiting for the copy. -/
abbrev Stalls (H HN : Table) {α : Type} (p : Prog K V α) : Prop := Obs' (stallSys K V H HN) p fun _ => False

/-- The operation does not contribute to the resize. -/
abbrev Keeps (H HN : Table) {α : Type} (p : Prog K V α) : Prop := Obs' (stallSys K V H HN) p fun _ => True

theorem Stalls.any {p : Prog K V α} {Q : α → Prop} (h : Stalls H HN p) : Obs' (stallSys K V H HN) p Q := h.post fun _ h => h.elim

namespace Keeps

theorem ret {x : α} : Keeps H HN (pure x : Prog K V α) := Obs'.ret trivial
theorem ret' {x : α} : Keeps H HN (.ret x : Prog K V α) := Obs'.ret' trivial
theorem panic {w : PanicReason} : Keeps H HN (.panic w : Prog K V α) := Obs'.panic (D := stallSys K V H HN) trivial
theorem bind {p : Prog K V α} {g : α → Prog K V γ} (h : Keeps H HN p) (hg : ∀ x, Keeps H HN (g x)) : Keeps H HN (p >>= g) :=
  Obs'.bind _ h fun x _ => hg x
theorem loop {σ : Type} {body : σ → Prog K V (σ ⊕ β)} {s : σ} (h : ∀ s, Keeps H HN (body s)) : Keeps H HN (Prog.loop s body) :=
  Obs'.loop (fun _ => True) trivial fun s _ => (h s).post fun x _ => by cases x <;> trivial
theorem act {a : Act K V β} (h : a.stallOk H.id HN.id) : Keeps H HN (.prim a) := Obs'.act h fun _ _ => trivial

end Keeps

macro "keeps_step" : tactic => `(tactic| first
  | with_reducible exact Keeps.ret
  | with_reducible exact Keeps.ret'
  | with_reducible exact Keeps.panic
  | with_reducible refine Keeps.bind ?_ fun _ => ?_
  | with_reducible refine Keeps.loop fun _ => ?_
  | (with_reducible refine Keeps.act ?_); exact trivial
  | split
  | dsimp only)

syntax "keeps" "[" term,* "]" : tactic
macro_rules
  | `(tactic| keeps [$ts,*]) => do
    let ts := ts.getElems
    `(tactic| repeat' first $[| with_reducible exact $ts]* | keeps_step)

macro "keeps" : tactic => `(tactic| repeat' keeps_step)

/-- Loading the root, or initialising the table. -/
theorem stall_root {f : Table → Prog K V α} {e : Prog K V α} {Q : α → Prop} (h : Obs' (stallSys K V H HN) (f H) Q) :
    Obs' (stallSys K V H HN) (A.loadRoot >>= fun r => match r with | some T => f T | none => e) Q := by
  refine Obs'.step trivial fun r hr => ?_
  obtain rfl : r = some H := hr
  exact h

theorem stall_root' {f : Table → Prog K V α} {e : Prog K V α} {Q : α → Prop} (h : Obs' (stallSys K V H HN) (f H) Q) :
    Obs' (stallSys K V H HN) (A.loadRoot >>= fun r => match r with | none => e | some T => f T) Q := by
  refine Obs'.step trivial fun r hr => ?_
  obtain rfl : r = some H := hr
  exact h

theorem stall_panic {w : PanicReason} {Q : α → Prop} : Obs' (stallSys K V H HN) (.panic w : Prog K V α) Q :=
  Obs'.panic (D := stallSys K V H HN) trivial

theorem stall_init {c : Option Nat} : Obs' (stallSys K V H HN) (initTable C c) fun r => r = H := by
  unfold initTable
  generalize c.getD 32 = n
  dsimp only
  split
  · split
    · exact Obs'.act trivial fun r h => h
    · exact stall_panic
  · exact stall_panic

theorem stall_alloc {c : Option Nat} : Obs' (stallSys K V H HN) (getOrAllocNext C c H) fun r => r = HN := by
  unfold getOrAllocNext
  refine Obs'.step rfl fun r hr => ?_
  obtain rfl : r = some HN := hr
  exact .ret rfl

theorem stall_promote : Obs' (stallSys K V H HN) (tryPromote H HN 0) fun r => r = false := by
  unfold tryPromote
  refine Obs'.bind (fun r => r ≠ H.len) ?_ fun r hr => ?_
  · rw [if_neg (Nat.lt_irrefl 0)]
    exact Obs'.act rfl fun r h => h
  · rw [if_neg hr]
    exact .ret rfl

theorem stall_blocking : Stalls (K := K) (V := V) H HN (helpCopyBlocking C H) := by
  unfold helpCopyBlocking
  refine Obs'.step rfl fun r hr => ?_
  obtain rfl : r = some HN := hr
  refine Obs'.loop (fun T => T = HN) rfl fun T hT => ?_
  subst hT
  refine Obs'.bind (fun T' => T' = T) ?_ fun T' hT' => ?_
  · refine Obs'.loop (fun T' => T' = T) rfl fun T' hT' => ?_
    subst hT'
    refine Obs'.step rfl fun r hr => ?_
    obtain rfl : r = .pending := hr
    rw [if_neg (by decide)]
    exact .ret rfl
  subst hT'
  refine Obs'.bind _ stall_promote fun r hr => ?_
  subst hr
  rw [if_neg (by decide)]
  refine Obs'.bind (fun r => r = CopyOut.brk) ?_ fun r hr => ?_
  · refine Obs'.loop (fun _ => True) trivial fun _ _ => ?_
    refine Obs'.step rfl fun r hr => ?_
    rw [if_pos (show r ≥ H.len from hr)]
    exact .ret rfl
  subst hr
  refine Obs'.bind (fun _ => False) ?_ fun _ h => h.elim
  refine Obs'.loop (fun _ => True) trivial fun n _ => ?_
  refine Obs'.step rfl fun r hr => ?_
  obtain rfl : r = .pending := hr
  dsimp only
  split
  · exact .ret trivial
  · exact Obs'.step rfl fun r hr => hr.elim

variable (hb : C.mode = .blocking)
include hb

theorem stall_helpCopy {b : Bool} : Stalls (K := K) (V := V) H HN (helpCopy C b H) := by
  unfold helpCopy
  rw [hb]
  exact stall_blocking

theorem stall_retry {i : Option Nat} {b : Bool} : Obs' (stallSys K V H HN) (prepareRetry C i b H) fun r => r = none := by
  unfold prepareRetry
  rw [hb]
  cases i with
  | none => exact .ret rfl
  | some i => exact Obs'.bind _ (stall_helpCopy hb) fun _ h => h.elim

theorem stall_retryIns {i : Option Nat} {b : Bool} : Stalls (K := K) (V := V) H HN (prepareRetryInsert C i b H) := by
  unfold prepareRetryInsert
  refine Obs'.bind _ stall_alloc fun r _ => ?_
  rw [hb]
  exact stall_helpCopy hb

theorem stall_linearize : Obs' (stallSys K V H HN) (linearize C H) fun r => r = H := by
  unfold linearize
  rw [if_neg (by simp [Cfg.inc, hb])]
  exact .ret rfl

theorem keeps_defer {e : Entry K V} {s : Slot K V} {T : Table} : Keeps H HN (deferRetire C e s T) := by
  unfold deferRetire
  rw [hb]
  keeps

omit hb
theorem keeps_len : Keeps (K := K) (V := V) H HN (len C) := by unfold len; keeps
theorem keeps_invoke {I O : Type} {f : Closure I O} {st : f.Tr} {i : I} : Keeps (K := K) (V := V) H HN (f.invoke st i) := by
  unfold Closure.invoke; keeps
include hb

section ops

variable [DecidableEq K] {k : K} {v : V} {n : Nat} {T : Table}

omit hb
theorem keeps_getProbe : Keeps (V := V) H HN (getProbe C k T) := by unfold getProbe; keeps

theorem keeps_insertAt {i m : Nat} : Keeps H HN (insertAt C i m k v T) := by unfold insertAt; keeps
include hb

theorem keeps_get : Keeps (V := V) H HN (Papaya.get C k) := by
  unfold Papaya.get
  refine stall_root' ?_
  refine Obs'.loop (fun T => T = H) rfl fun T hT => ?_
  subst hT
  refine Obs'.bind _ keeps_getProbe fun x _ => ?_
  rw [if_neg (by simp [Cfg.inc, hb])]
  cases x <;> exact .ret trivial

theorem keeps_updNew {i : Nat} {e : Entry K V} {s : Slot K V} : Keeps H HN (updateAtNew C i e s k v T) := by
  have := @keeps_defer K V C H HN hb
  unfold updateAtNew; keeps [this]

theorem keeps_updTomb {i : Nat} {e : Entry K V} {s : Slot K V} : Keeps H HN (updateAtTomb C i e s T) := by
  have := @keeps_defer K V C H HN hb
  unfold updateAtTomb; keeps [this]

theorem keeps_insertProbe {b : Bool} : Keeps H HN (insertProbe C k v b T) := by
  have h := @keeps_updNew K V C H HN hb _ k v
  unfold insertProbe insertFound insertSlow; keeps [keeps_insertAt, h]

theorem keeps_insert {b : Bool} : Keeps H HN (Papaya.insert C k v b) := by
  unfold Papaya.insert
  refine .bind ?_ fun r => by keeps
  unfold insertInner
  refine Obs'.bind (fun T => T = H) (stall_root (.ret rfl)) fun T hT => ?_
  subst hT
  refine Obs'.loop (fun s => s.1 = T) rfl fun s hs => ?_
  obtain ⟨T', h⟩ := s
  obtain rfl : T' = T := hs
  refine Obs'.bind _ (keeps_insertProbe hb) fun x _ => ?_
  cases x with
  | done r => exact .ret trivial
  | retry i => exact Obs'.bind _ (stall_retryIns hb) fun _ h => h.elim

theorem keeps_removeProbe {f : Closure (K × V) Bool} {st : f.Tr} : Keeps H HN (removeProbe C k f st T) := by
  have h := @keeps_updTomb K V C H HN hb
  unfold removeProbe removeLoop; keeps [h, keeps_invoke]

theorem keeps_removeIf {f : Closure (K × V) Bool} : Keeps H HN (removeIf C k f) := by
  unfold removeIf
  refine stall_root' ?_
  refine Obs'.loop (fun s => s.1 = H) rfl fun s hs => ?_
  obtain ⟨T, h, st⟩ := s
  obtain rfl : T = H := hs
  refine Obs'.bind _ (keeps_removeProbe hb) fun x _ => ?_
  obtain ⟨st, x⟩ := x
  cases x with
  | done r => exact .ret trivial
  | retry i =>
    refine Obs'.bind _ (stall_retry hb) fun x hx => ?_
    subst hx
    exact .ret trivial

omit hb
theorem keeps_next {R : Type} {f : Closure (Option (K × V)) (Operation V R)} {c : CState K V R f} {e : Option (Entry K V)} :
    Keeps H HN (c.next e) := by
  unfold CState.next; keeps [keeps_invoke]

theorem keeps_restore {R : Type} {f : Closure (Option (K × V)) (Operation V R)} {c : CState K V R f} {o : Option (Entry K V)} {y : Operation V R} :
    Keeps H HN (c.restore o y) := by
  unfold CState.restore; keeps

theorem keeps_computeFailure {R : Type} {f : Closure (Option (K × V)) (Operation V R)} {p : Probe} {c : CState K V R f} {s : EStat K V} :
    Keeps H HN (computeFailure T p c s) := by
  unfold computeFailure; keeps [keeps_next, keeps_restore]
include hb

theorem keeps_computeProbe {R : Type} {f : Closure (Option (K × V)) (Operation V R)} {c : CState K V R f} :
    Keeps H HN (computeProbe C k T c) := by
  have h1 := @keeps_updTomb K V C H HN hb
  have h2 := @keeps_updNew K V C H HN hb
  unfold computeProbe computeFound computeLoop
  keeps [keeps_next, keeps_restore, keeps_insertAt, keeps_computeFailure, h1, h2]

theorem keeps_compute {R : Type} {f : Closure (Option (K × V)) (Operation V R)} : Keeps H HN (compute C k f) := by
  unfold compute
  refine Obs'.bind (fun x => ∀ c T, x = .inl (c, T) → T = H) ?_ fun x hx => ?_
  · unfold computeInit
    exact stall_root (.ret fun c T h => by cases h; rfl)
  rcases x with ⟨c, T⟩ | ⟨c, a⟩
  swap
  · exact .ret trivial
  obtain rfl := hx c T rfl
  refine Obs'.loop (fun s => s.1 = T) rfl fun s hs => ?_
  obtain ⟨T', h, c⟩ := s
  obtain rfl : T' = T := hs
  refine Obs'.bind _ (keeps_computeProbe hb) fun y _ => ?_
  obtain ⟨c, y⟩ := y
  cases y with
  | done r => exact .ret trivial
  | retry i =>
    refine Obs'.bind _ (stall_retry hb) fun x hx => ?_
    subst hx
    refine Obs'.bind _ keeps_next fun x _ => ?_
    obtain ⟨c, op⟩ := x
    cases op with
    | insert v => exact Obs'.bind _ (stall_retryIns hb) fun _ h => h.elim
    | abort a => exact .ret trivial
    | remove => exact stall_panic

theorem keeps_deleteLoop {f : Closure (K × V) Bool} {st : f.Tr} {i : Nat} {s : Slot K V} : Keeps H HN (deleteLoop C f T i st s) := by
  have := @keeps_defer K V C H HN hb
  unfold deleteLoop; keeps [this, keeps_invoke]

theorem keeps_clear : Keeps (V := V) H HN (clear C : Prog K V Unit) := by
  have h := @keeps_deleteLoop K V C H HN hb
  unfold clear
  refine stall_root' ?_
  refine Obs'.loop (fun T => T = H) rfl fun T hT => ?_
  subst hT
  refine Obs'.bind _ (stall_linearize hb) fun T' hT => ?_
  subst hT
  refine Obs'.bind (fun _ => True) ?_ fun b _ => ?_
  · unfold clearPass; keeps [h]
  split
  · exact Obs'.bind _ (stall_helpCopy hb) fun _ h => h.elim
  · exact .ret trivial

theorem keeps_retain {f : Closure (K × V) Bool} : Keeps (V := V) H HN (retain C f) := by
  have h := @keeps_deleteLoop K V C H HN hb
  unfold retain
  refine stall_root' ?_
  refine Obs'.loop (fun s => s.1 = H) rfl fun s hs => ?_
  obtain ⟨T, st⟩ := s
  obtain rfl : T = H := hs
  refine Obs'.bind _ (stall_linearize hb) fun T' hT => ?_
  subst hT
  refine Obs'.bind (fun _ => True) ?_ fun b _ => ?_
  · unfold retainPass; keeps [h]
  obtain ⟨st, c⟩ := b
  dsimp only
  split
  · exact Obs'.bind _ (stall_helpCopy hb) fun _ h => h.elim
  · exact .ret trivial

theorem keeps_iter {lim : Option Nat} : Keeps (V := V) H HN (iterUpTo C lim : Prog K V _) := by
  unfold iterUpTo
  refine stall_root' ?_
  refine Obs'.bind _ (stall_linearize hb) fun T' hT => ?_
  keeps

theorem keeps_reserve : Keeps (V := V) H HN (reserve C n : Prog K V Unit) := by
  unfold reserve
  refine Obs'.bind (fun T => T = H) (stall_root (.ret rfl)) fun T hT => ?_
  subst hT
  refine Obs'.loop (fun T' => T' = T) rfl fun T' hT => ?_
  subst hT
  refine Obs'.bind _ keeps_len fun m _ => ?_
  split
  · split
    · exact stall_panic
    · split
      · exact .ret trivial
      · refine Obs'.bind _ stall_alloc fun _ _ => ?_
        exact Obs'.bind _ (stall_helpCopy hb) fun _ h => h.elim
  · exact stall_panic

/-- A reservation of more than the length of the table never returns. -/
theorem stall_reserve (hn : H.len < n) : Stalls (V := V) H HN (reserve C n : Prog K V Unit) := by
  unfold reserve
  refine Obs'.bind (fun T => T = H) (stall_root (.ret rfl)) fun T hT => ?_
  subst hT
  refine Obs'.loop (fun T' => T' = T) rfl fun T' hT => ?_
  subst hT
  refine Obs'.bind _ keeps_len fun m _ => ?_
  split
  · split
    · exact stall_panic
    · rename_i c hc
      have h1 : m + n ≤ c := by
        unfold entriesFor at hc
        split at hc
        · have := nextPowerOfTwo_ge ((m + n) * 8 / 6)
          cases hc; omega
        · cases hc
      rw [if_neg (by omega)]
      refine Obs'.bind _ stall_alloc fun _ _ => ?_
      exact Obs'.bind _ (stall_helpCopy hb) fun _ h => h.elim
  · exact stall_panic

theorem keeps_tryInsertWith {f : Closure Unit V} : Keeps H HN (tryInsertWith C k f) := by
  unfold tryInsertWith; keeps [keeps_compute hb]

theorem keeps_tryInsert : Keeps H HN (Call.tryInsertProg C k v) := by
  unfold Call.tryInsertProg; keeps [keeps_insert hb]

/-- Every operation. -/
theorem keeps_call {c : Call K V} : Keeps H HN (c.prog C) := by
  cases c with
  | get => exact keeps_get hb
  | containsKey => exact .bind (keeps_get hb) fun _ => .ret
  | insert => exact .bind (keeps_insert hb) fun r => by cases r <;> first | exact .ret | exact .panic
  | tryInsert => exact keeps_tryInsert hb
  | tryInsertWith => exact keeps_tryInsertWith hb
  | getOrInsert => exact .bind (keeps_tryInsert hb) fun r => by rcases r with r | ⟨r, _⟩ <;> exact .ret
  | getOrInsertWith =>
    show Keeps H HN (getOrInsertWith C _ _)
    unfold getOrInsertWith; keeps [keeps_tryInsertWith hb]
  | update =>
    show Keeps H HN (update C _ _)
    unfold update; keeps [keeps_compute hb]
  | updateOrInsert =>
    show Keeps H HN (updateOrInsertWith C _ _ _)
    unfold updateOrInsertWith; keeps [keeps_compute hb]
  | updateOrInsertWith =>
    show Keeps H HN (updateOrInsertWith C _ _ _)
    unfold updateOrInsertWith; keeps [keeps_compute hb]
  | compute => exact keeps_compute hb
  | remove =>
    show Keeps H HN (remove C _)
    unfold remove; keeps [keeps_removeIf hb]
  | removeIf => exact keeps_removeIf hb
  | clear => exact keeps_clear hb
  | retain => exact keeps_retain hb
  | iter => exact keeps_iter hb
  | iterTake => exact keeps_iter hb
  | len => exact keeps_len
  | isEmpty => exact .bind keeps_len fun _ => .ret
  | reserve => exact keeps_reserve hb

end ops

end Papaya
