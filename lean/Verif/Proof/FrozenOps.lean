import Verif.Proof.Frozen

/-! # The helpers of the operations, in the logic of `Verif/Proof/Frozen.lean` -/

set_option linter.unusedSectionVars false
set_option linter.unusedVariables false

namespace Papaya

open Prog

variable {K V : Type} [DecidableEq K] {C : Cfg K} {D : Box} {T next : Table}

theorem g_len : G0 C D (len C : Prog K V Nat) fun _ => True := by
  unfold len
  refine Gd.bind0 (fun _ => True) ?_ fun s _ => Gd.ret trivial
  refine G0.count (fun _ => True) (fun s => C.shards + 1 - s.1) (fun s _ => ?_) trivial
  obtain ⟨j, acc⟩ := s
  refine Gd.ite (fun hj => ?_) fun _ => Gd.ret trivial
  refine Gd.go fun x _ => Gd.ret ⟨trivial, ?_⟩
  show C.shards + 1 - (j + 1) < C.shards + 1 - j
  omega

theorem g_initTable {c : Option Nat} : G0 C D (initTable C c : Prog K V Table) fun T => T.In D := by
  unfold initTable
  exact Gd.ite (fun _ => Gd.ite (fun _ => Gd.prim trivial (fun h => h.elim) fun r hr => hr) fun _ => Gd.panic)
    fun _ => Gd.panic

theorem g_allocNextLocked {c : Option Nat} :
    G0 C D (allocNextLocked C c T : Prog K V Table) fun n => n.In D ∧ T.id < n.id := by
  unfold allocNextLocked
  refine Gd.go fun r hr => ?_
  cases r with
  | some n => exact Gd.go fun _ _ => Gd.ret (hr n rfl)
  | none =>
    refine Gd.bind0 (fun _ => True) g_len fun active _ => ?_
    refine Gd.ite (fun _ => Gd.ite (fun _ => Gd.ite (fun _ => ?_) fun _ => ?_) fun _ => ?_) fun _ => ?_
    · exact Gd.go fun n hn => Gd.go fun _ _ => Gd.ret hn
    all_goals exact Gd.go fun _ _ => Gd.panic

theorem g_getOrAllocNext {c : Option Nat} :
    G0 C D (getOrAllocNext C c T : Prog K V Table) fun n => n.In D ∧ T.id < n.id := by
  unfold getOrAllocNext
  refine Gd.go fun r hr => ?_
  cases r with
  | some n => exact Gd.ret (hr n rfl)
  | none =>
    refine Gd.go fun b _ => Gd.ite (fun _ => g_allocNextLocked) fun _ => ?_
    refine Gd.bind0 (fun r => ∀ n, r = some n → n.In D ∧ T.id < n.id) ?_ fun r hr => ?_
    · refine G0.count (fun _ => True) (fun s => C.spinAlloc + 1 - s) (fun s _ => ?_) trivial
      refine Gd.ite (fun hs => ?_) fun _ => Gd.ret (by rintro n ⟨⟩)
      refine Gd.go fun r hr => ?_
      cases r with
      | some n => exact Gd.ret (by rintro m ⟨⟩; exact hr n rfl)
      | none => exact Gd.ret ⟨trivial, by show C.spinAlloc + 1 - (s + 1) < C.spinAlloc + 1 - s; omega⟩
    · cases r with
      | some n => exact Gd.ret (hr n rfl)
      | none => exact Gd.go fun b _ => Gd.ite (fun _ => g_allocNextLocked) fun _ => Gd.panic

theorem g_tryPromote {n : Nat} : G0 C D (tryPromote T next n : Prog K V Bool) fun _ => True := by
  unfold tryPromote
  refine Gd.bind0 (fun _ => True) ?_ fun c _ => ?_
  · refine Gd.ite (fun _ => Gd.go fun _ _ => Gd.ret trivial) fun _ => Gd.prim trivial (fun h => h.elim) fun _ _ => trivial
  · refine Gd.ite (fun _ => Gd.go fun r _ => ?_) fun _ => Gd.ret trivial
    cases r with
    | none => exact Gd.ret trivial
    | some root =>
      refine Gd.go fun b _ => Gd.ite (fun _ => Gd.go fun b _ => Gd.ite (fun _ => ?_) fun _ => ?_) fun _ => Gd.ret trivial
      · exact Gd.go fun _ _ => Gd.go fun _ _ => Gd.go fun _ _ => Gd.ret trivial
      · exact Gd.go fun _ _ => Gd.ret trivial

/-- While the memory is not changed, no table is promoted. -/
theorem fe_tryPromote {σ : St K V} {n : Nat} (hlt : T.id < next.id) :
    FE D σ (tryPromote T next n : Prog K V Bool) fun b => b = false := by
  unfold tryPromote
  refine FE.bind (R := fun _ => True) ?_ fun c _ => ?_
  · refine FE.ite (fun _ => FE.step fun _ _ _ => .ret trivial) fun _ => FE.prim fun _ _ _ => trivial
  · refine FE.ite (fun _ => FE.step fun r _ hr => ?_) fun _ => .ret rfl
    cases r with
    | none => exact .ret rfl
    | some root =>
      refine FE.step fun b _ hb => FE.ite (fun hbt => FE.step fun b' _ hb' => FE.ite (fun h => ?_) fun h => ?_) fun _ => .ret rfl
      · rcases hb' with ⟨_, h'⟩ | ⟨h', _⟩
        · omega
        · rw [h'] at h; cases h
      · rcases hb' with ⟨h', _⟩ | ⟨_, h'⟩
        · exact absurd h' h
        · have hb : b = decide (T.id = root) := hb
          rw [hbt] at hb
          exact absurd (hr.symm.trans (by rw [of_decide_eq_true hb.symm])) h'

theorem g_probe {R : Type} {k : K} {body : Probe → Prog K V (Probe ⊕ R)} {Q : R → Prop} {p0 : Probe} {m : Nat}
    (h : ∀ p : Probe, p.len ≤ m → G0 C D (body p) fun x => Sum.elim (fun p' => p'.len = p.len + 1) Q x)
    (h' : ∀ p : Probe, ¬ p.len ≤ m → G0 C D (body p) fun x => ∃ r, x = .inr r ∧ Q r) : G0 C D (Prog.loop p0 body) Q := by
  refine G0.count (fun _ => True) (fun p => m + 1 - p.len) (fun p _ => ?_) trivial
  by_cases hp : p.len ≤ m
  · refine (h p hp).post fun x _ hx => ?_
    cases x with
    | inl p' => exact ⟨trivial, by have : p'.len = p.len + 1 := hx; show m + 1 - p'.len < m + 1 - p.len; omega⟩
    | inr r => exact hx
  · refine (h' p hp).post fun x _ hx => ?_
    obtain ⟨r, rfl, hr⟩ := hx
    exact hr

theorem g_insertCopy {e : Entry K V} {s : Slot K V} {b : Bool} (hs : s.ptr ≠ none) (hT : T.In D) :
    G0 C D (insertCopy C e s b T) fun _ => True := by
  unfold insertCopy
  refine Gd.go fun _ _ => ?_
  refine G0.count (fun T => T.In D) (fun T => D.N - T.id) (fun T hT => ?_) hT
  refine Gd.bind0 (fun _ => True) ?_ fun out _ => ?_
  · refine g_probe (m := T.limit) (k := e.key) (fun p hp => ?_) fun p hp => ?_
    · rw [if_pos hp]
      refine Gd.go fun m _ => Gd.ite (fun _ => ?_) fun _ => Gd.ret rfl
      refine Gd.go (fun r _ => ?_) (.inl ⟨rfl, hs⟩)
      cases r with
      | none => exact Gd.go fun _ _ => Gd.ret trivial
      | some found =>
        refine Gd.bind0 (fun _ => True) ?_ fun m _ => ?_
        · cases found.ptr with
          | none => exact Gd.ret trivial
          | some e' => exact Gd.go fun _ _ => Gd.ret trivial
        · exact Gd.go fun _ _ => Gd.ite (fun _ => Gd.go fun _ _ => Gd.ret rfl) fun _ => Gd.ret rfl
    · rw [if_neg hp]
      exact Gd.ret ⟨_, rfl, trivial⟩
  · cases out with
    | some i => exact Gd.ret trivial
    | none =>
      refine Gd.ite (fun _ => ?_) fun _ => Gd.ret trivial
      refine Gd.bind0 _ g_getOrAllocNext fun n hn => Gd.ret ⟨hn.1, ?_⟩
      have := hn.1.1
      show D.N - n.id < D.N - T.id
      omega

theorem g_copyAtBlocking {i : Nat} (hn : next.In D) : G0 C D (copyAtBlocking C i T next : Prog K V Bool) fun _ => True := by
  unfold copyAtBlocking
  refine Gd.go fun s _ => ?_
  cases s.ptr with
  | none => exact Gd.ite (fun _ => Gd.ret trivial) fun _ => Gd.go fun _ _ => Gd.ret trivial
  | some e =>
    exact Gd.bind0 _ (g_insertCopy (fun h => by cases h) hn) fun r _ => Gd.ret trivial

theorem g_copyAtIncremental {i : Nat} (hn : next.In D) : G0 C D (copyAtIncremental C i T next : Prog K V Unit) fun _ => True := by
  unfold copyAtIncremental
  refine Gd.go fun s _ => ?_
  generalize hp : s.ptr = o
  cases o with
  | none => exact Gd.ite (fun _ => Gd.ret trivial) fun _ => Gd.prim trivial (fun h => h.elim) fun _ _ => trivial
  | some e =>
    refine Gd.bind0 _ (g_insertCopy (fun h => by cases h) hn) fun r _ => ?_
    cases r with
    | none => exact Gd.panic
    | some _ => exact Gd.go (fun _ _ => Gd.prim trivial (fun h => h.elim) fun _ _ => trivial) ⟨fun h => (by cases h), rfl, rfl⟩

theorem g_copyChunkBlocking {a b : Nat} (hn : next.In D) : G0 C D (copyChunkBlocking C T next a b : Prog K V (Option Nat)) fun _ => True := by
  unfold copyChunkBlocking
  refine G0.count (fun _ => True) (fun j => b - j) (fun j _ => ?_) trivial
  refine Gd.ite (fun hj => Gd.ite (fun _ => ?_) fun _ => Gd.ret trivial) fun _ => Gd.ret trivial
  refine Gd.bind0 _ (g_copyAtBlocking hn) fun x _ => Gd.ite (fun _ => Gd.ret ⟨trivial, ?_⟩) fun _ => Gd.ret trivial
  show b - (j + 1) < b - j
  omega

theorem g_copyChunkIncremental {a b : Nat} (hn : next.In D) : G0 C D (copyChunkIncremental C T next a b : Prog K V Nat) fun _ => True := by
  unfold copyChunkIncremental
  refine G0.count (fun _ => True) (fun j => b - j) (fun j _ => ?_) trivial
  refine Gd.ite (fun hj => Gd.ite (fun _ => ?_) fun _ => Gd.ret trivial) fun _ => Gd.ret trivial
  refine Gd.bind0 _ (g_copyAtIncremental hn) fun x _ => Gd.ret ⟨trivial, ?_⟩
  show b - (j + 1) < b - j
  omega

/-- A loop that is not repeated while the memory does not change. -/
theorem FE.once {β σs : Type} {σ : St K V} {body : σs → Prog K V (σs ⊕ β)} {Q : β → Prop} {s : σs}
    (h : FE D σ (body s) fun x => ∃ b, x = .inr b ∧ Q b) : FE D σ (Prog.loop s body) Q := by
  refine .iter (h.bind fun x hx => ?_)
  obtain ⟨b, rfl, hb⟩ := hx
  exact .ret hb

/-- While the memory is not changed, nothing can be claimed. -/
theorem fe_claim {β : Type} {σ : St K V} {n : Nat} {f : Nat → Prog K V β} {g : Prog K V β} {Q : β → Prop} (hT : T.In D) (hn : 0 < n)
    (hg : FE D σ g Q) :
    FE D σ (do if (← A.loadClaim next.id) ≥ T.len then g else let a ← A.addClaim next.id n T; f a) Q := by
  refine FE.step fun r _ hr => FE.ite (fun _ => hg) fun hlt => ?_
  refine FE.step fun r' _ hr' => ?_
  exfalso
  have h1 : min r D.B = min (σ.claim next.id) D.B := hr
  have h2 : min r' D.B = min (σ.claim next.id) D.B := hr'.1
  have h3 := hr'.2 hn
  have := hT.2
  omega

/-- The loop of `help_copy_blocking` that looks for a table that was not given up. -/
def liveNext (C : Cfg K) (next : Table) : Prog K V Table :=
  loop next fun next => do
    if (← A.loadStatus next.id) = .aborted then
      let n ← getOrAllocNext C none next
      return Sum.inl n
    else
      return Sum.inr next

theorem g_liveNext {m : Nat} (hn : next.In D) (hm : m < next.id) :
    G0 C D (liveNext C next : Prog K V Table) fun n => n.In D ∧ m < n.id := by
  refine G0.count (fun n => n.In D ∧ m < n.id) (fun n => D.N - n.id) (fun n hn => ?_) ⟨hn, hm⟩
  refine Gd.go fun st _ => Gd.ite (fun _ => ?_) fun _ => Gd.ret hn
  refine Gd.bind0 _ g_getOrAllocNext fun n' hn' => Gd.ret ⟨⟨hn'.1, by have := hn'.2; have := hn.2; omega⟩, ?_⟩
  have := hn'.1.1
  have := hn'.2
  show D.N - n'.id < D.N - n.id
  omega

theorem fe_liveNext {σ : St K V} {m : Nat} (hσ : FOk C D σ) (hn : next.In D) (hm : m < next.id) :
    FE D σ (liveNext C next : Prog K V Table) fun n => (n.In D ∧ m < n.id) ∧ σ.status n.id ≠ .aborted := by
  refine FE.loop (fun n => n.In D ∧ m < n.id) (fun n => D.N - n.id) (fun n hn => ?_) ⟨hn, hm⟩
  refine FE.step fun st _ hst => FE.ite (fun _ => ?_) fun h => .ret ⟨hn, fun h' => h (hst.trans h')⟩
  refine FE.bind (Gd.fe g_getOrAllocNext hσ) fun n' ⟨_, hn'⟩ => .ret ⟨⟨hn'.1, by have := hn'.2; have := hn.2; omega⟩, ?_⟩
  have := hn'.1.1
  have := hn'.2
  show D.N - n'.id < D.N - n.id
  omega

/-- The loop of `help_copy_blocking` that claims and copies. -/
def claimBlocking (C : Cfg K) (T next : Table) : Prog K V CopyOut :=
  loop () fun _ => do
    if (← A.loadClaim next.id) ≥ T.len then
      return Sum.inr CopyOut.brk
    else
    let start ← A.addClaim next.id (min T.len 4096) T
    match ← copyChunkBlocking C T next start (min T.len 4096) with
    | none => do
      A.storeStatus next.id .aborted
      let allocated ← getOrAllocNext C none next
      A.unparkStatus T.id
      return Sum.inr (CopyOut.retry allocated)
    | some copied => do
      if ← tryPromote T next copied then
        return Sum.inr (CopyOut.done next)
      else
      if (← A.loadStatus next.id) = .aborted then
        return Sum.inr (CopyOut.retry next)
      else
        return Sum.inl ()

/-- The table a copy ends with. -/
def CopyOut.In (D : Box) (m : Nat) : CopyOut → Prop
  | .brk => True
  | .retry n | .done n => n.In D ∧ m < n.id

theorem fe_claimBlocking {σ : St K V} (hT : T.In D) : FE D σ (claimBlocking C T next : Prog K V CopyOut) fun o => o = .brk := by
  refine FE.once (fe_claim hT (by have : T.len = T.mask + 1 := rfl; omega) (.ret ⟨_, rfl, rfl⟩))

theorem g_claimBlocking (hT : T.In D) (hn : next.In D) (hm : T.id < next.id) :
    G0 C D (claimBlocking C T next : Prog K V CopyOut) fun o => o.In D T.id := by
  refine G0.loop (fun _ => True) (fun _ _ => ?_) (fun σ _ hσ _ => (fe_claimBlocking hT).post fun o ho => by rw [ho]; trivial) trivial
  refine Gd.go fun c _ => Gd.ite (fun _ => Gd.ret trivial) fun _ => ?_
  refine Gd.go fun start _ => Gd.bind0 _ (g_copyChunkBlocking hn) fun r _ => ?_
  cases r with
  | none =>
    refine Gd.go fun _ _ => Gd.bind0 _ g_getOrAllocNext fun n hn' => Gd.go fun _ _ => Gd.ret ⟨hn'.1, ?_⟩
    have := hn'.2
    omega
  | some copied =>
    refine Gd.bind0 _ g_tryPromote fun b _ => Gd.ite (fun _ => Gd.ret ⟨hn, hm⟩) fun _ => ?_
    exact Gd.go fun st _ => Gd.ite (fun _ => Gd.ret ⟨hn, hm⟩) fun _ => Gd.ret trivial

/-- The loop of `help_copy_blocking` that waits for the end of the copy. -/
def waitBlocking (C : Cfg K) (next : Table) : Prog K V Bool :=
  loop 0 fun spun => do
    match ← A.loadStatus next.id with
    | .aborted => return Sum.inr false
    | .promoted => return Sum.inr true
    | .pending => do
      if spun ≤ C.spinWait then
        return Sum.inl (spun + 1)
      else
        A.parkStatus next.id
        return Sum.inl (spun + 1)

theorem fe_waitBlocking {σ : St K V} : FE D σ (waitBlocking C next : Prog K V Bool) fun b =>
    (b = true ∧ σ.status next.id = .promoted) ∨ (b = false ∧ σ.status next.id = .aborted) := by
  refine FE.loop (fun _ => True) (fun s => C.spinWait + 1 - s) (fun s _ => ?_) trivial
  refine FE.step fun st _ hst => ?_
  have hst : st = σ.status next.id := hst
  cases st with
  | aborted => exact .ret (.inr ⟨rfl, hst.symm⟩)
  | promoted => exact .ret (.inl ⟨rfl, hst.symm⟩)
  | pending =>
    refine FE.ite (fun h => .ret ⟨trivial, by show C.spinWait + 1 - (s + 1) < C.spinWait + 1 - s; omega⟩) fun _ => ?_
    exact FE.step fun _ _ h => absurd hst.symm h

theorem g_waitBlocking : G0 C D (waitBlocking C next : Prog K V Bool) fun _ => True := by
  refine G0.loop (fun _ => True) (fun _ _ => ?_) (fun σ _ hσ _ => ?_) trivial
  · refine Gd.go fun st _ => ?_
    cases st with
    | aborted => exact Gd.ret trivial
    | promoted => exact Gd.ret trivial
    | pending => exact Gd.ite (fun _ => Gd.ret trivial) fun _ => Gd.go fun _ _ => Gd.ret trivial
  · rename_i s _
    refine FE.loop (fun _ => True) (fun s => C.spinWait + 1 - s) (fun s _ => ?_) trivial
    refine FE.step fun st _ hst => ?_
    have hst : st = σ.status next.id := hst
    cases st with
    | aborted => exact .ret trivial
    | promoted => exact .ret trivial
    | pending =>
      refine FE.ite (fun h => .ret ⟨trivial, by show C.spinWait + 1 - (s + 1) < C.spinWait + 1 - s; omega⟩) fun _ => ?_
      exact FE.step fun _ _ h => absurd hst.symm h

/-- One round of `help_copy_blocking`. -/
def roundBlocking (C : Cfg K) (T next : Table) : Prog K V (Table ⊕ Table) := do
  let next ← liveNext C next
  if ← tryPromote T next 0 then
    return Sum.inr next
  else
  let out ← claimBlocking C T next
  match out with
  | .done n => return Sum.inr n
  | .retry n => return Sum.inl n
  | .brk => do
    let ok ← waitBlocking C next
    if ok then return Sum.inr next else return Sum.inl next

theorem helpCopyBlocking_eq : (helpCopyBlocking C T : Prog K V Table) = (do
    match ← A.loadNext T.id with
    | none => .panic .unwrapNone
    | some next => loop next (roundBlocking C T)) := rfl

theorem g_helpCopyBlocking (hT : T.In D) : G0 C D (helpCopyBlocking C T : Prog K V Table) fun n => n.In D ∧ T.id < n.id := by
  rw [helpCopyBlocking_eq]
  refine Gd.go fun r hr => ?_
  cases r with
  | none => exact Gd.panic
  | some next =>
    refine G0.loop (fun n => n.In D ∧ T.id < n.id) (fun n hn => ?_) (fun σ n hσ hn => ?_) (hr next rfl)
    · unfold roundBlocking
      refine Gd.bind0 _ (g_liveNext hn.1 hn.2) fun n hn => ?_
      refine Gd.bind0 _ g_tryPromote fun b _ => Gd.ite (fun _ => Gd.ret hn) fun _ => ?_
      refine Gd.bind0 _ (g_claimBlocking hT hn.1 hn.2) fun o ho => ?_
      cases o with
      | done n => exact Gd.ret ho
      | retry n => exact Gd.ret ho
      | brk => exact Gd.bind0 _ g_waitBlocking fun ok _ => Gd.ite (fun _ => Gd.ret hn) fun _ => Gd.ret hn
    · refine FE.once ?_
      unfold roundBlocking
      refine FE.bind (fe_liveNext hσ hn.1 hn.2) fun n hn => ?_
      refine FE.bind (fe_tryPromote hn.1.2) fun b hb => FE.ite (fun h => absurd h (by rw [hb]; exact Bool.false_ne_true)) fun _ => ?_
      refine FE.bind (fe_claimBlocking hT) fun o ho => ?_
      subst ho
      refine FE.bind fe_waitBlocking fun ok hok => ?_
      rcases hok with ⟨rfl, _⟩ | ⟨_, h⟩
      · exact .ret ⟨_, rfl, hn.1⟩
      · exact absurd h hn.2

/-! ## Incremental resizing -/

/-- The loop of `help_copy_incremental` that claims and copies. -/
def claimIncremental (C : Cfg K) (chunk : Nat) (block : Bool) (T next : Table) : Prog K V CopyOut :=
  loop () fun _ => do
    if (← A.loadClaim next.id) ≥ T.len then
      return Sum.inr CopyOut.brk
    else
    let start ← A.addClaim next.id chunk T
    let copied ← copyChunkIncremental C T next start chunk
    let p ← tryPromote T next copied
    if p = true ∨ block = false then
      return Sum.inr (CopyOut.done next)
    else
      return Sum.inl ()

theorem fe_claimIncremental {σ : St K V} {chunk : Nat} {block : Bool} (hT : T.In D) (hc : 0 < chunk) :
    FE D σ (claimIncremental C chunk block T next : Prog K V CopyOut) fun o => o = .brk :=
  FE.once (fe_claim hT hc (.ret ⟨_, rfl, rfl⟩))

theorem g_claimIncremental {chunk : Nat} {block : Bool} (hT : T.In D) (hn : next.In D) (hc : 0 < chunk) :
    G0 C D (claimIncremental C chunk block T next : Prog K V CopyOut) fun o => o = .brk ∨ o = .done next := by
  refine G0.loop (fun _ => True) (fun _ _ => ?_) (fun σ _ hσ _ => (fe_claimIncremental hT hc).post fun o ho => .inl ho) trivial
  refine Gd.go fun c _ => Gd.ite (fun _ => Gd.ret (.inl rfl)) fun _ => ?_
  refine Gd.go fun start _ => Gd.bind0 _ (g_copyChunkIncremental hn) fun r _ => Gd.bind0 _ g_tryPromote fun b _ => ?_
  exact Gd.ite (fun _ => Gd.ret (.inr rfl)) fun _ => Gd.ret trivial

/-- The loop of `help_copy_incremental` that waits for the end of the copy. -/
def waitIncremental (C : Cfg K) (next : Table) : Prog K V Unit :=
  loop 0 fun spun => do
    match ← A.loadStatus next.id with
    | .promoted => return Sum.inr ()
    | _ => do
      if spun ≤ C.spinWait then
        return Sum.inl (spun + 1)
      else
        A.parkStatus next.id
        return Sum.inl (spun + 1)

theorem fe_waitIncremental {σ : St K V} {s : Nat} (hσ : FOk C D σ) (hi : C.inc = true) :
    FE D σ (loop s fun spun => do
    match ← A.loadStatus next.id with
    | .promoted => return Sum.inr ()
    | _ => do
      if spun ≤ C.spinWait then
        return Sum.inl (spun + 1)
      else
        A.parkStatus next.id
        return Sum.inl (spun + 1) : Prog K V Unit) fun _ => σ.status next.id = .promoted := by
  refine FE.loop (fun _ => True) (fun s => C.spinWait + 1 - s) (fun s _ => ?_) trivial
  refine FE.step fun st _ hst => ?_
  have hst : st = σ.status next.id := hst
  cases st with
  | aborted => exact absurd hst.symm (hσ.incab hi _)
  | promoted => exact .ret hst.symm
  | pending =>
    refine FE.ite (fun h => .ret ⟨trivial, by show C.spinWait + 1 - (s + 1) < C.spinWait + 1 - s; omega⟩) fun _ => ?_
    exact FE.step fun _ _ h => absurd hst.symm h

theorem g_waitIncremental (hi : C.inc = true) : G0 C D (waitIncremental C next : Prog K V Unit) fun _ => True := by
  refine G0.loop (fun _ => True) (fun _ _ => ?_) (fun σ s hσ _ => (fe_waitIncremental hσ hi).post fun _ _ => trivial) trivial
  refine Gd.go fun st _ => ?_
  cases st with
  | promoted => exact Gd.ret trivial
  | _ => exact Gd.ite (fun _ => Gd.ret trivial) fun _ => Gd.go fun _ _ => Gd.ret trivial

/-- One round of `help_copy_incremental`. -/
def roundIncremental (C : Cfg K) (chunk : Nat) (block : Bool) (T next : Table) : Prog K V (Unit ⊕ Table) := do
  if ← tryPromote T next 0 then
    return Sum.inr next
  else
  let out ← claimIncremental C chunk block T next
  match out with
  | .done n => return Sum.inr n
  | .retry _ => return Sum.inl ()
  | .brk => do
    if block then
      waitIncremental C next
      return Sum.inr next
    else
      return Sum.inr next

theorem helpCopyIncremental_eq {chunk : Nat} {block : Bool} : (helpCopyIncremental C chunk block : Prog K V (Option Table)) = (do
    match ← A.loadRoot with
    | none => return none
    | some T => do
      match ← A.loadNext T.id with
      | none => return some T
      | some next => do
        let r ← loop () fun _ => roundIncremental C chunk block T next
        return some r) := rfl

theorem g_roundIncremental {chunk : Nat} {block : Bool} (hi : C.inc = true) (hc : 0 < chunk) (hT : T.In D) (hn : next.In D) :
    G0 C D (roundIncremental C chunk block T next : Prog K V (Unit ⊕ Table)) fun x => x = .inr next := by
  unfold roundIncremental
  refine Gd.bind0 _ g_tryPromote fun b _ => Gd.ite (fun _ => Gd.ret rfl) fun _ => ?_
  refine Gd.bind0 _ (g_claimIncremental hT hn hc) fun o ho => ?_
  rcases ho with rfl | rfl
  · exact Gd.ite (fun _ => Gd.bind0 _ (g_waitIncremental hi) fun _ _ => Gd.ret rfl) fun _ => Gd.ret rfl
  · exact Gd.ret rfl

theorem g_helpCopyIncremental {chunk : Nat} {block : Bool} (hi : C.inc = true) (hc : 0 < chunk) :
    G0 C D (helpCopyIncremental C chunk block : Prog K V (Option Table)) fun o => ∀ n, o = some n → n.In D := by
  rw [helpCopyIncremental_eq]
  refine Gd.go fun r hr => ?_
  cases r with
  | none => exact Gd.ret (by rintro n ⟨⟩)
  | some T =>
    have hT := hr T rfl
    refine Gd.go fun r hr => ?_
    cases r with
    | none => exact Gd.ret (by rintro n ⟨⟩; exact hT)
    | some next =>
      have hn := hr next rfl
      refine Gd.bind0 (fun n => n = next) ?_ fun n h => Gd.ret (by rintro m ⟨⟩; exact h ▸ hn.1)
      refine G0.count (fun _ => True) (fun _ => 0) (fun _ _ => (g_roundIncremental hi hc hT hn.1).post fun x _ hx => ?_) trivial
      rw [hx]
      rfl

/-- While the memory is not changed, `help_copy_incremental` returns only if there is nothing to copy. -/
theorem fe_helpCopyIncremental {σ : St K V} {chunk : Nat} (hσ : FOk C D σ) (hi : C.inc = true) (hc : 0 < chunk) :
    FE D σ (helpCopyIncremental C chunk true : Prog K V (Option Table)) fun o => ∀ n, o = some n → n.In D ∧ σ.next n.id = none := by
  rw [helpCopyIncremental_eq]
  refine FE.step fun r hr hr' => ?_
  cases r with
  | none => exact .ret (by rintro n ⟨⟩)
  | some T =>
    have hT := hr T rfl
    have hroot : σ.root = some T.id := by
      have h : some T = σ.root.map σ.handle := hr'
      cases h' : σ.root with
      | none => rw [h'] at h; cases h
      | some x => rw [h'] at h; cases h; rfl
    refine FE.step fun r hr hr' => ?_
    cases r with
    | none =>
      have h : none = (σ.next T.id).map σ.handle := hr'
      refine .ret ?_
      rintro n ⟨⟩
      refine ⟨hT, ?_⟩
      cases h' : σ.next T.id with
      | none => rfl
      | some x => rw [h'] at h; cases h
    | some next =>
      have hn := hr next rfl
      have hnext : σ.next T.id = some next.id := by
        have h : some next = (σ.next T.id).map σ.handle := hr'
        cases h' : σ.next T.id with
        | none => rw [h'] at h; cases h
        | some x => rw [h'] at h; cases h; rfl
      refine FE.bind (R := fun _ => False) (FE.once ?_) fun n h => h.elim
      unfold roundIncremental
      refine FE.bind (fe_tryPromote hn.2) fun b hb => FE.ite (fun h => absurd h (by rw [hb]; exact Bool.false_ne_true)) fun _ => ?_
      refine FE.bind (fe_claimIncremental hT hc) fun o ho => ?_
      subst ho
      refine FE.ite (fun _ => ?_) fun h => absurd rfl h
      exact FE.bind (fe_waitIncremental hσ hi) fun _ h => absurd h (hσ.prom _ _ hroot hnext)

/-! ## Both modes -/

/-- `ResizeMode::Incremental(0)` is excluded. -/
def Cfg.Copies (C : Cfg K) : Prop := C.mode ≠ .incremental 0

theorem Cfg.Copies.pos (h : C.Copies) {chunk : Nat} (hm : C.mode = .incremental chunk) : 0 < chunk :=
  Nat.pos_of_ne_zero fun h0 => h (h0 ▸ hm)

theorem inc_of {chunk : Nat} (hm : C.mode = .incremental chunk) : C.inc = true := by unfold Cfg.inc; rw [hm]

theorem g_helpCopy {b : Bool} (hc : C.Copies) (hT : T.In D) : G0 C D (helpCopy C b T : Prog K V Table) fun n =>
    n.In D ∧ ((C.inc = false ∨ b = false) → T.id < n.id) := by
  unfold helpCopy
  cases hm : C.mode with
  | blocking => exact (g_helpCopyBlocking hT).post fun n _ hn => ⟨hn.1, fun _ => hn.2⟩
  | incremental chunk =>
    refine Gd.bind0 _ (g_helpCopyIncremental (inc_of hm) (hc.pos hm)) fun o ho => ?_
    refine Gd.ite (fun hb => ?_) fun _ => ?_
    · cases o with
      | none => exact Gd.panic
      | some n => exact Gd.ret ⟨ho n rfl, fun h => by
          rcases h with h | h
          · rw [inc_of hm] at h; cases h
          · rw [hb] at h; cases h⟩
    · refine Gd.go fun r hr => ?_
      cases r with
      | none => exact Gd.panic
      | some n => exact Gd.ret ⟨(hr n rfl).1, fun _ => (hr n rfl).2⟩

theorem fe_helpCopy {σ : St K V} (hσ : FOk C D σ) (hc : C.Copies) (hi : C.inc = true) :
    FE D σ (helpCopy C true T : Prog K V Table) fun n => n.In D ∧ σ.next n.id = none := by
  unfold helpCopy
  cases hm : C.mode with
  | blocking => unfold Cfg.inc at hi; rw [hm] at hi; cases hi
  | incremental chunk =>
    refine FE.bind (fe_helpCopyIncremental hσ hi (hc.pos hm)) fun o ho => FE.ite (fun _ => ?_) fun h => absurd rfl h
    cases o with
    | none => exact .panic
    | some n => exact .ret (ho n rfl)

/-- While the memory is not changed, `linearize` ends with a table that has no successor. -/
theorem fe_linearize {σ : St K V} (hσ : FOk C D σ) (hc : C.Copies) (hi : C.inc = true) (hT : T.In D) :
    FE D σ (linearize C T : Prog K V Table) fun n => n.In D ∧ σ.next n.id = none := by
  unfold linearize
  rw [if_pos hi]
  refine FE.loop (fun T => T.In D) (fun T => if σ.next T.id = none then 0 else 1) (fun T hT => ?_) hT
  refine FE.step fun r hr hr' => ?_
  have h : r = (σ.next T.id).map σ.handle := hr'
  cases r with
  | none =>
    refine .ret ⟨hT, ?_⟩
    cases h' : σ.next T.id with
    | none => rfl
    | some x => rw [h'] at h; cases h
  | some n =>
    refine FE.bind (fe_helpCopy hσ hc hi) fun n' hn' => .ret ⟨hn'.1, ?_⟩
    show (if σ.next n'.id = none then 0 else 1) < if σ.next T.id = none then 0 else 1
    rw [if_pos hn'.2, if_neg fun h' => by rw [h'] at h; cases h]
    omega

theorem g_linearize (hc : C.Copies) (hT : T.In D) : G0 C D (linearize C T : Prog K V Table) fun n =>
    n.In D ∧ (C.inc = false → n = T) := by
  unfold linearize
  refine Gd.ite (fun hi => ?_) fun hi => Gd.ret ⟨hT, fun _ => rfl⟩
  refine (G0.loop (fun T => T.In D) (Q := fun T => T.In D) (fun T hT => ?_) (fun σ T hσ hT => ?_) hT).post fun n _ hn =>
    ⟨hn, fun h => by rw [hi] at h; cases h⟩
  · refine Gd.go fun r hr => ?_
    cases r with
    | none => exact Gd.ret hT
    | some n => exact Gd.bind0 _ (g_helpCopy hc hT) fun n hn => Gd.ret hn.1
  · have := fe_linearize hσ hc hi hT
    unfold linearize at this
    rw [if_pos hi] at this
    exact this.post fun n hn => hn.1

theorem g_waitCopied {i : Nat} : G0 C D (waitCopied C i T : Prog K V Unit) fun _ => True := by
  unfold waitCopied
  refine Gd.bind0 (fun _ => True) ?_ fun b _ => Gd.ite (fun _ => Gd.ret trivial) fun _ => Gd.prim trivial (fun h => h.elim) fun _ _ => trivial
  refine G0.count (fun _ => True) (fun s => C.spinCopied - s) (fun s _ => ?_) trivial
  refine Gd.ite (fun hs => Gd.go fun x _ => Gd.ite (fun _ => Gd.ret trivial) fun _ => Gd.ret ⟨trivial, ?_⟩) fun _ => Gd.ret trivial
  show C.spinCopied - (s + 1) < C.spinCopied - s
  omega

theorem g_deferRetire {e : Entry K V} {s : Slot K V} (hT : T.In D) : G0 C D (deferRetire C e s T : Prog K V Unit) fun _ => True := by
  unfold deferRetire
  have hr : ∀ e : Entry K V, G0 C D (A.retire e) fun _ => True := fun e => Gd.prim trivial (fun h => h.elim) fun _ _ => trivial
  cases C.mode with
  | blocking => exact hr e
  | incremental chunk =>
    refine Gd.ite (fun _ => hr e) fun _ => ?_
    refine Gd.go fun r hroot => ?_
    cases r with
    | none => exact Gd.panic
    | some root =>
      refine Gd.bind0 (fun _ => True) ?_ fun b _ => Gd.ite (fun _ => hr e) fun _ => ?_
      · refine G0.count (fun o => ∀ n, o = some n → n.In D) (fun o => match o with | none => 0 | some n => D.N - n.id + 1) (fun o ho => ?_)
          (s := some T) (by rintro n ⟨⟩; exact hT)
        cases o with
        | none => exact Gd.ret trivial
        | some n =>
          have hn := ho n rfl
          refine Gd.go fun b _ => Gd.ite (fun _ => Gd.ret trivial) fun _ => Gd.go fun r hr => Gd.ret ⟨fun m hm => (hr m hm).1, ?_⟩
          cases r with
          | none => exact Nat.succ_pos _
          | some m =>
            have := hr m rfl
            have := this.1.1
            show D.N - m.id + 1 < D.N - n.id + 1
            omega
      · refine G0.count (fun n => n.In D) (fun n => D.N - n.id) (fun n hn => ?_) (hroot root rfl)
        refine Gd.go fun r hr => ?_
        cases r with
        | none => exact Gd.panic
        | some m =>
          have := hr m rfl
          have h1 := this.1.1
          refine Gd.go fun b _ => Gd.ite (fun _ => Gd.go fun _ _ => Gd.ret trivial) fun _ => Gd.ret ⟨this.1, ?_⟩
          show D.N - m.id < D.N - n.id
          omega

end Papaya
