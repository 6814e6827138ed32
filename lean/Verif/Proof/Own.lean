import Verif.Model.Own

/-! # Ownership: programs that publish nothing, and a calculus for the code of Model/Own.lean -/

set_option linter.unusedSectionVars false
set_option linter.unusedVariables false

namespace Papaya

variable {K V : Type}

theorem LoopEnds.mono {σ β : Type} {B B' : σ → List (Entry K V) → Except PanicReason (σ ⊕ β) → Prop}
    (hB : ∀ s p o, B s p o → B' s p o) {s : σ} {p : List (Entry K V)} {o : Except PanicReason β} (h : LoopEnds B s p o) :
    LoopEnds B' s p o := by
  induction h with
  | more h1 _ ih => exact .more (hB _ _ _ h1) ih
  | done h1 => exact .done (hB _ _ _ h1)
  | panic h1 => exact .panic (hB _ _ _ h1)

/-- The runs of a sequential composition. -/
theorem Prog.ends_bind {α γ : Type} (q : Prog K V α) (g : α → Prog K V γ) (p : List (Entry K V))
    (o : Except PanicReason γ) :
    (q.bind g).Ends p o ↔ (∃ p₁ p₂ a, q.Ends p₁ (.ok a) ∧ (g a).Ends p₂ o ∧ p = p₁ ++ p₂) ∨
      (∃ r, q.Ends p (.error r) ∧ o = .error r) := by
  induction q generalizing p with
  | ret a =>
    simp only [Prog.bind, Prog.Ends]
    constructor
    · intro h; exact .inl ⟨[], p, a, ⟨rfl, rfl⟩, h, rfl⟩
    · rintro (⟨p₁, p₂, a', ⟨rfl, h1⟩, h2, rfl⟩ | ⟨r, ⟨_, h1⟩, _⟩)
      · cases h1; exact h2
      · cases h1
  | panic r =>
    simp only [Prog.bind, Prog.Ends]
    constructor
    · rintro ⟨rfl, rfl⟩; exact .inr ⟨r, ⟨rfl, rfl⟩, rfl⟩
    · rintro (⟨p₁, p₂, a', ⟨_, h1⟩, _⟩ | ⟨r, ⟨rfl, h1⟩, rfl⟩)
      · cases h1
      · cases h1; exact ⟨rfl, rfl⟩
  | act a k ih =>
    simp only [Prog.bind, Prog.Ends, ih]
    constructor
    · rintro ⟨x, q, hm, rfl, ⟨p₁, p₂, b, h1, h2, rfl⟩ | ⟨r, h1, rfl⟩⟩
      · exact .inl ⟨_, p₂, b, ⟨x, p₁, hm, rfl, h1⟩, h2, by rw [List.append_assoc]⟩
      · exact .inr ⟨r, ⟨x, q, hm, rfl, h1⟩, rfl⟩
    · rintro (⟨_, p₂, b, ⟨x, p₁, hm, rfl, h1⟩, h2, rfl⟩ | ⟨r, ⟨x, q, hm, rfl, h1⟩, rfl⟩)
      · exact ⟨x, p₁ ++ p₂, hm, by rw [List.append_assoc], .inl ⟨p₁, p₂, b, h1, h2, rfl⟩⟩
      · exact ⟨x, q, hm, rfl, .inr ⟨r, h1, rfl⟩⟩
  | iter body s k _ ih =>
    simp only [Prog.bind, Prog.Ends, ih]
    constructor
    · rintro (⟨p₁, p₂, b, h1, ⟨q₁, q₂, c, h2, h3, rfl⟩ | ⟨r, h2, rfl⟩, rfl⟩ | ⟨r, h1, rfl⟩)
      · exact .inl ⟨p₁ ++ q₁, q₂, c, .inl ⟨p₁, q₁, b, h1, h2, rfl⟩, h3, by rw [List.append_assoc]⟩
      · exact .inr ⟨r, .inl ⟨p₁, p₂, b, h1, h2, rfl⟩, rfl⟩
      · exact .inr ⟨r, .inr ⟨r, h1, rfl⟩, rfl⟩
    · rintro (⟨p₁, p₂, c, ⟨q₁, q₂, b, h1, h2, rfl⟩ | ⟨r, _, h2⟩, h3, rfl⟩ | ⟨r, ⟨q₁, q₂, b, h1, h2, rfl⟩ | ⟨r', h1, h2⟩, rfl⟩)
      · exact .inl ⟨q₁, q₂ ++ p₂, b, h1, .inl ⟨q₂, p₂, c, h2, h3, rfl⟩, by rw [List.append_assoc]⟩
      · cases h2
      · exact .inl ⟨q₁, q₂, b, h1, .inr ⟨r, h2, rfl⟩, rfl⟩
      · cases h2; exact .inr ⟨r, h1, rfl⟩

/-- A program that publishes no new entry. -/
def Prog.Quiet : {α : Type} → Prog K V α → Prop
  | _, .ret _ => True
  | _, .act a k => ∀ x, a.pub x = [] ∧ (k x).Quiet
  | _, .iter body s k => (∀ s, (body s).Quiet) ∧ ∀ b, (k b).Quiet
  | _, .panic _ => True

theorem Prog.Quiet.ends {α : Type} {q : Prog K V α} (hq : q.Quiet) {p : List (Entry K V)} {o : Except PanicReason α}
    (h : q.Ends p o) : p = [] := by
  induction q generalizing p with
  | ret a => exact h.1
  | panic r => exact h.1
  | act a k ih =>
    obtain ⟨x, q, _, rfl, h1⟩ := h
    rw [(hq x).1, ih x (hq x).2 h1]; rfl
  | iter body s k ihb ih =>
    have hl : ∀ {s p o}, LoopEnds (fun s => (body s).Ends) s p o → p = [] := by
      intro s p o h
      induction h with
      | more h1 _ ih' => rw [ihb _ (hq.1 _) h1, ih']; rfl
      | done h1 => exact ihb _ (hq.1 _) h1
      | panic h1 => exact ihb _ (hq.1 _) h1
    rcases h with ⟨p₁, p₂, b, h1, h2, rfl⟩ | ⟨r, h1, rfl⟩
    · rw [hl h1, ih _ (hq.2 _) h2]; rfl
    · exact hl h1

theorem Prog.quiet_bind {α γ : Type} {q : Prog K V α} {g : α → Prog K V γ} (h : q.Quiet) (hg : ∀ a, (g a).Quiet) :
    (q.bind g).Quiet := by
  induction q with
  | ret a => exact hg a
  | panic r => trivial
  | act a k ih => exact fun x => ⟨(h x).1, ih x (h x).2 hg⟩
  | iter body s k _ ih => exact ⟨h.1, fun b => ih b (h.2 b) hg⟩

theorem Prog.quiet_bind' {α γ : Type} {q : Prog K V α} {g : α → Prog K V γ} (h : q.Quiet) (hg : ∀ a, (g a).Quiet) :
    (q >>= g).Quiet := Prog.quiet_bind h hg

theorem Prog.quiet_loop {σ β : Type} {s : σ} {body : σ → Prog K V (σ ⊕ β)} (h : ∀ s, (body s).Quiet) :
    (Prog.loop s body).Quiet := ⟨h, fun _ => trivial⟩

theorem Prog.quiet_prim {β : Type} {a : Act K V β} (h : ∀ x, a.pub x = []) : (Prog.prim a).Quiet := fun x => ⟨h x, trivial⟩

variable [DecidableEq K]

macro "quiet" : tactic => `(tactic| repeat' (first
  | exact trivial
  | exact Prog.quiet_prim (fun _ => rfl)
  | refine Prog.quiet_bind' ?_ (fun _ => ?_) | refine Prog.quiet_bind ?_ (fun _ => ?_)
  | refine Prog.quiet_loop (fun _ => ?_) | split | solve_by_elim | (dsimp only)))

variable (C : Cfg K)

theorem quiet_initTable (cap : Option Nat) : (initTable C cap : Prog K V _).Quiet := by unfold initTable; quiet
theorem quiet_len : (len C : Prog K V _).Quiet := by unfold len; quiet
theorem quiet_allocNextLocked (cap : Option Nat) (T : Table) : (allocNextLocked C cap T : Prog K V _).Quiet := by
  have := @quiet_len K V _ C
  unfold allocNextLocked; quiet
theorem quiet_getOrAllocNext (cap : Option Nat) (T : Table) : (getOrAllocNext C cap T : Prog K V _).Quiet := by
  have := @quiet_allocNextLocked K V _ C
  unfold getOrAllocNext; quiet
theorem quiet_tryPromote (T next : Table) (n : Nat) : (tryPromote T next n : Prog K V _).Quiet := by
  unfold tryPromote; quiet
theorem quiet_deferRetire (e : Entry K V) (s : Slot K V) (T : Table) : (deferRetire C e s T).Quiet := by
  unfold deferRetire; quiet
theorem quiet_updateAtTomb (i : Nat) (e : Entry K V) (s : Slot K V) (T : Table) : (updateAtTomb C i e s T).Quiet := by
  have := @quiet_deferRetire K V _ C
  unfold updateAtTomb; quiet
theorem quiet_waitCopied (i : Nat) (T : Table) : (waitCopied C i T : Prog K V _).Quiet := by
  unfold waitCopied; quiet
theorem quiet_insertCopy (e : Entry K V) (s : Slot K V) (resize : Bool) (T : Table) : (insertCopy C e s resize T).Quiet := by
  have := @quiet_getOrAllocNext K V _ C
  unfold insertCopy; quiet
theorem quiet_copyAtBlocking (i : Nat) (T next : Table) : (copyAtBlocking C i T next : Prog K V _).Quiet := by
  have := @quiet_insertCopy K V _ C
  unfold copyAtBlocking; quiet
theorem quiet_copyAtIncremental (i : Nat) (T next : Table) : (copyAtIncremental C i T next : Prog K V _).Quiet := by
  have := @quiet_insertCopy K V _ C
  unfold copyAtIncremental; quiet
theorem quiet_copyChunkBlocking (T next : Table) (a b : Nat) : (copyChunkBlocking C T next a b : Prog K V _).Quiet := by
  have := @quiet_copyAtBlocking K V _ C
  unfold copyChunkBlocking; quiet
theorem quiet_copyChunkIncremental (T next : Table) (a b : Nat) : (copyChunkIncremental C T next a b : Prog K V _).Quiet := by
  have := @quiet_copyAtIncremental K V _ C
  unfold copyChunkIncremental; quiet
theorem quiet_helpCopyBlocking (T : Table) : (helpCopyBlocking C T : Prog K V _).Quiet := by
  have := @quiet_copyChunkBlocking K V _ C
  have := @quiet_getOrAllocNext K V _ C
  have := @quiet_tryPromote K V _
  unfold helpCopyBlocking; quiet
theorem quiet_helpCopyIncremental (n : Nat) (b : Bool) : (helpCopyIncremental C n b : Prog K V _).Quiet := by
  have := @quiet_copyChunkIncremental K V _ C
  have := @quiet_getOrAllocNext K V _ C
  have := @quiet_tryPromote K V _
  unfold helpCopyIncremental; quiet
theorem quiet_helpCopy (all : Bool) (T : Table) : (helpCopy C all T : Prog K V _).Quiet := by
  have := @quiet_helpCopyBlocking K V _ C
  have := @quiet_helpCopyIncremental K V _ C
  unfold helpCopy; quiet
theorem quiet_prepareRetry (copying : Option Nat) (help : Bool) (T : Table) : (prepareRetry C copying help T : Prog K V _).Quiet := by
  have := @quiet_helpCopy K V _ C
  have := @quiet_waitCopied K V _ C
  unfold prepareRetry; quiet
theorem quiet_prepareRetryInsert (copying : Option Nat) (help : Bool) (T : Table) :
    (prepareRetryInsert C copying help T : Prog K V _).Quiet := by
  have := @quiet_helpCopy K V _ C
  have := @quiet_waitCopied K V _ C
  have := @quiet_getOrAllocNext K V _ C
  unfold prepareRetryInsert; quiet

end Papaya
