import Verif.Model.Pool
import Verif.Proof.Logic
import Verif.Proof.TriBase

/-! # A logic about the tables a program allocates

The program runs while nobody else changes the counters. `Sv C M ψ p Q`: if the shards of the counter are `ψ`, then `p` allocates only tables of at
most `M` slots; if it returns `x` and the shards are `ψ'` then, `Q x ψ'` holds. -/

set_option linter.unusedSectionVars false
set_option linter.unusedVariables false

namespace Papaya

variable {K V : Type}

/-- The sum of the counter. -/
def tot (C : Cfg K) (ψ : Nat → Int) : Int := ((List.range (C.shards + 1)).map ψ).sum

/-- A table that is not too long (and has an even length). -/
def HOk (M : Nat) (T : Table) : Prop := T.len ≤ M ∧ 2 ∣ T.len

/-- The allocation is allowed. -/
def Act.small (M : Nat) : {β : Type} → Act K V β → Prop
  | _, .storeNext _ cap => cap ≤ M ∧ 2 ∣ cap ∧ 0 < cap
  | _, .casRootInit cap => cap ≤ M ∧ 2 ∣ cap ∧ 0 < cap
  | _, _ => True

/-- Results and effects of actions. -/
def Act.effect (C : Cfg K) (M : Nat) (ψ ψ' : Nat → Int) : {β : Type} → Act K V β → β → Prop
  | _, .loadRoot, r => ψ' = ψ ∧ ∀ T, r = some T → HOk M T
  | _, .loadNext _, r => ψ' = ψ ∧ ∀ T, r = some T → HOk M T
  | _, .casRootInit _, T => ψ' = ψ ∧ HOk M T
  | _, .storeNext _ _, T => ψ' = ψ ∧ HOk M T
  | _, .loadShard j, r => ψ' = ψ ∧ r = ψ j
  | _, .addCount d, _ => tot C ψ' = tot C ψ + d
  | _, _, _ => ψ' = ψ

def SvN (C : Cfg K) (M : Nat) {α : Type} : Nat → (Nat → Int) → Prog K V α → (α → (Nat → Int) → Prop) → Prop
  | 0, _, _, _ => True
  | _ + 1, ψ, .ret x, Q => Q x ψ
  | _ + 1, _, .panic _, _ => True
  | n + 1, ψ, .act a k, Q => a.small M ∧ ∀ r ψ', a.effect C M ψ ψ' r → SvN C M n ψ' (k r) Q
  | n + 1, ψ, .iter body s k, Q => SvN C M n ψ (Prog.unfoldIter body s k) Q

def Sv (C : Cfg K) (M : Nat) {α : Type} (ψ : Nat → Int) (p : Prog K V α) (Q : α → (Nat → Int) → Prop) : Prop := ∀ n, SvN C M n ψ p Q

variable {C : Cfg K} {M : Nat} {α β γ : Type} {ψ : Nat → Int}

theorem SvN.zero {p : Prog K V α} {Q : α → (Nat → Int) → Prop} : SvN C M 0 ψ p Q := by cases p <;> trivial

theorem SvN.mono {n m : Nat} {p : Prog K V α} {Q Q' : α → (Nat → Int) → Prop} (h : SvN C M n ψ p Q) (hm : m ≤ n)
    (hQ : ∀ x ψ', Q x ψ' → Q' x ψ') : SvN C M m ψ p Q' := by
  induction m generalizing n p ψ with
  | zero => exact .zero
  | succ m ih =>
    obtain ⟨n, rfl⟩ : ∃ n', n = n' + 1 := ⟨n - 1, by omega⟩
    cases p with
    | ret x => exact hQ _ _ h
    | panic w => trivial
    | act a k => exact ⟨h.1, fun r ψ' hr => ih (h.2 r ψ' hr) (by omega)⟩
    | iter body s k => exact ih (n := n) h (by omega)

theorem SvN.bind {n : Nat} {p : Prog K V α} {g : α → Prog K V γ} {Q : γ → (Nat → Int) → Prop}
    (h : SvN C M n ψ p fun x ψ' => ∀ m, m ≤ n → SvN C M m ψ' (g x) Q) : SvN C M n ψ (p.bind g) Q := by
  induction n generalizing p ψ with
  | zero => exact .zero
  | succ n ih =>
    cases p with
    | ret x => exact h _ (Nat.le_refl _)
    | panic w => trivial
    | act a k => exact ⟨h.1, fun r ψ' hr => ih ((h.2 r ψ' hr).mono (Nat.le_refl _) fun x ψ'' h m hm => h m (by omega))⟩
    | iter body s k =>
      have h' : SvN C M n ψ (Prog.unfoldIter body s k) _ := h
      have := ih (h'.mono (Nat.le_refl _) fun x ψ'' h m hm => h m (by omega))
      show SvN C M n ψ (Prog.unfoldIter body s fun x => (k x).bind g) Q
      unfold Prog.unfoldIter at this ⊢
      rw [Prog.bind_assoc] at this
      convert this using 2
      funext x
      cases x <;> rfl

namespace Sv

theorem mono {p : Prog K V α} {Q Q' : α → (Nat → Int) → Prop} (h : Sv C M ψ p Q) (hQ : ∀ x ψ', Q x ψ' → Q' x ψ') : Sv C M ψ p Q' :=
  fun n => (h n).mono (Nat.le_refl _) hQ

theorem ret {x : α} {Q : α → (Nat → Int) → Prop} (h : Q x ψ) : Sv C M ψ (pure x : Prog K V α) Q := fun n => by
  cases n with
  | zero => exact .zero
  | succ n => exact h

theorem ret' {x : α} {Q : α → (Nat → Int) → Prop} (h : Q x ψ) : Sv C M ψ (.ret x : Prog K V α) Q := ret h

theorem panic {w : PanicReason} {Q : α → (Nat → Int) → Prop} : Sv C M ψ (.panic w : Prog K V α) Q := fun n => by cases n <;> trivial

theorem bind {p : Prog K V α} {g : α → Prog K V γ} {Q : γ → (Nat → Int) → Prop} (h : Sv C M ψ p fun x ψ' => Sv C M ψ' (g x) Q) :
    Sv C M ψ (p >>= g) Q :=
  fun n => SvN.bind ((h n).mono (Nat.le_refl _) fun x ψ' h m _ => h m)

theorem loop {σ : Type} {body : σ → Prog K V (σ ⊕ β)} {s : σ} {Q : β → (Nat → Int) → Prop} (I : σ → (Nat → Int) → Prop) (hI : I s ψ)
    (h : ∀ s ψ, I s ψ → Sv C M ψ (body s) fun y ψ' => Sum.elim (fun s => I s ψ') (fun x => Q x ψ') y) : Sv C M ψ (Prog.loop s body) Q := by
  intro n
  induction n using Nat.strongRecOn generalizing s ψ with
  | _ n ih =>
    cases n with
    | zero => exact .zero
    | succ n =>
      show SvN C M n ψ (Prog.unfoldIter body s .ret) Q
      unfold Prog.unfoldIter
      refine SvN.bind ((h s ψ hI n).mono (Nat.le_refl _) fun x ψ' hx m hm => ?_)
      cases x with
      | inl s' => exact ih m (by omega) hx
      | inr y => exact Sv.ret' (Q := Q) hx m

theorem act {a : Act K V β} {Q : β → (Nat → Int) → Prop} (h : a.small M) (hQ : ∀ r ψ', a.effect C M ψ ψ' r → Q r ψ') :
    Sv C M ψ (.prim a) Q := by
  intro n
  cases n with
  | zero => exact .zero
  | succ n => exact ⟨h, fun r ψ' hr => Sv.ret' (hQ r ψ' hr) n⟩

end Sv

/-! ## Values that contain handles of small tables only -/

class Tidy (α : Type) where
  ok : Nat → α → Prop

instance (priority := low) tidyAny : Tidy α := ⟨fun _ _ => True⟩
instance : Tidy Table := ⟨HOk⟩
instance [Tidy α] : Tidy (Option α) := ⟨fun M o => ∀ x, o = some x → Tidy.ok M x⟩
instance [Tidy α] [Tidy β] : Tidy (α × β) := ⟨fun M p => Tidy.ok M p.1 ∧ Tidy.ok M p.2⟩
instance [Tidy α] [Tidy β] : Tidy (α ⊕ β) := ⟨fun M o => (∀ x, o = .inl x → Tidy.ok M x) ∧ ∀ x, o = .inr x → Tidy.ok M x⟩
instance : Tidy CopyOut := ⟨fun M o => (∀ x, o = .retry x → HOk M x) ∧ ∀ x, o = .done x → HOk M x⟩

theorem ok_any {x : α} : @Tidy.ok α tidyAny M x ↔ True := Iff.rfl
theorem ok_table {T : Table} : Tidy.ok M T ↔ HOk M T := Iff.rfl
theorem ok_none [Tidy α] : Tidy.ok M (none : Option α) ↔ True := iff_true_intro fun _ h => by cases h
theorem ok_some [Tidy α] {x : α} : Tidy.ok M (some x) ↔ Tidy.ok M x := ⟨fun h => h x rfl, fun h _ hx => by cases hx; exact h⟩
theorem ok_pair [Tidy α] [Tidy β] {x : α × β} : Tidy.ok M x ↔ Tidy.ok M x.1 ∧ Tidy.ok M x.2 := Iff.rfl
theorem ok_inl [Tidy α] [Tidy β] {x : α} : Tidy.ok M (.inl x : α ⊕ β) ↔ Tidy.ok M x :=
  ⟨fun h => h.1 x rfl, fun h => ⟨fun _ hx => by cases hx; exact h, fun _ hx => by cases hx⟩⟩
theorem ok_inr [Tidy α] [Tidy β] {x : β} : Tidy.ok M (.inr x : α ⊕ β) ↔ Tidy.ok M x :=
  ⟨fun h => h.2 x rfl, fun h => ⟨fun _ hx => (nomatch hx), fun _ hx => by cases hx; exact h⟩⟩
theorem ok_retry {T : Table} : Tidy.ok M (CopyOut.retry T) ↔ HOk M T :=
  ⟨fun h => h.1 _ rfl, fun h => ⟨fun _ hx => by cases hx; exact h, fun _ hx => by cases hx⟩⟩
theorem ok_doneT {T : Table} : Tidy.ok M (CopyOut.done T) ↔ HOk M T :=
  ⟨fun h => h.2 _ rfl, fun h => ⟨fun _ hx => (nomatch hx), fun _ hx => by cases hx; exact h⟩⟩
theorem ok_brk : Tidy.ok M CopyOut.brk ↔ True := iff_true_intro ⟨fun _ hx => (nomatch hx), fun _ hx => (nomatch hx)⟩
theorem ok_anyOpt {o : Option α} : @Tidy.ok (Option α) (@instTidyOption α tidyAny) M o ↔ True := iff_true_intro fun _ _ => trivial
theorem ok_anySum {o : α ⊕ β} : @Tidy.ok (α ⊕ β) (@instTidySum α β tidyAny tidyAny) M o ↔ True :=
  iff_true_intro ⟨fun _ _ => trivial, fun _ _ => trivial⟩

/-- The counter is at most `N` before and after, the tables are small. -/
def Thr (C : Cfg K) (M N : Nat) {α : Type} [Tidy α] (p : Prog K V α) : Prop :=
  ∀ ψ, tot C ψ ≤ N → Sv C M ψ p fun x ψ' => tot C ψ' ≤ N ∧ Tidy.ok M x

namespace Thr

variable {N : Nat} [Tidy α] [Tidy β] [Tidy γ]

theorem ret {x : α} (h : Tidy.ok M x) : Thr C M N (pure x : Prog K V α) := fun ψ hψ => Sv.ret ⟨hψ, h⟩
theorem ret' {x : α} (h : Tidy.ok M x) : Thr C M N (.ret x : Prog K V α) := ret h
theorem panic {w : PanicReason} : Thr C M N (.panic w : Prog K V α) := fun ψ hψ => Sv.panic
theorem bind {p : Prog K V α} {g : α → Prog K V γ} (h : Thr C M N p) (hg : ∀ x, Tidy.ok M x → Thr C M N (g x)) : Thr C M N (p >>= g) :=
  fun ψ hψ => Sv.bind ((h ψ hψ).mono fun x ψ' hx => hg x hx.2 ψ' hx.1)
theorem loop {σ : Type} [Tidy σ] {body : σ → Prog K V (σ ⊕ β)} {s : σ} (hs : Tidy.ok M s) (h : ∀ s, Tidy.ok M s → Thr C M N (body s)) :
    Thr C M N (Prog.loop s body) := fun ψ hψ =>
  Sv.loop (fun s ψ => tot C ψ ≤ N ∧ Tidy.ok M s) ⟨hψ, hs⟩ fun s ψ hs => (h s hs.2 ψ hs.1).mono fun x ψ' hx => by
    cases x with
    | inl s' => exact ⟨hx.1, hx.2.1 _ rfl⟩
    | inr y => exact ⟨hx.1, hx.2.2 _ rfl⟩
theorem act {a : Act K V β} (h : a.small M) (hr : ∀ r ψ ψ', a.effect C M ψ ψ' r → tot C ψ ≤ N → tot C ψ' ≤ N ∧ Tidy.ok M r) :
    Thr C M N (.prim a) := fun ψ hψ => Sv.act h fun r ψ' h => hr r ψ ψ' h hψ

end Thr

macro "tidy" : tactic => `(tactic| focus first
  | with_reducible trivial
  | with_reducible assumption
  | (simp only [ok_any, ok_table, ok_none, ok_some, ok_pair, ok_inl, ok_inr, ok_retry, ok_doneT, ok_brk, ok_anyOpt, ok_anySum, and_self, and_true, true_and]; done)
  | (simp only [ok_any, ok_table, ok_none, ok_some, ok_pair, ok_inl, ok_inr, ok_retry, ok_doneT, ok_brk, ok_anyOpt, ok_anySum, and_self, and_true, true_and] at *; first | with_reducible assumption | (simp_all only []; done)))

macro "thrift_step" : tactic => `(tactic| first
  | with_reducible exact Thr.panic
  | ((with_reducible first | refine Thr.ret ?_ | refine Thr.ret' ?_); tidy)
  | with_reducible refine Thr.bind ?_ fun _ _ => ?_
  | ((with_reducible refine Thr.loop ?_ fun _ _ => ?_); tidy)
  | ((with_reducible refine Thr.act ?_ ?_) <;> first | exact trivial | (intro r ψ ψ' h hψ; first
      | (have h : ψ' = ψ := h; subst h; exact ⟨hψ, by tidy⟩)
      | (obtain ⟨h1, h⟩ := h; subst h1; exact ⟨hψ, h⟩)
      | (obtain ⟨h1, h⟩ := h; subst h1; exact ⟨hψ, by tidy⟩)
      | (have h : tot _ ψ' = tot _ ψ + -1 := h; exact ⟨by omega, trivial⟩)))
  | split
  | dsimp only)

syntax "thrift" "[" term,* "]" : tactic
macro_rules
  | `(tactic| thrift [$ts,*]) => do
    let ts := ts.getElems
    `(tactic| repeat' first $[| with_reducible exact $ts (by tidy)]* | thrift_step)

macro "thrift" : tactic => `(tactic| repeat' thrift_step)

/-- Bounds. -/
structure Bounds (C : Cfg K) (M N : Nat) : Prop where
  first : 32 ≤ M
  init : C.initialCapacity ≤ M
  keys : 4 * N ≤ M

variable {N : Nat} {T next : Table}

theorem even_max {n : Nat} (h : isPow2B n = true) : 2 ∣ max n 8 ∧ 0 < max n 8 := by
  refine ⟨?_, by have := Nat.le_max_right n 8; omega⟩
  obtain ⟨a, ha⟩ := isPow2_max h
  have : 8 ≤ 2 ^ a := by rw [← ha]; exact Nat.le_max_right _ _
  rw [ha]
  cases a with
  | zero => simp at this
  | succ a => exact ⟨2 ^ a, by rw [Nat.pow_succ]; ring⟩

theorem next_small (hB : Bounds C M N) (hT : HOk M T) {a : Nat} (ha : a ≤ N) : nextCapacity C.initialCapacity T.len a ≤ M := by
  obtain ⟨h1, m, h2⟩ := hT
  have := hB.keys
  have h3 : T.len >>> 1 = m := by rw [Nat.shiftRight_eq_div_pow, h2]; omega
  have h4 : T.len <<< 1 = 4 * m := by rw [Nat.shiftLeft_eq, h2]; omega
  unfold nextCapacity
  rw [h3, h4]
  split
  · omega
  split
  · have := hB.init; omega
  · exact h1

theorem sv_len {Q : Nat → (Nat → Int) → Prop} (hQ : Q (tot C ψ).toNat ψ) : Sv (V := V) C M ψ (len C) Q := by
  unfold len
  refine .bind (Sv.mono (Q := fun x ψ' => x = tot C ψ ∧ ψ' = ψ) ?_ fun x ψ' h => ?_)
  · refine .loop (fun s ψ' => ψ' = ψ ∧ s.1 ≤ C.shards + 1 ∧ s.2 = ((List.range s.1).map ψ).sum) ⟨rfl, Nat.zero_le _, rfl⟩ fun s ψ' hs => ?_
    obtain ⟨j, acc⟩ := s
    obtain ⟨rfl, h1, h2⟩ := hs
    dsimp only at h1 h2 ⊢
    split
    · refine .bind (.act trivial fun r ψ'' hr => ?_)
      obtain ⟨rfl, rfl⟩ := hr
      refine .ret ⟨rfl, by dsimp only; omega, ?_⟩
      dsimp only
      rw [List.range_succ, List.map_append, List.sum_append, h2]
      simp
    · refine .ret ⟨?_, rfl⟩
      have : j = C.shards + 1 := by omega
      subst this
      exact h2
  · obtain ⟨rfl, rfl⟩ := h
    exact .ret hQ

theorem th_init {c : Option Nat} (hB : Bounds C M N) (hc : ∀ n, c = some n → n ≤ M) : Thr (V := V) C M N (initTable C c) := by
  unfold initTable
  dsimp only
  split
  · rename_i h
    split
    · refine Thr.act ⟨?_, even_max h⟩ fun r ψ ψ' hr hψ => ?_
      · have := hB.first
        cases c with
        | none => exact this
        | some n => have := hc n rfl; exact max_le this (by omega)
      · obtain ⟨rfl, hr⟩ := hr
        exact ⟨hψ, hr⟩
    · exact .panic
  · exact .panic

theorem th_initNone (hB : Bounds C M N) (h : True) : Thr (V := V) C M N (initTable C none) := th_init hB fun n h => by cases h

theorem th_allocLocked {c : Option Nat} (hB : Bounds C M N) (hc : ∀ n, c = some n → n ≤ M) (hT : HOk M T) :
    Thr (V := V) C M N (allocNextLocked C c T) := by
  unfold allocNextLocked
  refine .bind (by thrift) fun x hx => ?_
  cases x with
  | some n => thrift
  | none =>
    intro ψ hψ
    refine .bind (sv_len ?_)
    dsimp only
    have hle : c.getD (nextCapacity C.initialCapacity T.len (tot C ψ).toNat) ≤ M := by
      cases c with
      | some n => exact hc n rfl
      | none => exact next_small hB hT (by omega)
    generalize c.getD (nextCapacity C.initialCapacity T.len (tot C ψ).toNat) = n at hle
    revert ψ
    intro ψ hψ
    suffices h : Thr (V := V) C M N (if n ≤ isizeMax then
        if isPow2B n then
          if C.layoutOk (max n 8) then do
            let next ← A.storeNext T.id (max n 8)
            A.unlock T.id
            return next
          else do
            A.poison T.id
            .panic .layoutOverflow
        else do
          A.poison T.id
          .panic .notPowerOfTwo
      else do
        A.poison T.id
        .panic .maxCapacity : Prog K V Table) from h ψ hψ
    split
    · split
      · rename_i hp
        split
        · refine .bind (Thr.act ⟨?_, even_max hp⟩ fun r ψ ψ' hr hψ => ?_) fun r hr => ?_
          · have := hB.first; exact max_le hle (by omega)
          · obtain ⟨rfl, hr⟩ := hr
            exact ⟨hψ, hr⟩
          · thrift
        · thrift
      · thrift
    · thrift

theorem th_alloc {c : Option Nat} (hB : Bounds C M N) (hc : ∀ n, c = some n → n ≤ M) (hT : HOk M T) :
    Thr (V := V) C M N (getOrAllocNext C c T) := by
  unfold getOrAllocNext; thrift [th_allocLocked hB hc]

theorem th_promote {n : Nat} (h : True) : Thr (K := K) (V := V) C M N (tryPromote T next n) := by unfold tryPromote; thrift

theorem th_insertCopy {e : Entry K V} {s : Slot K V} {b : Bool} (hB : Bounds C M N) (hT : HOk M T) : Thr C M N (insertCopy C e s b T) := by
  unfold insertCopy; thrift [th_alloc (c := none) hB (fun n h => by cases h)]

theorem th_waitCopied {i : Nat} (h : True) : Thr (V := V) C M N (waitCopied C i T) := by unfold waitCopied; thrift

theorem th_defer {e : Entry K V} {s : Slot K V} (hT : HOk M T) : Thr C M N (deferRetire C e s T) := by unfold deferRetire; thrift

theorem th_invoke {I O : Type} {f : Closure I O} {st : f.Tr} {i : I} (h : True) : Thr (K := K) (V := V) C M N (f.invoke st i) := by
  unfold Closure.invoke; thrift

theorem th_copyAtB {i : Nat} (hB : Bounds C M N) (hT : HOk M next) : Thr (V := V) C M N (copyAtBlocking C i T next) := by
  unfold copyAtBlocking; thrift [th_insertCopy hB]

theorem th_copyAtI {i : Nat} (hB : Bounds C M N) (hT : HOk M next) : Thr (V := V) C M N (copyAtIncremental C i T next) := by
  unfold copyAtIncremental; thrift [th_insertCopy hB]

theorem th_chunkB {i n : Nat} (hB : Bounds C M N) (hT : HOk M next) : Thr (V := V) C M N (copyChunkBlocking C T next i n) := by
  unfold copyChunkBlocking; thrift [th_copyAtB hB]

theorem th_chunkI {i n : Nat} (hB : Bounds C M N) (hT : HOk M next) : Thr (V := V) C M N (copyChunkIncremental C T next i n) := by
  unfold copyChunkIncremental; thrift [th_copyAtI hB]

theorem th_helpB (hB : Bounds C M N) (hT : HOk M T) : Thr (V := V) C M N (helpCopyBlocking C T) := by
  unfold helpCopyBlocking; thrift [th_chunkB hB, th_promote, th_alloc (c := none) hB (fun n h => by cases h)]

theorem th_helpI {n : Nat} {b : Bool} (hB : Bounds C M N) (h : True) : Thr (V := V) C M N (helpCopyIncremental C n b) := by
  unfold helpCopyIncremental; thrift [th_chunkI hB, th_promote]

theorem th_help {b : Bool} (hB : Bounds C M N) (hT : HOk M T) : Thr (V := V) C M N (helpCopy C b T) := by
  unfold helpCopy; thrift [th_helpB hB, th_helpI hB]

theorem th_linearize (hB : Bounds C M N) (hT : HOk M T) : Thr (V := V) C M N (linearize C T) := by
  unfold linearize; thrift [th_help hB]

section ops

variable [DecidableEq K] {k : K} {v : V}

theorem th_insertAt {i m : Nat} (h : True) : Thr C M N (insertAt C i m k v T) := by unfold insertAt; thrift

theorem th_updNew {i : Nat} {e : Entry K V} {s : Slot K V} (hT : HOk M T) : Thr C M N (updateAtNew C i e s k v T) := by
  unfold updateAtNew; thrift [th_defer]

theorem th_updTomb {i : Nat} {e : Entry K V} {s : Slot K V} (hT : HOk M T) : Thr C M N (updateAtTomb C i e s T) := by
  unfold updateAtTomb; thrift [th_defer]

theorem th_retryIns {i : Option Nat} {b : Bool} (hB : Bounds C M N) (hT : HOk M T) : Thr (V := V) C M N (prepareRetryInsert C i b T) := by
  unfold prepareRetryInsert; thrift [th_alloc (c := none) hB (fun n h => by cases h), th_help hB, th_waitCopied]

theorem th_retry {i : Option Nat} {b : Bool} (hB : Bounds C M N) (hT : HOk M T) : Thr (V := V) C M N (prepareRetry C i b T) := by
  unfold prepareRetry; thrift [th_help hB, th_waitCopied]

theorem th_insertProbe {b : Bool} (hT : HOk M T) : Thr C M N (insertProbe C k v b T) := by
  unfold insertProbe insertFound insertSlow; thrift [th_insertAt, th_updNew]

theorem th_insertInner {b : Bool} (hB : Bounds C M N) : Thr C M N (insertInner C k v b) := by
  unfold insertInner; thrift [th_insertProbe, th_retryIns hB, th_initNone hB]

theorem th_removeProbe {f : Closure (K × V) Bool} {st : f.Tr} (hT : HOk M T) : Thr C M N (removeProbe C k f st T) := by
  unfold removeProbe removeLoop; thrift [th_invoke, th_updTomb]

theorem th_removeIf {f : Closure (K × V) Bool} (hB : Bounds C M N) (h : True) : Thr C M N (removeIf C k f) := by
  unfold removeIf; thrift [th_removeProbe, th_retry hB]

theorem th_deleteLoop {f : Closure (K × V) Bool} {st : f.Tr} {i : Nat} {s : Slot K V} (hT : HOk M T) : Thr C M N (deleteLoop C f T i st s) := by
  unfold deleteLoop; thrift [th_invoke, th_defer]

theorem th_clear (hB : Bounds C M N) : Thr (V := V) C M N (clear C) := by
  unfold clear clearPass; thrift [th_linearize hB, th_deleteLoop, th_help hB]

theorem th_retain {f : Closure (K × V) Bool} (hB : Bounds C M N) : Thr C M N (retain C f) := by
  unfold retain retainPass; thrift [th_linearize hB, th_deleteLoop, th_help hB]

theorem th_iter {l : Option Nat} (hB : Bounds C M N) : Thr (V := V) C M N (iterUpTo C l) := by
  unfold iterUpTo; thrift [th_linearize hB]

theorem th_next {R : Type} {f : Closure (Option (K × V)) (Operation V R)} {c : CState K V R f} {e : Option (Entry K V)} (h : True) :
    Thr C M N (c.next e) := by
  unfold CState.next; thrift [th_invoke]

theorem th_restore {R : Type} {f : Closure (Option (K × V)) (Operation V R)} {c : CState K V R f} {o : Option (Entry K V)} {y : Operation V R}
    (h : True) : Thr C M N (c.restore o y) := by
  unfold CState.restore; thrift

theorem th_computeFailure {R : Type} {f : Closure (Option (K × V)) (Operation V R)} {p : Probe} {c : CState K V R f} {s : EStat K V}
    (h : True) : Thr C M N (computeFailure T p c s) := by
  unfold computeFailure; thrift [th_next, th_restore]

theorem th_computeFound {R : Type} {f : Closure (Option (K × V)) (Operation V R)} {p : Probe} {c : CState K V R f} {e : Entry K V}
    {s : Slot K V} (hT : HOk M T) : Thr C M N (computeFound C k T p c e s) := by
  unfold computeFound computeLoop; thrift [th_next, th_restore, th_computeFailure, th_updNew, th_updTomb]

/-- The counter may be one higher when the probe loop has inserted an entry, but then `compute` is over. -/
theorem sv_computeProbe {R : Type} {f : Closure (Option (K × V)) (Operation V R)} {c : CState K V R f} (hT : HOk M T) (hψ : tot C ψ ≤ N) :
    Sv C M ψ (computeProbe C k T c) fun x ψ' => tot C ψ' ≤ N ∨ ∃ r, x.2 = .done r := by
  unfold computeProbe
  refine .loop (fun _ ψ => tot C ψ ≤ N) hψ fun s ψ hψ => ?_
  obtain ⟨c, p⟩ := s
  have hw : ∀ {q : Prog K V ((CState K V R f × Probe) ⊕ (CState K V R f × WOut (Compute K V R)))} {ψ}, tot C ψ ≤ N → Thr C M N q →
      Sv C M ψ q fun y ψ' => Sum.elim (fun s => tot C ψ' ≤ N) (fun x => tot C ψ' ≤ N ∨ ∃ r, x.2 = .done r) y :=
    fun hψ h => (h _ hψ).mono fun x ψ' hx => by
      cases x with
      | inl y => exact hx.1
      | inr y => exact .inl hx.1
  have hb : ∀ {α : Type} [Tidy α] {q : Prog K V α} {g : α → Prog K V ((CState K V R f × Probe) ⊕ (CState K V R f × WOut (Compute K V R)))} {Q ψ},
      tot C ψ ≤ N → Thr C M N q → (∀ x ψ', tot C ψ' ≤ N → Sv C M ψ' (g x) Q) → Sv C M ψ (q >>= g) Q :=
    fun hψ h hg => .bind ((h _ hψ).mono fun x ψ' hx => hg x ψ' hx.1)
  dsimp only
  split
  · refine hb hψ (by thrift) fun m ψ hψ => ?_
    split
    · refine hb hψ (th_next trivial) fun y ψ hψ => ?_
      obtain ⟨c, op⟩ := y
      cases op with
      | remove => exact .panic
      | abort a => exact .ret (.inl hψ)
      | insert v =>
        refine hb hψ (th_insertAt trivial) fun y ψ hψ => ?_
        have hr : Thr C M N (c.restore none (.insert v)) := th_restore trivial
        cases y with
        | inserted e => exact .bind (.act trivial fun r ψ' hr => .ret (.inr ⟨_, rfl⟩))
        | found st =>
          cases st with
          | value e s => exact hw hψ (.bind hr fun _ _ => th_computeFound hT)
          | copied e s => exact hw hψ (.bind hr fun _ _ => th_computeFound hT)
          | null => exact hw hψ (.bind hr fun _ _ => by thrift)
    · exact hw hψ (by thrift [th_computeFound])
  · exact .ret (.inl hψ)

theorem th_computeInit {R : Type} {f : Closure (Option (K × V)) (Operation V R)} {c : CState K V R f} (hB : Bounds C M N) :
    Thr C M N (computeInit C c) := by
  unfold computeInit; thrift [th_next, th_restore, th_initNone hB]

theorem sv_compute {R : Type} {f : Closure (Option (K × V)) (Operation V R)} (hB : Bounds C M N) (hψ : tot C ψ ≤ N) :
    Sv C M ψ (compute C k f) fun _ _ => True := by
  unfold compute
  refine .bind ((th_computeInit hB ψ hψ).mono fun x ψ hx => ?_)
  obtain ⟨hψ, hx⟩ := hx
  cases x with
  | inr y => exact .ret trivial
  | inl y =>
    obtain ⟨c, T⟩ := y
    have hT : HOk M T := (hx.1 _ rfl).2
    refine .loop (fun s ψ => tot C ψ ≤ N ∧ HOk M s.1) ⟨hψ, hT⟩ fun s ψ hs => ?_
    obtain ⟨T, b, c⟩ := s
    obtain ⟨hψ, hT⟩ := hs
    refine .bind ((sv_computeProbe hT hψ).mono fun y ψ hy => ?_)
    obtain ⟨c, y⟩ := y
    cases y with
    | done r => exact .ret trivial
    | retry i =>
      have hψ : tot C ψ ≤ N := hy.resolve_right fun ⟨r, h⟩ => by cases h
      refine .bind ((th_retry hB hT ψ hψ).mono fun x ψ hx => ?_)
      obtain ⟨hψ, hx⟩ := hx
      cases x with
      | some n => exact .ret ⟨hψ, hx _ rfl⟩
      | none =>
        refine .bind ((th_next (M := M) trivial ψ hψ).mono fun x ψ hx => ?_)
        have hψ := hx.1
        obtain ⟨c, op⟩ := x
        cases op with
        | abort a => exact .ret trivial
        | remove => exact .panic
        | insert v =>
          refine .bind ((th_retryIns hB hT ψ hψ).mono fun n ψ hn => ?_)
          obtain ⟨hψ, hn⟩ := hn
          exact .bind ((th_restore (M := M) trivial ψ hψ).mono fun c ψ hc => .ret ⟨hc.1, hn⟩)

theorem sv_insert {b : Bool} (hB : Bounds C M N) (hψ : tot C ψ ≤ N) : Sv C M ψ (insert C k v b) fun _ _ => True := by
  unfold insert
  refine .bind ((th_insertInner hB ψ hψ).mono fun x ψ hx => ?_)
  cases x with
  | inserted e => exact .bind (.act trivial fun _ _ _ => .ret trivial)
  | replaced => exact .ret trivial
  | error => exact .ret trivial

theorem th_reserve {a : Nat} (hB : Bounds C M N) (ha : ∀ n c, n ≤ N → entriesFor (n + a) = some c → c ≤ M) : Thr (V := V) C M N (reserve C a) := by
  unfold reserve
  refine .bind (.bind (by thrift) fun x hx => ?_) fun T hT => ?_
  · cases x with
    | some T => exact .ret (by tidy)
    | none =>
      dsimp only
      split
      · rename_i n hn
        exact th_init hB fun m hm => by cases hm; exact ha 0 n (Nat.zero_le _) (by rw [Nat.zero_add]; exact hn)
      · exact .panic
  · refine .loop hT fun T hT => ?_
    intro ψ hψ
    refine .bind (sv_len ?_)
    split
    · split
      · exact .panic
      · rename_i n hn
        have hc := ha (tot C ψ).toNat n (by omega) hn
        split
        · exact .ret ⟨hψ, by tidy⟩
        · exact Thr.bind (th_alloc hB (fun m hm => by cases hm; exact hc) hT) (fun _ _ => .bind (th_help hB hT) fun x hx => by thrift) ψ hψ
    · exact .panic

/-- Every operation. -/
theorem sv_call {c : Call K V} (hB : Bounds C M N) (ha : ∀ a, c = .reserve a → ∀ n c, n ≤ N → entriesFor (n + a) = some c → c ≤ M)
    (hψ : tot C ψ ≤ N) : Sv C M ψ (c.prog C) fun _ _ => True := by
  have hw : ∀ {α : Type} [Tidy α] {q : Prog K V α}, Thr C M N q → Sv C M ψ q fun _ _ => True := fun h => (h ψ hψ).mono fun _ _ _ => trivial
  have hb : ∀ {α β : Type} {q : Prog K V α} {g : α → Prog K V β}, Sv C M ψ q (fun _ _ => True) → (∀ x, (∃ y, g x = pure y) ∨ ∃ r, g x = .panic r) →
      Sv C M ψ (q >>= g) fun _ _ => True := fun h hg => .bind (h.mono fun x ψ _ => by
    obtain ⟨y, hy⟩ | ⟨y, hy⟩ := hg x
    · rw [hy]; exact .ret trivial
    · rw [hy]; exact .panic)
  have hti : ∀ {k : K} {v : V}, Sv C M ψ (Call.tryInsertProg C k v) fun _ _ => True := by
    intro k v
    unfold Call.tryInsertProg
    refine hb (sv_insert hB hψ) fun x => ?_
    cases x <;> first | exact .inl ⟨_, rfl⟩ | exact .inr ⟨_, rfl⟩
  have hget : ∀ {k : K}, Thr (V := V) C M N (get C k) := by intro k; unfold get getProbe; thrift
  have htw : ∀ {k : K} {f : Closure Unit V}, Sv C M ψ (tryInsertWith C k f) fun _ _ => True := by
    intro k f
    unfold tryInsertWith
    refine hb (sv_compute hB hψ) fun x => ?_
    split <;> first | exact .inl ⟨_, rfl⟩ | exact .inr ⟨_, rfl⟩
  have huoi : ∀ {k : K} {u : Closure V V} {f : Closure Unit V}, Sv C M ψ (updateOrInsertWith C k u f) fun _ _ => True := by
    intro k u f
    unfold updateOrInsertWith
    refine hb (sv_compute hB hψ) fun x => ?_
    split <;> first | exact .inl ⟨_, rfl⟩ | exact .inr ⟨_, rfl⟩
  have hlen : Sv (V := V) C M ψ (len C) fun _ _ => True := sv_len trivial
  cases c with
  | get => exact (hget ψ hψ).mono fun _ _ _ => trivial
  | containsKey => exact hb (hw hget) fun _ => .inl ⟨_, rfl⟩
  | insert =>
    refine hb (sv_insert hB hψ) fun x => ?_
    cases x <;> first | exact .inl ⟨_, rfl⟩ | exact .inr ⟨_, rfl⟩
  | tryInsert => exact hti
  | tryInsertWith => exact htw
  | getOrInsert =>
    refine hb hti fun x => ?_
    cases x <;> exact .inl ⟨_, rfl⟩
  | getOrInsertWith =>
    refine hb htw fun x => ?_
    cases x <;> exact .inl ⟨_, rfl⟩
  | update =>
    refine hb (sv_compute hB hψ) fun x => ?_
    split <;> first | exact .inl ⟨_, rfl⟩ | exact .inr ⟨_, rfl⟩
  | updateOrInsert => exact huoi
  | updateOrInsertWith => exact huoi
  | compute => exact sv_compute hB hψ
  | remove =>
    refine hb (hw (th_removeIf hB trivial)) fun x => ?_
    split <;> first | exact .inl ⟨_, rfl⟩ | exact .inr ⟨_, rfl⟩
  | removeIf => exact hw (th_removeIf hB trivial)
  | clear => exact hw (th_clear hB)
  | retain => exact hw (th_retain hB)
  | iter => exact hw (th_iter hB)
  | iterTake => exact hw (th_iter hB)
  | len => exact hlen
  | isEmpty => exact hb hlen fun _ => .inl ⟨_, rfl⟩
  | reserve a => exact hw (th_reserve hB (ha a rfl))

end ops

end Papaya
