import Verif.Proof.Counter
import Verif.Exec.Run
import Mathlib.Algebra.BigOperators.Group.Finset.Basic
import Mathlib.Algebra.BigOperators.Group.Finset.Piecewise
import Mathlib.Algebra.BigOperators.Ring.Finset
import Mathlib.Algebra.Order.BigOperators.Group.Finset
import Mathlib.Algebra.Order.Ring.Int

/-! # C66: the length counter never overflows

The shards of the counter are `isize`, and so is their sum. In an execution of less than `2 ^ 63` steps no shard wraps around, and no
addition made by `len` overflows, whenever the shards are read. -/

set_option linter.unusedSectionVars false
set_option linter.unusedVariables false

namespace Papaya

variable {K V : Type} [DecidableEq K] {C : Cfg K} {ps ps' : PSt K V} {n : Nat}

theorem exec_shard {t : Tid} {β : Type} {a : Act K V β} {σ σ' : St K V} {r : β} (h : a.unit) (he : Exec C t a σ r σ') :
    ∃ j0, ∀ j, (j ≠ j0 → σ'.shard j = σ.shard j) ∧ (σ'.shard j - σ.shard j).natAbs ≤ 1 := by
  have same : σ'.shard = σ.shard → ∃ j0, ∀ j, (j ≠ j0 → σ'.shard j = σ.shard j) ∧ (σ'.shard j - σ.shard j).natAbs ≤ 1 :=
    fun h => ⟨0, fun j => ⟨fun _ => by rw [h], by rw [h]; simp⟩⟩
  cases a with
  | addCount d =>
    have he : σ' = _ := he
    subst he
    refine ⟨C.shardOf t % (C.shards + 1), fun j => ⟨fun hj => if_neg hj, ?_⟩⟩
    show ((if _ then _ else _) - σ.shard j).natAbs ≤ 1
    have h : d.natAbs ≤ 1 := h
    split
    · rw [show σ.shard j + d - σ.shard j = d by ring]; exact h
    · simp
  | casRootInit cap =>
    apply same
    simp only [Exec] at he
    split at he
    · rw [he.1]; rfl
    · rw [he.1]
  | tryLock => apply same; rcases he with ⟨_, _, h⟩ | ⟨_, _, h⟩ <;> rw [h]
  | lockWait => apply same; rcases he with ⟨_, _, h⟩ | ⟨_, _, h⟩ <;> rw [h]
  | cas => apply same; rcases he with ⟨_, _, h⟩ | ⟨_, _, h⟩ <;> rw [h]; rfl
  | casNew => apply same; rcases he with ⟨_, _, h⟩ | ⟨_, _, h⟩ <;> rw [h]; rfl
  | casRoot => apply same; rcases he with ⟨_, _, h⟩ | ⟨_, _, h⟩ <;> rw [h]
  | storeNext => apply same; rw [he.1]; rfl
  | retire e =>
    apply same
    have he : σ' = _ := he
    rw [he]; rfl
  | _ =>
    apply same
    first
    | (have he : _ ∧ σ' = _ := he
       rw [he.2]; done)
    | (have he : _ ∧ σ' = _ := he
       rw [he.2]; rfl)
    | (have he : σ' = _ := he
       rw [he]; done)
    | (have he : σ' = _ := he
       rw [he]; rfl)

/-- All running programs change the counter by one at a time. -/
def UnitTh (ps : PSt K V) : Prop := ∀ t c p, ps.th t = .run c p → p.Units

theorem unitTh_step (h : UnitTh ps) (hs : Step C ps ps') : UnitTh ps' := by
  have frame : ∀ {t : Tid} {x : Th K V} {q : PSt K V}, q.th = setTh ps.th t x → (∀ c p, x = .run c p → p.Units) → UnitTh q := by
    intro t x q hq hx u c p hu
    rw [hq] at hu
    unfold setTh at hu
    split at hu
    · exact hx c p hu
    · exact h u c p hu
  cases hs with
  | pin t ht => exact frame (t := t) rfl fun c p e => by cases e
  | unpin t ht => exact frame (t := t) rfl fun c p e => by cases e
  | abandon t ht => exact frame (t := t) rfl fun c p e => by cases e
  | release t ht => exact h
  | inv t c ht hwf => exact frame (t := t) rfl fun c p e => by cases e; exact units_call C _
  | act t ht he => exact frame (t := t) rfl fun c p e => by cases e; exact (h _ _ _ ht).2 _
  | loop t ht => exact frame (t := t) rfl fun c p e => by cases e; exact (h _ _ _ ht).unfold
  | ret t ht => exact frame (t := t) rfl fun c p e => by cases e
  | panic t ht => exact frame (t := t) rfl fun c p e => by cases e
  | freeEntry => exact h
  | freeTable => exact h

/-- A step changes at most one shard, by at most one. -/
theorem step_shard (h : UnitTh ps) (hs : Step C ps ps') :
    ∃ j0, ∀ j, (j ≠ j0 → ps'.mem.shard j = ps.mem.shard j) ∧ (ps'.mem.shard j - ps.mem.shard j).natAbs ≤ 1 := by
  have same : ps'.mem.shard = ps.mem.shard → ∃ j0, ∀ j, (j ≠ j0 → ps'.mem.shard j = ps.mem.shard j) ∧
      (ps'.mem.shard j - ps.mem.shard j).natAbs ≤ 1 :=
    fun h => ⟨0, fun j => ⟨fun _ => by rw [h], by rw [h]; simp⟩⟩
  cases hs with
  | act t ht he => exact exec_shard (h _ _ _ ht).1 he
  | _ => exact same rfl

theorem init_shard (h : IsInit C ps) (j : Nat) : ps.mem.shard j = 0 := by
  have h := h.1
  unfold initSt at h
  dsimp only at h
  split at h
  · rw [← Option.some.inj h]
  · obtain ⟨m, _, h⟩ := Option.map_eq_some_iff.1 h
    rw [← h]; rfl

theorem init_unitTh (h : IsInit C ps) : UnitTh ps := by
  intro t c p ht
  rw [h.2.1] at ht; cases ht

/-- How far the shards get in `n` steps. -/
theorem exec_bound {ex : Nat → PSt K V} (h : IsExec C n ex) : UnitTh (ex n) ∧ ∃ u : Nat → Nat,
    (∀ i, i ≤ n → ∀ j, ((ex i).mem.shard j).natAbs ≤ u j) ∧ ∀ m, ∑ j ∈ Finset.range m, u j ≤ n := by
  induction n with
  | zero =>
    refine ⟨init_unitTh h.1, fun _ => 0, fun i hi j => ?_, fun m => by simp⟩
    rw [Nat.le_zero.1 hi, init_shard h.1]; simp
  | succ n ih =>
    obtain ⟨h1, u, h2, h3⟩ := ih ⟨h.1, fun i hi => h.2 i (by omega)⟩
    have hs := h.2 n (by omega)
    obtain ⟨j0, h4⟩ := step_shard h1 hs
    refine ⟨unitTh_step h1 hs, fun j => u j + if j = j0 then 1 else 0, fun i hi j => ?_, fun m => ?_⟩
    · rcases Nat.lt_or_ge n i with hlt | hge
      · obtain rfl : i = n + 1 := by omega
        have h5 := h2 n (Nat.le_refl _) j
        by_cases hj : j = j0
        · have := (h4 j).2
          show _ ≤ u j + if j = j0 then 1 else 0
          rw [if_pos hj]; omega
        · show _ ≤ u j + if j = j0 then 1 else 0
          rw [(h4 j).1 hj, if_neg hj]; exact h5
      · exact (h2 i hge j).trans (Nat.le_add_right _ _)
    · rw [Finset.sum_add_distrib]
      have h5 : ∑ j ∈ Finset.range m, (if j = j0 then 1 else 0) ≤ 1 := by
        rw [Finset.sum_ite_eq']; split <;> simp
      have := h3 m
      omega

theorem bmod_id {x : Int} (h : x.natAbs < 2 ^ 63) : x.bmod (2 ^ 64) = x :=
  Int.bmod_eq_of_le (by omega) (by omega)

/-- As long as less than `2 ^ 63` steps have been made, the two systems have the same executions. -/
theorem wordExec_iff {ex : Nat → PSt K V} (hn : n < 2 ^ 63) : IsWordExec C n ex ↔ IsExec C n ex := by
  have key : ∀ {q : PSt K V}, (∀ j, (q.mem.shard j).natAbs < 2 ^ 63) → q.wrapShards = q := fun {q} h => by
    have : ∀ j, (q.mem.shard j).bmod (2 ^ 64) = q.mem.shard j := fun j => bmod_id (h j)
    show ({ q with mem := { q.mem with shard := _ } } : PSt K V) = q
    simp only [this]
  have small : ∀ {n} {ex : Nat → PSt K V}, n < 2 ^ 63 → IsExec C n ex → ∀ j, ((ex n).mem.shard j).natAbs < 2 ^ 63 := by
    intro n ex hn h j
    obtain ⟨_, u, h1, h2⟩ := exec_bound h
    have h3 := h1 n (Nat.le_refl _) j
    have h4 := h2 (j + 1)
    have h5 : u j ≤ ∑ x ∈ Finset.range (j + 1), u x := Finset.single_le_sum (f := u) (fun _ _ => Nat.zero_le _) (Finset.mem_range.2 (Nat.lt_succ_self j))
    omega
  induction n with
  | zero => exact ⟨fun h => ⟨h.1, fun i hi => absurd hi (by omega)⟩, fun h => ⟨h.1, fun i hi => absurd hi (by omega)⟩⟩
  | succ n ih =>
    have ih := ih (by omega)
    have upd : ∀ {q : PSt K V}, IsExec C n ex → Step C (ex n) q → IsExec C (n + 1) (fun i => if i = n + 1 then q else ex i) := by
      intro q h hs
      refine ⟨by simpa using h.1, fun i hi => ?_⟩
      show Step C (if i = n + 1 then q else ex i) (if i + 1 = n + 1 then q else ex (i + 1))
      rw [if_neg (by omega)]
      by_cases hin : i = n
      · rw [if_pos (by omega), hin]; exact hs
      · rw [if_neg (by omega)]; exact h.2 i (by omega)
    have last : ∀ {q : PSt K V}, IsExec C n ex → Step C (ex n) q → q.wrapShards = q := fun {q} h hs =>
      key (by simpa using small hn (upd h hs))
    constructor
    · intro h
      have h1 := ih.1 ⟨h.1, fun i hi => h.2 i (by omega)⟩
      refine ⟨h.1, fun i hi => ?_⟩
      by_cases hin : i = n
      · subst hin
        obtain ⟨q, h2, h3⟩ := h.2 i (by omega)
        rw [h3, last h1 h2]; exact h2
      · exact h1.2 i (by omega)
    · intro h
      have h1 : IsExec C n ex := ⟨h.1, fun i hi => h.2 i (by omega)⟩
      refine ⟨h.1, fun i hi => ?_⟩
      by_cases hin : i = n
      · subst hin
        exact ⟨_, h.2 i (by omega), (last h1 (h.2 i (by omega))).symm⟩
      · exact (ih.2 h1).2 i (by omega)

theorem IsExec.reach {ex : Nat → PSt K V} (h : IsExec C n ex) {i : Nat} (hi : i ≤ n) : Reach C (ex i) := by
  induction i with
  | zero => exact .init h.1
  | succ i ih => exact .step (ih (by omega)) (h.2 i (by omega))

/-- C66: a map whose counter consists of 64-bit words behaves, during the first `2 ^ 63` steps, like one with unbounded counters:
every state of such an execution is a state to which all other theorems apply (C13, C65 and C63, which are about the length, among them). -/
theorem C66_no_wrap {ex : Nat → PSt K V} (hn : n < 2 ^ 63) (h : IsWordExec C n ex) {i : Nat} (hi : i ≤ n) : Reach C (ex i) :=
  ((wordExec_iff hn).1 h).reach hi

/-- … and nothing is lost. -/
theorem C66_no_wrap' {ex : Nat → PSt K V} (hn : n < 2 ^ 63) (h : IsExec C n ex) : IsWordExec C n ex := (wordExec_iff hn).2 h

/-- C66: no addition in `Counter::sum` overflows: if the shards are read at any times `τ 0, τ 1, …` of an execution of less than
`2 ^ 63` steps, all partial sums are in the range of `isize`. -/
theorem C66_sum {ex : Nat → PSt K V} (hn : n < 2 ^ 63) (h : IsWordExec C n ex) (τ : Nat → Nat) (hτ : ∀ j, τ j ≤ n) (m : Nat) :
    -(2 ^ 63) ≤ ∑ j ∈ Finset.range m, (ex (τ j)).mem.shard j ∧ ∑ j ∈ Finset.range m, (ex (τ j)).mem.shard j < 2 ^ 63 := by
  obtain ⟨_, u, h1, h2⟩ := exec_bound ((wordExec_iff hn).1 h)
  have h3 : ((∑ j ∈ Finset.range m, u j : Nat) : Int) ≤ n := by exact_mod_cast h2 m
  rw [Nat.cast_sum] at h3
  have h4 : ∑ j ∈ Finset.range m, (ex (τ j)).mem.shard j ≤ ∑ j ∈ Finset.range m, (u j : Int) :=
    Finset.sum_le_sum fun j _ => by have := h1 (τ j) (hτ j) j; omega
  have h5 : ∑ j ∈ Finset.range m, -(u j : Int) ≤ ∑ j ∈ Finset.range m, (ex (τ j)).mem.shard j :=
    Finset.sum_le_sum fun j _ => by have := h1 (τ j) (hτ j) j; omega
  rw [Finset.sum_neg_distrib] at h5
  omega

/-- Two's complement addition, as executed by release builds. -/
def wordSum : List Int → Int
  | [] => 0
  | x :: l => (x + wordSum l).bmod (2 ^ 64)

/-- C66: also what release builds compute is the exact sum, in whatever order the shards are added up. -/
theorem C66_word_sum {ex : Nat → PSt K V} (hn : n < 2 ^ 63) (h : IsWordExec C n ex) (τ : Nat → Nat) (hτ : ∀ j, τ j ≤ n)
    (l : List Nat) (hl : l.Nodup) :
    wordSum (l.map fun j => (ex (τ j)).mem.shard j) = (l.map fun j => (ex (τ j)).mem.shard j).sum := by
  obtain ⟨_, u, h1, h2⟩ := exec_bound ((wordExec_iff hn).1 h)
  have hb : ∀ l : List Nat, l.Nodup → ((l.map fun j => (ex (τ j)).mem.shard j).sum).natAbs ≤ n := by
    intro l hl
    have h3 : ((l.map fun j => (ex (τ j)).mem.shard j).sum).natAbs ≤ (l.map u).sum := by
      clear hl
      induction l with
      | nil => simp
      | cons j l ih =>
        have := h1 (τ j) (hτ j) j
        simp only [List.map_cons, List.sum_cons]; omega
    obtain ⟨m, hm⟩ : ∃ m, ∀ j ∈ l, j < m := ⟨l.foldr max 0 + 1, fun j hj => by
      clear h3 hl
      induction l with
      | nil => cases hj
      | cons a l ih =>
        rcases List.mem_cons.1 hj with rfl | hj
        · simp only [List.foldr_cons]; omega
        · have := ih hj; simp only [List.foldr_cons]; omega⟩
    have h4 : (l.map u).sum = ∑ j ∈ l.toFinset, u j := (List.sum_toFinset u hl).symm
    have h5 : ∑ j ∈ l.toFinset, u j ≤ ∑ j ∈ Finset.range m, u j :=
      Finset.sum_le_sum_of_subset fun j hj => Finset.mem_range.2 (hm j (List.mem_toFinset.1 hj))
    have := h2 m
    omega
  induction l with
  | nil => rfl
  | cons j l ih =>
    have h3 := ih (List.nodup_cons.1 hl).2
    have h4 := hb (j :: l) hl
    simp only [List.map_cons, List.sum_cons, wordSum] at h4 ⊢
    rw [h3]
    exact bmod_id (by omega)

/-- One step of the scheduler. -/
def oneFn [DecidableEq V] (C : Cfg K) (ps : PSt K V) : Cmd K V → Option (PSt K V)
  | .go t _ => stepFn C t ps
  | .pin t => cmdFn C ps (.pin t)
  | .call t c h => cmdFn C ps (.call t c h)
  | _ => none

theorem oneFn_step [DecidableEq V] {c : Cmd K V} (h : oneFn C ps c = some ps') : Step C ps ps' := by
  cases c with
  | go t i => exact stepFn_sound h
  | pin t =>
    simp only [oneFn, cmdFn] at h
    split at h
    · rename_i h1
      split at h
      · cases h; exact .pin t h1
      · cases h
    · cases h
  | call t c hc =>
    simp only [oneFn, cmdFn] at h
    split at h
    · rename_i h1; cases h; exact .inv t c h1 hc
    · cases h
  | _ => cases h

def oneRun [DecidableEq V] (C : Cfg K) : List (Cmd K V) → PSt K V → Option (PSt K V)
  | [], ps => some ps
  | c :: l, ps => (oneFn C ps c).bind (oneRun C l)

theorem oneRun_exec [DecidableEq V] {l : List (Cmd K V)} {q : PSt K V} {ex : Nat → PSt K V} (h : IsExec C n ex) (hr : oneRun C l (ex n) = some q) :
    ∃ ex', IsExec C (n + l.length) ex' ∧ ex' (n + l.length) = q := by
  induction l generalizing n ex with
  | nil => cases hr; exact ⟨ex, h, rfl⟩
  | cons c l ih =>
    obtain ⟨p, h1, h2⟩ := Option.bind_eq_some_iff.1 hr
    have h3 : IsExec C (n + 1) (fun i => if i = n + 1 then p else ex i) := by
      refine ⟨by simpa using h.1, fun i hi => ?_⟩
      show Step C (if i = n + 1 then p else ex i) (if i + 1 = n + 1 then p else ex (i + 1))
      rw [if_neg (by omega)]
      by_cases hin : i = n
      · rw [if_pos (by omega), hin]; exact oneFn_step h1
      · rw [if_neg (by omega)]; exact h.2 i (by omega)
    have h4 := ih h3 (by simpa using h2)
    rw [show n + (c :: l).length = n + 1 + l.length by simp; omega]
    exact h4

/-- Two shards; the guard `t` uses shard `t`. -/
def cfgTwo : Cfg Nat := ⟨fun k => UInt64.ofNat (k * 0x9E3779B97F4A7C15), .blocking, 0, 1, fun t => t, 0, 0, 0, fun _ => true⟩

/-- Guard 1 inserts a key, guard 0 removes it. -/
def twoCmds : List (Cmd Nat Nat) :=
  [.pin 0, .pin 1, .call 1 (.insert 5 7)] ++ List.replicate 9 (.go 1 1) ++ [.call 0 (.remove 5)] ++ List.replicate 13 (.go 0 1)

/-- The hypotheses are met: in this execution one shard is negative, and `len` adds up 1 and -1. -/
example : ∃ n ex, n < 2 ^ 63 ∧ IsWordExec cfgTwo n (ex : Nat → PSt Nat Nat) ∧ (ex n).mem.shard 0 = -1 ∧ (ex n).mem.shard 1 = 1 := by
  have h : (((initPSt cfgTwo).bind (oneRun cfgTwo twoCmds)).any fun ps => decide (ps.mem.shard 0 = -1) && decide (ps.mem.shard 1 = 1)) = true := by
    decide +kernel
  obtain ⟨ps, h1, h2⟩ := (Option.any_eq_true _ _).1 h
  simp only [Bool.and_eq_true, decide_eq_true_eq] at h2
  obtain ⟨q, h3, h4⟩ := Option.bind_eq_some_iff.1 h1
  obtain ⟨σ, h5, rfl⟩ := Option.map_eq_some_iff.1 h3
  have h6 : IsExec cfgTwo 0 (fun _ => (⟨σ, fun _ => .out, fun _ => 0, fun _ => [], []⟩ : PSt Nat Nat)) :=
    ⟨⟨h5, rfl, rfl, rfl, rfl⟩, fun i hi => absurd hi (by omega)⟩
  obtain ⟨ex, h7, h8⟩ := oneRun_exec h6 h4
  have hn : 0 + twoCmds.length < 2 ^ 63 := by decide
  refine ⟨_, ex, hn, C66_no_wrap' hn h7, ?_, ?_⟩
  · rw [h8]; exact h2.1
  · rw [h8]; exact h2.2

end Papaya
