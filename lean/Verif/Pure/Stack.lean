import Mathlib.Data.List.Basic
import Mathlib.Logic.Function.Basic

/-! Model of `src/raw/utils/stack.rs`: any number of threads pushing concurrently, under any schedule. -/

namespace Papaya.StackM

/-- Program counter of a thread in `Stack::push` — src/raw/utils/stack.rs:32-57. -/
inductive PC
  /-- not in a call of `push` -/
  | idle
  /-- the node is allocated, about to load the head (head of the `loop`) -/
  | ready (node : Nat)
  /-- the head has been loaded, about to link the node -/
  | loaded (node : Nat) (head : Option Nat)
  /-- the node is linked to the loaded head, about to CAS -/
  | linked (node : Nat) (head : Option Nat)

/-- Shared state: the head pointer and the nodes (`Node { value, next }`). -/
structure St (T : Type) where
  head : Option Nat
  nNodes : Nat
  val : Nat → Option T
  next : Nat → Option Nat
  pc : Nat → PC
  /-- the calls of `push` that have returned, latest first (observable history) -/
  hist : List T

/-- `Stack::new` — src/raw/utils/stack.rs:25-29. -/
def init (T : Type) : St T := ⟨none, 0, fun _ => none, fun _ => none, fun _ => .idle, []⟩

/-- One atomic step of one thread. -/
inductive Step {T : Type} : St T → St T → Prop
  /-- call `push(x)`: allocate the node — src/raw/utils/stack.rs:33-36 -/
  | call (s : St T) (t : Nat) (x : T) (h : s.pc t = .idle) :
      Step s { s with nNodes := s.nNodes + 1, val := Function.update s.val s.nNodes (some x),
                      next := Function.update s.next s.nNodes none,
                      pc := Function.update s.pc t (.ready s.nNodes) }
  /-- load the head — src/raw/utils/stack.rs:42 -/
  | load (s : St T) (t n : Nat) (h : s.pc t = .ready n) :
      Step s { s with pc := Function.update s.pc t (.loaded n s.head) }
  /-- `(*node).next = head` — src/raw/utils/stack.rs:45 -/
  | link (s : St T) (t n : Nat) (hd : Option Nat) (h : s.pc t = .loaded n hd) :
      Step s { s with next := Function.update s.next n hd, pc := Function.update s.pc t (.linked n hd) }
  /-- successful CAS, `break` and return — src/raw/utils/stack.rs:50-56 -/
  | casOk (s : St T) (t n : Nat) (hd : Option Nat) (x : T) (h : s.pc t = .linked n hd) (hh : s.head = hd)
      (hx : s.val n = some x) :
      Step s { s with head := some n, pc := Function.update s.pc t .idle, hist := x :: s.hist }
  /-- failed CAS — src/raw/utils/stack.rs:50-56 -/
  | casFail (s : St T) (t n : Nat) (hd : Option Nat) (h : s.pc t = .linked n hd) (hh : s.head ≠ hd) :
      Step s { s with pc := Function.update s.pc t (.ready n) }

/-- States reachable from the empty stack by any number of threads. -/
inductive Reach {T : Type} : St T → Prop
  | init : Reach (init T)
  | step {s s'} : Reach s → Step s s' → Reach s'

/-- `Stack::drain` — src/raw/utils/stack.rs:60-73, run with exclusive access: starting at `head`, the loop terminates
after handing out exactly the values `xs` in this order, visiting (and freeing) exactly the nodes `ns`. -/
inductive Drains {T : Type} (s : St T) : Option Nat → List T → List Nat → Prop
  | done : Drains s none [] []
  | node {n x xs ns} : s.val n = some x → Drains s (s.next n) xs ns → Drains s (some n) (x :: xs) (n :: ns)

/-- The node a thread still owns privately. -/
def PC.own : PC → Option Nat
  | .idle => none
  | .ready n => some n
  | .loaded n _ => some n
  | .linked n _ => some n

/-- Inductive invariant. -/
structure Inv {T : Type} (s : St T) : Prop where
  drains : ∃ ns, Drains s s.head s.hist ns ∧ ns.Nodup ∧ (∀ n ∈ ns, n < s.nNodes) ∧
    ∀ t n, (s.pc t).own = some n → n ∉ ns
  own_lt : ∀ t n, (s.pc t).own = some n → n < s.nNodes
  own_inj : ∀ t t' n, (s.pc t).own = some n → (s.pc t').own = some n → t = t'
  linked : ∀ t n h, s.pc t = .linked n h → s.next n = h

theorem Drains.congr {T : Type} {s s' : St T} {h xs ns} (hd : Drains s h xs ns)
    (hv : ∀ n ∈ ns, s'.val n = s.val n) (hn : ∀ n ∈ ns, s'.next n = s.next n) : Drains s' h xs ns := by
  induction hd with
  | done => exact .done
  | node hval hrest ih =>
    refine .node ?_ ?_
    · rw [hv _ (by simp)]; exact hval
    · rw [hn _ (by simp)]
      exact ih (fun n h => hv n (by simp [h])) (fun n h => hn n (by simp [h]))

theorem Inv.init {T : Type} : Inv (init T) where
  drains := ⟨[], .done, List.nodup_nil, by simp, by simp⟩
  own_lt := by intro t n h; simp [StackM.init, PC.own] at h
  own_inj := by intro t t' n h; simp [StackM.init, PC.own] at h
  linked := by intro t n h hh; simp [StackM.init] at hh

theorem own_update {pc : Nat → PC} {t t' : Nat} {p : PC} :
    (Function.update pc t p t').own = if t' = t then p.own else (pc t').own := by
  by_cases h : t' = t
  · subst h; simp
  · simp [h]

theorem Inv.step {T : Type} {s s' : St T} (hi : Inv s) (hs : Step s s') : Inv s' := by
  obtain ⟨⟨ns, hd, hnd, hlt, hown⟩, hol, hoi, hlk⟩ := hi
  cases hs with
  | call t x h =>
    refine ⟨⟨ns, hd.congr ?_ ?_, hnd, ?_, ?_⟩, ?_, ?_, ?_⟩
    · intro n hn; have := hlt n hn
      exact Function.update_of_ne (by omega) _ _
    · intro n hn; have := hlt n hn
      exact Function.update_of_ne (by omega) _ _
    · intro n hn; have := hlt n hn; show n < s.nNodes + 1; omega
    · intro t' n hn hmem
      simp only [own_update] at hn
      split at hn
      · simp only [PC.own, Option.some.injEq] at hn; subst hn
        have := hlt _ hmem; omega
      · exact hown _ _ hn hmem
    · intro t' n hn
      simp only [own_update] at hn
      show n < s.nNodes + 1
      split at hn
      · simp only [PC.own, Option.some.injEq] at hn; omega
      · have := hol _ _ hn; omega
    · intro t1 t2 n h1 h2
      simp only [own_update] at h1 h2
      split at h1 <;> split at h2
      · simp [*]
      · simp only [PC.own, Option.some.injEq] at h1; have := hol _ _ h2; omega
      · simp only [PC.own, Option.some.injEq] at h2; have := hol _ _ h1; omega
      · exact hoi _ _ _ h1 h2
    · intro t' n hd' hp
      by_cases ht : t' = t
      · subst ht; simp at hp
      · simp only [Function.update_of_ne ht] at hp
        have hl := hol t' n (by rw [hp]; rfl)
        simp only
        rw [Function.update_of_ne (by omega)]
        exact hlk _ _ _ hp
  | load t n h =>
    have key : ∀ t', (Function.update s.pc t (.loaded n s.head) t').own = (s.pc t').own := by
      intro t'; rw [own_update]; split
      · subst_vars; rw [h]; rfl
      · rfl
    refine ⟨⟨ns, hd.congr (fun _ _ => rfl) (fun _ _ => rfl), hnd, hlt, ?_⟩, ?_, ?_, ?_⟩
    · intro t' m; simp only [key]; exact hown t' m
    · intro t' m; simp only [key]; exact hol t' m
    · intro t1 t2 m; simp only [key]; exact hoi t1 t2 m
    · intro t' m hd' hp
      by_cases ht : t' = t
      · subst ht; simp at hp
      · simp only [Function.update_of_ne ht] at hp
        exact hlk _ _ _ hp
  | link t n hd' h =>
    have key : ∀ t', (Function.update s.pc t (.linked n hd') t').own = (s.pc t').own := by
      intro t'; rw [own_update]; split
      · subst_vars; rw [h]; rfl
      · rfl
    have hn : n ∉ ns := hown t n (by rw [h]; rfl)
    refine ⟨⟨ns, hd.congr (fun _ _ => rfl) ?_, hnd, hlt, ?_⟩, ?_, ?_, ?_⟩
    · intro m hm
      exact Function.update_of_ne (by rintro rfl; exact hn hm) _ _
    · intro t' m; simp only [key]; exact hown t' m
    · intro t' m; simp only [key]; exact hol t' m
    · intro t1 t2 m; simp only [key]; exact hoi t1 t2 m
    · intro t' m hd'' hp
      by_cases ht : t' = t
      · subst ht; simp only [Function.update_self] at hp
        cases hp; simp
      · simp only [Function.update_of_ne ht] at hp
        have : m ≠ n := by
          rintro rfl
          exact ht (hoi t' t m (by rw [hp]; rfl) (by rw [h]; rfl))
        simp only [Function.update_of_ne this]
        exact hlk _ _ _ hp
  | casOk t n hd' x h hh hx =>
    have hn : n ∉ ns := hown t n (by rw [h]; rfl)
    have hnext := hlk _ _ _ h
    refine ⟨⟨n :: ns, ?_, ?_, ?_, ?_⟩, ?_, ?_, ?_⟩
    · refine .node hx ?_
      simp only [hnext, ← hh]
      exact hd.congr (fun _ _ => rfl) (fun _ _ => rfl)
    · exact List.nodup_cons.2 ⟨hn, hnd⟩
    · intro m hm
      rcases List.mem_cons.1 hm with rfl | hm
      · exact hol t _ (by rw [h]; rfl)
      · exact hlt m hm
    · intro t' m hm hmem
      simp only [own_update] at hm
      split at hm
      · simp [PC.own] at hm
      · rename_i ht
        rcases List.mem_cons.1 hmem with rfl | hmem
        · exact ht (hoi t' t _ hm (by rw [h]; rfl))
        · exact hown _ _ hm hmem
    · intro t' m hm
      simp only [own_update] at hm
      split at hm
      · simp [PC.own] at hm
      · exact hol _ _ hm
    · intro t1 t2 m h1 h2
      simp only [own_update] at h1 h2
      split at h1
      · simp [PC.own] at h1
      · split at h2
        · simp [PC.own] at h2
        · exact hoi _ _ _ h1 h2
    · intro t' m hd'' hp
      by_cases ht : t' = t
      · subst ht; simp at hp
      · simp only [Function.update_of_ne ht] at hp
        exact hlk _ _ _ hp
  | casFail t n hd' h hh =>
    have key : ∀ t', (Function.update s.pc t (.ready n) t').own = (s.pc t').own := by
      intro t'; rw [own_update]; split
      · subst_vars; rw [h]; rfl
      · rfl
    refine ⟨⟨ns, hd.congr (fun _ _ => rfl) (fun _ _ => rfl), hnd, hlt, ?_⟩, ?_, ?_, ?_⟩
    · intro t' m; simp only [key]; exact hown t' m
    · intro t' m; simp only [key]; exact hol t' m
    · intro t1 t2 m; simp only [key]; exact hoi t1 t2 m
    · intro t' m hd'' hp
      by_cases ht : t' = t
      · subst ht; simp at hp
      · simp only [Function.update_of_ne ht] at hp
        exact hlk _ _ _ hp

theorem Inv.reach {T : Type} {s : St T} (h : Reach s) : Inv s := by
  induction h with
  | init => exact Inv.init
  | step _ hs ih => exact ih.step hs

theorem Drains.det {T : Type} {s : St T} {h xs ns xs' ns'} (h1 : Drains s h xs ns) (h2 : Drains s h xs' ns') :
    xs = xs' ∧ ns = ns' := by
  induction h1 generalizing xs' ns' with
  | done => cases h2; exact ⟨rfl, rfl⟩
  | node hv _ ih =>
    cases h2 with
    | node hv' hr =>
      obtain ⟨a, b⟩ := ih hr
      rw [hv] at hv'
      cases hv'
      exact ⟨by rw [a], by rw [b]⟩

end Papaya.StackM
