import Mathlib.Data.Finset.Card
import Mathlib.Data.Fintype.Basic
import Mathlib.Algebra.BigOperators.Fin
import Mathlib.Algebra.BigOperators.Group.Finset.Basic
import Mathlib.Algebra.Order.BigOperators.Group.Finset
import Mathlib.Tactic.Ring

/-! Model of `src/raw/utils/parker.rs`: `N` threads, any number of parkers, any schedule, spurious wakeups. -/

namespace Papaya.ParkerM

open Function

/-- Program counter of a thread. `p` is the parker, `a` the address of the atomic (the key), `c` is `should_park`. -/
inductive PC (A : Type)
  | idle
  /-- in `park`, head of the loop: about to `pending.fetch_add(1)` — parker.rs:44 -/
  | p0 (p a : Nat) (c : A → Bool)
  /-- about to insert itself into the map, under the mutex — parker.rs:47-55 -/
  | p1 (p a : Nat) (c : A → Bool)
  /-- about to check the condition — parker.rs:61 -/
  | p2 (p a : Nat) (c : A → Bool) (id : Nat)
  /-- the condition was false: about to remove itself, under the mutex — parker.rs:63-69 -/
  | p3 (p a : Nat) (id : Nat)
  /-- it was still registered: about to `pending.fetch_sub(1)` and return — parker.rs:71-75 -/
  | p3b (p : Nat)
  /-- blocked in `thread::park()` — parker.rs:80 -/
  | p4 (p a : Nat) (c : A → Bool) (id : Nat)
  /-- about to check whether it is still registered, under the mutex — parker.rs:82-89 -/
  | p5 (p a : Nat) (c : A → Bool) (id : Nat)
  /-- about to check the condition a last time — parker.rs:95 -/
  | p6 (p a : Nat) (c : A → Bool)
  /-- in `unpark`: about to load `pending` — parker.rs:112 -/
  | u0 (p a : Nat)
  /-- about to remove the threads of this key, under the mutex — parker.rs:117-120 -/
  | u1 (p a : Nat)
  /-- about to `pending.fetch_sub(threads.len())` — parker.rs:122-124 -/
  | u2 (p a : Nat) (l : List Nat)
  /-- about to unpark the remaining threads — parker.rs:126-128 -/
  | u3 (p a : Nat) (l : List Nat)

/-- A registered waiter: parker, key, id, thread — the map `threads: HashMap<usize, HashMap<u64, Thread>>` of each
parker, parker.rs:22-25. -/
structure Reg where
  p : Nat
  a : Nat
  id : Nat
  t : Nat
deriving DecidableEq

/-- Shared state. `pending : AtomicU64`, `count` and the maps of each parker — parker.rs:17-25; the values of the
atomics; the park token of each thread (`std::thread::park`). -/
structure St (A : Type) (N : Nat) where
  val : Nat → A
  pending : Nat → Int
  count : Nat → Nat
  reg : Finset Reg
  token : Nat → Bool
  pc : Fin N → PC A

variable {A : Type} {N : Nat}

/-- Replace the program counter of a thread. -/
def St.go (s : St A N) (t : Fin N) (p : PC A) : St A N := { s with pc := update s.pc t p }

/-- Atomic steps. `ok b p a`: some code of the program stores to the atomic `b` and afterwards calls
`parker_p.unpark(&atomic_a)`. -/
inductive Step (ok : Nat → Nat → Nat → Prop) : St A N → St A N → Prop
  /-- a thread calls `park` -/
  | callPark (s : St A N) (t : Fin N) (p a : Nat) (c : A → Bool) (h : s.pc t = .idle) :
      Step ok s (s.go t (.p0 p a c))
  /-- a thread stores to the atomic `b`; its next action is `parker_p.unpark(&atomic_a)` -/
  | store (s : St A N) (t : Fin N) (b p a : Nat) (v : A) (h : s.pc t = .idle) (hok : ok b p a) :
      Step ok s ({ s with val := update s.val b v }.go t (.u0 p a))
  | announce (s : St A N) (t : Fin N) (p a : Nat) (c : A → Bool) (h : s.pc t = .p0 p a c) :
      Step ok s ({ s with pending := update s.pending p (s.pending p + 1) }.go t (.p1 p a c))
  | register (s : St A N) (t : Fin N) (p a : Nat) (c : A → Bool) (h : s.pc t = .p1 p a c) :
      Step ok s ({ s with count := update s.count p (s.count p + 1),
                          reg := insert (⟨p, a, s.count p + 1, t⟩ : Reg) s.reg }.go t (.p2 p a c (s.count p + 1)))
  | checkFalse (s : St A N) (t : Fin N) (p a : Nat) (c : A → Bool) (id : Nat) (h : s.pc t = .p2 p a c id)
      (hc : c (s.val a) = false) : Step ok s (s.go t (.p3 p a id))
  | checkTrue (s : St A N) (t : Fin N) (p a : Nat) (c : A → Bool) (id : Nat) (h : s.pc t = .p2 p a c id)
      (hc : c (s.val a) = true) : Step ok s (s.go t (.p4 p a c id))
  /-- remove itself: it was still registered -/
  | removeSome (s : St A N) (t : Fin N) (p a id : Nat) (h : s.pc t = .p3 p a id)
      (hr : ∃ r ∈ s.reg, r.p = p ∧ r.a = a ∧ r.id = id) :
      Step ok s ({ s with reg := s.reg.filter fun r => ¬ (r.p = p ∧ r.a = a ∧ r.id = id) }.go t (.p3b p))
  /-- remove itself: it was already unparked; return -/
  | removeNone (s : St A N) (t : Fin N) (p a id : Nat) (h : s.pc t = .p3 p a id)
      (hr : ¬ ∃ r ∈ s.reg, r.p = p ∧ r.a = a ∧ r.id = id) : Step ok s (s.go t .idle)
  | retract (s : St A N) (t : Fin N) (p : Nat) (h : s.pc t = .p3b p) :
      Step ok s ({ s with pending := update s.pending p (s.pending p - 1) }.go t .idle)
  /-- `thread::park()` returns: the token was available (and is consumed) or the wakeup is spurious -/
  | wake (s : St A N) (t : Fin N) (p a : Nat) (c : A → Bool) (id : Nat) (h : s.pc t = .p4 p a c id) :
      Step ok s ({ s with token := update s.token t false }.go t (.p5 p a c id))
  | still (s : St A N) (t : Fin N) (p a : Nat) (c : A → Bool) (id : Nat) (h : s.pc t = .p5 p a c id)
      (hr : ∃ r ∈ s.reg, r.p = p ∧ r.a = a ∧ r.id = id) : Step ok s (s.go t (.p4 p a c id))
  | gone (s : St A N) (t : Fin N) (p a : Nat) (c : A → Bool) (id : Nat) (h : s.pc t = .p5 p a c id)
      (hr : ¬ ∃ r ∈ s.reg, r.p = p ∧ r.a = a ∧ r.id = id) : Step ok s (s.go t (.p6 p a c))
  | finalFalse (s : St A N) (t : Fin N) (p a : Nat) (c : A → Bool) (h : s.pc t = .p6 p a c)
      (hc : c (s.val a) = false) : Step ok s (s.go t .idle)
  | finalTrue (s : St A N) (t : Fin N) (p a : Nat) (c : A → Bool) (h : s.pc t = .p6 p a c)
      (hc : c (s.val a) = true) : Step ok s (s.go t (.p0 p a c))
  | unparkNone (s : St A N) (t : Fin N) (p a : Nat) (h : s.pc t = .u0 p a) (h0 : s.pending p = 0) :
      Step ok s (s.go t .idle)
  | unparkSome (s : St A N) (t : Fin N) (p a : Nat) (h : s.pc t = .u0 p a) (h0 : s.pending p ≠ 0) :
      Step ok s (s.go t (.u1 p a))
  /-- the order in which a hash map yields its elements is arbitrary -/
  | take (s : St A N) (t : Fin N) (p a : Nat) (l : List Nat) (h : s.pc t = .u1 p a)
      (hl : l.length = (s.reg.filter fun r => r.p = p ∧ r.a = a).card)
      (hm : ∀ r ∈ s.reg, r.p = p → r.a = a → r.t ∈ l) :
      Step ok s ({ s with reg := s.reg.filter fun r => ¬ (r.p = p ∧ r.a = a) }.go t (.u2 p a l))
  | subtract (s : St A N) (t : Fin N) (p a : Nat) (l : List Nat) (h : s.pc t = .u2 p a l) :
      Step ok s ({ s with pending := update s.pending p (s.pending p - l.length) }.go t (.u3 p a l))
  | wakeOne (s : St A N) (t : Fin N) (p a u : Nat) (l : List Nat) (h : s.pc t = .u3 p a (u :: l)) :
      Step ok s ({ s with token := update s.token u true }.go t (.u3 p a l))
  | unparkDone (s : St A N) (t : Fin N) (p a : Nat) (h : s.pc t = .u3 p a []) : Step ok s (s.go t .idle)

/-- Initial states: nobody is parked; the atomics hold any values, park tokens may be set. -/
def Init (s : St A N) : Prop :=
  (∀ p, s.pending p = 0) ∧ s.reg = ∅ ∧ ∀ t, s.pc t = .idle

/-- Reachable states. -/
inductive Reach (ok : Nat → Nat → Nat → Prop) : St A N → Prop
  | init {s} : Init s → Reach ok s
  | step {s s'} : Reach ok s → Step ok s s' → Reach ok s'

/-- Executions: the list of the states passed through, latest first. -/
inductive Run (ok : Nat → Nat → Nat → Prop) : St A N → List (St A N) → St A N → Prop
  | nil (s) : Run ok s [s] s
  | snoc {s l s' s''} : Run ok s l s' → Step ok s' s'' → Run ok s (s'' :: l) s''

/-- The thread is in a call `parker_p.park(&atomic_a, c)` and has not yet seen the condition false. -/
def PC.waiting (p a : Nat) (c : A → Bool) : PC A → Prop
  | .p0 p' a' c' => p' = p ∧ a' = a ∧ c' = c
  | .p1 p' a' c' => p' = p ∧ a' = a ∧ c' = c
  | .p2 p' a' c' _ => p' = p ∧ a' = a ∧ c' = c
  | .p4 p' a' c' _ => p' = p ∧ a' = a ∧ c' = c
  | .p5 p' a' c' _ => p' = p ∧ a' = a ∧ c' = c
  | .p6 p' a' c' => p' = p ∧ a' = a ∧ c' = c
  | _ => False

/-- The thread is blocked in `thread::park()` inside a call `parker_p.park(&atomic_a, c)`. -/
def PC.blocked (p a : Nat) (c : A → Bool) (pc : PC A) : Prop := ∃ id, pc = .p4 p a c id

/-- The thread is in a call `parker_p.unpark(&atomic_a)` (made right after its store). -/
def PC.unparking (p a : Nat) : PC A → Prop
  | .u0 p' a' => p' = p ∧ a' = a
  | .u1 p' a' => p' = p ∧ a' = a
  | .u2 p' a' _ => p' = p ∧ a' = a
  | .u3 p' a' _ => p' = p ∧ a' = a
  | _ => False

/-- What a thread still has to subtract from (or has announced in advance in) `pending`. -/
def PC.debt (p : Nat) : PC A → Int
  | .p1 p' _ _ => if p' = p then 1 else 0
  | .p3b p' => if p' = p then 1 else 0
  | .u2 p' _ l => if p' = p then l.length else 0
  | _ => 0

/-- The thread has a registration with this id. -/
def PC.holds (p a id : Nat) : PC A → Prop
  | .p2 p' a' _ id' => p' = p ∧ a' = a ∧ id' = id
  | .p3 p' a' id' => p' = p ∧ a' = a ∧ id' = id
  | .p4 p' a' _ id' => p' = p ∧ a' = a ∧ id' = id
  | .p5 p' a' _ id' => p' = p ∧ a' = a ∧ id' = id
  | _ => False

/-- Inductive invariant (bookkeeping). -/
structure Inv (s : St A N) : Prop where
  pending : ∀ p, s.pending p = (s.reg.filter fun r => r.p = p).card + ∑ t, (s.pc t).debt p
  le : ∀ r ∈ s.reg, r.id ≤ s.count r.p
  inj : ∀ r ∈ s.reg, ∀ r' ∈ s.reg, r.p = r'.p → r.id = r'.id → r = r'

theorem sum_go (f : PC A → Int) (pc : Fin N → PC A) (t : Fin N) (q : PC A) :
    ∑ u, f (update pc t q u) = ∑ u, f (pc u) - f (pc t) + f q := by
  classical
  rw [← Finset.add_sum_erase _ _ (Finset.mem_univ t), ← Finset.add_sum_erase _ (fun u => f (pc u)) (Finset.mem_univ t)]
  have : ∑ x ∈ Finset.univ.erase t, f (update pc t q x) = ∑ x ∈ Finset.univ.erase t, f (pc x) := by
    apply Finset.sum_congr rfl
    intro x hx
    rw [update_of_ne (Finset.ne_of_mem_erase hx)]
  rw [this, update_self]
  ring

theorem debt_nonneg (p : Nat) (q : PC A) : 0 ≤ q.debt p := by
  cases q <;> simp only [PC.debt] <;> (try split) <;> simp

theorem sum_debt_nonneg (p : Nat) (pc : Fin N → PC A) : 0 ≤ ∑ t, (pc t).debt p :=
  Finset.sum_nonneg fun t _ => debt_nonneg p (pc t)

theorem Inv.init {s : St A N} (h : Init s) : Inv s := by
  obtain ⟨h1, h2, h3⟩ := h
  refine ⟨?_, ?_, ?_⟩
  · intro p; rw [h1, h2]; simp [h3, PC.debt]
  · rw [h2]; simp
  · rw [h2]; simp

/-- A step that only moves a program counter between debt-free positions. -/
theorem Inv.move {s : St A N} (hi : Inv s) (t : Fin N) (q : PC A) (v : Nat → A) (tok : Nat → Bool)
    (h : ∀ p, (s.pc t).debt p = q.debt p) :
    Inv ({ s with val := v, token := tok }.go t q) := by
  refine ⟨?_, hi.le, hi.inj⟩
  intro p
  show s.pending p = _ + ∑ u, (update s.pc t q u).debt p
  rw [sum_go (PC.debt p), hi.pending p, h p]
  simp [St.go]

theorem Inv.step {ok : Nat → Nat → Nat → Prop} {s s' : St A N} (hi : Inv s) (hs : Step ok s s') : Inv s' := by
  cases hs with
  | callPark t p a c h => exact hi.move t _ s.val s.token (by simp [h, PC.debt])
  | store t b p a v h hok => exact hi.move t _ _ s.token (by simp [h, PC.debt])
  | checkFalse t p a c id h hc => exact hi.move t _ s.val s.token (by simp [h, PC.debt])
  | checkTrue t p a c id h hc => exact hi.move t _ s.val s.token (by simp [h, PC.debt])
  | removeNone t p a id h hr => exact hi.move t _ s.val s.token (by simp [h, PC.debt])
  | wake t p a c id h => exact hi.move t _ s.val _ (by simp [h, PC.debt])
  | still t p a c id h hr => exact hi.move t _ s.val s.token (by simp [h, PC.debt])
  | gone t p a c id h hr => exact hi.move t _ s.val s.token (by simp [h, PC.debt])
  | finalFalse t p a c h hc => exact hi.move t _ s.val s.token (by simp [h, PC.debt])
  | finalTrue t p a c h hc => exact hi.move t _ s.val s.token (by simp [h, PC.debt])
  | unparkNone t p a h h0 => exact hi.move t _ s.val s.token (by simp [h, PC.debt])
  | unparkSome t p a h h0 => exact hi.move t _ s.val s.token (by simp [h, PC.debt])
  | wakeOne t p a u l h => exact hi.move t _ s.val _ (by simp [h, PC.debt])
  | unparkDone t p a h => exact hi.move t _ s.val s.token (by simp [h, PC.debt])
  | announce t p a c h =>
    refine ⟨?_, hi.le, hi.inj⟩
    intro p'
    show update s.pending p (s.pending p + 1) p' = _ + ∑ u, (update s.pc t _ u).debt p'
    rw [sum_go (PC.debt p'), h]
    by_cases hp : p' = p
    · subst hp
      rw [update_self, hi.pending p']
      simp [PC.debt, St.go]; ring
    · rw [update_of_ne hp, hi.pending p']
      simp [PC.debt, St.go, Ne.symm hp]
  | register t p a c h =>
    have hfresh : ∀ r ∈ s.reg, r.p = p → r.id ≠ s.count p + 1 := by
      intro r hr hp
      have := hi.le r hr
      rw [hp] at this; omega
    have hnot : (⟨p, a, s.count p + 1, t⟩ : Reg) ∉ s.reg := fun hr => hfresh _ hr rfl rfl
    refine ⟨?_, ?_, ?_⟩
    · intro p'
      show s.pending p' = ((insert _ s.reg).filter _).card + ∑ u, (update s.pc t _ u).debt p'
      rw [sum_go (PC.debt p'), h, hi.pending p', Finset.filter_insert]
      by_cases hp : p' = p
      · subst hp
        rw [if_pos rfl, Finset.card_insert_of_notMem (fun hx => hnot (Finset.mem_of_mem_filter _ hx))]
        simp [PC.debt]
      · rw [if_neg (by exact fun hx => hp hx.symm)]
        simp [PC.debt, Ne.symm hp]
    · intro r hr
      show r.id ≤ update s.count p (s.count p + 1) r.p
      rcases Finset.mem_insert.1 hr with rfl | hr
      · simp
      · by_cases hp : r.p = p
        · rw [hp, update_self]; have := hi.le r hr; rw [hp] at this; omega
        · rw [update_of_ne hp]; exact hi.le r hr
    · intro r hr r' hr' hp hid
      rcases Finset.mem_insert.1 hr with rfl | hr <;> rcases Finset.mem_insert.1 hr' with rfl | hr'
      · rfl
      · exact absurd hid.symm (hfresh _ hr' hp.symm)
      · exact absurd hid (hfresh _ hr hp)
      · exact hi.inj _ hr _ hr' hp hid
  | removeSome t p a id h hr =>
    obtain ⟨r, hr, hrp, hra, hrid⟩ := hr
    have hfil : (s.reg.filter fun r => ¬ (r.p = p ∧ r.a = a ∧ r.id = id)) = s.reg.erase r := by
      ext x
      simp only [Finset.mem_filter, Finset.mem_erase]
      constructor
      · rintro ⟨hx, hn⟩
        refine ⟨?_, hx⟩
        rintro rfl; exact hn ⟨hrp, hra, hrid⟩
      · rintro ⟨hne, hx⟩
        refine ⟨hx, ?_⟩
        rintro ⟨h1, _, h3⟩
        exact hne (hi.inj _ hx _ hr (h1.trans hrp.symm) (h3.trans hrid.symm))
    refine ⟨?_, ?_, ?_⟩
    · intro p'
      show s.pending p' = ((s.reg.filter _).filter _).card + ∑ u, (update s.pc t _ u).debt p'
      rw [sum_go (PC.debt p'), h, hi.pending p', hfil, Finset.filter_erase]
      by_cases hp : p' = p
      · subst hp
        have hmem : r ∈ s.reg.filter fun r => r.p = p' := Finset.mem_filter.2 ⟨hr, hrp⟩
        have := Finset.card_erase_add_one hmem
        simp only [PC.debt, if_true]
        push_cast [← this]
        ring
      · rw [Finset.erase_eq_of_notMem]
        · simp [PC.debt, Ne.symm hp]
        · intro hx
          exact hp ((Finset.mem_filter.1 hx).2.symm.trans hrp)
    · intro x hx; exact hi.le x (Finset.mem_of_mem_filter _ hx)
    · intro x hx y hy
      exact hi.inj x (Finset.mem_of_mem_filter _ hx) y (Finset.mem_of_mem_filter _ hy)
  | retract t p h =>
    refine ⟨?_, hi.le, hi.inj⟩
    intro p'
    show update s.pending p (s.pending p - 1) p' = _ + ∑ u, (update s.pc t _ u).debt p'
    rw [sum_go (PC.debt p'), h]
    by_cases hp : p' = p
    · subst hp
      rw [update_self, hi.pending p']
      simp [PC.debt, St.go]; ring
    · rw [update_of_ne hp, hi.pending p']
      simp [PC.debt, St.go, Ne.symm hp]
  | take t p a l h hl hm =>
    refine ⟨?_, ?_, ?_⟩
    · intro p'
      show s.pending p' = ((s.reg.filter _).filter _).card + ∑ u, (update s.pc t _ u).debt p'
      rw [sum_go (PC.debt p'), h, hi.pending p']
      by_cases hp : p' = p
      · subst hp
        have := Finset.card_filter_add_card_filter_not (s := s.reg.filter fun r => r.p = p')
          (fun r => r.p = p' ∧ r.a = a)
        rw [Finset.filter_filter, Finset.filter_filter] at this
        have e1 : (s.reg.filter fun r => r.p = p' ∧ r.p = p' ∧ r.a = a)
            = s.reg.filter fun r => r.p = p' ∧ r.a = a := by
          ext x; simp
        rw [e1, ← hl] at this
        rw [Finset.filter_filter, ← this]
        have e2 : (s.reg.filter fun r => (¬ (r.p = p' ∧ r.a = a)) ∧ r.p = p')
            = s.reg.filter fun r => r.p = p' ∧ ¬ (r.p = p' ∧ r.a = a) := by
          ext x; simp only [Finset.mem_filter]; constructor <;> (rintro ⟨h1, h2, h3⟩; exact ⟨h1, h3, h2⟩)
        rw [e2]
        simp only [PC.debt, if_true]
        push_cast
        ring
      · rw [Finset.filter_filter]
        have e2 : (s.reg.filter fun r => (¬ (r.p = p ∧ r.a = a)) ∧ r.p = p') = s.reg.filter fun r => r.p = p' := by
          ext x; simp only [Finset.mem_filter]
          constructor
          · rintro ⟨h1, _, h3⟩; exact ⟨h1, h3⟩
          · rintro ⟨h1, h3⟩
            refine ⟨h1, ?_, h3⟩
            rintro ⟨h4, _⟩; exact hp (h3.symm.trans h4)
        rw [e2]
        simp [PC.debt, Ne.symm hp]
    · intro x hx; exact hi.le x (Finset.mem_of_mem_filter _ hx)
    · intro x hx y hy
      exact hi.inj x (Finset.mem_of_mem_filter _ hx) y (Finset.mem_of_mem_filter _ hy)
  | subtract t p a l h =>
    refine ⟨?_, hi.le, hi.inj⟩
    intro p'
    show update s.pending p (s.pending p - l.length) p' = _ + ∑ u, (update s.pc t _ u).debt p'
    rw [sum_go (PC.debt p'), h]
    by_cases hp : p' = p
    · subst hp
      rw [update_self, hi.pending p']
      simp [PC.debt, St.go]; ring
    · rw [update_of_ne hp, hi.pending p']
      simp [PC.debt, St.go, Ne.symm hp]

theorem Inv.reach {ok : Nat → Nat → Nat → Prop} {s : St A N} (h : Reach ok s) : Inv s := by
  induction h with
  | init h => exact Inv.init h
  | step _ hs ih => exact ih.step hs

end Papaya.ParkerM
