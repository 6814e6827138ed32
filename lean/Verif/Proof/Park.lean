import Verif.Spec.Park
import Verif.Proof.WorkInv
import Mathlib.Algebra.BigOperators.Group.Finset.Basic
import Mathlib.Algebra.Order.BigOperators.Group.Finset
import Mathlib.Tactic.Ring
import Mathlib.Tactic.Tauto

/-! # The parkers: bookkeeping, and the simulation by the pool -/

set_option linter.unusedSectionVars false
set_option linter.unusedVariables false

namespace Papaya

variable {K V : Type} [DecidableEq K] {C : Cfg K}

open GSt

/-! ## Where threads are -/

/-- In `park` on `a`. -/
def PkPC.inPark (a : PKey) : PkPC → Prop
  | .p0 a' => a' = a
  | .p1 a' => a' = a
  | .p2 a' _ => a' = a
  | .p3 a' _ => a' = a
  | .p3b a' => a' = a
  | .p4 a' _ => a' = a
  | .p5 a' _ => a' = a
  | .p6 a' => a' = a
  | _ => False

/-- In `unpark` on `a`. -/
def PkPC.inUnpark (a : PKey) : PkPC → Prop
  | .u0 a' => a' = a
  | .u1 a' => a' = a
  | .u2 a' _ => a' = a
  | .u3 a' _ => a' = a
  | _ => False

/-- The condition was seen false. -/
def PkPC.leaving (a : PKey) : PkPC → Prop
  | .p3 a' _ => a' = a
  | .p3b a' => a' = a
  | _ => False

/-- Has registered itself. -/
def PkPC.holds (a : PKey) (id : Nat) : PkPC → Prop
  | .p2 a' i => a' = a ∧ i = id
  | .p3 a' i => a' = a ∧ i = id
  | .p4 a' i => a' = a ∧ i = id
  | .p5 a' i => a' = a ∧ i = id
  | _ => False

/-- Has announced, or has still to subtract. -/
def PkPC.debt (T : Nat) : PkPC → Int
  | .p1 a => if a.tab = T then 1 else 0
  | .p3b a => if a.tab = T then 1 else 0
  | .u2 a l => if a.tab = T then l.length else 0
  | _ => 0

/-- Is about to set the token of `w`. -/
def PkPC.willWake (w : Tid) : PkPC → Prop
  | .u2 _ l => w ∈ l
  | .u3 _ l => w ∈ l
  | _ => False

/-- May sleep. -/
def PkPC.sleepy (a : PKey) (id : Nat) (q : PkPC) : Prop := q = .p2 a id ∨ q = .p4 a id

theorem PkPC.holds.det {q : PkPC} {a a' : PKey} {id id' : Nat} (h : q.holds a id) (h' : q.holds a' id') : a = a' ∧ id = id' := by
  cases q <;> simp only [PkPC.holds] at h h' <;> first | exact ⟨h.1.symm.trans h'.1, h.2.symm.trans h'.2⟩ | exact h.elim

theorem PkPC.debt_nonneg (T : Nat) (q : PkPC) : 0 ≤ q.debt T := by
  cases q <;> simp only [PkPC.debt] <;> (try split) <;> simp

/-- Where the thread is agrees with the operation it executes. -/
def AtOk (th : Th K V) (q : PkPC) : Prop :=
  q = .norm ∨ th = .gone ∨ ∃ c p, th = .run c p ∧ ((∃ a, q.inPark a ∧ p.parkKey = some a) ∨ ∃ a, q.inUnpark a ∧ p.unparkKey = some a)

theorem PkPC.inPark.det {q : PkPC} {a a' : PKey} (h : q.inPark a) (h' : q.inPark a') : a = a' := by
  cases q <;> simp only [PkPC.inPark] at h h' <;> first | exact h.symm.trans h' | exact h.elim

theorem PkPC.inUnpark.det {q : PkPC} {a a' : PKey} (h : q.inUnpark a) (h' : q.inUnpark a') : a = a' := by
  cases q <;> simp only [PkPC.inUnpark] at h h' <;> first | exact h.symm.trans h' | exact h.elim

theorem PkPC.inPark.not_both {q : PkPC} {a a' : PKey} (h : q.inPark a) (h' : q.inUnpark a') : False := by
  cases q <;> simp only [PkPC.inPark, PkPC.inUnpark] at h h'

theorem AtOk.park {th : Th K V} {q : PkPC} {a : PKey} {c : Call K V} {p : Prog K V c.Res} (h : AtOk th q) (hq : q.inPark a)
    (ht : th = .run c p) : p.parkKey = some a := by
  rcases h with h | h | ⟨c', p', h1, ⟨a', h2, h3⟩ | ⟨a', h2, h3⟩⟩
  · subst h; exact hq.elim
  · rw [h] at ht; cases ht
  · rw [ht] at h1; cases h1; rw [h3, h2.det hq]
  · exact (hq.not_both h2).elim

theorem AtOk.unpark {th : Th K V} {q : PkPC} {a : PKey} {c : Call K V} {p : Prog K V c.Res} (h : AtOk th q) (hq : q.inUnpark a)
    (ht : th = .run c p) : p.unparkKey = some a := by
  rcases h with h | h | ⟨c', p', h1, ⟨a', h2, h3⟩ | ⟨a', h2, h3⟩⟩
  · subst h; exact hq.elim
  · rw [h] at ht; cases ht
  · exact (h2.not_both hq).elim
  · rw [ht] at h1; cases h1; rw [h3, h2.det hq]

theorem AtOk.mk_park {th : Th K V} {q : PkPC} {a : PKey} {c : Call K V} {p : Prog K V c.Res} (hq : q.inPark a)
    (ht : th = .run c p) (hp : p.parkKey = some a) : AtOk th q := .inr (.inr ⟨c, p, ht, .inl ⟨a, hq, hp⟩⟩)

theorem AtOk.mk_unpark {th : Th K V} {q : PkPC} {a : PKey} {c : Call K V} {p : Prog K V c.Res} (hq : q.inUnpark a)
    (ht : th = .run c p) (hp : p.unparkKey = some a) : AtOk th q := .inr (.inr ⟨c, p, ht, .inr ⟨a, hq, hp⟩⟩)

/-! ## The invariant -/

structure KInv (x : KSt K V) : Prop where
  at' : ∀ t, AtOk (x.ps.th t) (x.pk t)
  leave : ∀ t a, (x.pk t).leaving a → x.ps.th t = .gone ∨ ¬ a.shouldPark x.ps.mem
  fin : ∃ A : Finset Tid, (∀ t, t ∉ A → x.pk t = .norm) ∧
    ∀ T, x.pending T = (x.reg.filter fun r => r.a.tab = T).card + ∑ t ∈ A, (x.pk t).debt T
  own : ∀ r ∈ x.reg, (x.pk r.t).holds r.a r.id
  le : ∀ t a id, (x.pk t).holds a id → id ≤ x.count a.tab
  inj : ∀ t t' a a' id, (x.pk t).holds a id → (x.pk t').holds a' id → a.tab = a'.tab → t = t'
  wok : ∀ t a id, (x.pk t).sleepy a id → ¬ x.registered a id → x.token t = true ∨ ∃ u, (x.pk u).willWake t

theorem sum_move (f : PkPC → Int) (pk : Tid → PkPC) (t : Tid) (q : PkPC) (A : Finset Tid) (ht : t ∈ A) :
    ∑ u ∈ A, f (if u = t then q else pk u) = ∑ u ∈ A, f (pk u) - f (pk t) + f q := by
  rw [← Finset.add_sum_erase _ _ ht, ← Finset.add_sum_erase _ (fun u => f (pk u)) ht]
  have : ∑ u ∈ A.erase t, f (if u = t then q else pk u) = ∑ u ∈ A.erase t, f (pk u) := by
    apply Finset.sum_congr rfl
    intro u hu
    rw [if_neg (Finset.ne_of_mem_erase hu)]
  rw [this, if_pos rfl]
  ring

/-- The threads in `park` or `unpark`, with one more. -/
theorem KInv.fin' {x : KSt K V} (h : KInv x) (t : Tid) : ∃ A : Finset Tid, t ∈ A ∧ (∀ u, u ∉ A → x.pk u = .norm) ∧
    ∀ T, x.pending T = (x.reg.filter fun r => r.a.tab = T).card + ∑ u ∈ A, (x.pk u).debt T := by
  obtain ⟨A, h1, h2⟩ := h.fin
  by_cases ht : t ∈ A
  · exact ⟨A, ht, h1, h2⟩
  · refine ⟨Insert.insert t A, Finset.mem_insert_self _ _, fun u hu => h1 u fun hA => hu (Finset.mem_insert_of_mem hA), fun T => ?_⟩
    rw [h2 T, Finset.sum_insert ht, h1 t ht]
    simp [PkPC.debt]

/-- Steps that leave the registrations alone. -/
theorem KInv.move {x x' : KSt K V} (h : KInv x) (t : Tid) (q : PkPC) (hpk : x'.pk = fun u => if u = t then q else x.pk u)
    (hreg : x'.reg = x.reg) (hcount : x'.count = x.count)
    (hpend : ∀ T, x'.pending T = x.pending T + q.debt T - (x.pk t).debt T)
    (hth : ∀ u, u ≠ t → AtOk (x.ps.th u) (x.pk u) → AtOk (x'.ps.th u) (x.pk u))
    (hgone : ∀ u, u ≠ t → x.ps.th u = .gone → x'.ps.th u = .gone)
    (hst : ∀ u a, u ≠ t → (x.pk u).leaving a → ¬ a.shouldPark x.ps.mem → ¬ a.shouldPark x'.ps.mem ∨ x'.ps.th u = .gone)
    (hat : AtOk (x'.ps.th t) q)
    (hlv : ∀ a, q.leaving a → x'.ps.th t = .gone ∨ ¬ a.shouldPark x'.ps.mem)
    (hh : ∀ a id, q.holds a id → (x.pk t).holds a id)
    (hh' : ∀ a id, (x.pk t).holds a id → x.registered a id → q.holds a id)
    (hww : ∀ w, (x.pk t).willWake w → q.willWake w ∨ x'.token w = true)
    (htok : ∀ w, x.token w = true → x'.token w = true ∨ (w = t ∧ ∀ a id, ¬ q.sleepy a id))
    (hsl : ∀ a id, q.sleepy a id → x.registered a id ∨ (x.pk t).sleepy a id) : KInv x' := by
  have hat_ : ∀ u, x'.pk u = if u = t then q else x.pk u := fun u => congrFun hpk u
  have hsame : x'.pk t = q := by rw [hat_, if_pos rfl]
  have hne : ∀ u, u ≠ t → x'.pk u = x.pk u := fun u hu => by rw [hat_, if_neg hu]
  have hr : ∀ a id, x'.registered a id ↔ x.registered a id := fun a id => by unfold KSt.registered; rw [hreg]
  have hold : ∀ u a id, (x'.pk u).holds a id → (x.pk u).holds a id := by
    intro u a id hu
    by_cases hut : u = t
    · subst hut; rw [hsame] at hu; exact hh a id hu
    · rw [hne u hut] at hu; exact hu
  constructor
  · intro u
    by_cases hut : u = t
    · subst hut; rw [hsame]; exact hat
    · rw [hne u hut]; exact hth u hut (h.at' u)
  · intro u a hu
    by_cases hut : u = t
    · subst hut; rw [hsame] at hu; exact hlv a hu
    · rw [hne u hut] at hu
      rcases h.leave u a hu with h1 | h1
      · exact .inl (hgone u hut h1)
      · exact (hst u a hut hu h1).symm
  · obtain ⟨A, h0, h1, h2⟩ := h.fin' t
    refine ⟨A, fun u hu => ?_, fun T => ?_⟩
    · rw [hne u (fun h => hu (h ▸ h0))]; exact h1 u hu
    · rw [hpend, h2 T, hreg, hpk, sum_move (PkPC.debt T) x.pk t q A h0]
      ring
  · intro r hr'
    rw [hreg] at hr'
    have h1 := h.own r hr'
    by_cases hut : r.t = t
    · rw [hut, hsame]
      rw [hut] at h1
      exact hh' _ _ h1 ⟨r, hr', rfl, rfl⟩
    · rw [hne _ hut]; exact h1
  · intro u a id hu
    rw [hcount]; exact h.le u a id (hold u a id hu)
  · intro u u' a a' id h1 h2 h3
    exact h.inj u u' a a' id (hold _ _ _ h1) (hold _ _ _ h2) h3
  · intro u a id hu hn
    rw [hr] at hn
    have key : (x.pk u).sleepy a id := by
      by_cases hut : u = t
      · subst hut; rw [hsame] at hu
        exact (hsl a id hu).resolve_left hn
      · rw [hne u hut] at hu; exact hu
    rcases h.wok u a id key hn with h1 | ⟨w, h1⟩
    · rcases htok u h1 with h2 | ⟨h2, h3⟩
      · exact .inl h2
      · subst h2; rw [hsame] at hu; exact absurd hu (h3 a id)
    · by_cases hwt : w = t
      · subst hwt
        rcases hww u h1 with h2 | h2
        · exact .inr ⟨w, by rw [hsame]; exact h2⟩
        · exact .inl h2
      · exact .inr ⟨w, by rw [hne w hwt]; exact h1⟩

/-- A thread inserts itself into the map. -/
theorem KInv.register {x : KSt K V} {t : Tid} {a : PKey} {c : Call K V} {p : Prog K V c.Res} (h : KInv x)
    (hr : x.ps.th t = .run c p) (hq : x.pk t = .p1 a) : KInv ({ x with
        count := fun T => if T = a.tab then x.count a.tab + 1 else x.count T
        reg := Insert.insert (⟨a, x.count a.tab + 1, t⟩ : PkReg) x.reg }.go t (.p2 a (x.count a.tab + 1))) := by
  generalize hx' : KSt.go _ _ _ = x'
  have hpk : x'.pk = fun u => if u = t then .p2 a (x.count a.tab + 1) else x.pk u := by rw [← hx']; rfl
  have hps : x'.ps = x.ps := by rw [← hx']; rfl
  have hreg : x'.reg = Insert.insert (⟨a, x.count a.tab + 1, t⟩ : PkReg) x.reg := by rw [← hx']; rfl
  have hcount : x'.count = fun T => if T = a.tab then x.count a.tab + 1 else x.count T := by rw [← hx']; rfl
  have hpend : x'.pending = x.pending := by rw [← hx']; rfl
  have htok : x'.token = x.token := by rw [← hx']; rfl
  clear hx'
  have hsame : x'.pk t = .p2 a (x.count a.tab + 1) := by rw [hpk]; exact if_pos rfl
  have hne : ∀ u, u ≠ t → x'.pk u = x.pk u := fun u hu => by rw [hpk]; exact if_neg hu
  have hfresh : ∀ u a' id, (x.pk u).holds a' id → a'.tab = a.tab → id ≠ x.count a.tab + 1 := by
    intro u a' id hu he
    have := h.le u a' id hu
    rw [he] at this; omega
  have hnot : (⟨a, x.count a.tab + 1, t⟩ : PkReg) ∉ x.reg := fun hm => hfresh _ _ _ (h.own _ hm) rfl rfl
  have hhold : ∀ u a' id, (x'.pk u).holds a' id → (u = t ∧ a' = a ∧ id = x.count a.tab + 1) ∨ (u ≠ t ∧ (x.pk u).holds a' id) := by
    intro u a' id hu
    by_cases hut : u = t
    · subst hut; rw [hsame] at hu; exact .inl ⟨rfl, hu.1.symm, hu.2.symm⟩
    · rw [hne u hut] at hu; exact .inr ⟨hut, hu⟩
  constructor
  · intro u
    rw [hps]
    by_cases hut : u = t
    · subst hut; rw [hsame]
      refine .mk_park (a := a) rfl hr ((h.at' u).park ?_ hr)
      rw [hq]; rfl
    · rw [hne u hut]; exact h.at' u
  · intro u a' hu
    rw [hps]
    by_cases hut : u = t
    · subst hut; rw [hsame] at hu; exact hu.elim
    · rw [hne u hut] at hu; exact h.leave u a' hu
  · obtain ⟨A, h0, h1, h2⟩ := h.fin' t
    refine ⟨A, fun u hu => ?_, fun T => ?_⟩
    · rw [hne u (fun h => hu (h ▸ h0))]; exact h1 u hu
    · rw [hpend, h2 T, hreg, hpk, sum_move (PkPC.debt T) x.pk t _ A h0, hq, Finset.filter_insert]
      by_cases hT : a.tab = T
      · rw [if_pos hT, Finset.card_insert_of_notMem (fun hm => hnot (Finset.mem_of_mem_filter _ hm))]
        simp [PkPC.debt, hT]
      · rw [if_neg hT]
        simp [PkPC.debt, hT]
  · intro r hr'
    rw [hreg] at hr'
    rcases Finset.mem_insert.1 hr' with rfl | hr'
    · show (x'.pk t).holds _ _
      rw [hsame]; exact ⟨rfl, rfl⟩
    · have h1 := h.own r hr'
      rw [hne]
      · exact h1
      · intro hut
        rw [hut, hq] at h1; exact h1.elim
  · intro u a' id hu
    rw [hcount]
    rcases hhold u a' id hu with ⟨_, rfl, rfl⟩ | ⟨_, h1⟩
    · show _ ≤ if a'.tab = a'.tab then _ else _
      rw [if_pos rfl]
    · have := h.le u a' id h1
      show _ ≤ if a'.tab = a.tab then _ else _
      split
      · rename_i he; rw [he] at this; omega
      · exact this
  · intro u u' a1 a2 id h1 h2 h3
    rcases hhold u a1 id h1 with ⟨rfl, rfl, rfl⟩ | ⟨g1, g2⟩ <;> rcases hhold u' a2 _ h2 with ⟨rfl, rfl, g5⟩ | ⟨g3, g4⟩
    · rfl
    · exact absurd rfl (hfresh _ _ _ g4 h3.symm)
    · exact absurd g5 (hfresh _ _ _ g2 h3)
    · exact h.inj u u' a1 a2 id g2 g4 h3
  · intro u a' id hu hn
    have hr' : ∀ a' id, x.registered a' id → x'.registered a' id := fun a' id ⟨r, h1, h2⟩ =>
      ⟨r, by rw [hreg]; exact Finset.mem_insert_of_mem h1, h2⟩
    by_cases hut : u = t
    · subst hut
      rw [hsame] at hu
      rcases hu with hu | hu
      · cases hu
        exact absurd ⟨_, by rw [hreg]; exact Finset.mem_insert_self _ _, rfl, rfl⟩ hn
      · cases hu
    · rw [hne u hut] at hu
      rw [htok]
      rcases h.wok u a' id hu (fun h => hn (hr' _ _ h)) with h1 | ⟨w, h1⟩
      · exact .inl h1
      · refine .inr ⟨w, ?_⟩
        rw [hne]
        · exact h1
        · intro hwt; rw [hwt, hq] at h1; exact h1.elim

/-- Some registrations are removed. -/
theorem KInv.shrink {x x' : KSt K V} {t : Tid} {q : PkPC} {R : PkReg → Prop} [DecidablePred R] (h : KInv x)
    (hpk : x'.pk = fun u => if u = t then q else x.pk u) (hps : x'.ps = x.ps) (hreg : x'.reg = x.reg.filter fun r => ¬ R r)
    (hcount : x'.count = x.count) (hpend : x'.pending = x.pending) (htok : x'.token = x.token)
    (hat : AtOk (x.ps.th t) q) (hlv : ∀ a, q.leaving a → (x.pk t).leaving a) (hh : ∀ a id, ¬ q.holds a id)
    (hown : ∀ r ∈ x.reg, r.t = t → R r) (hww : ∀ w, ¬ (x.pk t).willWake w)
    (hdebt : ∀ T, q.debt T = (x.reg.filter fun r => R r ∧ r.a.tab = T).card + (x.pk t).debt T)
    (hwake : ∀ r ∈ x.reg, R r → r.t = t ∨ q.willWake r.t) : KInv x' := by
  have hsame : x'.pk t = q := by rw [hpk]; exact if_pos rfl
  have hne : ∀ u, u ≠ t → x'.pk u = x.pk u := fun u hu => by rw [hpk]; exact if_neg hu
  have hhold : ∀ u a' id, (x'.pk u).holds a' id → u ≠ t ∧ (x.pk u).holds a' id := by
    intro u a' id hu
    by_cases hut : u = t
    · subst hut; rw [hsame] at hu; exact absurd hu (hh _ _)
    · rw [hne u hut] at hu; exact ⟨hut, hu⟩
  constructor
  · intro u
    rw [hps]
    by_cases hut : u = t
    · subst hut; rw [hsame]; exact hat
    · rw [hne u hut]; exact h.at' u
  · intro u a hu
    rw [hps]
    by_cases hut : u = t
    · subst hut; rw [hsame] at hu; exact h.leave u a (hlv a hu)
    · rw [hne u hut] at hu; exact h.leave u a hu
  · obtain ⟨A, h0, h1, h2⟩ := h.fin' t
    refine ⟨A, fun u hu => ?_, fun T => ?_⟩
    · rw [hne u (fun h => hu (h ▸ h0))]; exact h1 u hu
    · have hc := Finset.card_filter_add_card_filter_not (s := x.reg.filter fun r => r.a.tab = T) (p := fun r => R r)
      rw [Finset.filter_filter, Finset.filter_filter] at hc
      have e1 : (x.reg.filter fun r => r.a.tab = T ∧ R r) = x.reg.filter fun r => R r ∧ r.a.tab = T := by
        ext r; simp only [Finset.mem_filter]; tauto
      have e2 : (x.reg.filter fun r => r.a.tab = T ∧ ¬ R r) = x.reg.filter fun r => (¬ R r) ∧ r.a.tab = T := by
        ext r; simp only [Finset.mem_filter]; tauto
      rw [e1, e2] at hc
      rw [hpend, h2 T, hreg, hpk, sum_move (PkPC.debt T) x.pk t q A h0, Finset.filter_filter, hdebt T, ← hc]
      push_cast
      ring
  · intro r hr
    rw [hreg, Finset.mem_filter] at hr
    rw [hne]
    · exact h.own r hr.1
    · exact fun hut => hr.2 (hown r hr.1 hut)
  · intro u a id hu
    rw [hcount]; exact h.le u a id (hhold u a id hu).2
  · intro u u' a a' id h1 h2 h3
    exact h.inj u u' a a' id (hhold _ _ _ h1).2 (hhold _ _ _ h2).2 h3
  · intro u a id hu hn
    have hut : u ≠ t := by
      intro hut
      subst hut
      rw [hsame] at hu
      exact hh a id (by rcases hu with rfl | rfl <;> exact ⟨rfl, rfl⟩)
    rw [hne u hut] at hu
    have hhu : (x.pk u).holds a id := by rcases hu with hu | hu <;> (rw [hu]; exact ⟨rfl, rfl⟩)
    rw [htok]
    by_cases hx : x.registered a id
    · obtain ⟨r, h1, h2, h3⟩ := hx
      have h4 := h.own r h1
      rw [h2, h3] at h4
      have h5 := h.inj _ _ _ _ _ h4 hhu rfl
      by_cases hR : R r
      · rcases hwake r h1 hR with h6 | h6
        · exact absurd (h5.symm.trans h6) hut
        · exact .inr ⟨t, by rw [hsame, ← h5]; exact h6⟩
      · exact absurd ⟨r, by rw [hreg]; exact Finset.mem_filter.2 ⟨h1, hR⟩, h2, h3⟩ hn
    · rcases h.wok u a id hu hx with h1 | ⟨w, h1⟩
      · exact .inl h1
      · refine .inr ⟨w, ?_⟩
        rw [hne]
        · exact h1
        · intro hwt; rw [hwt] at h1; exact hww _ h1

/-! ## The pool underneath -/

theorem step_gone {ps ps' : PSt K V} (hs : Step C ps ps') {u : Tid} (h : ps.th u = .gone) : ps'.th u = .gone := by
  have key : ∀ t (x : Th K V), ps.th t ≠ .gone → setTh ps.th t x u = .gone := by
    intro t x ht
    rw [setTh_ne (fun hut => ht (by rw [← hut]; exact h))]; exact h
  cases hs with
  | pin t ht => exact key t _ (by rw [ht]; exact fun h => nomatch h)
  | unpin t ht => exact key t _ (by rw [ht]; exact fun h => nomatch h)
  | abandon t ht => exact key t _ (by rw [ht]; exact fun h => nomatch h)
  | release t ht => exact h
  | inv t c ht _ => exact key t _ (by rw [ht]; exact fun h => nomatch h)
  | act t ht _ => exact key t _ (by rw [ht]; exact fun h => nomatch h)
  | loop t ht => exact key t _ (by rw [ht]; exact fun h => nomatch h)
  | ret t ht => exact key t _ (by rw [ht]; exact fun h => nomatch h)
  | panic t ht => exact key t _ (by rw [ht]; exact fun h => nomatch h)
  | freeEntry => exact h
  | freeTable => exact h

theorem own_others {ps ps' : PSt K V} {t : Tid} (hs : OwnStep C t ps ps') {u : Tid} (h : u ≠ t) : ps'.th u = ps.th u := by
  cases hs <;> exact setTh_ne h

/-- `park` returns: the park action of the pool is executed. -/
theorem after_park {ps : PSt K V} {t : Tid} {c : Call K V} {p p' : Prog K V c.Res} {a : PKey} (hr : ps.th t = .run c p)
    (ha : p.parkKey = some a) (hc : ¬ a.shouldPark ps.mem) (hp : p.after = some p') :
    OwnStep C t ps { ps with th := setTh ps.th t (.run c p') } := by
  cases p with
  | act b k =>
    cases b with
    | parkStatus T =>
      cases ha; cases hp
      exact .act (σ := ps.mem) hr ⟨hc, rfl⟩
    | parkSlot T i =>
      cases ha; cases hp
      exact .act (σ := ps.mem) hr ⟨by simpa [PKey.shouldPark] using hc, rfl⟩
    | _ => cases ha
  | _ => cases ha

theorem after_unpark {ps : PSt K V} {t : Tid} {c : Call K V} {p p' : Prog K V c.Res} {a : PKey} (hr : ps.th t = .run c p)
    (ha : p.unparkKey = some a) (hp : p.after = some p') : OwnStep C t ps { ps with th := setTh ps.th t (.run c p') } := by
  cases p with
  | act b k =>
    cases b with
    | unparkStatus T => cases ha; cases hp; exact .act (σ := ps.mem) hr ⟨rfl, rfl⟩
    | unparkSlot T i => cases ha; cases hp; exact .act (σ := ps.mem) hr ⟨rfl, rfl⟩
    | _ => cases ha
  | _ => cases ha

theorem after_some {α : Type} {p : Prog K V α} {a : PKey} (h : p.parkKey = some a ∨ p.unparkKey = some a) : ∃ p', p.after = some p' := by
  cases p with
  | act b k => cases b <;> first | exact ⟨_, rfl⟩ | (rcases h with h | h <;> cases h)
  | _ => rcases h with h | h <;> cases h

theorem Reach.okAct {ps : PSt K V} {N : Nat} {S : GSt K V} {g : HG} (hS : PInvG C (N + 1) ps S g) {t : Tid} {c : Call K V} {β : Type}
    {b : Act K V β} {k : β → Prog K V c.Res} (ht : ps.th t = .run c (.act b k)) : S.okAct b := by
  have h7 := hS.2.2.2.1 t
  rw [ht] at h7
  exact (h7 S hS.2.1 ((rg K V C).refl t S)).1

/-- A condition that has become false stays false while someone waits for it. -/
theorem park_stable {ps ps' : PSt K V} (h : Reach C ps) (hs : Step C ps ps') {t : Tid} {c : Call K V} {p : Prog K V c.Res} {a : PKey}
    (hr : ps.th t = .run c p) (ha : p.parkKey = some a) (hc : ¬ a.shouldPark ps.mem) : ¬ a.shouldPark ps'.mem := by
  obtain ⟨S, g, hS, _⟩ := h.work 1
  obtain ⟨S', g', hS', hev, _⟩ := pinvG_step hS hs
  rw [← hS.1] at hc
  rw [← hS'.1]
  cases p with
  | act b k =>
    cases b with
    | parkStatus T =>
      cases ha
      have hc : S.status T ≠ .pending := hc
      show S'.status T ≠ .pending
      cases hst : S.status T with
      | pending => exact absurd hst hc
      | aborted => rw [show S'.status T = .aborted from hev.aborted T hst]; simp
      | promoted => rw [hev.prom T hst]; simp
    | parkSlot T i =>
      cases ha
      obtain ⟨_, e, h1, h2⟩ := Reach.okAct hS hr
      have hc : ¬ (S.slot T i).copied = false := hc
      show ¬ (S'.slot T i).copied = false
      have := hev.copied T i e h1 (by simpa [copiedF] using hc)
      simp [show (S'.slot T i).copied = true from this]
    | _ => cases ha
  | _ => cases ha

/-! ## Steps -/

/-- A step of one thread changes the pool by a step of its own, or not at all. -/
theorem PkStep.pool_step {x x' : KSt K V} {t : Tid} (hi : KInv x) (hs : PkStep C t x x') :
    x'.ps = x.ps ∨ OwnStep C t x.ps x'.ps := by
  cases hs with
  | pool hs hn hp => exact .inr hs
  | @removeNone c p p' a id hr h hg hp =>
    have hq : (x.pk t).leaving a := by rw [h]; rfl
    refine .inr (after_park hr ((hi.at' t).park (by rw [h]; rfl) hr) ?_ hp)
    rcases hi.leave t _ hq with h1 | h1
    · rw [hr] at h1; cases h1
    · exact h1
  | @retract c p p' a hr h hp =>
    have hq : (x.pk t).leaving a := by rw [h]; rfl
    refine .inr (after_park hr ((hi.at' t).park (by rw [h]; rfl) hr) ?_ hp)
    rcases hi.leave t _ hq with h1 | h1
    · rw [hr] at h1; cases h1
    · exact h1
  | finalFalse hr h hc hp => exact .inr (after_park hr ((hi.at' t).park (by rw [h]; rfl) hr) hc hp)
  | unparkNone hr h h0 hp => exact .inr (after_unpark hr ((hi.at' t).unpark (by rw [h]; rfl) hr) hp)
  | unparkDone hr h hp => exact .inr (after_unpark hr ((hi.at' t).unpark (by rw [h]; rfl) hr) hp)
  | _ => exact .inl rfl

theorem AtOk.norm {th : Th K V} : AtOk th .norm := .inl rfl

/-- Steps within `park` and `unpark` that leave the registrations alone. -/
theorem KInv.still {x x' : KSt K V} (h : KInv x) (t : Tid) (q : PkPC) (hpk : x'.pk = fun u => if u = t then q else x.pk u)
    (hreg : x'.reg = x.reg) (hcount : x'.count = x.count) (hps : x'.ps = x.ps)
    (hpend : ∀ T, x'.pending T = x.pending T + q.debt T - (x.pk t).debt T)
    (hat : AtOk (x.ps.th t) q)
    (hlv : ∀ a, q.leaving a → (x.pk t).leaving a ∨ ¬ a.shouldPark x.ps.mem)
    (hh : ∀ a id, q.holds a id → (x.pk t).holds a id)
    (hh' : ∀ a id, (x.pk t).holds a id → x.registered a id → q.holds a id)
    (hww : ∀ w, (x.pk t).willWake w → q.willWake w ∨ x'.token w = true)
    (htok : ∀ w, x.token w = true → x'.token w = true ∨ (w = t ∧ ∀ a id, ¬ q.sleepy a id))
    (hsl : ∀ a id, q.sleepy a id → x.registered a id ∨ (x.pk t).sleepy a id) : KInv x' := by
  refine h.move t q hpk hreg hcount hpend (fun u _ h1 => by rw [hps]; exact h1) (fun u _ h1 => by rw [hps]; exact h1)
    (fun u a _ _ h1 => .inl (by rw [hps]; exact h1)) (by rw [hps]; exact hat) (fun a ha => ?_) hh hh' hww htok hsl
  rw [hps]
  rcases hlv a ha with h1 | h1
  · exact h.leave t a h1
  · exact .inr h1

theorem AtOk.other {th th' : Th K V} {q : PkPC} (h : AtOk th q) (hr : ∀ c p, th = .run c p → th' = .run c p ∨ th' = .gone)
    (hg : th = .gone → th' = .gone) : AtOk th' q := by
  rcases h with h | h | ⟨c, p, h1, h2⟩
  · exact .inl h
  · exact .inr (.inl (hg h))
  · rcases hr c p h1 with h3 | h3
    · exact .inr (.inr ⟨c, p, h3, h2⟩)
    · exact .inr (.inl h3)

/-- A step of the pool in which no thread within `park` or `unpark` moves. -/
theorem KInv.pool {x : KSt K V} {ps' : PSt K V} (h : KInv x) (hx : Reach C x.ps) (hs : Step C x.ps ps')
    (hn : ∀ t c p, x.ps.th t = .run c p → x.pk t ≠ .norm → ps'.th t = .run c p ∨ ps'.th t = .gone) :
    KInv { x with ps := ps' } := by
  have hat : ∀ u, AtOk (ps'.th u) (x.pk u) := by
    intro u
    by_cases hu : x.pk u = .norm
    · rw [hu]; exact .norm
    · exact (h.at' u).other (fun c p hr => hn u c p hr hu) fun hg => step_gone hs hg
  have hlv : ∀ u a, (x.pk u).leaving a → ps'.th u = .gone ∨ ¬ a.shouldPark ps'.mem := by
    intro u a hu
    have hin : (x.pk u).inPark a := by
      cases hq : x.pk u <;> rw [hq] at hu <;> first | exact hu.elim | exact hu
    have hnn : x.pk u ≠ .norm := by intro h0; rw [h0] at hu; exact hu
    rcases h.leave u a hu with h1 | h1
    · exact .inl (step_gone hs h1)
    · rcases h.at' u with h2 | h2 | ⟨c, p, h2, _⟩
      · exact absurd h2 hnn
      · exact .inl (step_gone hs h2)
      · exact .inr (park_stable hx hs h2 ((h.at' u).park hin h2) h1)
  refine h.move 0 (x.pk 0) (by funext u; split; · rename_i hu; rw [hu]
                               · rfl) rfl rfl (fun T => by simp) (fun u _ _ => hat u)
    (fun u _ hg => step_gone hs hg) (fun u a _ hu _ => (hlv u a hu).symm) (hat 0) (hlv 0) (fun _ _ h => h) (fun _ _ h _ => h)
    (fun _ h => .inl h) (fun _ h => .inl h) fun _ _ h => .inr h

theorem KInv.own_step {x x' : KSt K V} {t : Tid} (h : KInv x) (hx : Reach C x.ps) (hs : PkStep C t x x') : KInv x' := by
  have hps := hs.pool_step h
  have hret : ∀ {q : PkPC} {c : Call K V} {p : Prog K V c.Res}, x.ps.th t = .run c p → x'.pk = (fun u => if u = t then .norm else x.pk u) →
      x'.reg = x.reg → x'.count = x.count → (∀ T, x'.pending T = x.pending T - (x.pk t).debt T) → x'.token = x.token →
      (∀ a id, (x.pk t).holds a id → ¬ x.registered a id) → (∀ w, ¬ (x.pk t).willWake w) → KInv x' := by
    intro q c p hr hpk hreg hcount hpend htok hh hww
    refine h.move t .norm hpk hreg hcount (fun T => by rw [hpend]; simp [PkPC.debt]) ?_ ?_ ?_ .norm (fun a h => h.elim)
      (fun a id h => h.elim) (fun a id h1 h2 => absurd h2 (hh a id h1)) (fun w hw => absurd hw (hww w)) (fun w hw => .inl (by rw [htok]; exact hw))
      (fun a id hs => by rcases hs with hs | hs <;> cases hs)
    · intro u hu h1
      rcases hps with h2 | h2
      · rw [h2]; exact h1
      · rw [own_others h2 hu]; exact h1
    · intro u hu h1
      rcases hps with h2 | h2
      · rw [h2]; exact h1
      · rw [own_others h2 hu]; exact h1
    · intro u a hu hl h1
      rcases hps with h2 | h2
      · exact .inl (by rw [h2]; exact h1)
      · rcases h.at' u with h3 | h3 | ⟨c', p', h3, h4⟩
        · rw [h3] at hl; exact hl.elim
        · exact .inr (by rw [own_others h2 hu]; exact h3)
        · have hin : (x.pk u).inPark a := by
            cases hq : x.pk u <;> rw [hq] at hl <;> first | exact hl.elim | exact hl
          exact .inl (park_stable hx h2.step h3 ((h.at' u).park hin h3) h1)
  cases hs with
  | pool hs hn hp =>
    refine h.pool hx hs.step fun u c p hu hnn => .inl ?_
    rw [own_others hs (fun hut => hnn (by rw [hut]; exact hn))]; exact hu
  | callPark hr hn ha =>
    refine h.still t _ rfl rfl rfl rfl (fun T => ?_) (.mk_park rfl hr ha) (fun a h => h.elim) (fun a id h => h.elim)
      (fun a id hh => by rw [hn] at hh; exact hh.elim) (fun w hw => by rw [hn] at hw; exact hw.elim) (fun w hw => .inl hw)
      (fun a id hs => by rcases hs with hs | hs <;> cases hs)
    rw [hn]; simp [PkPC.debt, KSt.go]
  | announce hr hq =>
    refine h.still t _ rfl rfl rfl rfl (fun T => ?_) (.mk_park rfl hr ((h.at' t).park (by rw [hq]; rfl) hr)) (fun a h => h.elim)
      (fun a id h => h.elim)
      (fun a id hh => by rw [hq] at hh; exact hh.elim) (fun w hw => by rw [hq] at hw; exact hw.elim) (fun w hw => .inl hw)
      (fun a id hs => by rcases hs with hs | hs <;> cases hs)
    rw [hq]
    show (if T = _ then _ else _) = _
    by_cases hT : T = (by assumption : PKey).tab
    · rw [if_pos hT, ← hT]; simp [PkPC.debt, hT]
    · rw [if_neg hT]; simp [PkPC.debt, Ne.symm hT]
  | register hr hq => exact h.register hr hq
  | checkFalse hr hq hc =>
    refine h.still t _ rfl rfl rfl rfl (fun T => ?_) (.mk_park rfl hr ((h.at' t).park (by rw [hq]; rfl) hr))
      (fun a ha => .inr (by rw [← (show _ = a from ha)]; exact hc))
      (fun a id hh => by rw [hq]; exact hh) (fun a id hh _ => by rw [hq] at hh; exact hh) (fun w hw => by rw [hq] at hw; exact hw.elim)
      (fun w hw => .inl hw) (fun a id hs => by rcases hs with hs | hs <;> cases hs)
    rw [hq]; simp [PkPC.debt, KSt.go]
  | checkTrue hr hq hc =>
    refine h.still t _ rfl rfl rfl rfl (fun T => ?_) (.mk_park rfl hr ((h.at' t).park (by rw [hq]; rfl) hr)) (fun a h => h.elim)
      (fun a id hh => by rw [hq]; exact hh) (fun a id hh _ => by rw [hq] at hh; exact hh) (fun w hw => by rw [hq] at hw; exact hw.elim)
      (fun w hw => .inl hw) (fun a id hs => ?_)
    · rw [hq]; simp [PkPC.debt, KSt.go]
    · rcases hs with hs | hs <;> cases hs
      exact .inr (.inl hq)
  | @removeSome c p a id hr hq hg =>
    have hR : ∀ r ∈ x.reg, r.t = t → r.a = a ∧ r.id = id := by
      intro r h1 h2
      have h3 := h.own r h1
      rw [h2, hq] at h3
      exact ⟨h3.1.symm, h3.2.symm⟩
    have hT : ∀ r ∈ x.reg, r.a = a ∧ r.id = id → r.t = t := by
      rintro r h1 ⟨h2, h3⟩
      have h4 := h.own r h1
      rw [h2, h3] at h4
      exact h.inj _ _ _ _ _ h4 (by rw [hq]; exact ⟨rfl, rfl⟩) rfl
    refine h.shrink (R := fun r => r.a = a ∧ r.id = id) rfl rfl rfl rfl rfl rfl (.mk_park rfl hr ((h.at' t).park (by rw [hq]; rfl) hr))
      (fun a' ha => by rw [hq]; exact ha) (fun a id hh => hh.elim) hR (fun w hw => by rw [hq] at hw; exact hw) (fun T => ?_)
      fun r h1 h2 => .inl (hT r h1 h2)
    obtain ⟨r, h1, h2, h3⟩ := hg
    rw [hq]
    show (if a.tab = T then (1 : Int) else 0) = _ + 0
    have hone : (x.reg.filter fun r => (r.a = a ∧ r.id = id) ∧ r.a.tab = T) = if a.tab = T then {r} else ∅ := by
      ext r'
      rw [Finset.mem_filter]
      split
      · rename_i haT
        rw [Finset.mem_singleton]
        constructor
        · rintro ⟨g1, ⟨g2, g3⟩, _⟩
          have g4 := hT r' g1 ⟨g2, g3⟩
          have g5 := hT r h1 ⟨h2, h3⟩
          cases r; cases r'; simp_all
        · rintro rfl; exact ⟨h1, ⟨h2, h3⟩, by rw [h2]; exact haT⟩
      · rename_i haT
        refine ⟨fun ⟨_, ⟨g2, _⟩, g4⟩ => absurd (by rw [← g2]; exact g4) haT, fun hn => absurd hn (Finset.notMem_empty _)⟩
    rw [hone]
    split <;> simp
  | removeNone hr hq hg hp =>
    refine hret (q := .norm) hr rfl rfl rfl (fun T => by rw [hq]; simp [PkPC.debt, KSt.go, KSt.resume]) rfl (fun a id hh => ?_) (fun w hw => by rw [hq] at hw; exact hw)
    rw [hq] at hh; obtain ⟨rfl, rfl⟩ := hh; exact hg
  | retract hr hq hp =>
    refine hret (q := .norm) hr rfl rfl rfl (fun T => ?_) rfl (fun a id hh => by rw [hq] at hh; exact hh.elim) (fun w hw => by rw [hq] at hw; exact hw)
    rw [hq]
    show (if T = _ then _ else _) = _
    by_cases hT : T = (by assumption : PKey).tab
    · rw [if_pos hT, ← hT]; simp [PkPC.debt, hT]; ring
    · rw [if_neg hT]; simp [PkPC.debt, Ne.symm hT]
  | wake hr hq ht =>
    refine h.still t _ rfl rfl rfl rfl (fun T => ?_) (.mk_park rfl hr ((h.at' t).park (by rw [hq]; rfl) hr)) (fun a h => h.elim)
      (fun a id hh => by rw [hq]; exact hh) (fun a id hh _ => by rw [hq] at hh; exact hh) (fun w hw => by rw [hq] at hw; exact hw.elim)
      (fun w hw => ?_) (fun a id hs => by rcases hs with hs | hs <;> cases hs)
    · rw [hq]; simp [PkPC.debt, KSt.go]
    · by_cases hwt : w = t
      · exact .inr ⟨hwt, fun a id hs => by rcases hs with hs | hs <;> cases hs⟩
      · exact .inl (by show (if w = t then false else _) = true; rw [if_neg hwt]; exact hw)
  | still hr hq hg =>
    refine h.still t _ rfl rfl rfl rfl (fun T => ?_) (.mk_park rfl hr ((h.at' t).park (by rw [hq]; rfl) hr)) (fun a h => h.elim)
      (fun a id hh => by rw [hq]; exact hh) (fun a id hh _ => by rw [hq] at hh; exact hh) (fun w hw => by rw [hq] at hw; exact hw.elim)
      (fun w hw => .inl hw) (fun a id hs => ?_)
    · rw [hq]; simp [PkPC.debt, KSt.go]
    · rcases hs with hs | hs <;> cases hs
      exact .inl hg
  | woken hr hq hg =>
    refine h.still t _ rfl rfl rfl rfl (fun T => ?_) (.mk_park rfl hr ((h.at' t).park (by rw [hq]; rfl) hr)) (fun a h => h.elim)
      (fun a id hh => hh.elim) (fun a id hh hg' => ?_) (fun w hw => by rw [hq] at hw; exact hw.elim)
      (fun w hw => .inl hw) (fun a id hs => by rcases hs with hs | hs <;> cases hs)
    · rw [hq]; simp [PkPC.debt, KSt.go]
    · rw [hq] at hh; obtain ⟨rfl, rfl⟩ := hh; exact absurd hg' hg
  | finalFalse hr hq hc hp =>
    exact hret (q := .norm) hr rfl rfl rfl (fun T => by rw [hq]; simp [PkPC.debt, KSt.go, KSt.resume]) rfl (fun a id hh => by rw [hq] at hh; exact hh.elim)
      (fun w hw => by rw [hq] at hw; exact hw)
  | finalTrue hr hq hc =>
    refine h.still t _ rfl rfl rfl rfl (fun T => ?_) (.mk_park rfl hr ((h.at' t).park (by rw [hq]; rfl) hr)) (fun a h => h.elim)
      (fun a id hh => hh.elim) (fun a id hh _ => by rw [hq] at hh; exact hh.elim) (fun w hw => by rw [hq] at hw; exact hw.elim)
      (fun w hw => .inl hw) (fun a id hs => by rcases hs with hs | hs <;> cases hs)
    rw [hq]; simp [PkPC.debt, KSt.go]
  | callUnpark hr hn ha =>
    refine h.still t _ rfl rfl rfl rfl (fun T => ?_) (.mk_unpark rfl hr ha) (fun a h => h.elim) (fun a id h => h.elim)
      (fun a id hh => by rw [hn] at hh; exact hh.elim) (fun w hw => by rw [hn] at hw; exact hw.elim) (fun w hw => .inl hw)
      (fun a id hs => by rcases hs with hs | hs <;> cases hs)
    rw [hn]; simp [PkPC.debt, KSt.go]
  | unparkNone hr hq h0 hp =>
    exact hret (q := .norm) hr rfl rfl rfl (fun T => by rw [hq]; simp [PkPC.debt, KSt.go, KSt.resume]) rfl (fun a id hh => by rw [hq] at hh; exact hh.elim)
      (fun w hw => by rw [hq] at hw; exact hw)
  | unparkSome hr hq h0 =>
    refine h.still t _ rfl rfl rfl rfl (fun T => ?_) (.mk_unpark rfl hr ((h.at' t).unpark (by rw [hq]; rfl) hr)) (fun a h => h.elim)
      (fun a id hh => hh.elim) (fun a id hh _ => by rw [hq] at hh; exact hh.elim) (fun w hw => by rw [hq] at hw; exact hw.elim)
      (fun w hw => .inl hw) (fun a id hs => by rcases hs with hs | hs <;> cases hs)
    rw [hq]; simp [PkPC.debt, KSt.go]
  | @take c p a l hr hq hl =>
    refine h.shrink (R := fun r => r.a = a) rfl rfl rfl rfl rfl rfl (.mk_unpark rfl hr ((h.at' t).unpark (by rw [hq]; rfl) hr))
      (fun a' ha => ha.elim) (fun a id hh => hh.elim) (fun r h1 h2 => ?_) (fun w hw => by rw [hq] at hw; exact hw) (fun T => ?_)
      fun r h1 h2 => .inr ?_
    · have h3 := h.own r h1
      rw [h2, hq] at h3
      exact h3.elim
    · rw [hq]
      show (if a.tab = T then (l.length : Int) else 0) = _ + 0
      have hlen : l.length = (x.reg.filter fun r => r.a = a).card := by
        rw [← hl.length_eq, List.length_map, Finset.length_toList]
      split
      · rename_i haT
        have : (x.reg.filter fun r => r.a = a ∧ r.a.tab = T) = x.reg.filter fun r => r.a = a := by
          ext r; simp only [Finset.mem_filter]
          exact ⟨fun ⟨g1, g2, _⟩ => ⟨g1, g2⟩, fun ⟨g1, g2⟩ => ⟨g1, g2, by rw [g2]; exact haT⟩⟩
        rw [this, hlen]; simp
      · rename_i haT
        have : (x.reg.filter fun r => r.a = a ∧ r.a.tab = T) = ∅ := by
          ext r; simp only [Finset.mem_filter]
          exact ⟨fun ⟨g1, g2, g3⟩ => absurd (by rw [← g2]; exact g3) haT, fun hn => absurd hn (Finset.notMem_empty _)⟩
        rw [this]; simp
    · exact hl.subset (List.mem_map.2 ⟨r, Finset.mem_toList.2 (Finset.mem_filter.2 ⟨h1, h2⟩), rfl⟩)
  | subtract hr hq =>
    refine h.still t _ rfl rfl rfl rfl (fun T => ?_) (.mk_unpark rfl hr ((h.at' t).unpark (by rw [hq]; rfl) hr)) (fun a h => h.elim)
      (fun a id hh => hh.elim) (fun a id hh _ => by rw [hq] at hh; exact hh.elim) (fun w hw => by rw [hq] at hw; exact .inl hw)
      (fun w hw => .inl hw) (fun a id hs => by rcases hs with hs | hs <;> cases hs)
    rw [hq]
    show (if T = _ then _ else _) = _
    by_cases hT : T = (by assumption : PKey).tab
    · rw [if_pos hT, ← hT]; simp [PkPC.debt, hT]; ring
    · rw [if_neg hT]; simp [PkPC.debt, Ne.symm hT]
  | wakeOne hr hq =>
    rename_i u l
    refine h.still t _ rfl rfl rfl rfl (fun T => ?_) (.mk_unpark rfl hr ((h.at' t).unpark (by rw [hq]; rfl) hr)) (fun a h => h.elim)
      (fun a id hh => hh.elim) (fun a id hh _ => by rw [hq] at hh; exact hh.elim) (fun w hw => ?_)
      (fun w hw => .inl ?_) (fun a id hs => by rcases hs with hs | hs <;> cases hs)
    · rw [hq]; simp [PkPC.debt, KSt.go]
    · rw [hq] at hw
      rcases List.mem_cons.1 hw with h1 | h1
      · exact .inr (if_pos h1)
      · exact .inl h1
    · show (if w = u then true else _) = true
      split
      · rfl
      · exact hw
  | unparkDone hr hq hp =>
    exact hret (q := .norm) hr rfl rfl rfl (fun T => by rw [hq]; simp [PkPC.debt, KSt.go, KSt.resume]) rfl (fun a id hh => by rw [hq] at hh; exact hh.elim)
      (fun w hw => by rw [hq] at hw; exact (List.not_mem_nil hw))

theorem KInv.any {x x' : KSt K V} (h : KInv x) (hx : Reach C x.ps) (hs : KAny C x x') : Reach C x'.ps ∧ KInv x' := by
  rcases hs with hs | hs
  · cases hs with
    | own t hs =>
      refine ⟨?_, h.own_step hx hs⟩
      rcases hs.pool_step h with h1 | h1
      · rw [h1]; exact hx
      · exact .step hx h1.step
    | env hs hn => exact ⟨.step hx hs, h.pool hx hs fun t c p hr _ => hn t c p hr⟩
  · cases hs with
    | @mk t c p a id hr hq =>
      refine ⟨hx, ?_⟩
      refine h.still t _ rfl rfl rfl rfl (fun T => ?_) (.mk_park rfl hr ((h.at' t).park (by rw [hq]; rfl) hr)) (fun a h => h.elim)
        (fun a id hh => by rw [hq]; exact hh) (fun a id hh _ => by rw [hq] at hh; exact hh) (fun w hw => by rw [hq] at hw; exact hw.elim)
        (fun w hw => .inl hw) (fun a id hs => by rcases hs with hs | hs <;> cases hs)
      rw [hq]; simp [PkPC.debt, KSt.go]

theorem KInv.init {x : KSt K V} (h : x.IsInit C) : KInv x := by
  obtain ⟨_, h1, h2, h3⟩ := h
  constructor
  · intro t; rw [h3]; exact .norm
  · intro t a ht; rw [h3] at ht; exact ht.elim
  · exact ⟨∅, fun t _ => h3 t, fun T => by rw [h1, h2]; simp⟩
  · intro r hr; rw [h2] at hr; exact absurd hr (Finset.notMem_empty _)
  · intro t a id ht; rw [h3] at ht; exact ht.elim
  · intro t t' a a' id ht; rw [h3] at ht; exact ht.elim
  · intro t a id ht; rw [h3] at ht; rcases ht with ht | ht <;> cases ht

/-- The pool underneath executes the pool model: all that is proved about its reachable states holds. -/
theorem KReach.inv {x : KSt K V} (h : KReach C x) : Reach C x.ps ∧ KInv x := by
  induction h with
  | init h => exact ⟨.init h.1, .init h⟩
  | step _ hs ih => exact ih.2.any ih.1 (.inl hs)
  | spurious _ hs ih => exact ih.2.any ih.1 (.inr hs)

theorem KReach.run {x x' : KSt K V} (h : KReach C x) (hs : KRun C x x') : KReach C x' := by
  induction hs with
  | refl => exact h
  | tail _ hs ih => exact hs.elim (.step ih) (.spurious ih)

end Papaya
