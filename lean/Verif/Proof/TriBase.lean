import Verif.Proof.Assert
import Verif.Props.Capacity

/-! # Triples of the basic steps and of table allocation -/

set_option linter.unusedSectionVars false
set_option linter.unusedVariables false

namespace Papaya

variable {K V : Type} [DecidableEq K]

open GSt

/-- The allowed panics include those of table allocation. -/
class SysA (C : Cfg K) (A : PanicReason → GSt K V → Prop) : Prop where
  ok : ∀ r S, SysPanic C r → A r S

/-- Only panics of table allocation. -/
def SysOnly (C : Cfg K) (r : PanicReason) (_ : GSt K V) : Prop := SysPanic C r

instance : SysA C (SysOnly (V := V) C) := ⟨fun _ _ h => h⟩

variable {C : Cfg K} {t : Tid} {Ap : PanicReason → GSt K V → Prop}

/-- Metadata `m` may be stored at `(T, i)`. -/
def MdOk (C : Cfg K) (T i m : Nat) (S : GSt K V) : Prop :=
  S.slot T i ≠ Slot.null ∧ ∀ e, S.kslot T i e → m = C.h2 e.key

instance {T i m : Nat} : Inert (V := V) C t (MdOk C T i m) :=
  Inert.mono fun S S' h1 h2 h3 h => ⟨h3.nnull _ _ h.1, fun e' hk => by
    obtain ⟨e, g1, g2⟩ := slot_key h3 h.1 hk
    rw [g2]; exact h.2 e g1⟩

theorem MdOk.of_nulled {S : GSt K V} {T i m : Nat} (h : S.Nulled T i) : MdOk C T i m S :=
  ⟨h.1, fun e hk => by unfold kslot at hk; rw [h.2] at hk; cases hk⟩

theorem MdOk.of_keyed {S : GSt K V} {T i : Nat} {k : K} (h : S.Keyed T i k) : MdOk C T i (C.h2 k) S :=
  ⟨h.1, fun e hk => by rw [h.2 e hk]⟩

/-- Entries published at `(T, i)` have been logged. -/
def HomeLogged (T i : Nat) (S : GSt K V) : Prop :=
  ∀ id x, S.info id = some x → x.home = some (T, i) → S.logged x.entry

theorem kslot_ne {S : GSt K V} {T i : Nat} {e : Entry K V} (h : S.kslot T i e) : S.slot T i ≠ Slot.null := by
  intro h'; unfold kslot at h; rw [h'] at h; cases h

theorem kslot_keyed {S : GSt K V} {T i : Nat} {e : Entry K V} (h : S.kslot T i e) : S.Keyed T i e.key :=
  ⟨kslot_ne h, fun e' h' => by rw [kslot_inj h' h]⟩

theorem store_md {S : GSt K V} {T i m : Nat} (h : S.Inv C) (hm : m ≠ EMPTY) (hok : MdOk C T i m S) :
    ∃ S' : GSt K V, S'.toSt = S.toSt.setMd T i m ∧ S'.Inv C ∧ Evo S S' ∧ (∀ t', Own t' S S') ∧
      HomeLogged T i S' ∧ S'.info = S.info := by
  have hhome : ∀ id x, S.info id = some x → x.home = some (T, i) → ¬ S.logged x.entry →
      S.kslot T i x.entry ∧ S.md T i = EMPTY ∧ S.rt ≤ T ∧ ¬ S.aborted T ∧ ¬ S.hid T x.entry := by
    intro id x hx hh hn
    obtain ⟨T', i', g1, g2, g3, g4, g5, _⟩ := h.l.u1 id x hx hn
    rw [hh] at g1
    cases g1
    refine ⟨g2, g3, g4, g5, ?_⟩
    rintro ⟨q1, j, q2, _⟩
    rcases h.l.u3 id x T i _ j hx hh q2 with q | q <;> omega
  by_cases hev : ∃ e, S.kslot T i e ∧ S.md T i = EMPTY ∧ S.rt ≤ T ∧ ¬ S.aborted T ∧ ¬ S.hid T e
  · obtain ⟨e, q1, q2, q3, q4, q5⟩ := hev
    obtain ⟨hnl, x, hx, hh⟩ := h.l.u2 T i e q1 q2 q3 q4 q5
    have hxe : x.entry = e := by
      obtain ⟨x', g1, g2⟩ := h.p.p3 T i e q1
      rw [hx] at g1; cases g1; exact g2
    refine ⟨_, rfl, mdSt_event h (hok.2 e q1) q1 q2 q3 q4 q5 hx, mdSt_Evo hm (List.prefix_append _ _) h.s,
      fun t' => mdSt_Own (List.prefix_append _ _) ?_, ?_, rfl⟩
    · intro ev hev hop
      simp only [List.drop_left, List.mem_singleton] at hev
      subst hev
      exact ⟨rfl, e, x, rfl, hx, hxe, rfl, hnl⟩
    · intro id x' hx' hh'
      by_cases hlg : S.logged x'.entry
      · exact logged_mono (S' := S.mdSt T i m _) (List.prefix_append _ _) hlg
      · have := kslot_inj (hhome id x' hx' hh' hlg).1 q1
        exact ⟨_, List.mem_append_right _ (List.mem_singleton.2 rfl), by rw [this]⟩
  · refine ⟨S.mdSt T i m S.log, rfl, mdSt_quiet h hok.1 hm hok.2 ?_, mdSt_Evo hm (List.prefix_refl _) h.s,
      fun t' => mdSt_Own (List.prefix_refl _) (by intro ev hev; simp at hev), ?_, rfl⟩
    · intro e q1 q2 q3 q4
      by_contra q5
      exact hev ⟨e, q1, q2, q3, q4, q5⟩
    · intro id x hx hh
      by_contra hlg
      exact hev ⟨_, hhome id x hx hh hlg⟩

theorem Acc.idx_len {S : GSt K V} {T : Table} (h : S.Inv C) (ha : Acc t T S) {i : Nat} (hi : i < T.len) :
    S.TabOk T.id ∧ i < S.cap T.id := ⟨ha.tabOk h, by rw [← ha.len h]; exact hi⟩

theorem Acc.after_len {S : GSt K V} {T : Table} (h : S.Inv C) (ha : Acc t T S) (k : K) (n : Nat) :
    (Probe.after (C.h1 k) T.mask n).i < T.len := by rw [ha.len h]; exact ha.idx h k n

theorem tri_storeMd {T : Table} {i m : Nat} (hi : i < T.len) (hm : m ≠ EMPTY) :
    Tri (V := V) C t Ap (Mq t) (fun S => Acc t T S ∧ MdOk C T.id i m S) (A.storeMd T.id i m)
      (fun _ S => S.md T.id i ≠ EMPTY ∧ HomeLogged T.id i S) := by
  refine Tri.act (fun S h hp => hp.1.idx_len h hi) ?_
  intro S r σ'' h hp he
  obtain ⟨S', h1, h2, h3, h4, h5, _⟩ := store_md h hm hp.2
  refine ⟨S', by rw [h1]; exact he.symm, h2, h3, fun t' _ => h4 t', ⟨h3, (h4 t).ownQ⟩, ?_, h5⟩
  have : S'.md T.id i = (S.toSt.setMd T.id i m).md T.id i := by rw [h1]
  rw [this]
  simp only [St.setMd, and_self, if_true]
  exact hm

/-! ## Loads -/

theorem tri_len {Gd : GSt K V → GSt K V → Prop} (hg : ∀ S, Gd S S) :
    Tri C t Ap Gd (fun _ : GSt K V => True) (len C) (fun _ _ => True) := by
  unfold len
  refine Tri.bind (fun _ _ => True) ?_ ?_
  · refine Tri.loop (fun _ _ => True) ?_
    rintro ⟨j, acc⟩
    refine Tri.ite (fun h => ?_) (fun h => ?_)
    · refine Tri.bind (fun _ _ => True) ?_ ?_
      · exact Tri.load _ hg (fun _ _ _ => trivial) (fun _ _ _ h => h.2) (fun _ _ _ _ _ => trivial)
      · intro x
        exact Tri.ret fun _ _ _ => trivial
    · exact Tri.ret fun _ _ _ => trivial
  · intro x
    exact Tri.ret fun _ _ _ => trivial

/-- The successor of a table. -/
theorem next_acc {S : GSt K V} {T N : Table} (h : S.Inv C) (ha : Acc t T S)
    (hn : some N = (S.next T.id).map S.handle) : Acc t N S ∧ N.id = T.id + 1 := by
  rw [h.s.next T.id ha.2.1] at hn
  split at hn
  · rename_i hlt
    cases hn
    exact ⟨⟨ha.1, hlt, rfl, by have := ha.2.2.2; show _ ≤ T.id + 1; omega⟩, rfl⟩
  · cases hn

theorem next_none {S : GSt K V} {T : Table} (h : S.Inv C) (ha : Acc t T S)
    (hn : none = (S.next T.id).map S.handle) : S.nTabs = T.id + 1 := by
  rw [h.s.next T.id ha.2.1] at hn
  have := ha.2.1
  split at hn
  · cases hn
  · omega

/-- `T` is safe to be resized: in blocking mode it was the root or is aborted. -/
def Full (C : Cfg K) (T : Nat) (S : GSt K V) : Prop := C.inc = false → T ≤ S.rt ∨ S.aborted T

instance {T : Nat} : Inert (V := V) C t (Full C T) := by unfold Full; infer_instance

/-- `t` holds the allocation lock of `T`. -/
def Locked (t : Tid) (T : Nat) (S : GSt K V) : Prop := S.lock T = .held t

instance {T : Nat} : Stable (rg K V C) t (Locked (K := K) (V := V) t T) :=
  Stable.of_step fun S S' h1 h2 h3 h4 h => (h4.lock T h).1

/-- … and `T` has no successor yet. -/
def LockedLast (t : Tid) (T : Nat) (S : GSt K V) : Prop := S.lock T = .held t ∧ S.next T = none

instance {T : Nat} : Stable (rg K V C) t (LockedLast (K := K) (V := V) t T) :=
  Stable.of_step fun S S' h1 h2 h3 h4 h => ⟨(h4.lock T h.1).1, by rw [(h4.lock T h.1).2]; exact h.2⟩

theorem isPow2_max {n : Nat} (h : isPow2B n = true) : isPow2 (max n 8) := by
  rcases Nat.le_total n 8 with h1 | h1
  · rw [Nat.max_eq_right h1]; exact ⟨3, rfl⟩
  · rw [Nat.max_eq_left h1]; exact (isPow2B_iff n).1 h

theorem nextCapacity_ge {a b c : Nat} (h : a ≤ b) : a ≤ nextCapacity a b c := by
  unfold nextCapacity
  split
  · rw [shl_one]; omega
  · split
    · exact Nat.le_max_left _ _
    · exact h

theorem lockSt_OwnQ {S : GSt K V} {T : Nat} {l : Lock} : OwnQ t S (S.lockSt T l) :=
  OwnQ.quiet rfl rfl rfl rfl rfl rfl rfl rfl rfl rfl rfl rfl

theorem tri_unlock {T : Table} {l : Lock} {a : Act K V Unit} (ha : a = .unlock T.id ∧ l = .free ∨ a = .poison T.id ∧ l = .poisoned) :
    Tri C t Ap (Mq t) (fun S : GSt K V => Acc t T S ∧ Locked t T.id S) (.prim a) (fun _ _ => True) := by
  refine Tri.act (fun S h hp => ?_) ?_
  · rcases ha with ⟨rfl, _⟩ | ⟨rfl, _⟩ <;> exact hp.1.tabOk h
  intro S r σ'' h hp he
  refine ⟨S.lockSt T.id l, ?_, lockSt_Inv h hp.1.2.1, lockSt_Evo, fun t' ht => lockSt_Own ?_ ?_, ⟨lockSt_Evo, lockSt_OwnQ⟩,
    trivial⟩
  · rcases ha with ⟨rfl, rfl⟩ | ⟨rfl, rfl⟩ <;> exact he.symm
  · rw [show S.lock T.id = _ from hp.2]; intro h'; cases h'; exact ht rfl
  · rcases ha with ⟨_, rfl⟩ | ⟨_, rfl⟩ <;> simp

theorem tri_loadNext {T : Table} {P : GSt K V → Prop} [Stable (rg K V C) t P] (hP : ∀ S, S.Inv C → P S → Acc t T S)
    (Q : Option Table → GSt K V → Prop)
    (h1 : ∀ S N, S.Inv C → P S → Acc t N S → N.id = T.id + 1 → Q (some N) S)
    (h2 : ∀ S, S.Inv C → P S → S.nTabs = T.id + 1 → Q none S) :
    Tri C t Ap (Mq t) P (A.loadNext T.id) Q := by
  refine Tri.load _ (Mq.refl t) (fun S h hp => (hP S h hp).tabOk h) (fun _ _ _ h => h.2) ?_
  intro S r h hp he
  cases r with
  | none => exact h2 S h hp (next_none h (hP S h hp) he.1)
  | some N =>
    have := next_acc h (hP S h hp) he.1
    exact h1 S N h hp this.1 this.2

theorem allocSt_OwnQ {S : GSt K V} {T cap : Nat} (h : S.Inv C) (hT : T + 1 = S.nTabs) : OwnQ t S (S.allocSt T cap) :=
  OwnQ.quiet rfl rfl rfl rfl rfl rfl rfl rfl rfl rfl rfl rfl

theorem tri_allocNextLocked [hA : SysA C Ap] {T : Table} {capacity : Option Nat}
    (hcap : ∀ c, capacity = some c → C.initialCapacity ≤ c ∧ isPow2 c) :
    Tri C t Ap (Mq t) (fun S : GSt K V => Acc t T S ∧ Full C T.id S ∧ Locked t T.id S) (allocNextLocked C capacity T)
      (fun N S => Acc t N S ∧ N.id = T.id + 1) := by
  unfold allocNextLocked
  refine Tri.bind (fun r S => match r with
    | some N => Acc t T S ∧ Locked t T.id S ∧ Acc t N S ∧ N.id = T.id + 1
    | none => (Acc t T S ∧ Full C T.id S) ∧ LockedLast t T.id S) ?_ ?_
  · refine tri_loadNext (fun S _ h => h.1) _ ?_ ?_
    · intro S N h hp h1 h2; exact ⟨hp.1, hp.2.2, h1, h2⟩
    · intro S h hp h1
      refine ⟨⟨hp.1, hp.2.1⟩, hp.2.2, ?_⟩
      rw [h.s.next _ hp.1.2.1, if_neg (by omega)]
  rintro (_ | N)
  · -- allocate
    simp only
    refine Tri.bind (fun _ S => (Acc t T S ∧ Full C T.id S) ∧ LockedLast t T.id S) ?_ ?_
    · -- `len` makes no changes
      have : Tri C t Ap (fun S S' => S' = S) (fun _ : GSt K V => True) (len C) (fun _ _ => True) := tri_len (fun _ => rfl)
      have h2 := Hoare.frame (L := rg K V C) (F := fun S : GSt K V => (Acc t T S ∧ Full C T.id S) ∧ LockedLast t T.id S) this
        (by intro S S' _ _ h; subst h; exact id)
      exact ((Tri.guar h2 (by intro S S' h; subst h; exact Mq.refl t _)).conseq (fun S _ h => ⟨trivial, h⟩)
        (fun _ S _ h => h.2))
    intro active
    have hpo : ∀ {r : PanicReason}, SysPanic C r → Tri C t Ap (Mq t)
        (fun S : GSt K V => (Acc t T S ∧ Full C T.id S) ∧ LockedLast t T.id S)
        (do A.poison T.id; Prog.panic r) (fun N S => Acc t N S ∧ N.id = T.id + 1) := by
      intro r hr
      refine Tri.bind (fun _ _ => True) ?_ (fun _ => Tri.panic fun _ _ _ => hA.ok r _ hr)
      exact (tri_unlock (l := .poisoned) (.inr ⟨rfl, rfl⟩)).pre fun S _ h => ⟨h.1.1, h.2.1⟩
    refine Tri.ite (fun hn1 => ?_) (fun _ => hpo (.inr (.inl rfl)))
    refine Tri.ite (fun hn2 => ?_) (fun hn2 => ?_)
    rotate_left
    · refine Tri.extract (φ := isPow2 T.len ∧ 8 ≤ T.len) (fun S h hp => ?_) fun hT => hpo (.inl ⟨rfl, fun hI => hn2 ?_⟩)
      · have := h.s.cap _ hp.1.1.2.1
        rw [hp.1.1.len h]; exact ⟨this.1, this.2.1⟩
      · rw [isPow2B_iff]
        cases capacity with
        | none => exact nextCapacity_pow2 _ hI hT.1 hT.2
        | some c => exact (hcap c rfl).2
    refine Tri.ite (fun hn3 => ?_) (fun hn3 => hpo (.inr (.inr (.inl ⟨rfl, _, by simpa using hn3⟩))))
    refine Tri.bind (fun N S => (Acc t T S ∧ Locked t T.id S) ∧ Acc t N S ∧ N.id = T.id + 1) ?_ ?_
    · refine Tri.act (fun S h hp => hp.1.1.tabOk h) ?_
      intro S r σ'' h hp he
      have hlen : S.nTabs = T.id + 1 := by
        have h1 := h.s.next _ hp.1.1.2.1
        rw [hp.2.2] at h1
        have := hp.1.1.2.1
        split at h1
        · cases h1
        · omega
      have hge : C.initialCapacity ≤ capacity.getD (nextCapacity C.initialCapacity T.len active) := by
        cases capacity with
        | none =>
          show C.initialCapacity ≤ nextCapacity _ _ _
          apply nextCapacity_ge
          rw [hp.1.1.len h]; exact (h.s.cap _ hp.1.1.2.1).2.2
        | some c => exact (hcap c rfl).1
      obtain ⟨he1, he2⟩ := he
      subst he1
      refine ⟨S.allocSt T.id _, rfl, allocSt_Inv h hlen.symm (isPow2_max hn2) (Nat.le_max_right _ _)
        (Nat.le_trans hge (Nat.le_max_left _ _)) hp.1.2, allocSt_Evo h hlen.symm,
        fun t' ht => allocSt_Own h ht hlen.symm hp.2.1, ⟨allocSt_Evo h hlen.symm, allocSt_OwnQ h hlen.symm⟩, ?_⟩
      have hm : Mq t S (S.allocSt T.id (max (capacity.getD (nextCapacity C.initialCapacity T.len active)) 8)) :=
        ⟨allocSt_Evo h hlen.symm, allocSt_OwnQ h hlen.symm⟩
      have hid : r.id = T.id + 1 := by rw [he2, ← hlen]; rfl
      refine ⟨⟨Inert.inert (C := C) (t := t) _ _ h (allocSt_Inv h hlen.symm (isPow2_max hn2) (Nat.le_max_right _ _)
        (Nat.le_trans hge (Nat.le_max_left _ _)) hp.1.2) hm.1 hm.2.toOwn0 hp.1.1, ?_⟩, ⟨hp.1.1.1, ?_, ?_, ?_⟩, hid⟩
      · show (S.allocSt T.id _).lock T.id = _
        rw [(allocSt_same h.s).2.2.2.2.2.1]; exact hp.2.1
      · rw [hid]; show T.id + 1 < S.nTabs + 1; omega
      · rw [he2]; rfl
      · rw [hid]; have := hp.1.1.2.2.2; show S.pr t ≤ _; omega
    · intro N
      refine Tri.bind (fun _ S => Acc t N S ∧ N.id = T.id + 1) ?_ (fun _ => Tri.ret fun _ _ h => h)
      exact ((tri_unlock (t := t) (Ap := Ap) (C := C) (T := T) (l := .free) (a := .unlock T.id) (.inl ⟨rfl, rfl⟩)).frameQ (fun S => Acc t N S ∧ N.id = T.id + 1)).post
        (fun _ _ _ h => h.2)
  · simp only
    refine Tri.bind (fun _ S => Acc t N S ∧ N.id = T.id + 1) ?_ (fun _ => Tri.ret fun _ _ h => h)
    exact ((tri_unlock (t := t) (Ap := Ap) (C := C) (T := T) (l := .free) (a := .unlock T.id) (.inl ⟨rfl, rfl⟩)).frameQ (fun S => Acc t N S ∧ N.id = T.id + 1)).conseq
      (fun _ _ h => ⟨⟨h.1, h.2.1⟩, h.2.2⟩) (fun _ _ _ h => h.2)

theorem tri_getOrAllocNext [hA : SysA C Ap] {T : Table} {capacity : Option Nat}
    (hcap : ∀ c, capacity = some c → C.initialCapacity ≤ c ∧ isPow2 c) :
    Tri C t Ap (Mq t) (fun S : GSt K V => Acc t T S ∧ Full C T.id S) (getOrAllocNext C capacity T)
      (fun N S => Acc t N S ∧ N.id = T.id + 1) := by
  unfold getOrAllocNext
  refine Tri.bind (fun r S => (Acc t T S ∧ Full C T.id S) ∧ ∀ N, r = some N → Acc t N S ∧ N.id = T.id + 1) ?_ ?_
  · refine tri_loadNext (fun S _ h => h.1) _ ?_ ?_
    · rintro S N h hp h1 h2; exact ⟨hp, by rintro _ ⟨⟩; exact ⟨h1, h2⟩⟩
    · rintro S h hp h1; exact ⟨hp, by rintro _ ⟨⟩⟩
  rintro (_ | N)
  · simp only
    have hlock : ∀ a : Act K V Bool, (a = .tryLock T.id ∨ a = .lockWait T.id) →
        Tri C t Ap (Mq t) (fun S : GSt K V => (Acc t T S ∧ Full C T.id S)) (.prim a)
          (fun b S => (Acc t T S ∧ Full C T.id S) ∧ (b = true → Locked t T.id S)) := by
      intro a ha
      refine Tri.act (fun S h hp => ?_) ?_
      · rcases ha with rfl | rfl <;> exact hp.1.tabOk h
      intro S r σ'' h hp he
      have he' : (S.lock T.id = .free ∧ r = true ∧
            σ'' = { S.toSt with lock := fun T' => if T' = T.id then .held t else S.lock T' }) ∨
          (r = false ∧ σ'' = S.toSt) := by
        rcases ha with rfl | rfl <;> rcases he with he | he
        · exact .inl he
        · exact .inr he.2
        · exact .inl he
        · exact .inr he.2
      rcases he' with ⟨h1, rfl, rfl⟩ | ⟨rfl, rfl⟩
      · have hm : Mq t S (S.lockSt T.id (.held t)) := ⟨lockSt_Evo, lockSt_OwnQ⟩
        have hi' : (S.lockSt T.id (.held t)).Inv C := lockSt_Inv h hp.1.2.1
        refine ⟨S.lockSt T.id (.held t), rfl, hi', lockSt_Evo, fun t' ht => lockSt_Own ?_ ?_, hm, ?_, ?_⟩
        · rw [h1]; simp
        · intro h'; cases h'; exact ht rfl
        · exact Inert.inert (C := C) (t := t) (P := fun S => Acc t T S ∧ Full C T.id S) _ _ h hi' hm.1 hm.2.toOwn0 hp
        · intro _; show (if T.id = T.id then Lock.held t else _) = _; simp
      · exact ⟨S, rfl, h, Evo.refl S, fun t' _ => Own.refl t' S, Mq.refl t S, hp, by simp⟩
    refine Tri.bind _ ((hlock _ (.inl rfl)).pre fun S _ h => h.1) ?_
    intro b
    refine Tri.ite (fun hb => ?_) (fun _ => ?_)
    · exact (tri_allocNextLocked hcap).pre fun S _ h => ⟨h.1.1, h.1.2, h.2 hb⟩
    · refine Tri.bind (fun r S => (Acc t T S ∧ Full C T.id S) ∧ ∀ N, r = some N → Acc t N S ∧ N.id = T.id + 1) ?_ ?_
      · refine (Tri.loop (fun _ S => Acc t T S ∧ Full C T.id S) ?_).pre fun S _ h => h.1
        intro spun
        refine Tri.ite (fun _ => ?_) (fun _ => Tri.ret fun S _ h => ⟨h, by rintro _ ⟨⟩⟩)
        refine Tri.bind (fun r S => (Acc t T S ∧ Full C T.id S) ∧ ∀ N, r = some N → Acc t N S ∧ N.id = T.id + 1) ?_ ?_
        · refine tri_loadNext (fun S _ h => h.1) _ ?_ ?_
          · rintro S N h hp h1 h2; exact ⟨hp, by rintro _ ⟨⟩; exact ⟨h1, h2⟩⟩
          · rintro S h hp h1; exact ⟨hp, by rintro _ ⟨⟩⟩
        rintro (_ | N)
        · exact Tri.ret fun S _ h => h.1
        · exact Tri.ret fun S _ h => ⟨h.1, by rintro _ ⟨⟩; exact h.2 N rfl⟩
      · rintro (_ | N)
        · simp only
          refine Tri.bind _ ((hlock _ (.inr rfl)).pre fun S _ h => h.1) ?_
          intro b
          refine Tri.ite (fun hb => ?_) (fun _ => Tri.panic fun _ _ _ => hA.ok _ _ (.inr (.inr (.inr rfl))))
          exact (tri_allocNextLocked hcap).pre fun S _ h => ⟨h.1.1, h.1.2, h.2 hb⟩
        · exact Tri.ret fun S _ h => h.2 N rfl
  · exact Tri.ret fun S _ h => h.2 N rfl

end Papaya
