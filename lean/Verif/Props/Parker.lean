import Verif.Pure.Parker
import Mathlib.Tactic.Tauto

/-! Property theorems C25 and C26. -/

namespace Papaya.ParkerM

open Function

variable {A : Type} {N : Nat}

/-- An unparking thread that has not yet emptied the registrations of the key. -/
def PC.pre (p a : Nat) : PC A → Prop
  | .u0 p' a' => p' = p ∧ a' = a
  | .u1 p' a' => p' = p ∧ a' = a
  | _ => False

/-- An unparking thread that still has to unpark thread `w`. -/
def PC.willWake (p a w : Nat) : PC A → Prop
  | .u2 p' a' l => p' = p ∧ a' = a ∧ w ∈ l
  | .u3 p' a' l => p' = p ∧ a' = a ∧ w ∈ l
  | _ => False

def St.registered (s : St A N) (p a id : Nat) : Prop := ∃ r ∈ s.reg, r.p = p ∧ r.a = a ∧ r.id = id

/-- Wakeup invariant for one key: a thread that went to sleep has, if the condition has become false, an unparker
that is going to deal with it. -/
structure WInv (p a : Nat) (s : St A N) : Prop where
  /-- registrations are made by their thread -/
  own : ∀ (t : Fin N) (r : Reg), r ∈ s.reg → (s.pc t).holds r.p r.a r.id → r.t = t
  /-- a sleeping thread whose condition is false and which is still registered will be found -/
  asleep : ∀ (t : Fin N) c id, (s.pc t = .p4 p a c id ∨ s.pc t = .p5 p a c id) → c (s.val a) = false →
    s.registered p a id → ∃ u, (s.pc u).pre p a
  /-- a thread (about to go) asleep which is not registered any more has its token or is about to get it -/
  woken : ∀ (t : Fin N) c id, (s.pc t = .p2 p a c id ∨ s.pc t = .p4 p a c id) → ¬ s.registered p a id →
    s.token t = true ∨ ∃ u, (s.pc u).willWake p a t
  /-- ids in use are not handed out again -/
  le : ∀ (t : Fin N) p' a' id, (s.pc t).holds p' a' id → id ≤ s.count p'
  inj : ∀ (t t' : Fin N) p' a' a'' id, (s.pc t).holds p' a' id → (s.pc t').holds p' a'' id → t = t'

theorem WInv.init {p a : Nat} {s : St A N} (h : Init s) : WInv p a s := by
  obtain ⟨_, h2, h3⟩ := h
  refine ⟨?_, ?_, ?_, ?_, ?_⟩
  · intro t r hr; rw [h2] at hr; simp at hr
  · intro t c id hp; simp [h3] at hp
  · intro t c id hp; simp [h3] at hp
  · intro t p' a' id h; rw [h3] at h; exact h.elim
  · intro t t' p' a' a'' id h; rw [h3] at h; exact h.elim

theorem go_pc (s : St A N) (t u : Fin N) (q : PC A) : (s.go t q).pc u = if u = t then q else s.pc u := by
  unfold St.go; by_cases h : u = t
  · subst h; simp
  · simp [h]

/-- Steps that only move one thread and possibly change tokens. -/
theorem WInv.move {p a : Nat} {s : St A N} (hw : WInv p a s) (t : Fin N) (q : PC A) (tok : Nat → Bool)
    (hh : ∀ p' a' id, q.holds p' a' id → (s.pc t).holds p' a' id)
    (hpre : (s.pc t).pre p a → q.pre p a ∨ ∀ id, ¬ s.registered p a id)
    (hww : ∀ w, (s.pc t).willWake p a w → q.willWake p a w ∨ tok w = true)
    (htok : ∀ w : Fin N, s.token w = true → tok w = true ∨ (w = t ∧ ∀ c id, q ≠ .p2 p a c id ∧ q ≠ .p4 p a c id))
    (hsleep : ∀ c id, (q = .p4 p a c id ∨ q = .p5 p a c id) → c (s.val a) = true ∨
      (s.pc t = .p4 p a c id ∨ s.pc t = .p5 p a c id))
    (hwoken : ∀ c id, (q = .p2 p a c id ∨ q = .p4 p a c id) → s.registered p a id ∨
      (s.pc t = .p2 p a c id ∨ s.pc t = .p4 p a c id)) :
    WInv p a ({ s with token := tok }.go t q) := by
  have holds' : ∀ u p' a' id, (({ s with token := tok }.go t q).pc u).holds p' a' id → (s.pc u).holds p' a' id := by
    intro u p' a' id h
    rw [go_pc] at h
    split at h
    · subst_vars; exact hh _ _ _ h
    · exact h
  refine ⟨?_, ?_, ?_, ?_, ?_⟩
  · intro u r hr h; exact hw.own u r hr (holds' _ _ _ _ h)
  · intro u c id h hc hreg
    have old : ∃ x, (s.pc x).pre p a := by
      rw [go_pc] at h
      split at h
      · subst_vars
        rcases hsleep c id h with h1 | h1
        · exact absurd hc (by show ¬ c (s.val a) = false; simp [h1])
        · exact hw.asleep _ c id h1 hc hreg
      · exact hw.asleep _ c id h hc hreg
    obtain ⟨x, hx⟩ := old
    by_cases hxt : x = t
    · subst hxt
      rcases hpre hx with h1 | h1
      · exact ⟨x, by rw [go_pc, if_pos rfl]; exact h1⟩
      · exact absurd hreg (h1 id)
    · exact ⟨x, by rw [go_pc, if_neg hxt]; exact hx⟩
  · intro u c id h hreg
    have old : s.token u = true ∨ ∃ x, (s.pc x).willWake p a u := by
      rw [go_pc] at h
      split at h
      · subst_vars
        rcases hwoken c id h with h1 | h1
        · exact absurd h1 hreg
        · exact hw.woken _ c id h1 hreg
      · exact hw.woken _ c id h hreg
    rcases old with h1 | ⟨x, hx⟩
    · rcases htok u h1 with h2 | ⟨rfl, h2⟩
      · exact .inl h2
      · rw [go_pc, if_pos rfl] at h
        rcases h with h | h
        · exact absurd h (h2 c id).1
        · exact absurd h (h2 c id).2
    · by_cases hxt : x = t
      · subst hxt
        rcases hww u hx with h1 | h1
        · exact .inr ⟨x, by rw [go_pc, if_pos rfl]; exact h1⟩
        · exact .inl h1
      · exact .inr ⟨x, by rw [go_pc, if_neg hxt]; exact hx⟩
  · intro u p' a' id h; exact hw.le u p' a' id (holds' _ _ _ _ h)
  · intro u u' p' a' a'' id h h'
    exact hw.inj u u' p' a' a'' id (holds' _ _ _ _ h) (holds' _ _ _ _ h')

theorem WInv.step {ok : Nat → Nat → Nat → Prop} {p a : Nat} (hok : ∀ p' a', ok a p' a' → p' = p ∧ a' = a)
    {s s' : St A N} (hinv : Inv s) (hw : WInv p a s) (hs : Step ok s s') : WInv p a s' := by
  cases hs with
  | callPark t p' a' c h =>
    apply hw.move t _ s.token <;> simp [h, PC.holds, PC.pre, PC.willWake] <;> tauto
  | checkFalse t p' a' c id h hc =>
    apply hw.move t _ s.token <;> simp [h, PC.holds, PC.pre, PC.willWake] <;> tauto
  | removeNone t p' a' id h hr =>
    apply hw.move t _ s.token <;> simp [h, PC.holds, PC.pre, PC.willWake] <;> tauto
  | gone t p' a' c id h hr =>
    apply hw.move t _ s.token <;> simp [h, PC.holds, PC.pre, PC.willWake] <;> tauto
  | finalFalse t p' a' c h hc =>
    apply hw.move t _ s.token <;> simp [h, PC.holds, PC.pre, PC.willWake] <;> tauto
  | finalTrue t p' a' c h hc =>
    apply hw.move t _ s.token <;> simp [h, PC.holds, PC.pre, PC.willWake] <;> tauto
  | unparkSome t p' a' h h0 =>
    apply hw.move t _ s.token <;> simp [h, PC.holds, PC.pre, PC.willWake] <;> tauto
  | unparkDone t p' a' h =>
    apply hw.move t _ s.token <;> simp [h, PC.holds, PC.pre, PC.willWake] <;> tauto
  | unparkNone t p' a' h h0 =>
    apply hw.move t _ s.token <;> simp [h, PC.holds, PC.pre, PC.willWake]
    · rintro rfl rfl id ⟨r, hr, h1, _, _⟩
      have := hinv.pending p'
      rw [h0] at this
      have h2 := sum_debt_nonneg p' s.pc
      have h3 : (s.reg.filter fun r => r.p = p').card = 0 := by omega
      rw [Finset.card_eq_zero] at h3
      have : r ∈ s.reg.filter fun r => r.p = p' := Finset.mem_filter.2 ⟨hr, h1⟩
      rw [h3] at this
      simp at this
    · tauto
  | checkTrue t p' a' c id h hc =>
    apply hw.move t _ s.token <;> simp [h, PC.holds, PC.pre, PC.willWake]
    · tauto
    · rintro c' id' rfl rfl rfl rfl; exact hc
    · tauto
  | wake t p' a' c id h =>
    apply hw.move t _ _ <;> simp [h, PC.holds, PC.pre, PC.willWake]
    · intro w hw'
      by_cases hwt : w = t
      · exact .inr hwt
      · left; rw [update_of_ne (fun h => hwt (Fin.ext h))]; exact hw'
    · tauto
  | still t p' a' c id h hr =>
    apply hw.move t _ s.token <;> simp [h, PC.holds, PC.pre, PC.willWake]
    · tauto
    · tauto
    · rintro c' id' rfl rfl rfl rfl; exact hr
  | wakeOne t p' a' u l h =>
    apply hw.move t _ _ <;> simp [h, PC.holds, PC.pre, PC.willWake]
    · rintro w rfl rfl (rfl | hl)
      · right; simp
      · left; exact ⟨rfl, rfl, hl⟩
    · intro w hw'
      left
      by_cases hwt : (w : Nat) = u
      · rw [hwt]; simp
      · rw [update_of_ne hwt]; exact hw'
  | announce t p' a' c h =>
    have := hw.move t (.p1 p' a' c) s.token (by simp [PC.holds]) (by simp [h, PC.pre])
      (by simp [h, PC.willWake]) (by tauto) (by simp) (by simp)
    exact ⟨this.own, this.asleep, this.woken, this.le, this.inj⟩
  | retract t p' h =>
    have := hw.move t .idle s.token (by simp [PC.holds]) (by simp [h, PC.pre])
      (by simp [h, PC.willWake]) (by tauto) (by simp) (by simp)
    exact ⟨this.own, this.asleep, this.woken, this.le, this.inj⟩
  | subtract t p' a' l h =>
    have := hw.move t (.u3 p' a' l) s.token (by simp [PC.holds]) (by simp [h, PC.pre])
      (by simp [h, PC.willWake]; tauto) (by tauto) (by simp) (by simp)
    exact ⟨this.own, this.asleep, this.woken, this.le, this.inj⟩
  | store t b p' a' v h hk =>
    have := hw.move t (.u0 p' a') s.token (by simp [PC.holds]) (by simp [h, PC.pre])
      (by simp [h, PC.willWake]) (by tauto) (by simp) (by simp)
    refine ⟨this.own, ?_, this.woken, this.le, this.inj⟩
    intro u c id hu hc hreg
    by_cases hb : b = a
    · subst hb
      obtain ⟨rfl, rfl⟩ := hok _ _ hk
      exact ⟨t, by rw [go_pc, if_pos rfl]; exact ⟨rfl, rfl⟩⟩
    · apply this.asleep u c id hu _ hreg
      have : update s.val b v a = s.val a := update_of_ne (fun h => hb h.symm) _ _
      simpa [St.go, this] using hc
  | register t p' a' c h =>
    have hne : ∀ (u : Fin N) a'' id, (s.pc u).holds p' a'' id → id ≠ s.count p' + 1 := by
      intro u a'' id hu; have := hw.le u _ _ _ hu; omega
    have hreg : ∀ (u : Fin N) p'' a'' id, (s.pc u).holds p'' a'' id →
        (({ s with count := update s.count p' (s.count p' + 1),
                   reg := insert (⟨p', a', s.count p' + 1, t⟩ : Reg) s.reg }.go t
            (.p2 p' a' c (s.count p' + 1))).registered p'' a'' id ↔ s.registered p'' a'' id) := by
      intro u p'' a'' id hu
      constructor
      · rintro ⟨r, hr, h1, h2, h3⟩
        rcases Finset.mem_insert.1 hr with rfl | hr
        · simp only at h1 h2 h3; subst h1 h2 h3
          exact absurd rfl (hne _ _ _ hu)
        · exact ⟨r, hr, h1, h2, h3⟩
      · rintro ⟨r, hr, h1⟩
        exact ⟨r, Finset.mem_insert_of_mem hr, h1⟩
    refine ⟨?_, ?_, ?_, ?_, ?_⟩
    · intro u r hr hu
      rw [go_pc] at hu
      rcases Finset.mem_insert.1 hr with rfl | hr
      · split at hu
        · subst_vars; rfl
        · exact absurd rfl (hne _ _ _ hu)
      · split at hu
        · obtain ⟨h1, h2, h3⟩ := hu
          have := hinv.le r hr
          rw [← h1, ← h3] at this
          omega
        · exact hw.own u r hr hu
    · intro u c' id hu hc hr
      rw [go_pc] at hu
      split at hu
      · simp at hu
      · rename_i hut
        have hh : (s.pc u).holds p a id := by rcases hu with hu | hu <;> rw [hu] <;> exact ⟨rfl, rfl, rfl⟩
        obtain ⟨x, hx⟩ := hw.asleep u c' id hu hc ((hreg u _ _ _ hh).1 hr)
        refine ⟨x, ?_⟩
        rw [go_pc]
        split
        · subst_vars; rw [h] at hx; exact hx.elim
        · exact hx
    · intro u c' id hu hr
      rw [go_pc] at hu
      split at hu
      · exfalso
        rcases hu with hu | hu
        · cases hu
          exact hr ⟨_, Finset.mem_insert_self _ _, rfl, rfl, rfl⟩
        · cases hu
      · rename_i hut
        have hh : (s.pc u).holds p a id := by rcases hu with hu | hu <;> rw [hu] <;> exact ⟨rfl, rfl, rfl⟩
        rcases hw.woken u c' id hu (fun hx => hr ((hreg u _ _ _ hh).2 hx)) with h1 | ⟨x, hx⟩
        · exact .inl h1
        · refine .inr ⟨x, ?_⟩
          rw [go_pc]
          split
          · subst_vars; rw [h] at hx; exact hx.elim
          · exact hx
    · intro u p'' a'' id hu
      rw [go_pc] at hu
      show id ≤ update s.count p' (s.count p' + 1) p''
      split at hu
      · obtain ⟨h1, h2, h3⟩ := hu
        subst h1 h3; simp
      · have := hw.le u _ _ _ hu
        by_cases hp : p'' = p'
        · subst hp; rw [update_self]; omega
        · rw [update_of_ne hp]; exact this
    · intro u u' p'' a2 a3 id hu hu'
      rw [go_pc] at hu hu'
      split at hu <;> split at hu'
      · subst_vars; rfl
      · obtain ⟨h1, h2, h3⟩ := hu
        subst h1 h3
        exact absurd rfl (hne _ _ _ hu')
      · obtain ⟨h1, h2, h3⟩ := hu'
        subst h1 h3
        exact absurd rfl (hne _ _ _ hu)
      · exact hw.inj _ _ _ _ _ _ hu hu'
  | removeSome t p' a' id h hr =>
    have := hw.move t (.p3b p') s.token (by simp [PC.holds]) (by simp [h, PC.pre])
      (by simp [h, PC.willWake]) (by tauto) (by simp) (by simp)
    refine ⟨?_, ?_, ?_, this.le, this.inj⟩
    · intro u r hr' hu; exact this.own u r (Finset.mem_of_mem_filter _ hr') hu
    · intro u c id' hu hc hreg
      obtain ⟨r, hr', h1⟩ := hreg
      exact this.asleep u c id' hu hc ⟨r, Finset.mem_of_mem_filter _ hr', h1⟩
    · intro u c id' hu hreg
      refine this.woken u c id' hu ?_
      rintro ⟨r, hr', h1, h2, h3⟩
      apply hreg
      refine ⟨r, Finset.mem_filter.2 ⟨hr', ?_⟩, h1, h2, h3⟩
      rintro ⟨h4, h5, h6⟩
      rw [go_pc] at hu
      split at hu
      · simp at hu
      · rename_i hut
        refine hut (hw.inj u t p a a' id' ?_ ?_)
        · rcases hu with hu | hu <;> rw [hu] <;> exact ⟨rfl, rfl, rfl⟩
        · rw [h]; exact ⟨h4.symm.trans h1, rfl, h6.symm.trans h3⟩
  | take t p' a' l h hl hm =>
    refine ⟨?_, ?_, ?_, ?_, ?_⟩
    · intro u r hr hu
      rw [go_pc] at hu
      split at hu
      · exact hu.elim
      · exact hw.own u r (Finset.mem_of_mem_filter _ hr) hu
    · intro u c id hu hc hreg
      rw [go_pc] at hu
      split at hu
      · simp at hu
      · obtain ⟨r, hr, h1, h2, h3⟩ := hreg
        obtain ⟨hr, hn⟩ := Finset.mem_filter.1 hr
        obtain ⟨x, hx⟩ := hw.asleep u c id hu hc ⟨r, hr, h1, h2, h3⟩
        refine ⟨x, ?_⟩
        rw [go_pc]
        split
        · subst_vars
          rw [h] at hx
          exact absurd ⟨hx.1.symm, hx.2.symm⟩ hn
        · exact hx
    · intro u c id hu hreg
      rw [go_pc] at hu
      split at hu
      · simp at hu
      · by_cases hold : s.registered p a id
        · obtain ⟨r, hr, h1, h2, h3⟩ := hold
          by_cases hk : p = p' ∧ a = a'
          · right
            refine ⟨t, ?_⟩
            rw [go_pc, if_pos rfl]
            have hrt : r.t = u := by
              apply hw.own u r hr
              rw [h1, h2, h3]
              rcases hu with hu | hu <;> rw [hu] <;> exact ⟨rfl, rfl, rfl⟩
            refine ⟨hk.1.symm, hk.2.symm, ?_⟩
            rw [← hrt]
            exact hm r hr (h1.trans hk.1) (h2.trans hk.2)
          · exfalso
            apply hreg
            refine ⟨r, Finset.mem_filter.2 ⟨hr, ?_⟩, h1, h2, h3⟩
            rintro ⟨h4, h5⟩
            exact hk ⟨h1.symm.trans h4, h2.symm.trans h5⟩
        · rcases hw.woken u c id hu hold with h1 | ⟨x, hx⟩
          · exact .inl h1
          · refine .inr ⟨x, ?_⟩
            rw [go_pc]
            split
            · subst_vars; rw [h] at hx; exact hx.elim
            · exact hx
    · intro u p'' a'' id hu
      rw [go_pc] at hu
      split at hu
      · exact hu.elim
      · exact hw.le u _ _ _ hu
    · intro u u' p'' a2 a3 id hu hu'
      rw [go_pc] at hu hu'
      split at hu
      · exact hu.elim
      · split at hu'
        · exact hu'.elim
        · exact hw.inj _ _ _ _ _ _ hu hu'

theorem WInv.reach {ok : Nat → Nat → Nat → Prop} {p a : Nat} (hok : ∀ p' a', ok a p' a' → p' = p ∧ a' = a)
    {s : St A N} (h : Reach ok s) : WInv p a s := by
  induction h with
  | init h => exact WInv.init h
  | step h hs ih => exact ih.step hok (Inv.reach h) hs

/-- C25. If every store to the atomic `a` is followed by an `unpark` on the same parker and the same atomic, then in
every reachable state of any number of threads in which no such `unpark` is in progress, a thread blocked in
`park(a, c)` whose condition is false has its wakeup token: it is runnable, no wakeup is lost. -/
theorem C25_no_lost_wakeup {ok : Nat → Nat → Nat → Prop} (p a : Nat)
    (hok : ∀ p' a', ok a p' a' → p' = p ∧ a' = a) {s : St A N} (h : Reach ok s)
    (hq : ∀ u, ¬ (s.pc u).unparking p a) (t : Fin N) (c : A → Bool)
    (hb : (s.pc t).blocked p a c) (hc : c (s.val a) = false) : s.token t = true := by
  obtain ⟨id, hb⟩ := hb
  have hw := WInv.reach hok h
  by_cases hr : s.registered p a id
  · obtain ⟨u, hu⟩ := hw.asleep t c id (.inl hb) hc hr
    exfalso
    apply hq u
    revert hu
    cases s.pc u <;> simp [PC.pre, PC.unparking]
  · rcases hw.woken t c id (.inr hb) hr with h1 | ⟨u, hu⟩
    · exact h1
    · exfalso
      apply hq u
      revert hu
      cases s.pc u <;> simp [PC.willWake, PC.unparking] <;> tauto

/-- C25. A call of `park` returns only after the condition was false at an instant during the call: every execution
that leads from inside the call to outside of it passes through a state, still in the call, in which the
condition is false. -/
theorem C25_returns_after_false {ok : Nat → Nat → Nat → Prop} {s s' : St A N} {l : List (St A N)}
    (hr : Run ok s l s') (t : Fin N) (p a : Nat) (c : A → Bool) (hin : (s.pc t).waiting p a c)
    (hout : ¬ (s'.pc t).waiting p a c) :
    ∃ x ∈ l, (x.pc t).waiting p a c ∧ c (x.val a) = false := by
  induction hr with
  | nil => exact absurd hin hout
  | @snoc l s' s'' hr hs ih =>
    by_cases hm : (s'.pc t).waiting p a c
    · refine ⟨s', ?_, hm, ?_⟩
      · cases hr <;> simp
      · have other : ∀ (x : St A N) (u : Fin N) (q : PC A), x.pc = s'.pc → u ≠ t → s'' = x.go u q → False := by
          intro x u q hx hu he
          apply hout
          rw [he, go_pc, if_neg (fun h => hu h.symm), hx]
          exact hm
        have self : ∀ (x : St A N) (u : Fin N) (q0 q : PC A), x.pc = s'.pc → s'.pc u = q0 →
            (∀ p a c, q0.waiting p a c → q.waiting p a c) → s'' = x.go u q → False := by
          intro x u q0 q hx hq hw he
          by_cases hu : u = t
          · subst hu
            apply hout
            rw [he, go_pc, if_pos rfl]
            apply hw; rw [← hq]; exact hm
          · exact other x u q hx hu he
        cases hs with
        | checkFalse u p' a' c' id h hc =>
          by_cases hu : u = t
          · subst hu
            rw [h] at hm
            obtain ⟨_, rfl, rfl⟩ := hm
            exact hc
          · exact (other _ u _ rfl hu rfl).elim
        | finalFalse u p' a' c' h hc =>
          by_cases hu : u = t
          · subst hu
            rw [h] at hm
            obtain ⟨_, rfl, rfl⟩ := hm
            exact hc
          · exact (other _ u _ rfl hu rfl).elim
        | callPark u p' a' c' h => exact (self _ u _ _ rfl h (by simp [PC.waiting]) rfl).elim
        | store u b p' a' v h hk => exact (self _ u _ _ (by rfl) h (by simp [PC.waiting]) rfl).elim
        | announce u p' a' c' h => exact (self _ u _ _ (by rfl) h (by simp [PC.waiting]) rfl).elim
        | register u p' a' c' h => exact (self _ u _ _ (by rfl) h (by simp [PC.waiting]) rfl).elim
        | checkTrue u p' a' c' id h hc => exact (self _ u _ _ (by rfl) h (by simp [PC.waiting]) rfl).elim
        | removeSome u p' a' id h hr => exact (self _ u _ _ (by rfl) h (by simp [PC.waiting]) rfl).elim
        | removeNone u p' a' id h hr => exact (self _ u _ _ (by rfl) h (by simp [PC.waiting]) rfl).elim
        | retract u p' h => exact (self _ u _ _ (by rfl) h (by simp [PC.waiting]) rfl).elim
        | wake u p' a' c' id h => exact (self _ u _ _ (by rfl) h (by simp [PC.waiting]) rfl).elim
        | still u p' a' c' id h hr => exact (self _ u _ _ (by rfl) h (by simp [PC.waiting]) rfl).elim
        | gone u p' a' c' id h hr => exact (self _ u _ _ (by rfl) h (by simp [PC.waiting]) rfl).elim
        | finalTrue u p' a' c' h hc => exact (self _ u _ _ (by rfl) h (by simp [PC.waiting]) rfl).elim
        | unparkNone u p' a' h h0 => exact (self _ u _ _ (by rfl) h (by simp [PC.waiting]) rfl).elim
        | unparkSome u p' a' h h0 => exact (self _ u _ _ (by rfl) h (by simp [PC.waiting]) rfl).elim
        | take u p' a' l h hl hm => exact (self _ u _ _ (by rfl) h (by simp [PC.waiting]) rfl).elim
        | subtract u p' a' l h => exact (self _ u _ _ (by rfl) h (by simp [PC.waiting]) rfl).elim
        | wakeOne u p' a' w l h => exact (self _ u _ _ (by rfl) h (by simp [PC.waiting]) rfl).elim
        | unparkDone u p' a' h => exact (self _ u _ _ (by rfl) h (by simp [PC.waiting]) rfl).elim
    · obtain ⟨x, hx, h1⟩ := ih hm
      exact ⟨x, by simp [hx], h1⟩

/-- C25. `pending` (an unsigned counter) never underflows. -/
theorem C25_pending_nonneg {ok : Nat → Nat → Nat → Prop} {s : St A N} (h : Reach ok s) (p : Nat) :
    0 ≤ s.pending p := by
  rw [(Inv.reach h).pending p]
  have := sum_debt_nonneg p s.pc
  omega

/-- Non-vacuity of C25: a thread parks on a status (value 0 = pending) and another one stores 1 and unparks it; in
the state reached the waiter is blocked with its token set. -/
example : ∃ s : St Nat 2, Reach (fun b p a => p = 5 ∧ a = b) s ∧ (∀ u, ¬ (s.pc u).unparking 5 7) ∧
    (s.pc 0).blocked 5 7 (fun x => x == 0) ∧ s.val 7 = 1 := by
  let s0 : St Nat 2 := ⟨fun _ => 0, fun _ => 0, fun _ => 0, ∅, fun _ => false, fun _ => .idle⟩
  have r0 : Reach (fun b p a => p = 5 ∧ a = b) s0 := .init ⟨fun _ => rfl, rfl, fun _ => rfl⟩
  have r1 := Reach.step r0 (.callPark _ 0 5 7 (fun x => x == 0) rfl)
  have r2 := Reach.step r1 (.announce _ 0 5 7 (fun x => x == 0) rfl)
  have r3 := Reach.step r2 (.register _ 0 5 7 (fun x => x == 0) rfl)
  have r4 := Reach.step r3 (.checkTrue _ 0 5 7 (fun x => x == 0) 1 rfl rfl)
  have r5 := Reach.step r4 (.store _ 1 7 5 7 1 rfl ⟨rfl, rfl⟩)
  have r6 := Reach.step r5 (.unparkSome _ 1 5 7 rfl (by decide))
  have r7 := Reach.step r6 (.take _ 1 5 7 [0] rfl (by decide) (by decide))
  have r8 := Reach.step r7 (.subtract _ 1 5 7 [0] rfl)
  have r9 := Reach.step r8 (.wakeOne _ 1 5 7 0 [] rfl)
  have r10 := Reach.step r9 (.unparkDone _ 1 5 7 rfl)
  refine ⟨_, r10, ?_, ⟨1, rfl⟩, rfl⟩
  intro u
  rcases u with ⟨u, hu⟩
  match u, hu with
  | 0, _ => exact id
  | 1, _ => exact id

/-- The discipline of `help_copy_blocking` when it aborts the resize into the table `next` — src/raw/mod.rs:2061-2068:
it stores to `next.state().status` (address `nextStatus`) but calls
`table.state().parker.unpark(&table.state().status)`, while the waiters park on `next.state().parker` with the
address of `next.state().status` — src/raw/mod.rs:2087, 2131-2133. -/
def abortSignal (tableParker tableStatus nextStatus : Nat) (b p a : Nat) : Prop :=
  b = nextStatus ∧ p = tableParker ∧ a = tableStatus

/-- `State::PENDING`, `State::ABORTED` — src/raw/mod.rs:85-88, and the condition on which waiters park. -/
def PENDING : Nat := 0
def ABORTED : Nat := 1
def statusPending (x : Nat) : Bool := x == PENDING

/-- C26 is false of the code: there is an execution of a waiter (thread 0) and an aborting copier (thread 1) after
which the status is `ABORTED`, the copier is done, and the waiter is blocked without a wakeup token; and in every
continuation by abort signals, whatever the spurious wakeups, the waiter stays in its `park` call forever. -/
theorem C26_false (tp np ts ns : Nat) (hp : tp ≠ np) :
    ∃ s : St Nat 2, Reach (abortSignal tp ts ns) s ∧
      (s.pc 0).blocked np ns statusPending ∧ s.val ns = ABORTED ∧ s.token 0 = false ∧ s.pc 1 = .idle ∧
      ∀ l s', Run (abortSignal tp ts ns) s l s' → (s'.pc 0).waiting np ns statusPending := by
  let s0 : St Nat 2 := ⟨fun _ => 0, fun _ => 0, fun _ => 0, ∅, fun _ => false, fun _ => .idle⟩
  have r0 : Reach (abortSignal tp ts ns) s0 := .init ⟨fun _ => rfl, rfl, fun _ => rfl⟩
  have r1 := Reach.step r0 (.callPark _ 0 np ns statusPending rfl)
  have r2 := Reach.step r1 (.announce _ 0 np ns statusPending rfl)
  have r3 := Reach.step r2 (.register _ 0 np ns statusPending rfl)
  have r4 := Reach.step r3 (.checkTrue _ 0 np ns statusPending 1 rfl rfl)
  have r5 := Reach.step r4 (.store _ 1 ns tp ts ABORTED rfl ⟨rfl, rfl, rfl⟩)
  have r6 := Reach.step r5 (.unparkNone _ 1 tp ts rfl (by
    show update _ np _ tp = 0
    rw [update_of_ne hp]; rfl))
  refine ⟨_, r6, ⟨1, rfl⟩, by show update _ ns _ ns = _; simp, rfl, rfl, ?_⟩
  intro l s' hr
  -- invariant: the waiter is registered and is blocked or checking; nobody unparks its key
  have key : (∃ r ∈ s'.reg, r.p = np ∧ r.a = ns ∧ r.id = 1) ∧
      (s'.pc 0 = .p4 np ns statusPending 1 ∨ s'.pc 0 = .p5 np ns statusPending 1) ∧
      (∀ (u : Fin 2) p a, (s'.pc u).unparking p a → p = tp) ∧
      (∀ (u : Fin 2) p a id, (s'.pc u).holds p a id → p = np → id = 1 → u = 0) ∧ 1 ≤ s'.count np := by
    induction hr with
    | nil =>
      refine ⟨⟨⟨np, ns, 1, 0⟩, by simp [St.go, s0], rfl, rfl, rfl⟩, .inl rfl, ?_, ?_, ?_⟩
      · intro u p a h
        match u with
        | 0 => exact h.elim
        | 1 => exact h.elim
      · intro u p a id h
        match u with
        | 0 => intros; rfl
        | 1 => exact h.elim
      · simp [St.go, s0]
    | @snoc l s' s'' hr hs ih =>
      obtain ⟨⟨r, hr1, hr2, hr3, hr4⟩, hpc, hun, hid, hcnt⟩ := ih
      have hnot0 : ∀ (u : Fin 2) (q : PC Nat), s'.pc u = q → q ≠ .p4 np ns statusPending 1 →
          q ≠ .p5 np ns statusPending 1 → u ≠ 0 := by
        rintro u q h1 h2 h3 rfl
        rw [h1] at hpc
        rcases hpc with h | h
        · exact h2 h
        · exact h3 h
      have frame : ∀ (x : St Nat 2) (u : Fin 2) (q : PC Nat), x.pc = s'.pc → x.reg = s'.reg →
          x.count = s'.count → u ≠ 0 → (∀ p a, q.unparking p a → p = tp) →
          (∀ p a id, q.holds p a id → (s'.pc u).holds p a id) →
          ((∃ r ∈ (x.go u q).reg, r.p = np ∧ r.a = ns ∧ r.id = 1) ∧
            ((x.go u q).pc 0 = .p4 np ns statusPending 1 ∨ (x.go u q).pc 0 = .p5 np ns statusPending 1) ∧
            (∀ (u' : Fin 2) p a, ((x.go u q).pc u').unparking p a → p = tp) ∧
            (∀ (u' : Fin 2) p a id, ((x.go u q).pc u').holds p a id → p = np → id = 1 → u' = 0) ∧
            1 ≤ (x.go u q).count np) := by
        intro x u q h1 h2 h3 h4 h5 h6
        refine ⟨⟨r, by show r ∈ x.reg; rw [h2]; exact hr1, hr2, hr3, hr4⟩, ?_, ?_, ?_, ?_⟩
        · rw [go_pc, if_neg (fun h => h4 h.symm), h1]; exact hpc
        · intro u' p a; rw [go_pc, h1]; split
          · exact h5 p a
          · exact hun u' p a
        · intro u' p a id; rw [go_pc, h1]; split
          · intro h; subst_vars; exact hid _ _ _ _ (h6 _ _ _ h)
          · exact hid u' p a id
        · show 1 ≤ x.count np; rw [h3]; exact hcnt
      cases hs with
      | callPark u p a c h =>
        exact frame _ u _ rfl rfl rfl (hnot0 u _ h (by simp) (by simp)) (by simp [PC.unparking]) (by simp [PC.holds])
      | store u b p a v h hk =>
        refine frame _ u _ rfl rfl rfl (hnot0 u _ h (by simp) (by simp)) ?_ (by simp [PC.holds])
        rintro p' a' ⟨rfl, _⟩; exact hk.2.1
      | announce u p a c h =>
        exact frame _ u _ rfl rfl rfl (hnot0 u _ h (by simp) (by simp)) (by simp [PC.unparking]) (by simp [PC.holds])
      | checkFalse u p a c id h hc =>
        exact frame _ u _ rfl rfl rfl (hnot0 u _ h (by simp) (by simp)) (by simp [PC.unparking])
          (by simp [PC.holds, h])
      | checkTrue u p a c id h hc =>
        exact frame _ u _ rfl rfl rfl (hnot0 u _ h (by simp) (by simp)) (by simp [PC.unparking])
          (by simp [PC.holds, h])
      | removeNone u p a id h hr =>
        exact frame _ u _ rfl rfl rfl (hnot0 u _ h (by simp) (by simp)) (by simp [PC.unparking]) (by simp [PC.holds])
      | retract u p h =>
        exact frame _ u _ rfl rfl rfl (hnot0 u _ h (by simp) (by simp)) (by simp [PC.unparking]) (by simp [PC.holds])
      | finalFalse u p a c h hc =>
        exact frame _ u _ rfl rfl rfl (hnot0 u _ h (by simp) (by simp)) (by simp [PC.unparking]) (by simp [PC.holds])
      | finalTrue u p a c h hc =>
        exact frame _ u _ rfl rfl rfl (hnot0 u _ h (by simp) (by simp)) (by simp [PC.unparking]) (by simp [PC.holds])
      | unparkNone u p a h h0 =>
        exact frame _ u _ rfl rfl rfl (hnot0 u _ h (by simp) (by simp)) (by simp [PC.unparking]) (by simp [PC.holds])
      | unparkSome u p a h h0 =>
        refine frame _ u _ rfl rfl rfl (hnot0 u _ h (by simp) (by simp)) ?_ (by simp [PC.holds])
        intro p' a' hu; exact hun u p' a' (by rw [h]; exact hu)
      | subtract u p a l h =>
        refine frame _ u _ rfl rfl rfl (hnot0 u _ h (by simp) (by simp)) ?_ (by simp [PC.holds])
        intro p' a' hu; exact hun u p' a' (by rw [h]; exact hu)
      | wakeOne u p a w l h =>
        refine frame _ u _ rfl rfl rfl (hnot0 u _ h (by simp) (by simp)) ?_ (by simp [PC.holds])
        intro p' a' hu; exact hun u p' a' (by rw [h]; exact hu)
      | unparkDone u p a h =>
        exact frame _ u _ rfl rfl rfl (hnot0 u _ h (by simp) (by simp)) (by simp [PC.unparking]) (by simp [PC.holds])
      | gone u p a c id h hg =>
        by_cases hu : u = 0
        · subst hu
          exfalso
          rw [h] at hpc
          rcases hpc with h1 | h1
          · cases h1
          · cases h1; exact hg ⟨r, hr1, hr2, hr3, hr4⟩
        · exact frame _ u _ rfl rfl rfl hu (by simp [PC.unparking]) (by simp [PC.holds])
      | still u p a c id h hg =>
        by_cases hu : u = 0
        · subst hu
          rw [h] at hpc
          rcases hpc with h1 | h1
          · cases h1
          · cases h1
            refine ⟨⟨r, hr1, hr2, hr3, hr4⟩, .inl (by rw [go_pc, if_pos rfl]), ?_, ?_, hcnt⟩
            · intro u' p a; rw [go_pc]; split
              · intro h; exact h.elim
              · exact hun u' p a
            · intro u' p a id; rw [go_pc]; split
              · intros; assumption
              · exact hid u' p a id
        · exact frame _ u _ rfl rfl rfl hu (by simp [PC.unparking]) (by simp [PC.holds, h])
      | wake u p a c id h =>
        by_cases hu : u = 0
        · subst hu
          rw [h] at hpc
          rcases hpc with h1 | h1
          · cases h1
            refine ⟨⟨r, hr1, hr2, hr3, hr4⟩, .inr (by rw [go_pc, if_pos rfl]), ?_, ?_, hcnt⟩
            · intro u' p a; rw [go_pc]; split
              · intro h; exact h.elim
              · exact hun u' p a
            · intro u' p a id; rw [go_pc]; split
              · intros; assumption
              · exact hid u' p a id
          · cases h1
        · exact frame _ u _ rfl rfl rfl hu (by simp [PC.unparking]) (by simp [PC.holds, h])
      | register u p a c h =>
        have hu := hnot0 u _ h (by simp) (by simp)
        refine ⟨⟨r, Finset.mem_insert_of_mem hr1, hr2, hr3, hr4⟩, ?_, ?_, ?_, ?_⟩
        · rw [go_pc, if_neg (fun h => hu h.symm)]; exact hpc
        · intro u' p a; rw [go_pc]; split
          · intro h; exact h.elim
          · exact hun u' p a
        · intro u' p' a' id; rw [go_pc]; split
          · rintro ⟨h1, h2, h3⟩ h4 h5
            exfalso
            subst h1 h4 h3
            omega
          · exact hid u' p' a' id
        · show 1 ≤ update s'.count p (s'.count p + 1) np
          by_cases hpp : np = p
          · subst hpp; simp
          · rw [update_of_ne hpp]; exact hcnt
      | removeSome u p a id h hg =>
        have hu := hnot0 u _ h (by simp) (by simp)
        refine ⟨⟨r, Finset.mem_filter.2 ⟨hr1, ?_⟩, hr2, hr3, hr4⟩, ?_, ?_, ?_, hcnt⟩
        · rintro ⟨h1, h2, h3⟩
          exact hu (hid u p a id (by rw [h]; exact ⟨rfl, rfl, rfl⟩) (h1.symm.trans hr2) (h3.symm.trans hr4))
        · rw [go_pc, if_neg (fun h => hu h.symm)]; exact hpc
        · intro u' p a; rw [go_pc]; split
          · intro h; exact h.elim
          · exact hun u' p a
        · intro u' p a id; rw [go_pc]; split
          · intro h; exact h.elim
          · exact hid u' p a id
      | take u p a l h hl hm =>
        have hu := hnot0 u _ h (by simp) (by simp)
        have hpt : p = tp := hun u p a (by rw [h]; exact ⟨rfl, rfl⟩)
        refine ⟨⟨r, Finset.mem_filter.2 ⟨hr1, ?_⟩, hr2, hr3, hr4⟩, ?_, ?_, ?_, hcnt⟩
        · rintro ⟨h1, h2⟩
          exact hp (hpt.symm.trans (h1.symm.trans hr2))
        · rw [go_pc, if_neg (fun h => hu h.symm)]; exact hpc
        · intro u' p' a'; rw [go_pc]; split
          · rintro ⟨h1, _⟩; rw [← h1]; exact hpt
          · exact hun u' p' a'
        · intro u' p a id; rw [go_pc]; split
          · intro h; exact h.elim
          · exact hid u' p a id
  rcases key.2.1 with h | h <;> rw [h] <;> exact ⟨rfl, rfl, rfl⟩

end Papaya.ParkerM
