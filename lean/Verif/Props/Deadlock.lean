import Verif.Spec.Deadlock
import Verif.Proof.WorkInv
import Verif.Props.Drop
import Verif.Proof.TermBase

/-! # Operations that wait for each other (C53, C54) -/

set_option linter.unusedSectionVars false
set_option linter.unusedVariables false

namespace Papaya

variable {K V : Type} [DecidableEq K] {C : Cfg K} {S : GSt K V} {ps : PSt K V}

open GSt

/-- An operation that cannot go on is at an action that has to wait. -/
theorem blocked_of_waiting {t : Tid} (h : Waiting C ps t) :
    ∃ c, ∃ β : Type, ∃ (a : Act K V β) (k : β → Prog K V c.Res), ps.th t = .run c (.act a k) ∧ a.blocked ps.mem := by
  obtain ⟨⟨c, p, ht⟩, hn⟩ := h
  cases p with
  | ret x => exact absurd ⟨_, .ret ht⟩ hn
  | panic w => exact absurd ⟨_, .panic ht⟩ hn
  | iter body s k => exact absurd ⟨_, .loop ht⟩ hn
  | act a k =>
    refine ⟨c, _, a, k, ht, ?_⟩
    by_contra hb
    obtain ⟨r, σ', he, _⟩ := can_exec (C := C) (t := t) hb
    exact hn ⟨_, .act ht he⟩

/-- Someone with a duty waits for a mutex at most; someone who has locked a mutex does not wait at all. -/
theorem duty_holder {t : Tid} {c : Call K V} {p : Prog K V c.Res} {d : WDuty} (ht : ps.th t = .run c p)
    (hd : ∀ n, WSh C.inc n (some d) p fun o _ => o = none) :
    CanMove C ps t ∨ ((∀ T, d ≠ .unlock T) ∧ ∃ T u, ps.mem.lock T = .held u) := by
  by_contra hcon
  rw [not_or] at hcon
  obtain ⟨c', β, a, k, ht', hb⟩ := blocked_of_waiting ⟨⟨c, p, ht⟩, hcon.1⟩
  rw [ht] at ht'; cases ht'
  have h1 := (hd 1).1
  refine hcon.2 ?_
  cases a with
  | lockWait T =>
    refine ⟨fun T' h => ?_, T, hb⟩
    subst h; cases h1
  | parkStatus T => cases d <;> cases h1
  | parkSlot T i => cases d <;> cases h1
  | _ => exact hb.elim

/-- While a copy that has been claimed to the end is pending, someone is at work. -/
theorem copy_worker (hI : S.Inv C) (hw : WorkInv C ps S) (hx : ¬ Excused ps) {s N : Nat} (hp : S.CopyPair s N)
    (hc : S.cap s ≤ S.claim N) (hst : S.status N = .pending) :
    ∃ u c p, ∃ d : WDuty, ps.th u = .run c p ∧ ∀ n, WSh C.inc n (some d) p fun o _ => o = none := by
  have hna : ¬ S.aborted N := fun h => by unfold aborted at h; rw [hst] at h; cases h
  have hni : ∀ j, j < S.cap s → S.cs N j ≠ .idle := by
    intro j hj
    obtain ⟨s', h1, h2⟩ := hw.claim N j (by omega)
    have := pair_src hp h1
    subst this
    exact h2 hj
  by_cases ho : ∃ j u, (S.cs N j).owner = some u
  · obtain ⟨j, u, hj⟩ := ho
    rcases hw.own u N ⟨j, hj⟩ with h | h | ⟨c, p, s', a, n, h1, h2, _⟩
    · exact absurd h hx
    · exact absurd h hna
    · exact ⟨u, c, p, _, h1, h2⟩
  · have hcnt : ∀ j, j < S.cap s → (S.cs N j).isCounted = true := by
      intro j hj
      cases hcs : S.cs N j with
      | idle => exact absurd hcs (hni j hj)
      | claimed u => exact absurd ⟨j, u, by rw [hcs]; rfl⟩ ho
      | marked u => exact absurd ⟨j, u, by rw [hcs]; rfl⟩ ho
      | placed u T i => exact absurd ⟨j, u, by rw [hcs]; rfl⟩ ho
      | counted l => rfl
      | lost => exact absurd (hw.lost N j hcs) hna
    have hset : ((Finset.range (S.claim N)).filter fun j => (S.cs N j).isCounted) = Finset.range (S.cap s) := by
      ext j
      rw [Finset.mem_filter, Finset.mem_range, Finset.mem_range]
      constructor
      · rintro ⟨_, h2⟩
        obtain ⟨s', h3, h4⟩ := hI.c.c2 N j (by intro h; rw [h] at h2; cases h2)
        rw [pair_src hp h3]; exact h4
      · exact fun h => ⟨by omega, hcnt j h⟩
    have hcp : S.copied N = S.cap s := by
      rw [hI.c.c6 N]
      unfold nCounted
      rw [hset, Finset.card_range]
    have hr := root_eq hI.s hp.2.1
    have hdue : ∃ d : WDuty, d.Due C S := by
      by_cases hs : S.rt = s
      · exact ⟨.prom N s, hp, hcp, by rw [hr, hs]⟩
      · refine ⟨.stat N, ⟨hp.2.1, ?_, hna⟩, hst⟩
        have h1 := hp.2.2.1.2.1
        by_contra h2
        exact (hI.s.some _ hr).2 (hp.2.2.2 _ (by omega) (by omega))
    obtain ⟨d, hd⟩ := hdue
    rcases hw.due d hd with h | ⟨u, c, p, h1, h2⟩
    · exact absurd h hx
    · exact ⟨u, c, p, d, h1, h2⟩

theorem not_excused (h : Reach C ps) (h1 : NoneAbandoned ps) (h2 : ∀ o c w, HEv.panic o c w ∈ ps.hist → ¬ AllocPanic w) :
    ¬ Excused ps := by
  rintro (⟨t, ht⟩ | ⟨o, c, w, h3, h4⟩)
  · exact h1 t ht
  · exact h2 o c w h3 (hard_sys (C09_panics h h3) h4)

/-- Someone with a duty is not about to end with a panic of the user. -/
theorem duty_not_user {t : Tid} {c : Call K V} {p : Prog K V c.Res} {d : WDuty} (ht : ps.th t = .run c p)
    (hd : ∀ n, WSh C.inc n (some d) p fun o _ => o = none) (c' : Call K V) : ps.th t ≠ .run c' (.panic .user) := by
  intro h
  rw [ht] at h
  cases h
  rcases hd 1 with h | h <;> cases h

theorem lock_holder_works (h : Reach C ps) (h1 : NoneAbandoned ps)
    (h2 : ∀ o c w, HEv.panic o c w ∈ ps.hist → ¬ AllocPanic w) {T : Nat} {t : Tid} (hl : ps.mem.lock T = .held t) :
    Running ps t ∧ CanMove C ps t ∧ ∀ c, ps.th t ≠ .run c (.panic .user) := by
  obtain ⟨S, g, hS, hw⟩ := h.work 1
  rw [← hS.1] at hl
  rcases hw.lock t T hl with h3 | ⟨c, p, h3, h4⟩
  · exact absurd h3 (not_excused h h1 h2)
  · refine ⟨⟨c, p, h3⟩, ?_, duty_not_user h3 h4⟩
    rcases duty_holder h3 h4 with h5 | ⟨h5, _⟩
    · exact h5
    · exact absurd rfl (h5 T)

/-- **C53** Whoever holds an allocation mutex is running and does not wait for anything: it can go on. (Provided no operation was
abandoned and no table allocation has failed.) -/
theorem C53_lock_holder_moves (h : Reach C ps) (h1 : NoneAbandoned ps)
    (h2 : ∀ o c w, HEv.panic o c w ∈ ps.hist → ¬ AllocPanic w) {T : Nat} {t : Tid} (hl : ps.mem.lock T = .held t) :
    Running ps t ∧ CanMove C ps t :=
  ⟨(lock_holder_works h h1 h2 hl).1, (lock_holder_works h h1 h2 hl).2.1⟩

/-- **C54** Whenever an operation waits, another operation is running that can go on, and whose next step is not the panic of a
user's closure. -/
theorem C54_waits_for_worker (h : Reach C ps) (h1 : NoneAbandoned ps)
    (h2 : ∀ o c w, HEv.panic o c w ∈ ps.hist → ¬ AllocPanic w) {t : Tid} (ht : Waiting C ps t) :
    ∃ u, u ≠ t ∧ Running ps u ∧ CanMove C ps u ∧ ∀ c, ps.th u ≠ .run c (.panic .user) := by
  suffices hs : ∃ u, Running ps u ∧ CanMove C ps u ∧ ∀ c, ps.th u ≠ .run c (.panic .user) by
    obtain ⟨u, h3, h4, h5⟩ := hs
    exact ⟨u, fun h => ht.2 (h ▸ h4), h3, h4, h5⟩
  have hlock : ∀ T u, ps.mem.lock T = .held u → ∃ u, Running ps u ∧ CanMove C ps u ∧ ∀ c, ps.th u ≠ .run c (.panic .user) :=
    fun T u hl => ⟨u, lock_holder_works h h1 h2 hl⟩
  have hx := not_excused h h1 h2
  have hduty : (∃ u c p, ∃ d : WDuty, ps.th u = .run c p ∧ ∀ n, WSh C.inc n (some d) p fun o _ => o = none) →
      ∃ u, Running ps u ∧ CanMove C ps u ∧ ∀ c, ps.th u ≠ .run c (.panic .user) := by
    rintro ⟨u, c, p, d, h3, h4⟩
    rcases duty_holder h3 h4 with h5 | ⟨_, T, w, h5⟩
    · exact ⟨u, ⟨c, p, h3⟩, h5, duty_not_user h3 h4⟩
    · exact hlock T w h5
  obtain ⟨S, g, hS, hw⟩ := h.work 1
  obtain ⟨c, β, a, k, hth, hb⟩ := blocked_of_waiting ht
  have hok : S.okAct a := by
    have h7 := hS.2.2.2.1 t
    rw [hth] at h7
    exact (h7 S hS.2.1 ((rg K V C).refl t S)).1
  cases a with
  | lockWait T =>
    obtain ⟨u, hu⟩ := hb
    exact hlock T u hu
  | parkStatus N =>
    obtain ⟨_, s, h3, h4⟩ := hok
    have hb : S.status N = .pending := by rw [← hS.1] at hb; exact hb
    exact hduty (copy_worker hS.2.1 hw hx h3 h4 hb)
  | parkSlot T i =>
    obtain ⟨_, e, h3, h4⟩ := hok
    have hb : (S.slot T i).copied = false := by rw [← hS.1] at hb; exact hb
    have hinc : C.inc = true := (hw.plain t _ _ hth 1).1
    have hd : (WDuty.store T i).Due C S := by
      show (Duty.store T i).Due C S.toSt
      exact ⟨hinc, h4, fun h => Option.some_ne_none e ((h3 : (S.slot T i).ptr = some e).symm.trans h), hb⟩
    rcases hw.due _ hd with h5 | ⟨u, c', p, h5, h6⟩
    · exact absurd h5 hx
    · exact hduty ⟨u, c', p, _, h5, h6⟩
  | _ => exact hb.elim

/-- **C54** Whenever an operation waits, another operation is running that can go on. -/
theorem C54_waits_for_progress (h : Reach C ps) (h1 : NoneAbandoned ps)
    (h2 : ∀ o c w, HEv.panic o c w ∈ ps.hist → ¬ AllocPanic w) {t : Tid} (ht : Waiting C ps t) :
    ∃ u, u ≠ t ∧ Running ps u ∧ CanMove C ps u := by
  obtain ⟨u, h3, h4, h5, _⟩ := C54_waits_for_worker h h1 h2 ht
  exact ⟨u, h3, h4, h5⟩

/-- **C54** No deadlock: as long as an operation is running, one of those that are running can go on. -/
theorem C54_no_deadlock (h : Reach C ps) (h1 : NoneAbandoned ps)
    (h2 : ∀ o c w, HEv.panic o c w ∈ ps.hist → ¬ AllocPanic w) (hr : ∃ t, Running ps t) :
    ∃ t, Running ps t ∧ CanMove C ps t := by
  obtain ⟨t, ht⟩ := hr
  by_cases hm : CanMove C ps t
  · exact ⟨t, ht, hm⟩
  · obtain ⟨u, _, h3⟩ := C54_waits_for_progress h h1 h2 ⟨ht, hm⟩
    exact ⟨u, h3⟩

/-! ## Examples -/

theorem execFn_none [DecidableEq V] {t : Tid} {β : Type} {a : Act K V β} {σ σ' : St K V} {r : β} (h : execFn C t a σ = none) :
    ¬ Exec C t a σ r σ' := by
  intro he
  cases a <;> simp only [execFn, Exec] at h he
  all_goals first | (split at h <;> simp_all) | (simp at h)

/-- Test for `Waiting`. -/
def waitingB [DecidableEq V] (C : Cfg K) (t : Tid) (ps : PSt K V) : Bool :=
  match ps.th t with
  | .run _ (.act a _) => (execFn C t a ps.mem).isNone
  | _ => false

theorem waitingB_iff [DecidableEq V] {t : Tid} (h : waitingB C t ps = true) : Waiting C ps t := by
  unfold waitingB at h
  split at h
  · rename_i c β a k hth
    refine ⟨⟨_, _, hth⟩, fun ⟨ps', hs⟩ => ?_⟩
    cases hs with
    | act h1 he =>
      rw [hth] at h1; cases h1
      exact execFn_none (Option.isNone_iff_eq_none.1 h) he
    | loop h1 => rw [hth] at h1; cases h1
    | ret h1 => rw [hth] at h1; cases h1
    | panic h1 => rw [hth] at h1; cases h1
  · cases h

/-- Test for the hypotheses of C53 and C54. -/
def soundB (ps : PSt K V) : Bool :=
  ((List.range tidBound).all fun t => match ps.th t with | .gone => false | _ => true) &&
  ps.hist.all fun ev => match ev with | .panic _ _ _ => false | .inv o _ => decide (o.1 < tidBound) | _ => true

theorem soundB_iff [DecidableEq V] {l : List (Cmd K V)} (h : runMap C l = some ps) (hr : soundB ps = true) :
    NoneAbandoned ps ∧ ∀ o c w, HEv.panic o c w ∈ ps.hist → ¬ AllocPanic w := by
  simp only [soundB, Bool.and_eq_true, List.all_eq_true, List.mem_range] at hr
  refine ⟨fun t hg => ?_, fun o c w hm => by simpa using hr.2 _ hm⟩
  rcases Nat.lt_or_ge t tidBound with ht | ht
  · have := hr.1 t ht
    rw [hg] at this; cases this
  · obtain ⟨h1, h2⟩ := runMap_ok h
    obtain ⟨S, g, ⟨_, _, _, _, _, g6⟩, _⟩ := h1.pinv 1
    obtain ⟨⟨c, hc⟩, _⟩ := g6.pend t (by rw [hg]; simp) (by rw [hg]; simp)
    have h3 : decide (t < tidBound) = true := hr.2 _ hc
    exact absurd (of_decide_eq_true h3) (Nat.not_lt.2 ht)

-- the hypotheses are met: in a blocking resize, guard 0 has locked the mutex to allocate a table and guard 1 waits for it
example : ∃ ps : PSt Nat Nat, Reach cfgB ps ∧ (NoneAbandoned ps ∧ ∀ o c w, HEv.panic o c w ∈ ps.hist → ¬ AllocPanic w) ∧
    ps.mem.lock 0 = .held 0 ∧ Waiting cfgB ps 1 := by
  obtain ⟨ps, h0, h1, h2⟩ := demo_run (C := cfgB) (V := Nat) (l := midResize 40 ++ [.call 1 (.insert 9 90) trivial, .go 1 40])
    (P := fun ps => soundB ps && (ps.mem.lock 0 == .held 0 && waitingB cfgB 1 ps)) (by decide +kernel)
  simp only [Bool.and_eq_true, beq_iff_eq] at h2
  exact ⟨ps, h1, soundB_iff h0 h2.1, h2.2.1, waitingB_iff h2.2.2⟩

-- … guard 0 has claimed all slots and copies them, guard 1 waits for the end of the resize
example : ∃ ps : PSt Nat Nat, Reach cfgB ps ∧ (NoneAbandoned ps ∧ ∀ o c w, HEv.panic o c w ∈ ps.hist → ¬ AllocPanic w) ∧
    ps.mem.status 1 = .pending ∧ Waiting cfgB ps 1 := by
  obtain ⟨ps, h0, h1, h2⟩ := demo_run (C := cfgB) (V := Nat) (l := midResize 60 ++ [.call 1 (.insert 9 90) trivial, .go 1 47])
    (P := fun ps => soundB ps && (ps.mem.status 1 == .pending && waitingB cfgB 1 ps)) (by decide +kernel)
  simp only [Bool.and_eq_true, beq_iff_eq] at h2
  exact ⟨ps, h1, soundB_iff h0 h2.1, h2.2.1, waitingB_iff h2.2.2⟩

-- … in an incremental resize, guard 0 is copying the slot of a key that guard 1 wants to replace
example : ∃ ps : PSt Nat Nat, Reach cfgI ps ∧ (NoneAbandoned ps ∧ ∀ o c w, HEv.panic o c w ∈ ps.hist → ¬ AllocPanic w) ∧
    (∃ i, (ps.mem.slot 0 i).copying = true ∧ (ps.mem.slot 0 i).copied = false) ∧ Waiting cfgI ps 1 := by
  obtain ⟨ps, h0, h1, h2⟩ := demo_run (C := cfgI) (V := Nat) (l := midResize 57 ++ [.call 1 (.insert 0 90) trivial, .go 1 38])
    (P := fun ps => soundB ps && (((ps.mem.slot 0 0).copying && !(ps.mem.slot 0 0).copied) && waitingB cfgI 1 ps)) (by decide +kernel)
  simp only [Bool.and_eq_true, Bool.not_eq_true'] at h2
  exact ⟨ps, h1, soundB_iff h0 h2.1, ⟨0, h2.2.1⟩, waitingB_iff h2.2.2⟩

-- the hypothesis is needed: if guard 0 is killed while it copies, guard 1 waits, and no operation is left that could go on
example : ∃ ps : PSt Nat Nat, Reach cfgB ps ∧ Waiting cfgB ps 1 ∧ ∀ u, u < 8 → Running ps u → u = 1 := by
  obtain ⟨ps, h0, h1, h2⟩ := demo_run (C := cfgB) (V := Nat) (l := midResize 60 ++ [.abandon 0, .call 1 (.insert 9 90) trivial, .go 1 47])
    (P := fun ps => waitingB cfgB 1 ps && (List.range 8).all fun u => u == 1 || match ps.th u with | .run _ _ => false | _ => true)
    (by decide +kernel)
  simp only [Bool.and_eq_true, List.all_eq_true, List.mem_range, Bool.or_eq_true, beq_iff_eq] at h2
  refine ⟨ps, h1, waitingB_iff h2.1, fun u hu ⟨c, p, hr⟩ => (h2.2 u hu).resolve_right fun h => ?_⟩
  rw [hr] at h; cases h

end Papaya
