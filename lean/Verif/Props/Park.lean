import Verif.Proof.ParkWake

/-! # Parking: no lost wakeup, no deadlock, the parkers' memory (C55, C56, C57, C26) -/

set_option linter.unusedSectionVars false
set_option linter.unusedVariables false

namespace Papaya

variable {K V : Type} [DecidableEq K] {C : Cfg K} {x x' : KSt K V} {t u v : Tid} {a : PKey}

open GSt

theorem Sound.not_excused {ps : PSt K V} (h : Sound ps) (hr : Reach C ps) : ¬ Excused ps :=
  Papaya.not_excused hr h.1 h.2

theorem KAny.excused (hs : KAny C x x') (hi : KInv x) (he : Excused x.ps) : Excused x'.ps := by
  rcases hs with hs | hs
  · cases hs with
    | env hs => exact excused_step hs he
    | own u hs =>
      rcases hs.pool_step hi with h1 | h1
      · rw [h1]; exact he
      · exact excused_step h1.step he
  · cases hs with
    | mk => exact he

theorem KAny.pool (hs : KAny C x x') (hi : KInv x) : x'.ps = x.ps ∨ Step C x.ps x'.ps := by
  rcases hs with hs | hs
  · cases hs with
    | env hs => exact .inr hs
    | own u hs => exact (hs.pool_step hi).imp id OwnStep.step
  · cases hs with
    | mk => exact .inl rfl

/-! ## What has happened stays so -/

/-- The condition is false, for good. -/
def PKey.Settled (σ : St K V) : PKey → Prop
  | .status T => σ.status T = .promoted
  | .slot T i => (σ.slot T i).copied = true ∧ (σ.slot T i).copying = true ∧ ∃ e, (σ.slot T i).ptr = some e

theorem PKey.Settled.done {σ : St K V} (h : a.Settled σ) : a.Done σ := by
  cases a with
  | status T => exact h
  | slot T i => exact h.1

theorem PKey.Settled.step {ps ps' : PSt K V} (hr : Reach C ps) (h : a.Settled ps.mem) (hs : Step C ps ps') : a.Settled ps'.mem := by
  obtain ⟨S, g, hS, _⟩ := hr.work 1
  obtain ⟨S', g', hS', hev, _⟩ := pinvG_step hS hs
  rw [← hS.1] at h
  rw [← hS'.1]
  cases a with
  | status T => exact hev.prom T h
  | slot T i =>
    obtain ⟨h1, h2, e, h3⟩ := h
    obtain ⟨h4, h5, _⟩ := hev.frozen T i h2
    exact ⟨hev.copied T i e h3 h1, h5, e, h4.trans h3⟩

theorem settled_of_park (hx : Reach C x.ps) (hi : KInv x) {c : Call K V} {p : Prog K V c.Res} (hr : x.ps.th t = .run c p)
    (hin : (x.pk t).inPark a) (hd : a.Done x.ps.mem) : a.Settled x.ps.mem := by
  have hpa := (hi.at' t).park hin hr
  obtain ⟨S, g, hS, _⟩ := hx.work 1
  have hm := hS.1
  cases p with
  | act b k =>
    have hok := Reach.okAct hS hr
    cases b with
    | parkStatus T => cases hpa; exact hd
    | parkSlot T i =>
      cases hpa
      obtain ⟨_, e, h1, h2⟩ := hok
      refine ⟨hd, ?_, e, ?_⟩
      · rw [← hm]; exact h2
      · rw [← hm]; exact h1
    | _ => cases hpa
  | _ => cases hpa

/-! ## C55: no lost wakeup -/

theorem willWake_waking (hi : KInv x) (hx : NoneAbandoned x.ps) (h : (x.pk v).willWake t) : Waking x v t := by
  have hn : x.pk v ≠ .norm := fun h0 => by rw [h0] at h; exact h
  refine ⟨?_, ?_⟩
  · rcases hi.at' v with h1 | h1 | ⟨c, p, h1, _⟩
    · exact absurd h1 hn
    · exact absurd h1 (hx v)
    · exact ⟨c, p, h1⟩
  · cases hq : x.pk v <;> rw [hq] at h <;> first | exact h.elim | exact ⟨_, _, .inl rfl, h⟩ | exact ⟨_, _, .inr rfl, h⟩

theorem Waking.ne (hb : x.Blocked t a) (h : Waking x v t) : v ≠ t := by
  rintro rfl
  obtain ⟨_, ⟨id, h1⟩, _⟩ := hb
  obtain ⟨_, a', l, h2 | h2, _⟩ := h <;> rw [h1] at h2 <;> cases h2

theorem count_mono (hs : KAny C x x') (T : Nat) : x.count T ≤ x'.count T := by
  rcases hs with hs | hs
  · cases hs with
    | env => exact Nat.le_refl _
    | own u hs =>
      cases hs with
      | @register c p b _ _ =>
        show _ ≤ if T = b.tab then _ else _
        split
        · rename_i h; rw [h]; omega
        · exact Nat.le_refl _
      | _ => exact Nat.le_refl _
  · cases hs with
    | mk => exact Nat.le_refl _

theorem unreg_any (hs : KAny C x x') {id : Nat} (hle : id ≤ x.count a.tab) (hn : ¬ x.registered a id) : ¬ x'.registered a id := by
  intro hr
  refine hn ?_
  rcases hs with hs | hs
  · cases hs with
    | env => exact hr
    | own u hs =>
      cases hs with
      | @register c p b h1 h2 =>
        obtain ⟨r, h3, h4, h5⟩ := hr
        rcases Finset.mem_insert.1 h3 with h6 | h6
        · subst h6
          have h4 : b = a := h4
          have h5 : x.count b.tab + 1 = id := h5
          subst h4; omega
        · exact ⟨r, h6, h4, h5⟩
      | removeSome h1 h2 h3 =>
        obtain ⟨r, h3, h4, h5⟩ := hr
        exact ⟨r, (Finset.mem_filter.1 h3).1, h4, h5⟩
      | take l h1 h2 h3 =>
        obtain ⟨r, h3, h4, h5⟩ := hr
        exact ⟨r, (Finset.mem_filter.1 h3).1, h4, h5⟩
      | _ => exact hr
  · cases hs with
    | mk => exact hr

/-- **C55** No lost wakeup. When what a blocked operation waits for has happened, there is an operation, already running,
that wakes it before it returns: as long as the blocked one is blocked, this operation is running, or another one is just about to
call `Thread::unpark`. -/
theorem C55_no_lost_wakeup (h : KReach C x) (h0 : Sound x.ps) (hb : x.Blocked t a) (hd : a.Done x.ps.mem) :
    ∃ u, u ≠ t ∧ Running x.ps u ∧ ∀ x', KRun C x x' → Sound x'.ps → x'.Blocked t a →
      StillRunning x x' u ∨ ∃ v, v ≠ t ∧ Waking x' v t := by
  obtain ⟨hx, hi⟩ := h.inv
  have hne := h0.not_excused hx
  obtain ⟨⟨c, p, hr⟩, ⟨id, hp4⟩, htok⟩ := _root_.id hb
  have hset := settled_of_park hx hi hr (by rw [hp4]; rfl) hd
  have hle : id ≤ x.count a.tab := hi.le t a id (by rw [hp4]; exact ⟨rfl, rfl⟩)
  by_cases hreg : x.registered a id
  · rcases h.wakeInv t a id (.inl hp4) hreg hd with h1 | ⟨u, hw⟩
    · exact absurd h1 hne
    obtain ⟨⟨cu, pu, hu, hwu⟩, _⟩ := _root_.id hw
    have hut : u ≠ t := by
      rintro rfl
      have h1 := (hi.at' u).park (a := a) (by rw [hp4]; rfl) hu
      rw [WSh.not_park hwu] at h1; cases h1
    refine ⟨u, hut, ⟨cu, pu, hu⟩, fun x' hrun h0' hb' => ?_⟩
    have key : Excused x'.ps ∨ (a.Settled x'.ps.mem ∧ id ≤ x'.count a.tab ∧
        ((Waker C x' u a ∧ x'.ps.seq u = x.ps.seq u) ∨ ¬ x'.registered a id) ∧
        ∀ id', (x'.pk t = .p4 a id' ∨ x'.pk t = .p5 a id') → id' = id) := by
      clear h0' hb'
      induction hrun with
      | refl =>
        refine .inr ⟨hset, hle, .inl ⟨hw, rfl⟩, fun id' h => ?_⟩
        rw [hp4] at h
        rcases h with h | h <;> cases h; rfl
      | @tail y z hy hs ih =>
        obtain ⟨hyx, hyi⟩ := (h.run hy).inv
        rcases ih with h1 | ⟨h1, h2, h3, h4⟩
        · exact .inl (hs.excused hyi h1)
        have h1' : a.Settled z.ps.mem := by
          rcases hs.pool hyi with h5 | h5
          · rw [h5]; exact h1
          · exact h1.step hyx h5
        have h4' : ∀ id', (z.pk t = .p4 a id' ∨ z.pk t = .p5 a id') → id' = id := fun id' h5 => h4 id' (hs.sleeps h5 h1'.done)
        have h2' : id ≤ z.count a.tab := h2.trans (count_mono hs _)
        rcases h3 with ⟨h3, h5⟩ | h3
        · rcases h3.any hyi hs with h6 | ⟨h6, h7⟩ | h6
          · exact .inl h6
          · exact .inr ⟨h1', h2', .inl ⟨h6, h7.trans h5⟩, h4'⟩
          · exact .inr ⟨h1', h2', .inr (h6 id), h4'⟩
        · exact .inr ⟨h1', h2', .inr (unreg_any hs h2 h3), h4'⟩
    obtain ⟨hx', hi'⟩ := (h.run hrun).inv
    rcases key with h1 | ⟨h1, h2, h3, h4⟩
    · exact absurd h1 (h0'.not_excused hx')
    rcases h3 with ⟨⟨⟨c', p', h5, _⟩, _⟩, h6⟩ | h3
    · exact .inl ⟨⟨cu, pu, hu⟩, ⟨c', p', h5⟩, h6⟩
    · obtain ⟨_, ⟨id', h5⟩, h6⟩ := _root_.id hb'
      have := h4 id' (.inl h5)
      subst this
      rcases hi'.wok t a id' (.inr h5) h3 with h7 | ⟨v, h7⟩
      · rw [h6] at h7; cases h7
      · have h8 := willWake_waking hi' h0'.1 h7
        exact .inr ⟨v, h8.ne hb', h8⟩
  · rcases hi.wok t a id (.inr hp4) hreg with h7 | ⟨u, h7⟩
    · rw [htok] at h7; cases h7
    have h8 := willWake_waking hi h0.1 h7
    refine ⟨u, h8.ne hb, h8.1, fun x' hrun h0' hb' => ?_⟩
    have key : a.Settled x'.ps.mem ∧ id ≤ x'.count a.tab ∧ ¬ x'.registered a id ∧
        ∀ id', (x'.pk t = .p4 a id' ∨ x'.pk t = .p5 a id') → id' = id := by
      clear h0' hb'
      induction hrun with
      | refl =>
        refine ⟨hset, hle, hreg, fun id' h => ?_⟩
        rw [hp4] at h
        rcases h with h | h <;> cases h; rfl
      | @tail y z hy hs ih =>
        obtain ⟨hyx, hyi⟩ := (h.run hy).inv
        obtain ⟨h1, h2, h3, h4⟩ := ih
        have h1' : a.Settled z.ps.mem := by
          rcases hs.pool hyi with h5 | h5
          · rw [h5]; exact h1
          · exact h1.step hyx h5
        exact ⟨h1', h2.trans (count_mono hs _), unreg_any hs h2 h3, fun id' h5 => h4 id' (hs.sleeps h5 h1'.done)⟩
    obtain ⟨hx', hi'⟩ := (h.run hrun).inv
    obtain ⟨h1, h2, h3, h4⟩ := key
    obtain ⟨_, ⟨id', h5⟩, h6⟩ := _root_.id hb'
    have := h4 id' (.inl h5)
    subst this
    rcases hi'.wok t a id' (.inr h5) h3 with h7 | ⟨v, h7⟩
    · rw [h6] at h7; cases h7
    · have h8 := willWake_waking hi' h0'.1 h7
      exact .inr ⟨v, h8.ne hb', h8⟩

theorem pk_other {w : Tid} (hs : PkStep C w x x') (h : v ≠ w) : x'.pk v = x.pk v := by
  cases hs <;> first | rfl | exact if_neg h

theorem th_other {w : Tid} (hi : KInv x) (hs : PkStep C w x x') (h : v ≠ w) : x'.ps.th v = x.ps.th v := by
  rcases hs.pool_step hi with h1 | h1
  · rw [h1]
  · exact own_others h1 h

/-- How far it is to the call of `Thread::unpark` for `t`. -/
def PkPC.dist (t : Tid) : PkPC → Nat
  | .u2 _ l => l.idxOf t + 2
  | .u3 _ l => l.idxOf t + 1
  | _ => 0

/-- A step of the unparker brings it nearer, until the token is set. -/
theorem waking_own (hs : PkStep C v x x') (h : Waking x v t) :
    x'.token t = true ∨ (Waking x' v t ∧ (x'.pk v).dist t + 1 = (x.pk v).dist t ∧ x'.ps = x.ps) := by
  obtain ⟨hr, a, l, hq, hl⟩ := h
  have no : ∀ {q : PkPC}, x.pk v = q → (∀ a l, q ≠ .u2 a l ∧ q ≠ .u3 a l) → False := fun h1 h2 => by
    rcases hq with hq | hq <;> rw [hq] at h1
    · exact (h2 a l).1 h1.symm
    · exact (h2 a l).2 h1.symm
  cases hs with
  | @subtract c p b l' h1 h2 =>
    rcases hq with hq | hq <;> rw [hq] at h2 <;> cases h2
    refine .inr ⟨⟨hr, a, l, .inr ?_, hl⟩, ?_, rfl⟩
    · show (if v = v then _ else _) = _; rw [if_pos rfl]
    · rw [hq]
      show PkPC.dist t (if v = v then _ else _) + 1 = _
      rw [if_pos rfl]; rfl
  | @wakeOne c p b w l' h1 h2 =>
    rcases hq with hq | hq <;> rw [hq] at h2 <;> cases h2
    by_cases hw : t = w
    · left
      show (if t = w then true else _) = true
      rw [if_pos hw]
    · have hl' : t ∈ l' := (List.mem_cons.1 hl).resolve_left hw
      refine .inr ⟨⟨hr, a, l', .inr ?_, hl'⟩, ?_, rfl⟩
      · show (if v = v then _ else _) = _; rw [if_pos rfl]
      · rw [hq]
        show PkPC.dist t (if v = v then _ else _) + 1 = _
        rw [if_pos rfl]
        show l'.idxOf t + 1 + 1 = (w :: l').idxOf t + 1
        rw [List.idxOf_cons_ne _ (fun h => hw h.symm)]
  | unparkDone h1 h2 =>
    rcases hq with hq | hq <;> rw [hq] at h2 <;> cases h2
    exact absurd hl List.not_mem_nil
  | pool _ h2 => exact (no h2 fun _ _ => ⟨by simp, by simp⟩).elim
  | callPark _ h2 => exact (no h2 fun _ _ => ⟨by simp, by simp⟩).elim
  | callUnpark _ h2 => exact (no h2 fun _ _ => ⟨by simp, by simp⟩).elim
  | take _ _ h2 => exact (no h2 fun _ _ => ⟨by simp, by simp⟩).elim
  | _ => exact (no (by assumption) fun _ _ => ⟨by simp, by simp⟩).elim

/-- **C55** An operation that is about to call `Thread::unpark` for `t` does so: it is not interrupted by anything, does not wait, and
after as many steps as there are threads to be unparked before (and two more) the call has been made — whatever the other threads do. -/
theorem C55_unparker_unparks {n : Nat} (h : KReach C x) (hw : Waking x v t) (hr : KRunOwn C v n x x') :
    (Waking x' v t ∧ StillRunning x x' v ∧ KCanMove C x' v ∧ ∀ a l, x.pk v = .u2 a l ∨ x.pk v = .u3 a l → n ≤ l.idxOf t + 1) ∨
      ∃ y, KRun C x y ∧ y.token t = true ∧ KRun C y x' := by
  have hrun : KRun C x x' := by
    induction hr with
    | refl => exact .refl
    | own hr hs ih => exact .tail (ih h hw) (.inl (.own v hs))
    | other hr hs hth hpk ih => exact .tail (ih h hw) hs
  have key : (Waking x' v t ∧ (x'.pk v).dist t + n = (x.pk v).dist t ∧ x'.ps.seq v = x.ps.seq v) ∨
      ∃ y, KRun C x y ∧ y.token t = true ∧ KRun C y x' := by
    clear hrun
    induction hr with
    | refl => exact .inl ⟨hw, rfl, rfl⟩
    | own hr hs ih =>
      rcases ih h hw with ⟨h1, h2, h3⟩ | ⟨y, h1, h2, h3⟩
      · rcases waking_own hs h1 with h4 | ⟨h4, h5, h6⟩
        · have : ∀ {m : Nat} {a b : KSt K V}, KRunOwn C v m a b → KRun C a b := fun hr => by
            induction hr with
            | refl => exact .refl
            | own hr hs ih => exact .tail ih (.inl (.own v hs))
            | other hr hs hth hpk ih => exact .tail ih hs
          exact .inr ⟨_, .tail (this hr) (.inl (.own v hs)), h4, .refl⟩
        · exact .inl ⟨h4, by omega, by rw [h6]; exact h3⟩
      · exact .inr ⟨y, h1, h2, .tail h3 (.inl (.own v hs))⟩
    | @other m x y z hr hs hth hpk ih =>
      rcases ih h hw with ⟨⟨⟨c, p, h1⟩, h4⟩, h2, h3⟩ | ⟨w, h1, h2, h3⟩
      · refine .inl ⟨⟨⟨c, p, by rw [hth]; exact h1⟩, by rw [hpk]; exact h4⟩, by rw [hpk]; exact h2, ?_⟩
        rw [← h3]
        rcases hs with hs | hs
        · cases hs with
          | env hs => exact step_seq hs h1
          | own w hs =>
            cases hs with
            | pool hs => exact step_seq hs.step h1
            | _ => rfl
        · cases hs with
          | mk => rfl
      · exact .inr ⟨w, h1, h2, .tail h3 hs⟩
  rcases key with ⟨h1, h2, h3⟩ | h1
  · refine .inl ⟨h1, ⟨hw.1, h1.1, h3⟩, ?_, fun a l hl => ?_⟩
    · obtain ⟨⟨c, p, h4⟩, a, l, h5 | h5, h6⟩ := h1
      · exact ⟨_, .subtract h4 h5⟩
      · cases l with
        | nil => exact absurd h6 List.not_mem_nil
        | cons w l => exact ⟨_, .wakeOne h4 h5⟩
    · obtain ⟨_, a', l', h5, h6⟩ := h1
      have h7 : 1 ≤ (x'.pk v).dist t := by rcases h5 with h5 | h5 <;> rw [h5] <;> simp [PkPC.dist]
      have h8 : (x.pk v).dist t ≤ l.idxOf t + 2 := by rcases hl with hl | hl <;> rw [hl] <;> simp [PkPC.dist]
      omega
  · exact .inr h1

/-- **C55** An operation that has been woken returns from `park` in three steps, without waiting: its token is set, it is
not in the map any more, and what it waited for has happened. -/
theorem C55_woken_returns {c : Call K V} {p : Prog K V c.Res} {id : Nat} (h : KReach C x) (hr : x.ps.th t = .run c p)
    (hq : x.pk t = .p4 a id) (ht : x.token t = true) (hn : ¬ x.registered a id) (hd : a.Done x.ps.mem) :
    ∃ x1 x2 x3 p', PkStep C t x x1 ∧ PkStep C t x1 x2 ∧ PkStep C t x2 x3 ∧ x3.pk t = .norm ∧
      p.after = some p' ∧ x3.ps.th t = .run c p' := by
  obtain ⟨hx, hi⟩ := h.inv
  have hpa := (hi.at' t).park (a := a) (by rw [hq]; rfl) hr
  obtain ⟨p', hp'⟩ := after_some (.inl hpa)
  have hc : ¬ a.shouldPark x.ps.mem := fun h => PKey.not_done h hd
  have same : ∀ (y : KSt K V) (q : PkPC), (y.go t q).pk t = q := fun y q => if_pos rfl
  exact ⟨_, _, _, p', .wake hr hq ht, .woken hr (same _ _) hn, .finalFalse hr (same _ _) hc hp', same _ _, hp', setTh_same⟩

/-! ## C56: no deadlock -/

/-- An operation that cannot go on waits for a mutex, or is blocked in `thread::park()`. -/
theorem stuck_cases (hi : KInv x) (hr : Running x.ps t) (hn : ¬ KCanMove C x t) :
    (∃ T u, x.ps.mem.lock T = .held u ∧ ∃ c k, x.ps.th t = .run c (.act (.lockWait T) k)) ∨ ∃ a, x.Blocked t a := by
  obtain ⟨c, p, hr⟩ := hr
  have hpark : ∀ {a : PKey}, (x.pk t).inPark a → ∃ p', p.after = some p' := fun h => after_some (.inl ((hi.at' t).park h hr))
  have hunpark : ∀ {a : PKey}, (x.pk t).inUnpark a → ∃ p', p.after = some p' := fun h => after_some (.inr ((hi.at' t).unpark h hr))
  cases hq : x.pk t with
  | norm =>
    cases h1 : p.parkKey with
    | some a => exact absurd ⟨_, .callPark hr hq h1⟩ hn
    | none =>
    cases h2 : p.unparkKey with
    | some a => exact absurd ⟨_, .callUnpark hr hq h2⟩ hn
    | none =>
    by_cases hm : CanMove C x.ps t
    · obtain ⟨ps', hm⟩ := hm
      refine absurd ⟨_, .pool hm hq fun c' p' hr' => ?_⟩ hn
      rw [hr] at hr'; cases hr'; exact ⟨h1, h2⟩
    · obtain ⟨c', β, b, k, h3, h4⟩ := blocked_of_waiting ⟨⟨c, p, hr⟩, hm⟩
      rw [hr] at h3; cases h3
      cases b with
      | lockWait T => obtain ⟨u, hu⟩ := h4; exact .inl ⟨T, u, hu, c, k, hr⟩
      | parkStatus T => cases h1
      | parkSlot T i => cases h1
      | _ => exact h4.elim
  | p0 a => exact absurd ⟨_, .announce hr hq⟩ hn
  | p1 a => exact absurd ⟨_, .register hr hq⟩ hn
  | p2 a id =>
    by_cases hc : a.shouldPark x.ps.mem
    · exact absurd ⟨_, .checkTrue hr hq hc⟩ hn
    · exact absurd ⟨_, .checkFalse hr hq hc⟩ hn
  | p3 a id =>
    by_cases hc : x.registered a id
    · exact absurd ⟨_, .removeSome hr hq hc⟩ hn
    · obtain ⟨p', hp⟩ := hpark (a := a) (by rw [hq]; rfl)
      exact absurd ⟨_, .removeNone hr hq hc hp⟩ hn
  | p3b a =>
    obtain ⟨p', hp⟩ := hpark (a := a) (by rw [hq]; rfl)
    exact absurd ⟨_, .retract hr hq hp⟩ hn
  | p4 a id =>
    cases ht : x.token t with
    | true => exact absurd ⟨_, .wake hr hq ht⟩ hn
    | false => exact .inr ⟨a, ⟨c, p, hr⟩, ⟨id, hq⟩, ht⟩
  | p5 a id =>
    by_cases hc : x.registered a id
    · exact absurd ⟨_, .still hr hq hc⟩ hn
    · exact absurd ⟨_, .woken hr hq hc⟩ hn
  | p6 a =>
    by_cases hc : a.shouldPark x.ps.mem
    · exact absurd ⟨_, .finalTrue hr hq hc⟩ hn
    · obtain ⟨p', hp⟩ := hpark (a := a) (by rw [hq]; rfl)
      exact absurd ⟨_, .finalFalse hr hq hc hp⟩ hn
  | u0 a =>
    by_cases h0 : x.pending a.tab = 0
    · obtain ⟨p', hp⟩ := hunpark (a := a) (by rw [hq]; rfl)
      exact absurd ⟨_, .unparkNone hr hq h0 hp⟩ hn
    · exact absurd ⟨_, .unparkSome hr hq h0⟩ hn
  | u1 a => exact absurd ⟨_, .take _ hr hq (List.Perm.refl _)⟩ hn
  | u2 a l => exact absurd ⟨_, .subtract hr hq⟩ hn
  | u3 a l =>
    cases l with
    | nil =>
      obtain ⟨p', hp⟩ := hunpark (a := a) (by rw [hq]; rfl)
      exact absurd ⟨_, .unparkDone hr hq hp⟩ hn
    | cons w l => exact absurd ⟨_, .wakeOne hr hq⟩ hn

/-- **C56** No deadlock, with real parkers. An operation that cannot go on either waits while another operation is running
that can go on, or it is blocked waiting for a resize that was aborted (see C26). -/
theorem C56_waits_for_progress (h : KReach C x) (h0 : Sound x.ps) (hr : Running x.ps t) (hn : ¬ KCanMove C x t) :
    (∃ u, u ≠ t ∧ Running x.ps u ∧ KCanMove C x u) ∨ ∃ a, x.Blocked t a ∧ a.Aborted x.ps.mem := by
  obtain ⟨hx, hi⟩ := h.inv
  have hne := h0.not_excused hx
  suffices hs : (∃ u, Running x.ps u ∧ KCanMove C x u) ∨ ∃ a, x.Blocked t a ∧ a.Aborted x.ps.mem by
    rcases hs with ⟨u, h3, h4⟩ | hs
    · exact .inl ⟨u, fun h => hn (h ▸ h4), h3, h4⟩
    · exact .inr hs
  obtain ⟨S, g, hS, hw⟩ := hx.work 1
  -- the holder of a mutex can go on
  have hlock : ∀ T u, x.ps.mem.lock T = .held u → ∃ u, Running x.ps u ∧ KCanMove C x u := by
    intro T u hl
    rw [← hS.1] at hl
    rcases hw.lock u T hl with h1 | ⟨c, p, h1, h2⟩
    · exact absurd h1 hne
    refine ⟨u, ⟨c, p, h1⟩, ?_⟩
    by_contra hm
    rcases stuck_cases hi ⟨c, p, h1⟩ hm with ⟨T', w, _, c', k, h4⟩ | ⟨a, _, ⟨id, h4⟩, _⟩
    · rw [h1] at h4; cases h4
      cases (h2 1).1
    · have h5 := (hi.at' u).park (a := a) (by rw [h4]; rfl) h1
      rw [WSh.not_park h2] at h5; cases h5
  -- someone with a duty can go on, or waits for a mutex
  have hduty : (∃ u c p, ∃ d : WDuty, x.ps.th u = .run c p ∧ ∀ n, WSh C.inc n (some d) p fun o _ => o = none) →
      ∃ u, Running x.ps u ∧ KCanMove C x u := by
    rintro ⟨u, c, p, d, h3, h4⟩
    by_cases hm : KCanMove C x u
    · exact ⟨u, ⟨c, p, h3⟩, hm⟩
    rcases stuck_cases hi ⟨c, p, h3⟩ hm with ⟨T', w, h6, _⟩ | ⟨a, _, ⟨id, h6⟩, _⟩
    · exact hlock T' w h6
    · have h5 := (hi.at' u).park (a := a) (by rw [h6]; rfl) h3
      rw [WSh.not_park h4] at h5; cases h5
  rcases stuck_cases hi hr hn with ⟨T, u, h1, _⟩ | ⟨a, hb⟩
  · exact .inl (hlock T u h1)
  obtain ⟨_, ⟨id, h1⟩, h2⟩ := _root_.id hb
  obtain ⟨c, p, hr⟩ := hr
  by_cases hreg : x.registered a id
  · by_cases hd : a.Done x.ps.mem
    · rcases h.wakeInv t a id (.inl h1) hreg hd with h3 | ⟨u, ⟨c, p, h3, h4⟩, _⟩
      · exact absurd h3 hne
      · exact .inl (hduty ⟨u, c, p, _, h3, h4⟩)
    · have hpa := (hi.at' t).park (a := a) (by rw [h1]; rfl) hr
      cases p with
      | act b k =>
        have hok := Reach.okAct hS hr
        cases b with
        | parkStatus N =>
          cases hpa
          obtain ⟨_, s, h3, h4⟩ := hok
          cases hst : x.ps.mem.status N with
          | promoted => exact absurd hst hd
          | aborted => exact .inr ⟨_, hb, hst⟩
          | pending => exact .inl (hduty (copy_worker hS.2.1 hw hne h3 h4 (by rw [hS.1]; exact hst)))
        | parkSlot T i =>
          cases hpa
          obtain ⟨_, e, h3, h4⟩ := hok
          have hinc : C.inc = true := (hw.plain t _ _ hr 1).1
          have hdue : (WDuty.store T i).Due C S := by
            refine ⟨hinc, h4, fun h => Option.some_ne_none e ((h3 : (S.slot T i).ptr = some e).symm.trans h), ?_⟩
            have hd : ¬ (x.ps.mem.slot T i).copied = true := hd
            rw [← hS.1] at hd
            simpa using hd
          rcases hw.due _ hdue with h5 | ⟨u, c', p, h5, h6⟩
          · exact absurd h5 hne
          · exact .inl (hduty ⟨u, c', p, _, h5, h6⟩)
        | _ => cases hpa
      | _ => cases hpa
  · rcases hi.wok t a id (.inr h1) hreg with h3 | ⟨u, h3⟩
    · rw [h2] at h3; cases h3
    · have h4 := willWake_waking hi h0.1 h3
      refine .inl ⟨u, h4.1, ?_⟩
      obtain ⟨⟨c, p, h4⟩, a, l, h5 | h5, h6⟩ := h4
      · exact ⟨_, .subtract h4 h5⟩
      · cases l with
        | nil => exact absurd h6 List.not_mem_nil
        | cons w l => exact ⟨_, .wakeOne h4 h5⟩

/-- **C56** As long as an operation is running, one of those that are running can go on, unless every one of them is blocked waiting for a
resize that was aborted. -/
theorem C56_no_deadlock (h : KReach C x) (h0 : Sound x.ps) (hr : ∃ t, Running x.ps t) :
    (∃ t, Running x.ps t ∧ KCanMove C x t) ∨ ∀ t, Running x.ps t → ∃ a, x.Blocked t a ∧ a.Aborted x.ps.mem := by
  by_cases hm : ∃ t, Running x.ps t ∧ KCanMove C x t
  · exact .inl hm
  · refine .inr fun t ht => ?_
    rcases C56_waits_for_progress h h0 ht (fun h => hm ⟨t, ht, h⟩) with ⟨u, _, h1⟩ | h1
    · exact absurd ⟨u, h1⟩ hm
    · exact h1

/-- **C56** In incremental mode no resize is aborted: as long as an operation is running, one of those that are running can go on. -/
theorem C56_no_deadlock_incremental (h : KReach C x) (h0 : Sound x.ps) (hinc : C.inc = true) (hr : ∃ t, Running x.ps t) :
    ∃ t, Running x.ps t ∧ KCanMove C x t := by
  rcases C56_no_deadlock h h0 hr with h1 | h1
  · exact h1
  · obtain ⟨t, ht⟩ := hr
    obtain ⟨a, _, h2⟩ := h1 t ht
    obtain ⟨S, g, hS, _⟩ := h.inv.1.work 0
    cases a with
    | status T => exact absurd (show S.status T = .aborted by rw [hS.1]; exact h2) (hS.2.1.s.incab hinc T)
    | slot T i => exact h2.elim

/-! ## C57: the memory of the parkers -/

theorem PkPC.key_in {q : PkPC} (h : q.key = some a) : q.inPark a ∨ q.inUnpark a := by
  cases q <;> cases h <;> simp [PkPC.inPark, PkPC.inUnpark]

/-- **C57** While an operation is within `park` or `unpark`, the table whose parker it uses is not freed. -/
theorem C57_parker_alive (h : KReach C x) (hr : Running x.ps t) (hk : (x.pk t).key = some a) :
    a.tab < x.ps.mem.nTabs ∧ x.ps.mem.tabFreed a.tab = false := by
  obtain ⟨hx, hi⟩ := h.inv
  obtain ⟨c, p, hr⟩ := hr
  obtain ⟨S, g, hS, _⟩ := hx.work 1
  rw [← hS.1]
  rcases PkPC.key_in hk with h1 | h1
  · have h2 := (hi.at' t).park h1 hr
    cases p with
    | act b k =>
      have hok := Reach.okAct hS hr
      cases b with
      | parkStatus N => cases h2; exact hok.1
      | parkSlot N i => cases h2; exact hok.1.1
      | _ => cases h2
    | _ => cases h2
  · have h2 := (hi.at' t).unpark h1 hr
    cases p with
    | act b k =>
      have hok := Reach.okAct hS hr
      cases b with
      | unparkStatus N => cases h2; exact hok.1
      | unparkSlot N i => cases h2; exact hok.1
      | _ => cases h2
    | _ => cases h2

/-- **C57** `pending` (an unsigned counter) never underflows, and is at least the number of registered threads. -/
theorem C57_pending (h : KReach C x) (T : Nat) :
    0 ≤ x.pending T ∧ ((x.reg.filter fun r => r.a.tab = T).card : Int) ≤ x.pending T := by
  obtain ⟨_, hi⟩ := h.inv
  obtain ⟨A, _, h2⟩ := hi.fin
  have h3 := h2 T
  have h4 : 0 ≤ ∑ t ∈ A, (x.pk t).debt T := Finset.sum_nonneg fun t _ => PkPC.debt_nonneg T _
  omega

/-- **C57** When no thread is within `park` or `unpark`, the parkers are empty: no thread is registered, `pending` is zero. -/
theorem C57_empty_at_rest (h : KReach C x) (hq : ∀ t, x.pk t = .norm) : x.reg = ∅ ∧ ∀ T, x.pending T = 0 := by
  obtain ⟨_, hi⟩ := h.inv
  have h1 : x.reg = ∅ := by
    rw [Finset.eq_empty_iff_forall_notMem]
    intro r hr
    have := hi.own r hr
    rw [hq] at this; exact this
  refine ⟨h1, fun T => ?_⟩
  obtain ⟨A, _, h2⟩ := hi.fin
  rw [h2 T, h1]
  simp [hq, PkPC.debt]

/-- **C57** When no operation is running (and none was abandoned), the parkers are empty. -/
theorem C57_empty_when_idle (h : KReach C x) (h0 : NoneAbandoned x.ps) (hq : ∀ t, ¬ Running x.ps t) : x.reg = ∅ ∧ ∀ T, x.pending T = 0 := by
  refine C57_empty_at_rest h fun t => ?_
  rcases h.inv.2.at' t with h1 | h1 | ⟨c, p, h1, _⟩
  · exact h1
  · exact absurd h1 (h0 t)
  · exact absurd ⟨c, p, h1⟩ (hq t)

/-- **C57** A registered thread is the one that waits: it is in `park` on that key (or was abandoned there). -/
theorem C57_registered_waits (h : KReach C x) {r : PkReg} (hr : r ∈ x.reg) : (x.pk r.t).key = some r.a := by
  have := h.inv.2.own r hr
  cases hq : x.pk r.t <;> rw [hq] at this <;> simp_all [PkPC.holds, PkPC.key]

/-! ## C26: waiting for a resize that was aborted -/

/-- **C26** is false of the code: whoever is blocked waiting for a resize that was aborted, and is not just being woken, stays in
`park` forever — whatever the others do, and however often `thread::park` returns spuriously. -/
theorem C26_blocked_forever {N : Nat} (h : KReach C x) (h0 : NoneAbandoned x.ps) (hb : x.Blocked t (.status N))
    (hab : x.ps.mem.status N = .aborted) (hw : ∀ v, ¬ Waking x v t) (hrun : KRun C x x') :
    x'.ps.th t = .gone ∨ (Running x'.ps t ∧ ∃ id, x'.pk t = .p4 (.status N) id ∨ x'.pk t = .p5 (.status N) id) := by
  obtain ⟨⟨c, p, hr⟩, ⟨id, hp4⟩, htok⟩ := hb
  have hreg : x.registered (.status N) id := by
    by_contra hn
    rcases h.inv.2.wok t _ id (.inr hp4) hn with h1 | ⟨v, h1⟩
    · rw [htok] at h1; cases h1
    · exact hw v (willWake_waking h.inv.2 h0 h1)
  have key : x'.ps.mem.status N = .aborted ∧ (x'.ps.th t = .gone ∨ (x'.ps.th t = .run c p ∧
      (x'.pk t = .p4 (.status N) id ∨ x'.pk t = .p5 (.status N) id) ∧ x'.registered (.status N) id)) := by
    induction hrun with
    | refl => exact ⟨hab, .inr ⟨hr, .inl hp4, hreg⟩⟩
    | @tail y z hy hs ih =>
      obtain ⟨hyx, hyi⟩ := (h.run hy).inv
      obtain ⟨h1, h2⟩ := ih
      have h1' : z.ps.mem.status N = .aborted := by
        rcases hs.pool hyi with h5 | h5
        · rw [h5]; exact h1
        · obtain ⟨S, g, hS, _⟩ := hyx.work 1
          obtain ⟨S', g', hS', hev, _⟩ := pinvG_step hS h5
          rw [← hS.1] at h1
          rw [← hS'.1]
          exact hev.aborted N h1
      refine ⟨h1', ?_⟩
      rcases h2 with h2 | ⟨h2, h3, h4⟩
      · left
        rcases hs.pool hyi with h5 | h5
        · rw [h5]; exact h2
        · exact step_gone h5 h2
      rcases hs with hs | hs
      · cases hs with
        | env hs hn =>
          rcases hn t c p h2 with h5 | h5
          · exact .inr ⟨h5, h3, h4⟩
          · exact .inl h5
        | own u hs =>
          right
          by_cases htu : t = u
          · subst htu
            have bad : ∀ {q : PkPC}, y.pk t = q → q ≠ .p4 (.status N) id → q ≠ .p5 (.status N) id → False := fun g1 g2 g3 => by
              rcases h3 with h3 | h3 <;> rw [g1] at h3
              · exact g2 h3
              · exact g3 h3
            cases hs with
            | wake g1 g2 g3 =>
              rcases h3 with h3 | h3 <;> rw [g2] at h3 <;> cases h3
              exact ⟨h2, .inr (if_pos rfl), h4⟩
            | still g1 g2 g3 =>
              rcases h3 with h3 | h3 <;> rw [g2] at h3 <;> cases h3
              exact ⟨h2, .inl (if_pos rfl), h4⟩
            | woken g1 g2 g3 =>
              rcases h3 with h3 | h3 <;> rw [g2] at h3 <;> cases h3
              exact absurd h4 g3
            | pool _ g2 => exact (bad g2 (by simp) (by simp)).elim
            | callPark _ g2 => exact (bad g2 (by simp) (by simp)).elim
            | callUnpark _ g2 => exact (bad g2 (by simp) (by simp)).elim
            | take _ _ g2 => exact (bad g2 (by simp) (by simp)).elim
            | _ => exact (bad (by assumption) (by simp) (by simp)).elim
          · refine ⟨by rw [th_other hyi hs htu]; exact h2, by rw [pk_other hs htu]; exact h3, ?_⟩
            obtain ⟨r, g1, g2, g3⟩ := h4
            cases hs with
            | register => exact ⟨r, Finset.mem_insert_of_mem g1, g2, g3⟩
            | @removeSome c' p' b id' g4 g5 g6 =>
              refine ⟨r, Finset.mem_filter.2 ⟨g1, fun g7 => ?_⟩, g2, g3⟩
              have e1 : (y.pk t).holds b id' := by
                rw [← g7.1, ← g7.2, g2, g3]
                rcases h3 with h3 | h3 <;> rw [h3] <;> exact ⟨rfl, rfl⟩
              exact htu (hyi.inj t u _ _ id' e1 (by rw [g5]; exact ⟨rfl, rfl⟩) rfl)
            | @take c' p' b l g4 g5 g6 =>
              refine ⟨r, Finset.mem_filter.2 ⟨g1, fun g7 => ?_⟩, g2, g3⟩
              rw [g2] at g7
              subst g7
              have e1 := (hyi.at' u).unpark (a := .status N) (by rw [g5]; rfl) g4
              obtain ⟨S, g, hS, _⟩ := hyx.work 1
              cases p' with
              | act b k =>
                have hok := Reach.okAct hS g4
                cases b with
                | unparkStatus T =>
                  cases e1
                  exact hok.2.2.2 (show S.status N = .aborted by rw [hS.1]; exact h1)
                | _ => cases e1
              | _ => cases e1
            | _ => exact ⟨r, g1, g2, g3⟩
      · cases hs with
        | @mk w c' p' b id' g1 g2 =>
          right
          refine ⟨h2, ?_, h4⟩
          by_cases htu : t = w
          · subst htu
            rcases h3 with h3 | h3 <;> rw [g2] at h3 <;> cases h3
            exact .inr (if_pos rfl)
          · rcases h3 with h3 | h3
            · exact .inl ((if_neg htu).trans h3)
            · exact .inr ((if_neg htu).trans h3)
  rcases key.2 with h1 | ⟨h1, h2, _⟩
  · exact .inl h1
  · exact .inr ⟨⟨c, p, h1⟩, id, h2⟩

end Papaya
