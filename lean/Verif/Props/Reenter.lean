import Verif.Spec.Reenter
import Verif.Proof.ReenterOps
import Verif.Props.Shared
import Verif.Props.Deadlock

/-! # C59: closures may do anything, in particular call the map -/

set_option linter.unusedSectionVars false
set_option linter.unusedVariables false

namespace Papaya

variable {K V R : Type} [DecidableEq K] {C : Cfg K} {gd : Tid → Tid} {os : OSt K V R} {t g : Tid}

/-! ## Every operation has a definite next step -/

/-- What an operation does next does not depend on answers that have not been given. -/
def OSt.Coherent (os : OSt K V R) : Prop :=
  ∀ t c p, os.th t = .run c p → ∀ l l', os.now t <+: l → l <+: l' → Apx (p l) (p l') fun _ _ => True

theorem Apx.act_inv {α β γ : Type} {a : Act K V γ} {k : γ → Prog K V α} {k' : γ → Prog K V β} {Q : α → β → Prop}
    (h : Apx (.act a k) (.act a k') Q) (r : γ) : Apx (k r) (k' r) Q := by
  intro n
  obtain ⟨k'', h1, h2⟩ := h (n + 1)
  cases h1
  exact h2 r

theorem Apx.unroll {α β : Type} {p : Prog K V α} {q : Prog K V β} {Q : α → β → Prop} (h : Apx p q Q) (hp : p.isIter) :
    Apx p.unroll q.unroll Q := by
  intro n
  cases p with
  | iter body s k => exact (h (n + 1)).2
  | _ => exact hp.elim

theorem OSt.Coherent.set {os os' : OSt K V R} {t : Tid} {x : OTh K V R} (h : os.Coherent) (h1 : os'.th = setOTh os.th t x)
    (h2 : ∀ u, u ≠ t → os'.now u = os.now u)
    (hx : ∀ c p, x = .run c p → ∀ l l', os'.now t <+: l → l <+: l' → Apx (p l) (p l') fun _ _ => True) : os'.Coherent := by
  intro u c p hu l l' hl hl'
  rw [h1] at hu
  unfold setOTh at hu
  by_cases hut : u = t
  · subst hut
    rw [if_pos rfl] at hu
    exact hx c p hu l l' hl hl'
  · rw [if_neg hut] at hu
    rw [h2 u hut] at hl
    exact h u c p hu l l' hl hl'

theorem coherent_step {os os' : OSt K V R} (h : os.Coherent) (hs : OStep C gd os os') : os'.Coherent := by
  have hnone : ∀ {t : Tid} {x : OTh K V R}, (∀ c p, x ≠ .run c p) → ∀ c p, x = .run c p →
      ∀ l l', os.now t <+: l → l <+: l' → Apx (p l) (p l') fun _ _ => True := fun hx c p h => absurd h (hx c p)
  cases hs with
  | pin g h1 => exact h
  | unpin g h1 => exact h
  | abandon t h1 => exact h.set rfl (fun _ _ => rfl) (hnone fun c p h => by cases h)
  | inv t c h1 h2 h3 =>
    refine h.set rfl (fun u hu => ?_) fun c' p hx l l' hl hl' => ?_
    · show os.given (u, if u = t then _ else _) = _
      rw [if_neg hu]; rfl
    · cases hx
      exact ap_call hl'
  | own t h1 =>
    cases h1 with
    | @act c p β a k r σ h1 h2 h3 =>
      refine h.set rfl (fun _ _ => rfl) fun c' p' hx l l' hl hl' => ?_
      cases hx
      have h4 := h t c p h1 l l' hl hl'
      rw [h2 l hl, h2 l' (hl.trans hl')] at h4
      exact h4.act_inv r
    | @loop c p h1 h2 =>
      refine h.set rfl (fun _ _ => rfl) fun c' p' hx l l' hl hl' => ?_
      cases hx
      exact (h t c p h1 l l' hl hl').unroll (h2 l hl)
    | ret h1 h2 => exact h.set rfl (fun _ _ => rfl) (hnone fun c p h => by cases h)
    | panic h1 h2 => exact h.set rfl (fun _ _ => rfl) (hnone fun c p h => by cases h)
  | answer t a h1 =>
    intro u c p hu l l' hl hl'
    refine h u c p hu l l' (List.IsPrefix.trans ?_ hl) hl'
    show os.given _ <+: if (u, os.seq u) = (t, os.seq t) then _ else _
    split
    · exact List.prefix_append _ _
    · exact List.prefix_refl _
  | closurePanics t h1 h2 => exact h.set rfl (fun _ _ => rfl) (hnone fun c p h => by cases h)
  | freeEntry x h1 h2 h3 => exact h
  | freeTable x h1 h2 h3 => exact h

theorem OReach.coherent (h : OReach C gd os) : os.Coherent := by
  induction h with
  | init h =>
    intro t c p ht
    rw [h.2.1] at ht; cases ht
  | step _ hs ih => exact coherent_step ih hs

/-- The next step of an operation that is not in its closure. -/
theorem OSt.Coherent.next (h : os.Coherent) {c : OCall K V R} {p : OProg K V R c} (ht : os.th t = .run c p) :
    os.InClosure t ∨ (∃ β, ∃ (a : Act K V β) (k : (l : List (Ans V R)) → β → Prog K V (c.fill l).Res),
        ∀ l, os.now t <+: l → p l = .act a (k l)) ∨ (∀ l, os.now t <+: l → (p l).isIter) ∨
      (∃ r : (l : List (Ans V R)) → (c.fill l).Res, ∀ l, os.now t <+: l → p l = .ret (r l)) ∨
      ∃ w, w ≠ .user ∧ ∀ l, os.now t <+: l → p l = .panic w := by
  have hap := fun l (hl : os.now t <+: l) => h t c p ht (os.now t) l (List.prefix_refl _) hl 1
  cases hp : p (os.now t) with
  | ret x =>
    refine .inr (.inr (.inr (.inl ?_)))
    have : ∀ l, ∃ y : (c.fill l).Res, os.now t <+: l → p l = .ret y := by
      intro l
      by_cases hl : os.now t <+: l
      · have h1 := hap l hl
        rw [hp] at h1
        obtain ⟨y, h2, _⟩ := h1
        exact ⟨y, fun _ => h2⟩
      · have h0 : Nonempty (c.fill l).Res := by
          cases c <;> first | exact ⟨x⟩ | skip
        obtain ⟨y⟩ := h0
        exact ⟨y, fun hl' => absurd hl' hl⟩
    choose r hr using this
    exact ⟨r, hr⟩
  | panic w =>
    by_cases hw : w = .user
    · subst hw; exact .inl ⟨c, p, ht, hp⟩
    · refine .inr (.inr (.inr (.inr ⟨w, hw, fun l hl => ?_⟩)))
      have h1 := hap l hl
      rw [hp] at h1
      exact h1.resolve_left hw
  | @act _ β a k =>
    refine .inr (.inl ⟨β, a, ?_⟩)
    have : ∀ l, ∃ k : β → Prog K V (c.fill l).Res, os.now t <+: l → p l = .act a k := by
      intro l
      by_cases hl : os.now t <+: l
      · have h1 := hap l hl
        rw [hp] at h1
        obtain ⟨k', h2, _⟩ := h1
        exact ⟨k', fun _ => h2⟩
      · exact ⟨fun _ => .panic .user, fun hl' => absurd hl' hl⟩
    choose k hk using this
    exact ⟨k, hk⟩
  | iter body s k =>
    refine .inr (.inr (.inl fun l hl => ?_))
    have h1 := hap l hl
    rw [hp] at h1
    exact h1.1

/-- **C59** An operation is always inside its closure, or has exactly one thing to do next, whatever the closure will answer later: then
it goes on, unless that is an action that waits for another operation (a mutex, the end of a resize, a slot that is being copied). -/
theorem C59_never_stuck (h : OReach C gd os) (ht : ORunning os t) :
    os.InClosure t ∨ (∃ os', OOwn C gd t os os') ∨
      ∃ c p β, ∃ (a : Act K V β) (k : (l : List (Ans V R)) → β → Prog K V (c.fill l).Res),
        os.th t = .run c p ∧ (∀ l, os.now t <+: l → p l = .act a (k l)) ∧ a.blocked os.mem := by
  obtain ⟨c, p, ht⟩ := ht
  rcases h.coherent.next ht with h1 | ⟨β, a, k, h1⟩ | h1 | ⟨r, h1⟩ | ⟨w, _, h1⟩
  · exact .inl h1
  · by_cases hb : a.blocked os.mem
    · exact .inr (.inr ⟨c, p, β, a, k, ht, h1, hb⟩)
    · obtain ⟨r, σ', he, _⟩ := can_exec (C := C) (t := t) hb
      exact .inr (.inl ⟨_, .act ht h1 he⟩)
  · exact .inr (.inl ⟨_, .loop ht h1⟩)
  · exact .inr (.inl ⟨_, .ret ht h1⟩)
  · exact .inr (.inl ⟨_, .panic ht h1⟩)

/-! ## Safety -/

/-- **C59** Whatever the closures do — call operations of the map with the same guard or others, block, answer anything —, the execution has
a counterpart in which the closures are state machines that answer at once (those that give the same answers): with the same memory,
the same references and the same history. Hence what is proved of all executions with such closures holds. -/
theorem C59_counterpart (h : OReach C gd os) :
    ∃ ss : SSt K V, SReach C gd ss ∧ ss.mem = os.mem ∧ ss.held = os.held ∧ ss.hist = os.history :=
  ⟨_, h.close os.given os.fits_given, rfl, rfl, rfl⟩

/-- **C59** All operations — those with closures, and those called by the closures in the meantime — are linearizable, each between its
own call and its own return. -/
theorem C59_linearizable (h : OReach C gd os) :
    ∃ L m, Linearization os.history L m ∧ ∀ k v, os.mem.Holds k v ↔ m k = some v :=
  C50_linearizable (h.close os.given os.fits_given)

/-- **C59** No access to freed memory: neither by the operations … -/
theorem C59_memory_safe (h : OReach C gd os) {c : OCall K V R} {p : OProg K V R c} {β : Type} {a : Act K V β}
    {k : β → Prog K V (c.fill (os.now t)).Res} (ht : os.th t = .run c p) (hp : p (os.now t) = .act a k) : a.Safe os.mem := by
  refine C50_memory_safe (t := t) (h.close os.given os.fits_given) (k := k) ?_
  show (os.th t).close _ = _
  rw [ht]
  show Th.run _ (p (os.now t)) = _
  rw [hp]

/-- … nor through the references they returned. -/
theorem C59_refs_valid (h : OReach C gd os) {e : Entry K V} (he : e ∈ os.held g) : os.mem.EntryAlive e :=
  C50_refs_valid (h.close os.given os.fits_given) he

/-! ## No deadlock -/

theorem not_exec_of_blocked {β : Type} {a : Act K V β} {σ σ' : St K V} {r : β} (h : a.blocked σ) : ¬ Exec C t a σ r σ' := by
  intro he
  cases a with
  | lockWait T =>
    obtain ⟨u, hu⟩ := h
    rcases he with ⟨h1, _⟩ | ⟨h1, _⟩ <;> (rw [hu] at h1; cases h1)
  | parkStatus T => exact he.1 h
  | parkSlot T i => exact Bool.noConfusion (he.1.symm.trans h)
  | _ => exact h.elim

/-- **C59** Nobody waits for a closure: whenever an operation waits, there is another one that can go on and is not inside its closure.
So a closure may block for as long as it likes, or wait for operations it has called itself. -/
theorem C59_nobody_waits_for_a_closure (h : OReach C gd os) (h1 : ONoneAbandoned os) (h2 : ONoAllocPanic os)
    (ht : OWaiting C gd os t) : ∃ u, u ≠ t ∧ OCanMove C gd os u := by
  have hs := h.close os.given os.fits_given
  obtain ⟨ps, hp, hsim⟩ := hs.sim
  have hmem : ∀ {β : Type} (a : Act K V β), a.blocked os.mem → a.blocked ps.mem := by
    intro β a hb
    have e : ps.mem = St.withG os.mem ps.mem.pinned ps.mem.blockers ps.mem.tabBlockers := hsim.mem.mem.symm
    rw [e]
    cases a <;> exact hb
  have hmem' : ∀ {β : Type} (a : Act K V β), a.blocked ps.mem → a.blocked os.mem := by
    intro β a hb
    have e : ps.mem = St.withG os.mem ps.mem.pinned ps.mem.blockers ps.mem.tabBlockers := hsim.mem.mem.symm
    rw [e] at hb
    cases a <;> exact hb
  have hth : ∀ u c p, os.th u = .run c p → ps.th u = .run (c.fill (os.now u)) (p (os.now u)) := by
    intro u c p hu
    have h3 := hsim.th u
    have h4 : (os.close os.given).th u = .run (c.fill (os.now u)) (p (os.now u)) := by
      show (os.th u).close _ = _
      rw [hu]; rfl
    rw [h4] at h3
    exact h3.run_inv
  have hth' : ∀ u c p, ps.th u = .run c p → ORunning os u := by
    intro u c p hu
    have h3 := hsim.th u
    rw [hu] at h3
    cases hou : os.th u with
    | run c p => exact ⟨c, p, hou⟩
    | out =>
      have h4 : (os.close os.given).th u = .out := by show (os.th u).close _ = _; rw [hou]; rfl
      rw [h4] at h3; cases h3
    | gone => exact absurd hou (h1 u)
  have hna : NoneAbandoned ps := by
    intro u hu
    have h3 := hsim.th u
    rw [hu] at h3
    cases hou : os.th u with
    | run c p =>
      rw [hth u c p hou] at hu; cases hu
    | out =>
      have h4 : (os.close os.given).th u = .out := by show (os.th u).close _ = _; rw [hou]; rfl
      rw [h4] at h3; cases h3
    | gone => exact h1 u hou
  have hal : ∀ o c w, HEv.panic o c w ∈ ps.hist → ¬ AllocPanic w := by
    intro o c w hm
    rw [← hsim.hist] at hm
    obtain ⟨e, h3, h4⟩ := List.mem_map.1 (hm : HEv.panic o c w ∈ os.hist.map _)
    cases e with
    | inv o' c' => cases h4
    | ret o' c' r => cases h4
    | panic o' c' w' =>
      have : w' = w := by injection h4
      exact this ▸ h2 o' c' w' h3
  obtain ⟨hr, hnc, hnm⟩ := ht
  have hw : Waiting C ps t := by
    rcases C59_never_stuck h hr with h3 | h3 | ⟨c, p, β, a, k, h3, h4, h5⟩
    · exact absurd h3 hnc
    · exact absurd h3 hnm
    · have h6 := hth t c p h3
      rw [h4 _ (List.prefix_refl _)] at h6
      refine ⟨⟨_, _, h6⟩, fun ⟨ps', hs⟩ => ?_⟩
      cases hs with
      | act h7 he =>
        rw [h6] at h7; cases h7
        exact not_exec_of_blocked (hmem _ h5) he
      | loop h7 => rw [h6] at h7; cases h7
      | ret h7 => rw [h6] at h7; cases h7
      | panic h7 => rw [h6] at h7; cases h7
  obtain ⟨u, h3, ⟨c, p, h4⟩, ⟨ps', h5⟩, h6⟩ := C54_waits_for_worker hp hna hal hw
  obtain ⟨c', p', h7⟩ := hth' u c p h4
  have h8 := hth u c' p' h7
  have hnc' : ¬ os.InClosure u := by
    rintro ⟨c2, p2, h9, h10⟩
    have h11 := hth u c2 p2 h9
    rw [h10] at h11
    exact h6 _ h11
  refine ⟨u, h3, hnc', ?_⟩
  rcases C59_never_stuck h ⟨c', p', h7⟩ with h9 | h9 | ⟨c2, p2, β, a, k, h9, h10, h11⟩
  · exact absurd h9 hnc'
  · exact h9
  · have h12 := hth u c2 p2 h9
    rw [h10 _ (List.prefix_refl _)] at h12
    cases h5 with
    | act h13 he =>
      rw [h12] at h13; cases h13
      exact absurd he (not_exec_of_blocked (hmem _ h11))
    | loop h13 => rw [h12] at h13; cases h13
    | ret h13 => rw [h12] at h13; cases h13
    | panic h13 => rw [h12] at h13; cases h13

/-- **C59** No deadlock: if some operation is running that is not inside its closure, one of those can go on. In particular an operation
called by a closure never waits for the operation that has called the closure. -/
theorem C59_no_deadlock (h : OReach C gd os) (h1 : ONoneAbandoned os) (h2 : ONoAllocPanic os)
    (hr : ∃ t, ORunning os t ∧ ¬ os.InClosure t) : ∃ t, OCanMove C gd os t := by
  obtain ⟨t, ht, hn⟩ := hr
  by_cases hm : ∃ os', OOwn C gd t os os'
  · exact ⟨t, hn, hm⟩
  · obtain ⟨u, _, h3⟩ := C59_nobody_waits_for_a_closure h h1 h2 ⟨ht, hn, hm⟩
    exact ⟨u, h3⟩

end Papaya
