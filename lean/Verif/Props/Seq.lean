import Verif.Spec.Seq
import Verif.Props.Quiet

/-! # A map used by one writer at a time is a mathematical map (C46) -/

set_option linter.unusedSectionVars false
set_option linter.unusedVariables false

namespace Papaya

variable {K V : Type} [DecidableEq K]

open GSt

variable {C : Cfg K} {ps ps' : PSt K V} {o : OpId} {c : Call K V}

theorem Alone.noWriter (h : Alone C ps ps' o c) (he : Ended ps'.hist o) : NoWriter ps'.hist := by
  intro o' c' hc
  by_cases hin : HEv.inv o' c' ∈ ps.hist
  · rcases h.quiet _ _ hin with h1 | h1
    · exact .inl h1
    · obtain ⟨A, hA⟩ := steps_hist h.steps
      rw [← hA]
      exact .inr h1.mono
  · rcases h.others o' c' hc hin with rfl | h1
    · exact .inr he
    · exact .inl h1

/-- An atomic operation that takes effect. -/
theorem alone_atomic (h : Alone C ps ps' o c) (ha : c.atomic = true) {r : c.Res} (hr : HEv.ret o c r ∈ ps'.hist)
    {m : AMap K V} (hm : Contents ps.mem m) : ∃ m', Contents ps'.mem m' ∧ SpecOp c m r m' := by
  obtain ⟨S, S', g, g', ⟨a1, a2, _⟩, ⟨b1, b2, _, _, _, b6⟩, _, _, hl⟩ := alone_log h
  have h4 := b6.rt o (Ended.ret hr)
  have hmS : m = vals (abs S.log) := by
    funext k
    apply Option.ext
    intro v
    rw [← holds_iff a2, a1, hm k v]
  have hstart : vals (abs (S'.log.take (g'.tInv o))) = m := by rw [hmS]; exact funext hl.start
  refine ⟨vals (abs S'.log), fun k v => by rw [← b1]; exact holds_iff b2, ?_⟩
  rcases b6.done o c r hr ha with ⟨ev, h1, h2, h3⟩ | ⟨h1, h2, h3, h5⟩
  · obtain ⟨q, hq⟩ := List.getElem?_of_mem h1
    have hlo := (b6.ev q ev hq).1
    rw [h2] at hlo
    have hqlt : q < S'.log.length := (List.getElem?_eq_some_iff.1 hq).1
    -- no other event of this operation
    have hone : ∀ (p : Nat) ev', S'.log[p]? = some ev' → p ≠ q → ev'.op ≠ o := by
      intro p ev' hp hne ho
      have hmul : (S'.ops o).multi = false := by rw [(b6.i1 _ _ h.called).2.2.1]; exact atomic_multi ha
      have hpw := b2.e.e2
      rw [List.pairwise_iff_getElem] at hpw
      obtain ⟨hp1, hp2⟩ := List.getElem?_eq_some_iff.1 hp
      obtain ⟨hq1, hq2⟩ := List.getElem?_eq_some_iff.1 hq
      rcases Nat.lt_or_gt_of_ne hne with hlt | hlt
      · have := hpw p q hp1 hq1 hlt (by rw [hp2, hq2, ho, h2])
        rw [hp2, ho, hmul] at this; cases this
      · have := hpw q p hq1 hp1 hlt (by rw [hp2, hq2, ho, h2])
        rw [hq2, h2, hmul] at this; cases this
    have hbefore : vals (abs (S'.log.take q)) = m := by
      rw [← hstart]
      exact funext fun k => vals_take_quiet b2 hlo
        (fun p ev' hp g1 g2 => (hl.after p ev' hp g1).resolve_left (hone p ev' hp (by omega))) k
    have hafter : vals (abs S'.log) = vals (abs (S'.log.take (q + 1))) := by
      funext k
      have := vals_take_quiet b2 (a := q + 1) (b := S'.log.length) (by omega)
        (fun p ev' hp g1 g2 => (hl.after p ev' hp (by omega)).resolve_left (hone p ev' hp (by omega))) k
      rw [List.take_length] at this
      exact this
    rw [hafter, take_snoc hq, vals_snoc, hbefore]
    apply h3
    have hpre : S'.log.take q ++ [ev] <+: S'.log := by rw [← take_snoc hq]; exact List.take_prefix _ _
    rw [← hbefore, (b2.e.e1 _ _ hpre).old]; rfl
  · have hall : ∀ p, g'.tInv o ≤ p → vals (abs (S'.log.take p)) = m := by
      intro p hp
      rw [← hstart]
      exact funext fun k => vals_take_quiet b2 hp
        (fun q ev' hq g1 g2 => (hl.after q ev' hq g1).resolve_left (h1 ev' (List.mem_of_getElem? hq))) k
    have hend : vals (abs S'.log) = m := by
      have := hall S'.log.length (by omega)
      rwa [List.take_length] at this
    rw [hall _ h2] at h5
    rw [hend]; exact h5

theorem alone_readOnly (h : Alone C ps ps' o c) (hro : c.readOnly) {m : AMap K V} (hm : Contents ps.mem m) :
    Contents ps'.mem m := by
  obtain ⟨S, S', g, g', ⟨a1, a2, _⟩, ⟨b1, b2, _, _, _, b6⟩, _, _, hl⟩ := alone_log h
  have hall : ∀ (q : Nat) ev', S'.log[q]? = some ev' → g'.tInv o ≤ q → ev'.new.map Entry.val = ev'.old.map Entry.val := by
    intro q ev' hq hle
    rcases hl.after q ev' hq hle with h1 | h1
    · obtain ⟨c', hc', heff⟩ := b6.evInv b2 (List.mem_of_getElem? hq)
      rw [h1] at hc'
      have := b6.wf.inv_unique h.called hc'
      subst this
      exact passive_eff (readOnly_passive hro) heff
    · exact h1
  intro k v
  have h0 := (b6.i1 _ _ h.called).2.2.2
  have := vals_take_quiet b2 h0 (fun q ev' hq g1 g2 => hall q ev' hq g1) k
  rw [List.take_length, hl.start] at this
  rw [← b1, holds_iff b2, this, ← holds_iff a2, a1]
  exact hm k v

/-- **C46** Every operation called while no writer is active behaves as the operation on mathematical maps: if the map
represented by the memory is `m` when it is called, then there is a map `m'` that the specification allows together with
the result returned, and it is what the memory represents afterwards. Readers and `reserve` may run concurrently, resizes
may be in progress. -/
theorem C46_sequential (h : Alone C ps ps' o c) {r : c.Res} (hr : HEv.ret o c r ∈ ps'.hist)
    {m : AMap K V} (hm : Contents ps.mem m) : ∃ m', Contents ps'.mem m' ∧ SeqSpec c m r m' := by
  have key : c.atomic = true → (∀ m', SpecOp c m r m' → SeqSpec c m r m') →
      ∃ m', Contents ps'.mem m' ∧ SeqSpec c m r m' := fun ha himp => by
    obtain ⟨m', h1, h2⟩ := alone_atomic h ha hr hm
    exact ⟨m', h1, himp m' h2⟩
  cases c
  case clear =>
    exact ⟨AMap.empty, fun k v => by simp [AMap.empty, C10_clear_empties h hr k v], rfl⟩
  case retain f =>
    have hb : f.Made r.calls := by
      obtain ⟨L, m, _, hL⟩ := C11_retain (h.reach.steps h.steps)
      exact (hL o f r hr).1
    obtain ⟨L, m', _, hm'⟩ := C01_linearizable (h.reach.steps h.steps)
    refine ⟨m', hm', hb, fun k v => ?_⟩
    obtain ⟨h1, h2⟩ := C11_retain_alone h hr k v
    constructor
    · intro hv
      have := h1 ((hm' k v).2 hv)
      exact ⟨(hm k v).1 this.1, this.2⟩
    · intro hv hn
      refine h2 ((hm k v).2 hv) fun hc => ?_
      rw [hm' k v, hn] at hc; cases hc
  case iter =>
    have hro := alone_readOnly h trivial hm
    obtain ⟨h1, h2⟩ := C12_iter_exact h hr
    exact ⟨m, hro, rfl, h1, fun k v => (h2 k v).trans (hro k v)⟩
  case iterTake n =>
    have hro := alone_readOnly h trivial hm
    obtain ⟨h0, h1, h2, h3⟩ := C12_iter_take_exact h hr
    exact ⟨m, hro, rfl, h0, h1, fun e he => (hro _ _).1 (h2 e he), fun hl k v hv => h3 hl k v ((hro k v).2 hv)⟩
  case len =>
    have hro := alone_readOnly h trivial hm
    obtain ⟨F, h1, h2⟩ := C13_len h hr
    refine ⟨m, hro, rfl, F, fun k => ?_, h2⟩
    rw [h1, Option.ne_none_iff_exists']
    exact exists_congr fun v => hro k v
  case isEmpty =>
    have hro := alone_readOnly h trivial hm
    refine ⟨m, hro, rfl, (C13_isEmpty h hr).trans ?_⟩
    constructor
    · intro hn
      funext k
      cases hk : m k with
      | none => rfl
      | some v => exact absurd ((hro k v).2 hk) (hn k v)
    · rintro rfl k v hv
      have := (hro k v).1 hv
      cases this
  case reserve n => exact ⟨m, alone_readOnly h trivial hm, rfl⟩
  all_goals exact key rfl fun _ h => h

-- removing a key in the middle of a resize
example : ∃ ps ps' r m, Alone cfgI ps ps' (1, 1) (.remove 3) ∧ HEv.ret (1, 1) (.remove 3 : Call Nat Nat) r ∈ ps'.hist ∧
    Contents ps.mem m ∧ r.map Entry.kv = some (3, 30) := by
  obtain ⟨ps, ps', r, h1, h4, h2, h3⟩ := demo_alone (C := cfgI) (V := Nat) (l1 := fill 9) (l2 := [.fin 1 9000]) (t := 1)
    (c := .remove 3) trivial (n := 1) (m := 18) (P2 := fun ps => true)
    (Q := fun | .remove _, r => Option.map Entry.kv r == some (3, 30) | _, _ => false) (by decide +kernel) (by decide +kernel)
  obtain ⟨_, m, _, hm⟩ := C01_linearizable h1.reach
  exact ⟨ps, ps', r, m, h1, h2, hm, by simpa using h3⟩

/-- **C46** An operation on a single key that panics leaves the map as it was. -/
theorem C46_panic (h : Alone C ps ps' o c) {w : PanicReason} (hp : HEv.panic o c w ∈ ps'.hist) (ha : c.atomic = true)
    {m : AMap K V} (hm : Contents ps.mem m) : Contents ps'.mem m := by
  obtain ⟨S, S', g, g', ⟨a1, a2, _⟩, ⟨b1, b2, _, _, _, b6⟩, _, _, hl⟩ := alone_log h
  intro k v
  have h0 := (b6.i1 _ _ h.called).2.2.2
  have := vals_take_quiet b2 h0 (fun q ev' hq g1 g2 => (hl.after q ev' hq g1).resolve_left
    (b6.pan o c w hp ha ev' (List.mem_of_getElem? hq))) k
  rw [List.take_length, hl.start] at this
  rw [← b1, holds_iff b2, this, ← holds_iff a2, a1]
  exact hm k v

-- a predicate that panics
example : ∃ ps ps' m, Alone cfgB ps ps' (1, 1) (.removeIf 3 ⟨Unit, (), fun _ _ => .error .user⟩ : Call Nat Nat) ∧
    HEv.panic (1, 1) (.removeIf 3 ⟨Unit, (), fun _ _ => .error .user⟩ : Call Nat Nat) .user ∈ ps'.hist ∧ Contents ps.mem m := by
  obtain ⟨ps, ps', h1, _, h2⟩ := demo_alone_panic (C := cfgB) (V := Nat) (l1 := fill 5) (t := 1) (n := 1) (m := 10) (w := .user)
    (c := .removeIf 3 ⟨Unit, (), fun _ _ => .error .user⟩) (l2 := [.fin 1 500]) (by intro s i r h; cases h; rfl)
    (P2 := fun _ => true) (by decide +kernel) (by decide +kernel)
  obtain ⟨_, m, _, hm⟩ := C01_linearizable h1.reach
  exact ⟨ps, ps', m, h1, h2, hm⟩

end Papaya
