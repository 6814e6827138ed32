import Verif.Props.Ops
import Verif.Spec.Quiet
import Mathlib.Data.Finset.Card
import Mathlib.Data.Finset.Insert
import Verif.Exec.Demo

/-! # Bulk operations, `len`, `reserve` (C10–C13, C30) -/

set_option linter.unusedSectionVars false
set_option linter.unusedVariables false

namespace Papaya

variable {K V : Type} [DecidableEq K]

open GSt

variable {C : Cfg K} {t : Tid} {ps ps' : PSt K V} {o : OpId} {c : Call K V}

theorem readOnly_passive {c : Call K V} (h : c.readOnly) : c.passive = true := by
  cases c <;> first | rfl | cases h

theorem passive_readOnly {c : Call K V} (h : c.passive = true) : c.readOnly := by
  cases c <;> first | trivial | cases h

theorem NoWriter.allDone {hist : List (HEv K V)} (h : NoWriter hist) : AllDone hist := fun o c ho => by
  rcases h o c ho with h1 | h1
  · exact .inl (readOnly_passive h1)
  · exact .inr h1

/-- What the log looks like around a call executed without concurrent writers. -/
structure AloneLog (S S' : GSt K V) (g : HG) (o : OpId) : Prop where
  /-- the contents when the call is made -/
  start : ∀ k, vals (abs (S'.log.take (g.tInv o))) k = vals (abs S.log) k
  /-- later changes are made by the call -/
  after : ∀ (q : Nat) ev, S'.log[q]? = some ev → g.tInv o ≤ q → ev.op = o ∨ ev.new.map Entry.val = ev.old.map Entry.val

theorem vals_take_quiet {S' : GSt K V} (hS : S'.Inv C) {a b : Nat} (hab : a ≤ b)
    (hq : ∀ (q : Nat) ev, S'.log[q]? = some ev → a ≤ q → q < b → ev.new.map Entry.val = ev.old.map Entry.val) (k : K) :
    vals (abs (S'.log.take b)) k = vals (abs (S'.log.take a)) k := by
  have h1 : S'.log.take b = S'.log.take a ++ (S'.log.take b).drop a := by
    have := List.take_append_drop a (S'.log.take b)
    rw [List.take_take, Nat.min_eq_left hab] at this
    exact this.symm
  rw [h1]
  refine vals_quiet hS (C := C) (by rw [← h1]; exact List.take_prefix _ _) (fun ev hev => ?_) k
  obtain ⟨n, hn⟩ := List.getElem?_of_mem hev
  rw [List.getElem?_drop, List.getElem?_take] at hn
  split at hn
  · rename_i hlt
    exact hq (a + n) ev hn (by omega) hlt
  · cases hn

theorem alone_log (h : Alone C ps ps' o c) : ∃ S S' g g', PInvG C 1 ps S g ∧ PInvG C 1 ps' S' g' ∧ Grow S S' ∧
    S.rt ≤ g'.rInv o ∧ AloneLog S S' g' o := by
  obtain ⟨S, S', g, g', a, b, hgr, hret, hri⟩ := steps_grow h.reach h.steps
  refine ⟨S, S', g, g', a, b, hgr, (hri o c h.called).resolve_left h.fresh, ?_⟩
  obtain ⟨a1, a2, _, _, _, a6⟩ := a
  obtain ⟨b1, b2, _, _, _, b6⟩ := b
  obtain ⟨A, hA⟩ := steps_hist h.steps
  have hcA : HEv.inv o c ∈ A := by
    have := h.called
    rw [← hA] at this
    exact (List.mem_append.1 this).resolve_left h.fresh
  have hno : ∀ c', HEv.inv o c' ∉ ps.hist := by
    intro c' hc
    have := b6.wf.inv_unique h.called ((steps_hist h.steps).subset hc)
    subst this
    exact h.fresh hc
  -- calls that are not `o` and may write were over in `ps`
  have hover : ∀ o' c', HEv.inv o' c' ∈ ps'.hist → o' ≠ o → c'.passive = true ∨ Ended ps.hist o' := by
    intro o' c' hc hne
    by_cases hin : HEv.inv o' c' ∈ ps.hist
    · exact h.quiet.allDone _ _ hin
    · rcases h.others o' c' hc hin with h1 | h1
      · exact absurd h1 hne
      · exact .inl (readOnly_passive h1)
  have hprec : ∀ o', Ended ps.hist o' → g'.tRet o' ≤ g'.tInv o := fun o' hr => b6.pr _ _ ⟨ps.hist, A, hA.symm, hr, c, hcA⟩
  have hev : ∀ (q : Nat) ev, S'.log[q]? = some ev → (g'.tInv o ≤ q ∨ S.log.length ≤ q) →
      ev.op = o ∨ ev.new.map Entry.val = ev.old.map Entry.val := by
    intro q ev hq hle
    by_cases hne : ev.op = o
    · exact .inl hne
    · right
      obtain ⟨c', hc', heff⟩ := b6.evInv b2 (List.mem_of_getElem? hq)
      rcases hover _ _ hc' hne with h1 | h1
      · exact passive_eff h1 heff
      · exfalso
        have h2 := (b6.ev q ev hq).2 (hret _ h1).1
        rcases hle with h3 | h3
        · have := hprec _ h1; omega
        · have := (a6.rt _ h1).2
          rw [(hret _ h1).2] at h2
          omega
  have hlo : ∀ (q : Nat) ev, S'.log[q]? = some ev → ev.op = o → g'.tInv o ≤ q ∧ S.log.length ≤ q := by
    intro q ev hq ho
    have h1 := (b6.ev q ev hq).1
    rw [ho] at h1
    refine ⟨h1, ?_⟩
    by_contra hlt
    obtain ⟨l, hl⟩ := hgr.log
    rw [← hl, List.getElem?_append_left (by omega)] at hq
    obtain ⟨c', hc', _⟩ := a6.evInv a2 (List.mem_of_getElem? hq)
    rw [ho] at hc'
    exact hno c' hc'
  refine ⟨fun k => ?_, fun q ev hq hle => hev q ev hq (.inl hle)⟩
  have hlog : S.log = S'.log.take S.log.length := prefix_take hgr.log
  conv => rhs; rw [hlog]
  rcases Nat.le_total (g'.tInv o) S.log.length with hle | hle
  · refine (vals_take_quiet b2 hle (fun q ev hq h1 h2 => ?_) k).symm
    rcases hev q ev hq (.inl h1) with h3 | h3
    · have := (hlo q ev hq h3).2; omega
    · exact h3
  · refine vals_take_quiet b2 hle (fun q ev hq h1 h2 => ?_) k
    rcases hev q ev hq (.inr h1) with h3 | h3
    · have := (hlo q ev hq h3).1; omega
    · exact h3

/-- The binding of a key after the call has started. -/
theorem AloneLog.evolve {S S' : GSt K V} {g : HG} (hS : S'.Inv C) (h : AloneLog S S' g o)
    (hdel : ∀ ev ∈ S'.log, ev.op = o → ev.new = none) {a b : Nat} (ha : g.tInv o ≤ a) (hab : a ≤ b) (k : K) :
    vals (abs (S'.log.take b)) k = vals (abs (S'.log.take a)) k ∨
    (vals (abs (S'.log.take b)) k = none ∧ ∃ ev ∈ S'.log, ev.op = o ∧ ev.key = k ∧
      ev.old.map Entry.val = vals (abs (S'.log.take a)) k) := by
  induction b, hab using Nat.le_induction with
  | base => exact .inl rfl
  | succ n hn ih =>
    rw [List.take_add_one]
    cases hq : S'.log[n]? with
    | none => simpa using ih
    | some ev =>
      show vals (abs (S'.log.take n ++ [ev])) k = _ ∨ (vals (abs (S'.log.take n ++ [ev])) k = _ ∧ _)
      have hpre : S'.log.take n ++ [ev] <+: S'.log := by
        have : S'.log.take n ++ [ev] = S'.log.take (n + 1) := by rw [List.take_add_one, hq]; rfl
        rw [this]; exact List.take_prefix _ _
      have hold := (hS.e.e1 _ _ hpre).old
      have hold' : ev.old.map Entry.val = vals (abs (S'.log.take n)) ev.key := by rw [hold]; rfl
      rw [vals_snoc]
      have hput : ∀ x, AMap.put (vals (abs (S'.log.take n))) ev.key x k
          = if k = ev.key then x else vals (abs (S'.log.take n)) k := fun x => rfl
      rw [hput]
      by_cases hk : k = ev.key
      · rw [if_pos hk]
        rcases h.after n ev hq (by omega) with h1 | h1
        · rw [hdel ev (List.mem_of_getElem? hq) h1]
          rcases ih with h2 | ⟨h2, h3⟩
          · exact .inr ⟨rfl, ev, List.mem_of_getElem? hq, h1, hk.symm, by rw [hold', ← hk, h2]⟩
          · exact .inr ⟨rfl, h3⟩
        · rw [h1, hold', ← hk]; exact ih
      · rw [if_neg hk]; exact ih

theorem done_del {S : GSt K V} {hist : List (HEv K V)} {th : Tid → Th K V} {g : HG} (h : HistInv S hist th g) (hS : S.Inv C)
    (hc : HEv.inv o c ∈ hist) (hm : c.atomic = false) {ev : Ev K V} (hev : ev ∈ S.log) (ho : ev.op = o) :
    ev.new = none := by
  obtain ⟨c', hc', heff⟩ := h.evInv hS hev
  rw [ho] at hc'
  have := h.wf.inv_unique hc hc'
  subst this
  rcases heff with ⟨h1, _⟩ | ⟨_, _, h1, _⟩
  · rw [hm] at h1; cases h1
  · exact h1

/-- **C10** When `clear` returns, every key has been absent at some instant of the call. -/
theorem C10_clear (h : Reach C ps) : ∃ L m, Linearization ps.hist L m ∧
    ∀ o r, HEv.ret o .clear r ∈ ps.hist → ∀ k, During ps.hist L o fun m => m k = none := by
  obtain ⟨L, m, hL, _⟩ := C01_linearizable h
  exact ⟨L, m, hL, fun o r hr => hL.bulk o .clear r hr⟩

theorem seenAt_vals {l : List (Ev K V)} {a b : Nat} {k : K} {x : Option (Entry K V)} (h : SeenAt l a b k x) :
    ∃ p, a ≤ p ∧ p ≤ b ∧ vals (abs (l.take p)) k = x.map Entry.val := by
  obtain ⟨p, h1, h2, h3⟩ := h
  exact ⟨p, h1, h2, by unfold vals; rw [h3]⟩

theorem take_all {l : List (Ev K V)} {p : Nat} (h : p ≤ l.length) : vals (abs l) = vals (abs (l.take (max p l.length))) := by
  rw [Nat.max_eq_right h, List.take_length]

/-- **C10** Executed without concurrent writers, `clear` leaves the map empty. -/
theorem C10_clear_empties (h : Alone C ps ps' o .clear) {r : Unit} (hr : HEv.ret o .clear r ∈ ps'.hist) (k : K) (v : V) :
    ¬ ps'.mem.Holds k v := by
  obtain ⟨S, S', g, g', _, ⟨b1, b2, _, _, _, b6⟩, _, _, hl⟩ := alone_log h
  rw [← b1, holds_iff b2]
  obtain ⟨p, h1, h2, h3⟩ := seenAt_vals (b6.bulk o .clear r hr k)
  have h4 := (b6.rt o (Ended.ret hr)).2
  have h5 := hl.evolve b2 (fun ev he ho => done_del b6 b2 h.called rfl he ho) h1 (b := S'.log.length) (by omega) k
  rw [List.take_length, h3] at h5
  rcases h5 with h5 | ⟨h5, _⟩ <;> rw [h5] <;> simp

-- nine keys, a resize in progress
example : ∃ ps ps' r, Alone cfgI ps ps' (1, 1) (.clear) ∧ HEv.ret (1, 1) (.clear : Call Nat Nat) r ∈ ps'.hist ∧ ps'.mem.retired 3 = true := by
  obtain ⟨ps, ps', r, h1, h4, h2, h3⟩ := demo_alone (C := cfgI) (V := Nat) (l1 := fill 9) (l2 := [.fin 1 9000]) (t := 1)
    (c := .clear) trivial (n := 1) (m := 18) (P2 := fun ps => ps.mem.retired 3) (Q := fun _ _ => true) (by decide +kernel) (by decide +kernel)
  exact ⟨ps, ps', r, h1, h2, h4⟩

/-- **C11** Whatever `retain` removes was rejected by a call of the predicate with exactly that key and value; when it
returns, every key has been, at some instant of the call, absent or bound to a value that the predicate accepted. -/
theorem C11_retain (h : Reach C ps) : ∃ L m, Linearization ps.hist L m ∧
    ∀ o f r, HEv.ret o (.retain f) r ∈ ps.hist → f.Made r.calls ∧
      (∀ x, .del o (.retain f) x ∈ L → (x, false) ∈ r.calls) ∧
      ∀ k, During ps.hist L o (fun m => m k = none) ∨
        ∃ v, ((k, v), true) ∈ r.calls ∧ During ps.hist L o fun m => m k = some v := by
  obtain ⟨L, m, hL, _⟩ := C01_linearizable h
  exact ⟨L, m, hL, fun o f r hr => hL.bulk o (.retain f) r hr⟩

/-- **C11** Executed without concurrent writers, `retain` keeps only bindings that the predicate accepted, and removes
only bindings that it rejected. -/
theorem C11_retain_alone {f : Closure (K × V) Bool} (h : Alone C ps ps' o (.retain f)) {r}
    (hr : HEv.ret o (.retain f) r ∈ ps'.hist) (k : K) (v : V) :
    (ps'.mem.Holds k v → ps.mem.Holds k v ∧ ((k, v), true) ∈ r.calls) ∧
    (ps.mem.Holds k v → ¬ ps'.mem.Holds k v → ((k, v), false) ∈ r.calls) := by
  obtain ⟨S, S', g, g', ⟨a1, a2, _⟩, ⟨b1, b2, _, _, _, b6⟩, _, _, hl⟩ := alone_log h
  rw [← b1, ← a1, holds_iff b2, holds_iff a2]
  obtain ⟨hb1, hb2, hb3⟩ := b6.bulk o (.retain f) r hr
  have h4 := b6.rt o (Ended.ret hr)
  have hdel : ∀ ev ∈ S'.log, ev.op = o → ev.new = none := fun ev he ho => done_del b6 b2 h.called rfl he ho
  constructor
  · intro hv
    have key : ∀ p, g'.tInv o ≤ p → p ≤ S'.log.length → vals (abs (S'.log.take p)) k = some v := by
      intro p h1 h2
      rcases hl.evolve b2 hdel h1 h2 k with h5 | ⟨h5, _⟩
      · rw [← h5, List.take_length]; exact hv
      · rw [List.take_length, hv] at h5; cases h5
    refine ⟨by rw [← hl.start]; exact key _ (Nat.le_refl _) (by omega), ?_⟩
    rcases hb3 k with h1 | ⟨e, h1, rfl, h2⟩
    · obtain ⟨p, h5, h6, h7⟩ := seenAt_vals h1
      rw [key p h5 (by omega)] at h7
      cases h7
    · obtain ⟨p, h5, h6, h7⟩ := seenAt_vals h1
      rw [key p h5 (by omega)] at h7
      cases h7
      exact h2
  · intro hv hn
    rw [← hl.start] at hv
    rcases hl.evolve b2 hdel (Nat.le_refl (g'.tInv o)) (b := S'.log.length) (by omega) k with h5 | ⟨h5, ev, h6, h7, h8, h9⟩
    · rw [List.take_length, hv] at h5; exact absurd h5 hn
    · obtain ⟨e, h10, h11⟩ := hb2 ev h6 h7
      rw [h10, hv] at h9
      have hk : e.key = k := by
        obtain ⟨c', hc', heff⟩ := b6.evInv b2 h6
        rw [h7] at hc'
        have := b6.wf.inv_unique h.called hc'
        subst this
        rcases heff with ⟨h1, _⟩ | ⟨e', h1, _, h2, _⟩
        · cases h1
        · rw [h10] at h1; cases h1; rw [← h2]; exact h8
      have hvv : e.val = v := by simpa using h9
      rw [hk, hvv] at h11
      exact h11

-- nine keys, a resize in progress; the predicate is called for each of them
example : ∃ ps ps' r, Alone cfgI ps ps' (1, 1) (.retain (.pure fun x => x.1 % 2 == 0)) ∧ HEv.ret (1, 1) (.retain (.pure fun x => x.1 % 2 == 0) : Call Nat Nat) r ∈ ps'.hist ∧ r.calls.length = 9 := by
  obtain ⟨ps, ps', r, h1, h4, h2, h3⟩ := demo_alone (C := cfgI) (V := Nat) (l1 := fill 9) (l2 := [.fin 1 9000]) (t := 1)
    (c := .retain (.pure fun x => x.1 % 2 == 0)) pure_wf (n := 1) (m := 18) (P2 := fun _ => true)
    (Q := fun | .retain _, r => r.calls.length == 9 | _, _ => false) (by decide +kernel) (by decide +kernel)
  exact ⟨ps, ps', r, h1, h2, by simpa using h3⟩

/-- **C11** Executed without concurrent writers and with a predicate that is a function, `retain` leaves exactly the
filtered map. -/
theorem C11_retain_filter {p : K × V → Bool} (h : Alone C ps ps' o (.retain (.pure p))) {r}
    (hr : HEv.ret o (.retain (.pure p)) r ∈ ps'.hist) (k : K) (v : V) :
    ps'.mem.Holds k v ↔ ps.mem.Holds k v ∧ p (k, v) = true := by
  have hm : (Closure.pure p).Made r.calls := by
    obtain ⟨L, m, _, hL⟩ := C11_retain (h.reach.steps h.steps)
    exact (hL o _ r hr).1
  obtain ⟨h1, h2⟩ := C11_retain_alone h hr k v
  constructor
  · intro hv
    exact ⟨(h1 hv).1, (Closure.pure_made hm (h1 hv).2).symm⟩
  · rintro ⟨h3, h4⟩
    by_contra hn
    have := Closure.pure_made hm (h2 h3 hn)
    rw [h4] at this; cases this

-- likewise
example : ∃ ps ps' r, Alone cfgI ps ps' (1, 1) (.retain (.pure fun x => x.1 % 2 == 0)) ∧ HEv.ret (1, 1) (.retain (.pure fun x => x.1 % 2 == 0) : Call Nat Nat) r ∈ ps'.hist ∧ ps'.mem.retired 3 = true ∧ ps'.mem.retired 4 = false := by
  obtain ⟨ps, ps', r, h1, h4, h2, h3⟩ := demo_alone (C := cfgI) (V := Nat) (l1 := fill 9) (l2 := [.fin 1 9000]) (t := 1)
    (c := .retain (.pure fun x => x.1 % 2 == 0)) pure_wf (n := 1) (m := 18) (P2 := fun ps => ps.mem.retired 3 && !ps.mem.retired 4)
    (Q := fun _ _ => true) (by decide +kernel) (by decide +kernel)
  exact ⟨ps, ps', r, h1, h2, by simpa using h4⟩

/-- **C12** Everything yielded by an iterator was in the map at some instant of the iteration; a key that is not
yielded, or is yielded twice, was absent at some instant of the iteration. -/
theorem C12_iter (h : Reach C ps) : ∃ L m, Linearization ps.hist L m ∧
    ∀ o (r : List (Entry K V)), HEv.ret o .iter r ∈ ps.hist →
      (∀ e, e ∈ r → During ps.hist L o fun m => m e.key = some e.val) ∧
      (∀ k, (¬ During ps.hist L o fun m => m k = none) → ∃ e, e ∈ r ∧ e.key = k) ∧
      r.Pairwise fun a b => a.key = b.key → During ps.hist L o fun m => m a.key = none := by
  obtain ⟨L, m, hL, _⟩ := C01_linearizable h
  refine ⟨L, m, hL, fun o r hr => ?_⟩
  obtain ⟨h1, h2, h3⟩ := hL.bulk o .iter r hr
  exact ⟨h1, fun k hk => (h2 k).resolve_right hk, h3⟩

/-- **C12** Executed without concurrent writers, an iterator yields exactly the bindings of the map, each of them once. -/
theorem C12_iter_exact (h : Alone C ps ps' o .iter) {r : List (Entry K V)} (hr : HEv.ret o .iter r ∈ ps'.hist) :
    (r.map Entry.key).Nodup ∧ ∀ k v, (∃ e, e ∈ r ∧ e.key = k ∧ e.val = v) ↔ ps'.mem.Holds k v := by
  obtain ⟨S, S', g, g', ⟨a1, a2, _⟩, ⟨b1, b2, _, _, _, b6⟩, _, _, hl⟩ := alone_log h
  obtain ⟨hb1, hb2, hb3⟩ := b6.bulk o .iter r hr
  have h4 := b6.rt o (Ended.ret hr)
  have hnone : ∀ ev ∈ S'.log, ev.op ≠ o := by
    intro ev hev ho
    obtain ⟨c', hc', heff⟩ := b6.evInv b2 hev
    rw [ho] at hc'
    have := b6.wf.inv_unique h.called hc'
    subst this
    rcases heff with ⟨h1, _⟩ | ⟨_, _, _, _, h1⟩
    · cases h1
    · exact h1
  have key : ∀ k p, g'.tInv o ≤ p → p ≤ S'.log.length → vals (abs (S'.log.take p)) k = vals (abs S'.log) k := by
    intro k p h1 h2
    rcases hl.evolve b2 (fun ev he ho => absurd ho (hnone ev he)) h1 h2 k with h5 | ⟨_, ev, h5, h6, _⟩
    · rw [← h5, List.take_length]
    · exact absurd h6 (hnone ev h5)
  have hyield : ∀ e ∈ r, vals (abs S'.log) e.key = some e.val := by
    intro e he
    obtain ⟨p, h5, h6, h7⟩ := seenAt_vals (hb1 e he)
    rw [← key _ p h5 (by omega)]; exact h7
  constructor
  · unfold List.Nodup
    rw [List.pairwise_map]
    refine List.Pairwise.imp_of_mem ?_ hb2
    intro a b ha hb hab hk
    obtain ⟨p, h5, h6, h7⟩ := seenAt_vals (hab hk)
    rw [key _ p h5 (by omega), hyield a ha] at h7
    cases h7
  · intro k v
    rw [← b1, holds_iff b2]
    constructor
    · rintro ⟨e, h1, rfl, rfl⟩
      exact hyield e h1
    · intro hv
      rcases hb3 k with h1 | ⟨e, h1, rfl⟩
      · obtain ⟨p, h5, h6, h7⟩ := seenAt_vals h1
        rw [key _ p h5 (by omega), hv] at h7
        cases h7
      · have := hyield e h1
        rw [hv] at this
        exact ⟨e, h1, rfl, (Option.some.inj this).symm⟩

/-- **C12** An iterator that is dropped as soon as it has yielded `n` entries yields at most `n`; everything it yields was in
the map at some instant of the iteration; if it yields fewer than `n`, a key that is not yielded was absent at some instant of
the iteration; a key that is yielded twice was absent at some instant of the iteration. -/
theorem C12_iter_take (h : Reach C ps) : ∃ L m, Linearization ps.hist L m ∧
    ∀ o n (r : List (Entry K V)), HEv.ret o (.iterTake n) r ∈ ps.hist →
      r.length ≤ n ∧
      (∀ e, e ∈ r → During ps.hist L o fun m => m e.key = some e.val) ∧
      (r.length < n → ∀ k, (¬ During ps.hist L o fun m => m k = none) → ∃ e, e ∈ r ∧ e.key = k) ∧
      r.Pairwise fun a b => a.key = b.key → During ps.hist L o fun m => m a.key = none := by
  obtain ⟨L, m, hL, _⟩ := C01_linearizable h
  refine ⟨L, m, hL, fun o n r hr => ?_⟩
  obtain ⟨h0, h1, h2, h3⟩ := hL.bulk o (.iterTake n) r hr
  exact ⟨h0, h1, fun hl k hk => (h2 hl k).resolve_right hk, h3⟩

/-- **C12** Executed without concurrent writers, an iterator that is dropped as soon as it has yielded `n` entries yields
different bindings of the map; if it yields fewer than `n`, they are all the bindings of the map. -/
theorem C12_iter_take_exact {n : Nat} (h : Alone C ps ps' o (.iterTake n)) {r : List (Entry K V)}
    (hr : HEv.ret o (.iterTake n) r ∈ ps'.hist) :
    r.length ≤ n ∧ (r.map Entry.key).Nodup ∧ (∀ e, e ∈ r → ps'.mem.Holds e.key e.val) ∧
      (r.length < n → ∀ k v, ps'.mem.Holds k v → ∃ e, e ∈ r ∧ e.key = k ∧ e.val = v) := by
  obtain ⟨S, S', g, g', ⟨a1, a2, _⟩, ⟨b1, b2, _, _, _, b6⟩, _, _, hl⟩ := alone_log h
  obtain ⟨hb1, hb2, hb0, hb3⟩ := b6.bulk o (.iterTake n) r hr
  have h4 := b6.rt o (Ended.ret hr)
  have hnone : ∀ ev ∈ S'.log, ev.op ≠ o := by
    intro ev hev ho
    obtain ⟨c', hc', heff⟩ := b6.evInv b2 hev
    rw [ho] at hc'
    have := b6.wf.inv_unique h.called hc'
    subst this
    rcases heff with ⟨h1, _⟩ | ⟨_, _, _, _, h1⟩
    · cases h1
    · exact h1
  have key : ∀ k p, g'.tInv o ≤ p → p ≤ S'.log.length → vals (abs (S'.log.take p)) k = vals (abs S'.log) k := by
    intro k p h1 h2
    rcases hl.evolve b2 (fun ev he ho => absurd ho (hnone ev he)) h1 h2 k with h5 | ⟨_, ev, h5, h6, _⟩
    · rw [← h5, List.take_length]
    · exact absurd h6 (hnone ev h5)
  have hyield : ∀ e ∈ r, vals (abs S'.log) e.key = some e.val := by
    intro e he
    obtain ⟨p, h5, h6, h7⟩ := seenAt_vals (hb1 e he)
    rw [← key _ p h5 (by omega)]; exact h7
  refine ⟨hb0, ?_, fun e he => ?_, fun hlt k v => ?_⟩
  · unfold List.Nodup
    rw [List.pairwise_map]
    refine List.Pairwise.imp_of_mem ?_ hb2
    intro a b ha hb hab hk
    obtain ⟨p, h5, h6, h7⟩ := seenAt_vals (hab hk)
    rw [key _ p h5 (by omega), hyield a ha] at h7
    cases h7
  · rw [← b1, holds_iff b2]; exact hyield e he
  · rw [← b1, holds_iff b2]
    intro hv
    rcases hb3 hlt k with h1 | ⟨e, h1, rfl⟩
    · obtain ⟨p, h5, h6, h7⟩ := seenAt_vals h1
      rw [key _ p h5 (by omega), hv] at h7
      cases h7
    · have := hyield e h1
      rw [hv] at this
      exact ⟨e, h1, rfl, (Option.some.inj this).symm⟩

-- dropped after 4 of the nine entries
example : ∃ ps ps' r, Alone cfgI ps ps' (1, 1) (.iterTake 4) ∧ HEv.ret (1, 1) (.iterTake 4 : Call Nat Nat) r ∈ ps'.hist ∧ List.length r = 4 := by
  obtain ⟨ps, ps', r, h1, h4, h2, h3⟩ := demo_alone (C := cfgI) (V := Nat) (l1 := fill 9) (l2 := [.fin 1 9000]) (t := 1)
    (c := .iterTake 4) trivial (n := 1) (m := 18) (P2 := fun _ => true)
    (Q := fun | .iterTake _, r => List.length r == 4 | _, _ => false) (by decide +kernel) (by decide +kernel)
  exact ⟨ps, ps', r, h1, h2, by simpa using h3⟩

-- more are asked for than there are
example : ∃ ps ps' r, Alone cfgI ps ps' (1, 1) (.iterTake 10) ∧ HEv.ret (1, 1) (.iterTake 10 : Call Nat Nat) r ∈ ps'.hist ∧ List.length r = 9 := by
  obtain ⟨ps, ps', r, h1, h4, h2, h3⟩ := demo_alone (C := cfgI) (V := Nat) (l1 := fill 9) (l2 := [.fin 1 9000]) (t := 1)
    (c := .iterTake 10) trivial (n := 1) (m := 18) (P2 := fun _ => true)
    (Q := fun | .iterTake _, r => List.length r == 9 | _, _ => false) (by decide +kernel) (by decide +kernel)
  exact ⟨ps, ps', r, h1, h2, by simpa using h3⟩

-- nine keys, a resize in progress, which the iterator completes
example : ∃ ps ps' r, Alone cfgI ps ps' (1, 1) (.iter) ∧ HEv.ret (1, 1) (.iter : Call Nat Nat) r ∈ ps'.hist ∧ List.length r = 9 ∧ ps'.mem.root = some 1 := by
  obtain ⟨ps, ps', r, h1, h4, h2, h3⟩ := demo_alone (C := cfgI) (V := Nat) (l1 := fill 9) (l2 := [.fin 1 9000]) (t := 1)
    (c := .iter) trivial (n := 1) (m := 18) (P2 := fun ps => ps.mem.root == some 1)
    (Q := fun | .iter, r => List.length r == 9 | _, _ => false) (by decide +kernel) (by decide +kernel)
  exact ⟨ps, ps', r, h1, h2, by simpa using h3, by simpa using h4⟩

/-! ## The counter -/

/-- The sum of the size changes is the number of keys. -/
theorem deltas_card {S : GSt K V} (hS : S.Inv C) {l : List (Ev K V)} (h : l <+: S.log) :
    ∃ F : Finset K, (∀ k, k ∈ F ↔ vals (abs l) k ≠ none) ∧ deltas l = F.card := by
  induction l using List.reverseRecOn with
  | nil => exact ⟨∅, fun k => by simp [vals, show abs ([] : List (Ev K V)) k = none from rfl], rfl⟩
  | append_singleton l ev ih =>
    obtain ⟨F, h1, h2⟩ := ih (List.IsPrefix.trans ⟨[ev], rfl⟩ h)
    have hold := (hS.e.e1 _ _ h).old
    have hmem : ev.key ∈ F ↔ ev.old ≠ none := by
      rw [h1, hold]; unfold vals; rw [Ne, Option.map_eq_none_iff]
    have hd : deltas (l ++ [ev]) = deltas l + ev.delta := by unfold deltas; simp
    have hput : ∀ k, vals (abs (l ++ [ev])) k = if k = ev.key then ev.new.map Entry.val else vals (abs l) k := by
      intro k; rw [vals_snoc]; rfl
    cases hn : ev.new with
    | none =>
      refine ⟨F.erase ev.key, fun k => ?_, ?_⟩
      · rw [hput, Finset.mem_erase, h1, hn]
        by_cases hk : k = ev.key <;> simp [hk]
      · rw [hd, h2]
        unfold Ev.delta
        rw [hn]
        cases ho : ev.old with
        | none =>
          have : ev.key ∉ F := by rw [hmem, ho]; simp
          rw [Finset.erase_eq_of_notMem this]; simp
        | some e =>
          have : ev.key ∈ F := by rw [hmem, ho]; simp
          have hc := Finset.card_erase_add_one this
          simp only
          omega
    | some e' =>
      refine ⟨Insert.insert ev.key F, fun k => ?_, ?_⟩
      · rw [hput, Finset.mem_insert, h1, hn]
        by_cases hk : k = ev.key <;> simp [hk]
      · rw [hd, h2]
        unfold Ev.delta
        rw [hn]
        cases ho : ev.old with
        | none =>
          have : ev.key ∉ F := by rw [hmem, ho]; simp
          rw [Finset.card_insert_of_notMem this]; push_cast; rfl
        | some e =>
          have : ev.key ∈ F := by rw [hmem, ho]; simp
          rw [Finset.insert_eq_of_mem this]; simp

theorem lenIs_keys (h : Alone C ps ps' o c) (hc : c.passive = true) {S' : GSt K V} {g' : HG} (b : PInvG C 1 ps' S' g')
    {n : Nat} (hn : LenIs (g'.pInv o) n S') : HasKeys ps'.mem n := by
  obtain ⟨b1, b2, _, _, _, b6⟩ := b
  obtain ⟨A, hA⟩ := steps_hist h.steps
  have hcA : HEv.inv o c ∈ A := by
    have := h.called
    rw [← hA] at this
    exact (List.mem_append.1 this).resolve_left h.fresh
  obtain ⟨A1, A2, hA'⟩ := List.append_of_mem hcA
  have he : ps'.hist = (ps.hist ++ A1) ++ HEv.inv o c :: A2 := by rw [← hA, hA']; simp
  have hro : ∀ o' c', HEv.inv o' c' ∈ ps'.hist → HEv.inv o' c' ∉ ps.hist → c'.passive = true := by
    intro o' c' h1 h2
    rcases h.others o' c' h1 h2 with rfl | h3
    · have := b6.wf.inv_unique h.called h1
      subst this; exact hc
    · exact readOnly_passive h3
  have hd : AllDone (ps.hist ++ A1) := by
    intro o' c' h1
    by_cases hin : HEv.inv o' c' ∈ ps.hist
    · rcases h.quiet.allDone _ _ hin with h2 | h2
      · exact .inl h2
      · exact .inr h2.mono
    · exact .inl (hro o' c' (by rw [he]; exact List.mem_append_left _ h1) hin)
  have hq := b6.quiet _ o c A2 he hd hc (by
    intro o' c' h1
    refine hro o' c' (by rw [he]; simp [h1]) fun h2 => ?_
    have := b6.wf.inv_first (A := ps.hist ++ A1 ++ [HEv.inv o c]) (B := A2) (by rw [he]; simp) h1
    exact this (HEv.inv o' c') (by simp [h2]) rfl)
  have hq1 := b6.q1 _ o c A2 he hd
  have hn' : n = (paySum (g'.pInv o)).toNat := by
    obtain ⟨x, e1, q, e2, e3⟩ := hn
    have hq' : ∀ u, q u = g'.pInv o := fun u => (e2 u).1.eq_of_length_le (by rw [← hq.1]; exact (e2 u).2.length_le) |>.symm
    rw [e1, e3 (S'.pays.map Prod.fst).toFinset (fun p hp => by simp only [List.mem_toFinset, List.mem_map]; exact ⟨p, hp, rfl⟩),
      paySum_finset (S'.pays.map Prod.fst).toFinset (g'.pInv o) (fun p hp => by
        rw [← hq.1] at hp
        simp only [List.mem_toFinset, List.mem_map]; exact ⟨p, hp, rfl⟩)]
    congr 1
    exact Finset.sum_congr rfl fun u _ => by rw [hq' u]
  obtain ⟨F, h1, h2⟩ := deltas_card b2 (List.take_prefix (g'.tInv o) S'.log)
  refine ⟨F, fun k => ?_, ?_⟩
  · rw [h1, ← hq.2 k, Option.ne_none_iff_exists']
    exact exists_congr fun v => by rw [← b1, holds_iff b2]
  · rw [hn']
    rw [hq1, h2]; simp

/-- **C13** Whenever no write is in progress, `len` returns exactly the number of keys. -/
theorem C13_len (h : Alone C ps ps' o .len) {n : Nat} (hr : HEv.ret o .len n ∈ ps'.hist) : HasKeys ps'.mem n := by
  obtain ⟨S', g', b, _⟩ := (h.reach.steps h.steps).pinv 1
  exact lenIs_keys h rfl b (b.2.2.2.2.2.len o .len n hr)

-- nine keys, a resize in progress
example : ∃ ps ps' r, Alone cfgI ps ps' (1, 1) (.len) ∧ HEv.ret (1, 1) (.len : Call Nat Nat) r ∈ ps'.hist ∧ r = (9 : Nat) := by
  obtain ⟨ps, ps', r, h1, h4, h2, h3⟩ := demo_alone (C := cfgI) (V := Nat) (l1 := fill 9) (l2 := [.fin 1 9000]) (t := 1)
    (c := .len) trivial (n := 1) (m := 18) (P2 := fun _ => true)
    (Q := fun | .len, r => Nat.beq r 9 | _, _ => false) (by decide +kernel) (by decide +kernel)
  exact ⟨ps, ps', r, h1, h2, Nat.eq_of_beq_eq_true h3⟩

/-- **C13** `is_empty` says whether the map has no keys. -/
theorem C13_isEmpty (h : Alone C ps ps' o .isEmpty) {b : Bool} (hr : HEv.ret o .isEmpty b ∈ ps'.hist) :
    b = true ↔ ∀ k v, ¬ ps'.mem.Holds k v := by
  obtain ⟨S', g', hb, _⟩ := (h.reach.steps h.steps).pinv 1
  obtain ⟨n, h1, h2⟩ := hb.2.2.2.2.2.len o .isEmpty b hr
  obtain ⟨F, h3, h4⟩ := lenIs_keys h rfl hb h1
  have h2 : b = (n == 0) := h2
  rw [h2, beq_iff_eq, ← h4, Finset.card_eq_zero]
  constructor
  · rintro rfl k v hv
    have := (h3 k).2 ⟨v, hv⟩
    simp at this
  · intro hn
    refine Finset.eq_empty_of_forall_notMem fun k hk' => ?_
    obtain ⟨v, hv⟩ := (h3 k).1 hk'
    exact hn k v hv

-- nine keys, a resize in progress
example : ∃ ps ps' r, Alone cfgI ps ps' (1, 1) (.isEmpty) ∧ HEv.ret (1, 1) (.isEmpty : Call Nat Nat) r ∈ ps'.hist ∧ r = false := by
  obtain ⟨ps, ps', r, h1, h4, h2, h3⟩ := demo_alone (C := cfgI) (V := Nat) (l1 := fill 9) (l2 := [.fin 1 9000]) (t := 1)
    (c := .isEmpty) trivial (n := 1) (m := 18) (P2 := fun _ => true)
    (Q := fun | .isEmpty, r => !r | _, _ => false) (by decide +kernel) (by decide +kernel)
  exact ⟨ps, ps', r, h1, h2, by cases r <;> first | rfl | cases h3⟩

/-- **C30** When `reserve(additional)` returns, the map has had, since the call was made, a root table with room for the
reported number of elements plus `additional`; without concurrent writers that number is the number of keys. -/
theorem C30_reserve {a : Nat} (h : Reach C ps) (hs : Steps C ps ps') (hf : HEv.inv o (.reserve a) ∉ ps.hist) {r : Unit}
    (hr : HEv.ret o (.reserve a) r ∈ ps'.hist) :
    ∃ T n slots, ps.mem.rootIx ≤ T ∧ T ≤ ps'.mem.rootIx ∧ ps'.mem.status T ≠ .aborted ∧
      entriesFor (n + a) = some slots ∧ slots ≤ ps'.mem.cap T ∧
      (Alone C ps ps' o (.reserve a) → HasKeys ps'.mem n) := by
  obtain ⟨S, S', g, g', ⟨a1, _⟩, b, _, _, hri⟩ := steps_grow h hs
  have b' := b
  obtain ⟨b1, b2, _, _, _, b6⟩ := b
  have h1 := (hri o _ (b6.wf.ret_inv' hr)).resolve_left hf
  obtain ⟨T, n, s, h2, h3, h4, h5, h6⟩ := b6.len o (.reserve a) r hr
  refine ⟨T, n, s, ?_, ?_, ?_, h5, ?_, fun h => lenIs_keys h rfl b' h4⟩
  · rw [← a1]; exact h1.trans h3
  · rw [← b1]; exact h2.2.1
  · rw [← b1]; exact h2.2.2
  · rw [← b1]; exact h6

-- nine keys, a resize in progress; room for 50 more is reserved
example : ∃ ps ps' r, Alone cfgI ps ps' (1, 1) (.reserve 50) ∧ HEv.ret (1, 1) (.reserve 50 : Call Nat Nat) r ∈ ps'.hist ∧ 64 ≤ ps'.mem.cap ps'.mem.rootIx := by
  obtain ⟨ps, ps', r, h1, h4, h2, h3⟩ := demo_alone (C := cfgI) (V := Nat) (l1 := fill 9) (l2 := [.fin 1 9000]) (t := 1)
    (c := .reserve 50) trivial (n := 1) (m := 18) (P2 := fun ps => decide (64 ≤ ps.mem.cap ps.mem.rootIx))
    (Q := fun _ _ => true) (by decide +kernel) (by decide +kernel)
  exact ⟨ps, ps', r, h1, h2, of_decide_eq_true h4⟩

theorem seqRun_mid {m m' : AMap K V} {A B : List (Item K V)} {x : Item K V} (h : SeqRun m (A ++ x :: B) m') :
    ∃ m1 m2, SeqRun m A m1 ∧ x.Apply m1 m2 := by
  obtain ⟨m1, h1, h2⟩ := h.split
  cases h2 with
  | cons h3 h4 => exact ⟨m1, _, h1, h3⟩

/-- **C44** A call of an atomic operation that panics has changed nothing: a linearization in which it does not occur
explains the history and the contents of the map. What `clear` or `retain` removed before they panicked is among what they
may remove. -/
theorem C44_panic_no_effect (h : Reach C ps) : ∃ L m, Linearization ps.hist L m ∧ (∀ k v, ps.mem.Holds k v ↔ m k = some v) ∧
    ∀ o c w, HEv.panic o c w ∈ ps.hist →
      (c.atomic = true → ∀ x ∈ L, x.id ≠ o) ∧
      (∀ f, c = .retain f → ∀ x ∈ L, x.id = o → ∃ kv, x = .del o (.retain f) kv ∧ f.Says kv false) ∧
      (c.readOnly → ∀ x ∈ L, x.id ≠ o) := by
  obtain ⟨L, m, hL, hm⟩ := C01_linearizable h
  refine ⟨L, m, hL, hm, fun o c w hw => ⟨hL.panicked o c w hw, ?_, ?_⟩⟩
  · rintro f rfl x hx ho
    have hwf := C01_history_wf h
    obtain ⟨L1, L2, rfl⟩ := List.append_of_mem hx
    have h1 := hL.called x hx
    rw [ho] at h1
    have h2 := hwf.inv_unique h1 (hwf.panic_inv hw)
    obtain ⟨m1, m2, h3, h4⟩ := seqRun_mid hL.legal
    cases x with
    | op o' c' r =>
      have h2 : c' = .retain f := h2
      subst h2
      exact False.elim h4
    | del o' c' kv =>
      have h2 : c' = .retain f := h2
      have ho : o' = o := ho
      subst h2 ho
      exact ⟨kv, rfl, h4.1⟩
  · intro hr x hx ho
    have hwf := C01_history_wf h
    obtain ⟨L1, L2, rfl⟩ := List.append_of_mem hx
    have h1 := hL.called x hx
    rw [ho] at h1
    have h2 := hwf.inv_unique h1 (hwf.panic_inv hw)
    by_cases ha : c.atomic = true
    · exact hL.panicked o c w hw ha x hx ho
    · obtain ⟨m1, m2, h3, h4⟩ := seqRun_mid hL.legal
      cases x with
      | op o' c' r =>
        have h2 : c' = c := h2
        subst h2
        cases c' <;> first | exact False.elim h4 | exact absurd rfl ha
      | del o' c' kv =>
        have h2 : c' = c := h2
        subst h2
        have h5 : SpecDel c' kv := h4.1
        cases c' <;> first | exact False.elim h5 | exact False.elim hr

-- a predicate passed to `retain` that panics at the third entry, after two removals; the guard is used again
example : ∃ ps, Reach cfgB ps ∧
    HEv.panic (1, 1) (.retain ⟨Nat, 0, fun s _ => if s < 2 then .ok (s + 1, false) else .error .user⟩ : Call Nat Nat) .user
      ∈ ps.hist ∧ ps.mem.retired 0 = true ∧ ps.hist.any (HEv.endTest (1, 2)) = true := by
  obtain ⟨ps, ps', h1, h2, _, h4, h3⟩ := demo_panic (C := cfgB) (V := Nat) (l1 := fill 5) (t := 1) (n := 1) (w := .user)
    (c := .retain ⟨Nat, 0, fun s _ => if s < 2 then .ok (s + 1, false) else .error .user⟩)
    (l2 := [.fin 1 500, .call 1 (.get 0), .fin 1 500])
    (by intro s i r h; dsimp only at h; split at h <;> cases h; rfl)
    (P1 := fun _ => true) (P2 := fun ps => ps.mem.retired 0 && ps.hist.any (HEv.endTest (1, 2)))
    (by decide +kernel) (by decide +kernel)
  exact ⟨ps', h1.steps h2, h3, by simpa using h4⟩

end Papaya
