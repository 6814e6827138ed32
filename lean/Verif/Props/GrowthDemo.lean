import Verif.Props.Growth
import Verif.Props.Overfull
import Verif.Props.Drop
import Verif.Props.ParkDemo

/-! # C60: concrete infinite executions, and the mode it is false of -/

set_option linter.unusedSectionVars false
set_option linter.unusedVariables false

namespace Papaya

variable {K V : Type} [DecidableEq K] {C : Cfg K} {ps ps' q : PSt K V} {t u : Tid} {run : Nat → PSt K V}

/-! ## Building infinite executions of one operation -/

theorem own_step (h : OwnStep C t ps ps') : Step C ps ps' := by
  cases h with
  | act h he => exact .act t h he
  | loop h => exact .loop t h
  | ret h => exact .ret t h
  | panic h => exact .panic t h

theorem own_calls (h : OwnStep C t ps ps') : ps'.calls = ps.calls ∧ ps'.seq = ps.seq := by
  have : ∀ e : HEv K V, e.isInv = false → ((ps.hist ++ [e]).filter HEv.isInv).length = (ps.hist.filter HEv.isInv).length := fun e he => by
    rw [List.filter_append, List.length_append]
    simp [he]
  cases h with
  | act h he => exact ⟨rfl, rfl⟩
  | loop h => exact ⟨rfl, rfl⟩
  | ret h => exact ⟨this _ rfl, rfl⟩
  | panic h => exact ⟨this _ rfl, rfl⟩

/-- An operation that can always go on does so forever. -/
theorem go_forever (I : PSt K V → Prop) (h0 : I ps) (hr : Reach C ps)
    (h : ∀ q, Reach C q → I q → Running q t ∧ ∃ q', OwnStep C t q q' ∧ ¬ FailsSpuriously t q q' ∧ I q') :
    ∃ run, run 0 = ps ∧ Endless C run ∧ FewCalls run ∧ FewSpurious C run ∧ RunsForever C run t ∧ StepsForever C run ∧ ∀ i, I (run i) := by
  classical
  have h' : ∀ q : {q : PSt K V // Reach C q ∧ I q}, ∃ q' : {q : PSt K V // Reach C q ∧ I q}, OwnStep C t q.1 q'.1 ∧ ¬ FailsSpuriously t q.1 q'.1 := by
    rintro ⟨q, h1, h2⟩
    obtain ⟨_, q', h3, h4, h5⟩ := h q h1 h2
    exact ⟨⟨q', h1.step (own_step h3), h5⟩, h3, h4⟩
  choose f hf using h'
  let run : Nat → {q : PSt K V // Reach C q ∧ I q} := fun i => f^[i] ⟨ps, hr, h0⟩
  have hrun : ∀ i, OwnStep C t (run i).1 (run (i + 1)).1 ∧ ¬ FailsSpuriously t (run i).1 (run (i + 1)).1 := fun i => by
    show OwnStep C t (f^[i] _).1 (f^[i + 1] _).1 ∧ ¬ FailsSpuriously t (f^[i] _).1 (f^[i + 1] _).1
    rw [Function.iterate_succ_apply']
    exact hf _
  have hc : ∀ i, (run i).1.calls = ps.calls ∧ (run i).1.seq = ps.seq := by
    intro i
    induction i with
    | zero => exact ⟨rfl, rfl⟩
    | succ i ih =>
      have := own_calls (hrun i).1
      exact ⟨this.1.trans ih.1, this.2.trans ih.2⟩
  have hby : ∀ i u, OwnStep C u (run i).1 (run (i + 1)).1 → ¬ FailsSpuriously u (run i).1 (run (i + 1)).1 := by
    intro i u hu hfs
    by_cases hne : u = t
    · subst hne; exact (hrun i).2 hfs
    have h1 := (hrun i).1
    generalize (run i).1 = q at hu h1 hfs
    generalize (run (i + 1)).1 = q' at hu h1 hfs
    have hth : q'.th u = q.th u := by cases h1 <;> exact if_neg hne
    obtain ⟨T, j, s, h2, _⟩ := hfs
    cases hu with
    | act h3 _ =>
      rw [h3] at hth
      have hth : setTh q.th u _ u = _ := hth
      rw [setTh_at] at hth
      exact Prog.act_ne _ rfl (eq_of_heq (Th.run.inj hth).2)
    | loop h3 => rw [h3] at h2; cases h2
    | ret h3 => rw [h3] at h2; cases h2
    | panic h3 => rw [h3] at h2; cases h2
  refine ⟨fun i => (run i).1, rfl, ⟨hr, fun i => own_step (hrun i).1⟩, ⟨ps.calls, fun i => Nat.le_of_eq (hc i).1⟩, ?_, ?_, ?_, fun i => (run i).2.2⟩
  · exact ⟨0, fun i u _ hu => hby i u hu⟩
  · exact ⟨⟨0, fun i _ => ⟨(h _ (run i).2.1 (run i).2.2).1, by rw [(hc i).2, (hc 0).2]⟩⟩, fun n => ⟨n, Nat.le_refl _, (hrun n).1⟩⟩
  · exact fun n => ⟨n, Nat.le_refl _, t, (hrun n).1⟩

/-! ## `Incremental(0)` -/

/-- Actions that can be executed and do not change the memory, and their results. -/
def stillObs (C : Cfg K) (t : Tid) (σ : St K V) : ObsSys K V where
  ok := fun a => (∃ x, Exec C t a σ x σ) ∧ a.expects = none
  res := fun a x => Exec C t a σ x σ
  pan := fun _ => False

section zero

variable {σ : St K V} {r n : Nat}

theorem handle_full (h : 0 < σ.cap r) : (σ.handle r).len = σ.cap r := by
  show σ.cap r - 1 + 1 = _
  omega

theorem still_promote (h0 : 0 < σ.cap r) (hcp : σ.copied n ≠ σ.cap r) : Obs' (stillObs C t σ) (tryPromote (σ.handle r) (σ.handle n) 0) fun b => b = false := by
  unfold tryPromote
  simp only [Nat.lt_irrefl, if_false, gt_iff_lt]
  refine .step ⟨⟨_, rfl, rfl⟩, rfl⟩ fun x hx => ?_
  obtain ⟨rfl, _⟩ := hx
  rw [if_neg (show ¬ σ.copied (σ.handle n).id = (σ.handle r).len by rw [handle_full h0]; exact hcp)]
  exact .ret rfl

/-- Helping never ends. -/
theorem still_help (hroot : σ.root = some r) (hnext : σ.next r = some n) (hcl : σ.claim n < σ.cap r) (hcp : σ.copied n ≠ σ.cap r) :
    Obs' (stillObs C t σ) (helpCopyIncremental C 0 true) fun _ => False := by
  unfold helpCopyIncremental
  refine .step ⟨⟨_, rfl, rfl⟩, rfl⟩ fun x hx => ?_
  obtain ⟨rfl, _⟩ := hx
  rw [hroot]
  refine .step ⟨⟨_, rfl, rfl⟩, rfl⟩ fun x hx => ?_
  obtain ⟨rfl, _⟩ := hx
  rw [show σ.next (σ.handle r).id = some n from hnext]
  refine .bind (fun _ => False) (.loop (fun _ => True) trivial fun _ _ => ?_) fun _ h => h.elim
  refine .bind _ (still_promote (by omega) hcp) fun b hb => ?_
  subst hb
  refine .bind (fun _ => False) (.loop (fun _ => True) trivial fun _ _ => ?_) fun _ h => h.elim
  refine .step ⟨⟨_, rfl, rfl⟩, rfl⟩ fun x hx => ?_
  obtain ⟨rfl, _⟩ := hx
  rw [if_neg (show ¬ σ.claim (σ.handle n).id ≥ (σ.handle r).len by rw [handle_full (by omega)]; exact Nat.not_le.2 hcl)]
  have hadd : Exec C t (.addClaim (σ.handle n).id 0 (σ.handle r)) σ (σ.claim n) σ := by
    refine ⟨rfl, ?_⟩
    have : (fun T' => if T' = (σ.handle n).id then σ.claim (σ.handle n).id + 0 else σ.claim T') = σ.claim := by
      funext T'
      split
      · rename_i h; rw [h, Nat.add_zero]
      · rfl
    rw [this]
  refine .step ⟨⟨_, hadd⟩, rfl⟩ fun x hx => ?_
  refine .bind (fun c => c = 0) ?_ fun c hc => ?_
  · unfold copyChunkIncremental
    refine .loop (fun j => j = 0) rfl fun j hj => ?_
    subst hj
    rw [if_neg (Nat.lt_irrefl 0)]
    exact .ret rfl
  subst hc
  refine .bind _ (still_promote (by omega) hcp) fun b hb => ?_
  subst hb
  rw [if_neg (by simp)]
  exact .ret trivial

end zero

/-- **C60, the excluded mode**: with `ResizeMode::Incremental(0)`, while a resize is under way, an iteration that runs alone executes steps
forever, although no table is ever allocated, no other call is made, and nothing fails spuriously. -/
theorem C60_zero_chunk {r n : Nat} (hm : C.mode = .incremental 0) (h : Reach C ps) (ht : ps.th t = .idle) (hroot : ps.mem.root = some r)
    (hnext : ps.mem.next r = some n) (hcl : ps.mem.claim n < ps.mem.cap r) :
    ∃ run, run 0 = ps.call C t .iter ∧ Endless C run ∧ FewCalls run ∧ FewSpurious C run ∧ RunsForever C run t ∧ ¬ TablesForever run := by
  have hcp : ps.mem.copied n ≠ ps.mem.cap r := by
    obtain ⟨S, g, ⟨g1, g2, _⟩, _⟩ := h.pinv 1
    have h1 := g2.c.c6 n
    have h2 : S.nCounted n ≤ S.claim n := by
      unfold GSt.nCounted
      exact Nat.le_trans (Finset.card_filter_le _ _) (by rw [Finset.card_range])
    rw [← g1] at hcl ⊢
    have hcl : S.claim n < S.cap r := hcl
    show S.copied n ≠ S.cap r
    omega
  have hob : Obs' (stillObs C t ps.mem) (iterUpTo C none) fun _ => False := by
    unfold iterUpTo
    refine .step ⟨⟨_, rfl, rfl⟩, rfl⟩ fun x hx => ?_
    obtain ⟨rfl, _⟩ := hx
    rw [hroot]
    refine .bind (fun _ => False) ?_ fun _ h => h.elim
    unfold linearize
    rw [if_pos (show C.inc = true by unfold Cfg.inc; rw [hm])]
    refine .loop (fun T => T.id = r) rfl fun T hT => ?_
    refine .step ⟨⟨_, rfl, rfl⟩, rfl⟩ fun x hx => ?_
    obtain ⟨rfl, _⟩ := hx
    rw [hT, hnext]
    refine .bind (fun _ => False) ?_ fun _ h => h.elim
    unfold helpCopy
    rw [hm]
    exact .bind _ (still_help hroot hnext hcl hcp) fun _ h => h.elim
  have hr : Reach C (ps.call C t .iter) := h.step (.inv t .iter ht trivial)
  obtain ⟨run, h1, h2, h3, h4, h5, _, h7⟩ := go_forever (C := C) (t := t)
    (fun q => q.mem = ps.mem ∧ ∃ p, q.th t = .run .iter p ∧ Obs' (stillObs C t ps.mem) p fun _ => False)
    (ps := ps.call C t .iter) ⟨rfl, _, setTh_at, hob⟩ hr (by
      rintro q hq ⟨hmem, p, hp, ho⟩
      refine ⟨⟨_, _, hp⟩, ?_⟩
      cases p with
      | ret x => exact (ho 1).elim
      | panic w => exact (ho 1).elim
      | act a k =>
        obtain ⟨⟨⟨x, hx⟩, he⟩, _⟩ := ho 1
        rw [← hmem] at hx
        refine ⟨_, .act hp hx, ?_, hmem, _, setTh_at, fun m => (ho (m + 1)).2 x (by rw [← hmem]; exact hx)⟩
        rintro ⟨T, i, s, h1, _⟩
        rw [hp] at h1
        have h1 : a.expects = _ := h1
        rw [he] at h1
        cases h1
      | iter body s k =>
        refine ⟨_, .loop hp, ?_, hmem, _, setTh_at, fun m => ho (m + 1)⟩
        rintro ⟨T, i, s, h1, _⟩
        rw [hp] at h1
        cases h1)
  refine ⟨run, h1, h2, h3, h4, h5, fun hT => ?_⟩
  obtain ⟨i, hi⟩ := hT (ps.mem.nTabs + 1)
  rw [(h7 i).1] at hi
  omega

/-- A map that resizes in chunks of no slots. -/
def cfgZ : Cfg Nat := { cfgI with mode := .incremental 0 }

-- such a state: the insertion of a ninth key has started a resize
example : ∃ ps : PSt Nat Nat, cfgZ.mode = .incremental 0 ∧ Reach cfgZ ps ∧ ps.th 1 = .idle ∧ ps.mem.root = some 0 ∧ ps.mem.next 0 = some 1 ∧
    ps.mem.claim 1 < ps.mem.cap 0 := by
  obtain ⟨ps, h0, h1, h2⟩ := demo_run (C := cfgZ) (V := Nat) (l := fill 8 ++ [.call 0 (.insert 8 80) trivial, .fin 0 500])
    (P := fun ps => (match ps.th 1 with | .idle => true | _ => false) && (ps.mem.root == some 0 && (ps.mem.next 0 == some 1 &&
      Nat.blt (ps.mem.claim 1) (ps.mem.cap 0)))) (by decide +kernel)
  simp only [Bool.and_eq_true, beq_iff_eq] at h2
  refine ⟨ps, rfl, h1, ?_, h2.2.1, h2.2.2.1, Nat.le_of_ble_eq_true h2.2.2.2⟩
  have := h2.1
  split at this
  · assumption
  · cases this

/-! ## An operation that allocates tables forever -/

/-- A step that does not fail spuriously. -/
theorem clean_move (hm : C.mode ≠ .incremental 0) (h : Reach C ps) (hc : CanMove C ps t) :
    ∃ ps', OwnStep C t ps ps' ∧ ¬ FailsSpuriously t ps ps' := by
  by_cases hs : ∃ T i s, (ps.th t).expects = some (T, i, s) ∧ ps.mem.slot T i = s
  · obtain ⟨T, i, s, h1, h2⟩ := hs
    obtain ⟨ps', ho⟩ := hc
    cases ho with
    | @act c β a k r σ h3 he =>
      rw [h3] at h1
      have h1 : a.expects = _ := h1
      cases a <;> try cases h1
      · rename_i wk n
        obtain ⟨w, hg⟩ := h.gd (D := ⟨ps.mem.nTabs, ∑ T ∈ Finset.range ps.mem.nTabs, ps.mem.cap T⟩) (Cfg.copies_of hm)
          ⟨Nat.le_refl _, fun T hT => Finset.single_le_sum (f := fun T => ps.mem.cap T) (fun _ _ => Nat.zero_le _) (Finset.mem_range.2 hT)⟩ h3
        have hsh := (hg 1).2.1
        refine ⟨_, .act h3 (.inl ⟨h2, rfl, rfl⟩), ?_⟩
        rintro ⟨T', i', s', h4, h5, h6⟩
        rw [h3] at h4
        cases h4
        have h6 : (if T = T ∧ i = i then n else _) = s := h6
        rw [if_pos ⟨rfl, rfl⟩] at h6
        subst h6
        rcases hsh with ⟨rfl, h7⟩ | ⟨h7, _, rfl⟩
        · exact h7 rfl
        · exact h7 rfl
      · rename_i wk k1 v
        refine ⟨_, .act h3 (.inl ⟨h2, rfl, rfl⟩), ?_⟩
        rintro ⟨T', i', s', h4, h5, h6⟩
        rw [h3] at h4
        cases h4
        have h6 : (if T = T ∧ i = i then _ else _) = s := h6
        rw [if_pos ⟨rfl, rfl⟩] at h6
        obtain ⟨S, g, ⟨g1, g2, _⟩, _⟩ := h.pinv 1
        refine GSt.fresh_kslot g2.p g2.e (T := T) (i := i) (e := ⟨ps.mem.nIds, k1, v⟩) ?_ (by rw [← g1])
        show (S.slot T i).ptr = _
        rw [show S.slot T i = ps.mem.slot T i by rw [← g1], h2, ← h6]
        rfl
    | loop h3 => rw [h3] at h1; cases h1
    | ret h3 => rw [h3] at h1; cases h1
    | panic h3 => rw [h3] at h1; cases h1
  · obtain ⟨ps', ho⟩ := hc
    exact ⟨ps', ho, fun ⟨T, i, s, h1, h2, _⟩ => hs ⟨T, i, s, h1, h2⟩⟩

/-- Nobody is executing an operation, and nobody has been killed while doing so. -/
theorem nobody (h : Reach C ps) (hq : ∀ o c, HEv.inv o c ∈ ps.hist → Ended ps.hist o) (u : Tid) : ps.th u = .out ∨ ps.th u = .idle := by
  by_contra hc
  simp only [not_or] at hc
  obtain ⟨S, g, ⟨_, _, _, _, _, g6⟩, _⟩ := h.pinv 1
  obtain ⟨⟨c, h1⟩, h2⟩ := g6.pend u hc.1 hc.2
  exact h2 (hq _ _ h1)

/-- **C60, C48** In incremental mode, if a whole probe sequence is occupied and the table need not grow, then an iteration, `clear`, `retain`
or a reservation, executed alone, runs forever, and allocates tables forever. -/
theorem C60_overfull {n : Nat} {c : Call K V} (hov : Overfull C n ps) (hc : Finishing C n ps.mem c) (hm : C.mode ≠ .incremental 0) (h : Reach C ps)
    (hq : ∀ o c, HEv.inv o c ∈ ps.hist → Ended ps.hist o) (hpan : ∀ o c w, HEv.panic o c w ∈ ps.hist → ¬ AllocPanic w)
    (ht : ps.th t = .idle) (hwf : c.WF) :
    ∃ run, run 0 = ps.call C t c ∧ Endless C run ∧ FewCalls run ∧ FewSpurious C run ∧ RunsForever C run t ∧ TablesForever run := by
  have hr : Reach C (ps.call C t c) := h.step (.inv t c ht hwf)
  have hnew : HEv.inv (t, ps.seq t + 1) c ∉ ps.hist := by
    intro hin
    obtain ⟨S, g, ⟨_, _, g3, _, _, g6⟩, _⟩ := h.pinv 1
    have := (g6.i1 _ _ hin).2.1
    rw [g3] at this
    simp at this
  have hnever : ∀ q', Steps C (ps.call C t c) q' → (∃ ev, (∀ o c, ev ≠ HEv.inv o c) ∧ q'.hist = (ps.call C t c).hist ++ [ev]) →
      ¬ Ended q'.hist (t, ps.seq t + 1) := by
    rintro q' hst ⟨ev, hev, hh⟩
    refine C48_never_returns hov hc (c := c) ⟨h, .head (.inv t c ht hwf) hst, hq, hnew, ?_, fun o' c' h3 h4 => ?_⟩
    · exact (steps_hist hst).subset (List.mem_append_right _ (List.mem_singleton.2 rfl))
    · rw [hh] at h3
      rcases List.mem_append.1 h3 with h3 | h3
      · rcases List.mem_append.1 h3 with h3 | h3
        · exact absurd h3 h4
        · rw [List.mem_singleton] at h3; cases h3; rfl
      · rw [List.mem_singleton] at h3; exact absurd h3.symm (hev _ _)
  obtain ⟨run, h1, h2, h3, h4, h5, h6, _⟩ := go_forever (C := C) (t := t)
    (fun q => Steps C (ps.call C t c) q ∧ q.hist = (ps.call C t c).hist ∧ q.seq t = ps.seq t + 1 ∧ (∀ u, u ≠ t → q.th u = ps.th u) ∧
      ∃ p, q.th t = .run c p)
    (ps := ps.call C t c) ⟨.refl, rfl, if_pos rfl, fun u hu => if_neg hu, _, setTh_at⟩ hr (by
      rintro q hq' ⟨hst, hh, hseq, hoth, p, hp⟩
      refine ⟨⟨_, _, hp⟩, ?_⟩
      have hone : ∀ u, Running q u → u = t := by
        rintro u ⟨c', p', hu⟩
        by_contra hne
        rw [hoth u hne] at hu
        rcases nobody h hq u with h' | h' <;> rw [h'] at hu <;> cases hu
      obtain ⟨u, hu, hu'⟩ := C54_no_deadlock hq' (fun u hg => by
          by_cases hne : u = t
          · subst hne; rw [hp] at hg; cases hg
          · rw [hoth u hne] at hg
            rcases nobody h hq u with h' | h' <;> rw [h'] at hg <;> cases hg)
        (fun o c' w hw => by
          rw [hh] at hw
          rcases List.mem_append.1 hw with hw | hw
          · exact hpan _ _ _ hw
          · rw [List.mem_singleton] at hw; cases hw) ⟨t, _, _, hp⟩
      obtain rfl := hone u hu
      obtain ⟨q', ho, hf⟩ := clean_move hm hq' hu'
      refine ⟨q', ho, hf, ?_⟩
      have hst' := hst.tail (own_step ho)
      have hnev := hnever q' hst'
      cases ho with
      | act h7 he =>
        rw [hp] at h7; cases h7
        exact ⟨hst', hh, hseq, fun v hv => (if_neg hv).trans (hoth v hv), _, setTh_at⟩
      | loop h7 =>
        rw [hp] at h7; cases h7
        exact ⟨hst', hh, hseq, fun v hv => (if_neg hv).trans (hoth v hv), _, setTh_at⟩
      | @ret c' r h7 =>
        rw [hp] at h7; cases h7
        refine absurd ?_ (hnev ⟨_, ⟨?_, by rw [← hh]⟩⟩)
        rotate_left
        · exact fun _ _ h => by cases h
        exact .inl ⟨_, _, List.mem_append_right _ (List.mem_singleton.2 (by rw [hseq]))⟩
      | @panic c' w h7 =>
        rw [hp] at h7; cases h7
        refine absurd ?_ (hnev ⟨_, ⟨?_, by rw [← hh]⟩⟩)
        rotate_left
        · exact fun _ _ h => by cases h
        exact .inr ⟨_, _, List.mem_append_right _ (List.mem_singleton.2 (by rw [hseq]))⟩)
  exact ⟨run, h1, h2, h3, h4, h5, C60_tables_forever hm h2 h3 h4 h6⟩

-- the hypotheses of `C60_tables_forever` and `C60_overtaken` are met
example : ∃ run : Nat → PSt Nat Nat, cfgOver.mode ≠ .incremental 0 ∧ Endless cfgOver run ∧ FewCalls run ∧ FewSpurious cfgOver run ∧ RunsForever cfgOver run 0 ∧
    StepsForever cfgOver run ∧ FewEntries run ∧ TablesForever run := by
  obtain ⟨ps, h1, h2, h3, h4, h5⟩ := overfull_exists
  obtain ⟨h6, h7, _⟩ := overfullB_iff h1 h3 h2
  have hm : cfgOver.mode ≠ .incremental 0 := by simp [cfgOver]
  obtain ⟨run, _, g1, g2, g3, g4, g5⟩ := C60_overfull (c := .iter) h6 trivial hm h1 h7 (fun o c w hw => absurd hw (h5 o c w)) h4 trivial
  refine ⟨run, hm, g1, g2, g3, g4, fun n => ?_, ?_, g5⟩
  · obtain ⟨i, hi, ho⟩ := g4.2 n
    exact ⟨i, hi, 0, ho⟩
  · obtain ⟨m, hm'⟩ := g2
    exact ⟨m, fun i => Nat.le_trans (C60_published hm (g1.reach_at i)) (hm' i)⟩

/-! ## An execution in which everything ends -/

/-- A guard is created and dropped, again and again. -/
def blink (u : Tid) (q : PSt K V) : PSt K V :=
  match q.th u with
  | .out => { q with mem := q.mem.pin u, th := setTh q.th u .idle }
  | _ => { q with mem := q.mem.unpin u, th := setTh q.th u .out, held := fun v => if v = u then [] else q.held v }

/-- Nobody is executing an operation. -/
def AllResting (q : PSt K V) : Prop := ∀ v, q.th v = .out ∨ q.th v = .idle

theorem blink_step (h : AllResting q) : Step C q (blink u q) ∧ AllResting (blink u q) ∧ (blink u q).hist = q.hist ∧
    (blink u q).mem.nTabs = q.mem.nTabs := by
  unfold blink
  rcases h u with hu | hu <;> rw [hu] <;> dsimp only
  · refine ⟨.pin u hu, fun v => ?_, rfl, rfl⟩
    show setTh q.th u _ v = _ ∨ setTh q.th u _ v = _
    unfold setTh
    split
    · exact .inr rfl
    · exact h v
  · refine ⟨.unpin u hu, fun v => ?_, rfl, rfl⟩
    show setTh q.th u _ v = _ ∨ setTh q.th u _ v = _
    unfold setTh
    split
    · exact .inl rfl
    · exact h v

theorem Steps.seq (h : Steps C ps ps') : ∃ (n : Nat) (run : Nat → PSt K V), run 0 = ps ∧ run n = ps' ∧ ∀ i, i < n → Step C (run i) (run (i + 1)) := by
  induction h with
  | refl => exact ⟨0, fun _ => ps, rfl, rfl, fun i hi => absurd hi (Nat.not_lt_zero _)⟩
  | @tail b c h1 h2 ih =>
    obtain ⟨n, run, g1, g2, g3⟩ := ih
    refine ⟨n + 1, fun i => if i ≤ n then run i else c, by simp [g1], by simp, fun i hi => ?_⟩
    by_cases hin : i + 1 ≤ n
    · simp only [hin, show i ≤ n by omega, if_true]
      exact g3 i (by omega)
    · have : i = n := by omega
      subst this
      simp only [Nat.le_refl, if_true, hin, if_false, g2]
      exact h2

theorem resting_running (h : AllResting q) (t : Tid) : ¬ Running q t := by
  rintro ⟨c, p, hp⟩
  rcases h t with h | h <;> rw [h] at hp <;> cases hp

/-- Any execution at the end of which everybody is done can be continued forever. -/
theorem rest_forever (hr : Reach C ps) (h : Steps C ps ps') (hq : AllResting ps') (h2 : ∀ o c w, HEv.panic o c w ∈ ps'.hist → ¬ AllocPanic w) :
    ∃ run, run 0 = ps ∧ Endless C run ∧ FewCalls run ∧ FewSpurious C run ∧ Busy C run ∧ ¬ TablesForever run ∧
      (∀ i, NoneAbandoned (run i)) ∧ ∀ i o c w, HEv.panic o c w ∈ (run i).hist → ¬ AllocPanic w := by
  obtain ⟨n, run0, g1, g2, g3⟩ := h.seq
  let run : Nat → PSt K V := fun i => if i ≤ n then run0 i else (blink (K := K) (V := V) 0)^[i - n] ps'
  have hlast : ∀ j, run (n + j) = (blink 0)^[j] ps' := by
    intro j
    show (if n + j ≤ n then _ else _) = _
    split
    · have : j = 0 := by omega
      subst this
      exact g2
    · rw [Nat.add_sub_cancel_left]
  have hit : ∀ j, AllResting ((blink 0)^[j] ps') ∧ ((blink 0)^[j] ps').hist = ps'.hist ∧ ((blink 0)^[j] ps').mem.nTabs = ps'.mem.nTabs := by
    intro j
    induction j with
    | zero => exact ⟨hq, rfl, rfl⟩
    | succ j ih =>
      rw [Function.iterate_succ_apply']
      obtain ⟨_, h1, h3, h4⟩ := blink_step (C := C) (u := 0) ih.1
      exact ⟨h1, h3.trans ih.2.1, h4.trans ih.2.2⟩
  have hafter : ∀ i, n ≤ i → AllResting (run i) ∧ (run i).hist = ps'.hist ∧ (run i).mem.nTabs = ps'.mem.nTabs := by
    intro i hi
    obtain ⟨j, rfl⟩ := Nat.exists_eq_add_of_le hi
    rw [hlast]
    exact hit j
  have hend : Endless C run := by
    refine ⟨?_, fun i => ?_⟩
    · show Reach C (if 0 ≤ n then _ else _)
      rw [if_pos (Nat.zero_le _), g1]
      exact hr
    · by_cases hi : i < n
      · have e1 : run i = run0 i := if_pos (by omega)
        have e2 : run (i + 1) = run0 (i + 1) := if_pos (by omega)
        rw [e1, e2]
        exact g3 i hi
      · obtain ⟨j, rfl⟩ := Nat.exists_eq_add_of_le (Nat.not_lt.1 hi)
        rw [show n + j + 1 = n + (j + 1) by omega, hlast, hlast, Function.iterate_succ_apply']
        exact (blink_step (hit j).1).1
  have hpath : ∀ i j, i ≤ j → Steps C (run i) (run j) := by
    intro i j hij
    induction j, hij using Nat.le_induction with
    | base => exact .refl
    | succ j _ ih => exact ih.tail (hend.step j)
  refine ⟨run, if_pos (Nat.zero_le _) |>.trans g1, hend, ⟨ps'.calls, fun i => ?_⟩, ⟨n, fun i t hi ho => ?_⟩, fun m hm => ?_, fun hT => ?_,
    fun i t hg => ?_, fun i o c w hw => ?_⟩
  · rcases Nat.le_total i n with hi | hi
    · refine Nat.le_trans (hend.mono (t := 0) hi).2 (Nat.le_of_eq ?_)
      unfold PSt.calls
      rw [(hafter n (Nat.le_refl _)).2.1]
    · unfold PSt.calls
      rw [(hafter i hi).2.1]
  · exact absurd (own_running ho) (resting_running (hafter i hi).1 t)
  · obtain ⟨t, ps'', ho⟩ := hm (max m n) (by omega)
    exact absurd (own_running ho) (resting_running (hafter _ (by omega)).1 t)
  · obtain ⟨i, hi⟩ := hT (ps'.mem.nTabs + 1)
    have h5 := (steps_tabs (hend.reach_at i) (hpath i (max i n) (by omega))).1
    rw [(hafter (max i n) (by omega)).2.2] at h5
    omega
  · have h5 : ∀ {a b : PSt K V}, Steps C a b → a.th t = .gone → b.th t = .gone := fun hs => by
      induction hs with
      | refl => exact id
      | tail _ h7 ih => exact fun h8 => step_gone h7 (ih h8)
    have h6 := h5 (hpath i (max i n) (by omega)) hg
    rcases (hafter (max i n) (by omega)).1 t with h7 | h7 <;> rw [h7] at h6 <;> cases h6
  · have h5 := (steps_hist (hpath i (max i n) (by omega))).subset hw
    rw [(hafter (max i n) (by omega)).2.1] at h5
    exact h2 _ _ _ h5

/-- Test for `AllResting`. -/
def allRestingB (ps : PSt K V) : Bool :=
  ((List.range tidBound).all fun u => match ps.th u with | .out => true | .idle => true | _ => false) && soundB ps

theorem resting_of_test (h : Reach C ps) (hb : allRestingB ps = true) : AllResting ps := by
  unfold allRestingB at hb
  rw [Bool.and_eq_true] at hb
  intro u
  by_contra hc
  simp only [not_or] at hc
  have h1 := List.all_eq_true.1 hb.1 u (List.mem_range.2 (used_bound hb.2 h hc.1 hc.2))
  generalize ps.th u = x at hc h1
  cases x <;> simp_all

-- the hypotheses of `C60_all_end` are met: in the middle of an incremental resize two operations are running, guard 0 is copying the slot
-- of the key that guard 1 wants to replace; both end
example : ∃ run : Nat → PSt Nat Nat, cfgI.mode ≠ .incremental 0 ∧ Endless cfgI run ∧ FewCalls run ∧ FewSpurious cfgI run ∧ Busy cfgI run ∧ ¬ TablesForever run ∧
    (∀ i, NoneAbandoned (run i)) ∧ (∀ i o c w, HEv.panic o c w ∈ (run i).hist → ¬ AllocPanic w) ∧ Running (run 0) 0 ∧ Waiting cfgI (run 0) 1 := by
  obtain ⟨ps, ps', h1, h2, _, h4, h5⟩ := demo_two (C := cfgI) (V := Nat) (l1 := midResize 57 ++ [.call 1 (.insert 0 90) trivial, .go 1 38])
    (l2 := [.fin 0 2000, .fin 1 2000]) (m := 18) (P1 := fun ps => waitingB cfgI 1 ps && match ps.th 0 with | .run _ _ => true | _ => false)
    (P2 := allRestingB) (by decide +kernel) (by decide +kernel)
  rw [Bool.and_eq_true] at h4
  have h6 := resting_of_test (h1.steps h2) h5
  unfold allRestingB at h5
  rw [Bool.and_eq_true] at h5
  obtain ⟨run, rfl, g⟩ := rest_forever h1 h2 h6 (sound_of_test (h1.steps h2) h5.2).2
  refine ⟨run, by simp [cfgI], g.1, g.2.1, g.2.2.1, g.2.2.2.1, g.2.2.2.2.1, g.2.2.2.2.2.1, g.2.2.2.2.2.2, ?_, waitingB_iff h4.1⟩
  have := h4.2
  split at this
  · rename_i c p hp; exact ⟨c, p, hp⟩
  · cases this

end Papaya
