import Verif.Spec.Contents
import Verif.Proof.LinBuild
import Verif.Exec.Demo
import Verif.Exec.Abort

/-! # Linearizability (C01) and the contents of the memory (C14, C15, C24, C32, C33, C36) -/

set_option linter.unusedSectionVars false
set_option linter.unusedVariables false

namespace Papaya

variable {K V : Type} [DecidableEq K]

open GSt

variable {C : Cfg K} {t : Tid} {ps ps' : PSt K V}

theorem live_binds {S : GSt K V} {k : K} {e : Entry K V} : S.Live k e ↔ S.toSt.Binds e ∧ e.key = k := by
  constructor
  · rintro ⟨T, i, ⟨h1, h2, h3, h4, h5⟩, h6, h7⟩
    exact ⟨⟨T, i, h1, h2, h3, h6, h5, h4⟩, h7⟩
  · rintro ⟨⟨T, i, h1, h2, h3, h6, h5, h4⟩, h7⟩
    exact ⟨T, i, ⟨h1, h2, h3, h4, h5⟩, h6, h7⟩

theorem holds_iff {S : GSt K V} (hS : S.Inv C) {k : K} {v : V} :
    S.toSt.Holds k v ↔ vals (abs S.log) k = some v := by
  unfold vals St.Holds
  rw [Option.map_eq_some_iff]
  constructor
  · rintro ⟨e, h1, h2, h3⟩
    exact ⟨e, (hS.l.a _ _).2 (live_binds.2 ⟨h1, h2⟩), h3⟩
  · rintro ⟨e, h1, h2⟩
    obtain ⟨h3, h4⟩ := live_binds.1 ((hS.l.a _ _).1 h1)
    exact ⟨e, h3, h4, h2⟩

/-- **C01** Every history of every execution is linearizable; moreover the map obtained by executing the linearization
is what the memory contains — at every instant, also in the middle of resizes. -/
theorem C01_linearizable (h : Reach C ps) :
    ∃ L m, Linearization ps.hist L m ∧ ∀ k v, ps.mem.Holds k v ↔ m k = some v := by
  obtain ⟨S, g, ⟨g1, g2, g3, g4, g5, g6⟩, _⟩ := h.pinv 1
  obtain ⟨L, hL⟩ := linearizable g6 g2
  refine ⟨L, _, hL, fun k v => ?_⟩
  rw [← g1]
  exact holds_iff g2

-- in the middle of an incremental resize: two overlapping calls, the root table and its successor in use
example : ∃ ps, Reach cfgI ps ∧ ps.mem.Holds 3 30 ∧ (ps.mem.slot 0 0).copied = true ∧ ps.mem.root = some 0 ∧
    ps.mem.next 0 = some 1 ∧ (∃ r, HEv.ret (1, 1) (.remove 5 : Call Nat Nat) r ∈ ps.hist) ∧ ¬ Ended ps.hist (0, 9) := by
  obtain ⟨ps, ps', r, h1, h2, _, h3, _, _, h4, _⟩ := demo_ret (C := cfgI) (V := Nat) (l1 := midResize 72)
    (l2 := [.fin 1 5000]) (t := 1) (n := 1) (P1 := fun _ => true) (c := .remove 5) trivial (Q := fun _ _ => true)
    (P2 := fun ps => holdsB ps.mem 7 3 30 && ((ps.mem.slot 0 0).copied && (ps.mem.root == some 0 &&
      (ps.mem.next 0 == some 1 && !ps.hist.any (HEv.endTest (0, 9)))))) (by decide +kernel) (by decide +kernel)
  simp only [Bool.and_eq_true, beq_iff_eq, Bool.not_eq_true'] at h3
  obtain ⟨h5, h6, h7, h8, h9⟩ := h3
  refine ⟨ps', h1.steps h2, holdsB_iff h5, h6, h7, h8, ⟨r, h4⟩, ?_⟩
  rintro (⟨c, x, hx⟩ | ⟨c, x, hx⟩)
  · have := List.any_eq_false.1 h9 _ hx; simp [HEv.endTest] at this
  · have := List.any_eq_false.1 h9 _ hx; simp [HEv.endTest] at this

/-- The history is well formed: each call has its own identifier and comes before its response (or panic), and returns
at most once. -/
theorem C01_history_wf (h : Reach C ps) : WFH ps.hist := by
  obtain ⟨S, g, ⟨g1, g2, g3, g4, g5, g6⟩, _⟩ := h.pinv 1
  exact g6.wf

/-- **C36** A key is never bound twice. -/
theorem C36_binds_unique (h : Reach C ps) {e e' : Entry K V} (h1 : ps.mem.Binds e) (h2 : ps.mem.Binds e')
    (hk : e.key = e'.key) : e = e' := by
  obtain ⟨S, g, ⟨g1, g2, g3, g4, g5, g6⟩, _⟩ := h.pinv 1
  rw [← g1] at h1 h2
  have e1 := (g2.l.a _ _).2 (live_binds.2 ⟨h1, rfl⟩)
  have e2 := (g2.l.a _ _).2 (live_binds.2 ⟨h2, rfl⟩)
  rw [hk, e2] at e1
  exact (Option.some.inj e1).symm

/-- **C36** No table ever contains the same key in two slots. -/
theorem C36_table_key_once (h : Reach C ps) {T i j : Nat} {e e' : Entry K V} (h1 : ps.mem.Ptr T i e) (h2 : ps.mem.Ptr T j e')
    (hk : e.key = e'.key) : i = j ∧ e = e' := by
  obtain ⟨S, g, ⟨g1, g2, g3, g4, g5, g6⟩, _⟩ := h.pinv 1
  rw [← g1] at h1 h2
  have hij : i = j := by
    obtain ⟨n, _, hn, hn'⟩ := g2.p.p4 T i e h1
    obtain ⟨m, _, hm, hm'⟩ := g2.p.p4 T j e' h2
    rcases Nat.lt_trichotomy n m with hlt | rfl | hlt
    · have := (hm' n hlt).2 e (by rw [← hk, hn]; exact h1)
      exact absurd hk this
    · rw [← hn, ← hm, hk]
    · have := (hn' m hlt).2 e' (by rw [hk, hm]; exact h2)
      exact absurd hk.symm this
  subst hij
  have h1 : (S.slot T i).ptr = some e := h1
  have h2 : (S.slot T i).ptr = some e' := h2
  rw [h1] at h2
  exact ⟨rfl, Option.some.inj h2⟩

-- in the middle of an incremental resize two tables contain the same key (and the same entry)
example : ∃ ps e j, Reach (V := Nat) cfgI ps ∧ ps.mem.Ptr 0 0 e ∧ ps.mem.Ptr 1 j e ∧ e.key = 0 := by
  obtain ⟨ps, _, h1, h2⟩ := demo_run (C := cfgI) (V := Nat) (l := midResize 66)
    (P := fun ps => (ps.mem.slot 0 0).ptr == some ⟨0, 0, 0⟩ && (ps.mem.slot 1 0).ptr == some ⟨0, 0, 0⟩) (by decide +kernel)
  simp only [Bool.and_eq_true, beq_iff_eq] at h2
  exact ⟨ps, _, 0, h1, h2.1, h2.2, rfl⟩

/-- **C15** An aborted table is never the root. -/
theorem C15_root_not_aborted (h : Reach C ps) {r : Nat} (hr : ps.mem.root = some r) :
    r < ps.mem.nTabs ∧ ps.mem.status r ≠ .aborted := by
  obtain ⟨S, g, ⟨g1, g2, g3, g4, g5, g6⟩, _⟩ := h.pinv 1
  rw [← g1] at hr ⊢
  exact g2.s.some r hr

-- an aborted table next to the root table
example : ∃ ps : PSt Nat Nat, Reach cfgA ps ∧ ps.mem.root = some 0 ∧ ps.mem.status 1 = .aborted := by
  obtain ⟨ps, h1, h2, h3, _⟩ := abort_reachable
  exact ⟨ps, h1, h2, h3⟩

/-- **C15** In blocking mode the root table alone determines the contents of the map. -/
theorem C15_blocking_contents (h : Reach C ps) (hb : C.mode = .blocking) {e : Entry K V} :
    ps.mem.Binds e ↔ ∃ i, ps.mem.Ptr ps.mem.rootIx i e ∧ ps.mem.md ps.mem.rootIx i ≠ EMPTY := by
  obtain ⟨S, g, ⟨g1, g2, g3, g4, g5, g6⟩, _⟩ := h.pinv 1
  rw [← g1]
  have hinc : ¬ C.inc = true := by unfold Cfg.inc; rw [hb]; simp
  have hnm : ∀ T j, S.kslot T j e → ¬ S.moved T j := fun T j h1 h2 => hinc (g2.p.p7 _ _ _ h1 h2.1).1
  constructor
  · rintro ⟨T, i, h1, h2, h3, h4, h5, h6⟩
    rcases Nat.lt_or_ge S.rt T with hlt | hge
    · exfalso
      rcases g2.p.f1 T i e h3 hlt with ⟨j, g7, g8, _⟩ | ⟨g7, _⟩
      · exact h6 ⟨hlt, j, g7, hnm _ _ g7⟩
      · exact hinc g7
    · have : T = S.rt := Nat.le_antisymm hge h1
      subst this
      exact ⟨i, h3, h4⟩
  · rintro ⟨i, h1, h2⟩
    refine ⟨_, i, Nat.le_refl _, ?_, h1, h2, hnm _ _ h1, fun h => absurd h.1 (Nat.lt_irrefl _)⟩
    intro hab
    cases hroot : S.root with
    | some r =>
      have : S.toSt.rootIx = r := by unfold St.rootIx; rw [hroot]; rfl
      rw [this] at hab
      exact (g2.s.some r hroot).2 hab
    | none =>
      have h3 := (g2.s.none hroot).1
      have h4 := (g2.s.out S.toSt.rootIx (by rw [h3]; exact Nat.zero_le _)).1 i
      have h1 : (S.slot S.toSt.rootIx i).ptr = some e := h1
      rw [h4] at h1; cases h1

-- a blocking resize that is half done: some entries have been copied, all of them still count in the root table
example : ∃ ps : PSt Nat Nat, Reach cfgB ps ∧ cfgB.mode = .blocking ∧ ps.mem.Holds 0 0 ∧ ps.mem.Holds 3 30 ∧
    (∃ e, ps.mem.Ptr 0 0 e ∧ ps.mem.Ptr 1 0 e) := by
  obtain ⟨ps, _, h1, h2⟩ := demo_run (C := cfgB) (V := Nat) (l := midResize 90)
    (P := fun ps => (holdsB ps.mem 0 0 0 && holdsB ps.mem 7 3 30) && ((ps.mem.slot 0 0).ptr == some ⟨0, 0, 0⟩ &&
      (ps.mem.slot 1 0).ptr == some ⟨0, 0, 0⟩)) (by decide +kernel)
  simp only [Bool.and_eq_true, beq_iff_eq] at h2
  exact ⟨ps, h1, rfl, holdsB_iff h2.1.1, holdsB_iff h2.1.2, _, h2.2.1, h2.2.2⟩

/-- What only grows. -/
structure Grow (S S' : GSt K V) : Prop where
  root : ∀ r, S.root = some r → ∃ r', S'.root = some r' ∧ r ≤ r'
  nTabs : S.nTabs ≤ S'.nTabs
  cap : ∀ T, T < S.nTabs → S'.cap T = S.cap T
  aborted : ∀ T, S.aborted T → S'.aborted T
  wasRoot : ∀ T, S.wasRoot T → S'.wasRoot T
  log : S.log <+: S'.log

theorem Grow.refl (S : GSt K V) : Grow S S :=
  ⟨fun r h => ⟨r, h, Nat.le_refl _⟩, Nat.le_refl _, fun _ _ => rfl, fun _ h => h, fun _ h => h, List.prefix_refl _⟩

theorem Grow.trans {S S' S'' : GSt K V} (h : Grow S S') (h' : Grow S' S'') : Grow S S'' where
  root r hr := by
    obtain ⟨r', h1, h2⟩ := h.root r hr
    obtain ⟨r'', h3, h4⟩ := h'.root r' h1
    exact ⟨r'', h3, Nat.le_trans h2 h4⟩
  nTabs := Nat.le_trans h.nTabs h'.nTabs
  cap T hT := (h'.cap T (Nat.lt_of_lt_of_le hT h.nTabs)).trans (h.cap T hT)
  aborted T hT := h'.aborted T (h.aborted T hT)
  wasRoot T hT := h'.wasRoot T (h.wasRoot T hT)
  log := List.IsPrefix.trans h.log h'.log

theorem Evo.grow {S S' : GSt K V} (h : Evo S S') : Grow S S' :=
  ⟨h.root, h.nTabs, h.cap, h.aborted, h.wasRoot, h.log⟩

theorem Grow.rt {S S' : GSt K V} (h : Grow S S') : S.rt ≤ S'.rt := by
  unfold GSt.rt
  cases hr : S.root with
  | none => exact Nat.zero_le _
  | some r =>
    obtain ⟨r', h1, h2⟩ := h.root r hr
    rw [h1]; exact h2

theorem steps_grow (h : Reach C ps) (hs : Steps C ps ps') : ∃ S S' g g', PInvG C 1 ps S g ∧ PInvG C 1 ps' S' g' ∧
    Grow S S' ∧ (∀ o, Ended ps.hist o → Ended ps'.hist o ∧ g'.tRet o = g.tRet o) ∧
    ∀ o c, HEv.inv o c ∈ ps'.hist → HEv.inv o c ∈ ps.hist ∨ S.rt ≤ g'.rInv o := by
  have key : ∀ {ps'}, Steps C ps ps' → ∃ M, ∀ N S g, PInvG C (N + M) ps S g → ∃ S' g', PInvG C N ps' S' g' ∧ Grow S S' ∧
      (∀ o, Ended ps.hist o → Ended ps'.hist o ∧ g'.tRet o = g.tRet o) ∧
      ∀ o c, HEv.inv o c ∈ ps'.hist → HEv.inv o c ∈ ps.hist ∨ S.rt ≤ g'.rInv o := by
    intro ps' hs
    induction hs with
    | refl => exact ⟨0, fun N S g h => ⟨S, g, h, Grow.refl S, fun _ h => ⟨h, rfl⟩, fun _ _ h => .inl h⟩⟩
    | @tail q q' _ h1 ih =>
      obtain ⟨M, hM⟩ := ih
      refine ⟨M + 1, fun N S g hg => ?_⟩
      obtain ⟨S1, g1, h2, h3, h4, h4'⟩ := hM (N + 1) S g (by rw [Nat.add_right_comm]; exact hg)
      obtain ⟨S2, g2, h5, h6, h7, _, h7', _⟩ := pinvG_step h2 h1
      refine ⟨S2, g2, h5, h3.trans h6.grow, fun o ho => ?_, fun o c ho => ?_⟩
      · obtain ⟨h8, h9⟩ := h4 o ho
        refine ⟨?_, (h7 o h8).trans h9⟩
        rcases h8 with ⟨c, r, h8⟩ | ⟨c, r, h8⟩
        · exact .inl ⟨c, r, (step_hist h1).subset h8⟩
        · exact .inr ⟨c, r, (step_hist h1).subset h8⟩
      · rcases h7' o c ho with ⟨h8, h9, _⟩ | ⟨h8, _⟩
        · rw [h9]; exact h4' o c h8
        · exact .inr (h3.rt.trans h8)
  obtain ⟨M, hM⟩ := key hs
  obtain ⟨S, g, hg, _⟩ := h.pinv (1 + M)
  obtain ⟨S', g', h1, h2, h3, h4⟩ := hM 1 S g hg
  refine ⟨S, S', g, g', ?_, h1, h2, h3, h4⟩
  obtain ⟨g1, g2, g3, g4, g5, g6⟩ := hg
  exact ⟨g1, g2, g3, fun t => (g4 t).mono (by omega), g5, g6⟩

theorem specOp_writes {c : Call K V} {m m' : AMap K V} {r : c.Res} {k : K} (h : SpecOp c m r m')
    (hne : m k ≠ m' k) : c.Writes k := by
  have h1 : ¬ m' = m := fun h => hne (by rw [h])
  have h2 : ∀ k' y, m' = m.put k' y → k' = k := by
    rintro k' y rfl
    by_contra hk
    exact hne (if_neg (Ne.symm hk)).symm
  cases c with
  | get k' => exact h1 h.2
  | containsKey k' => exact h1 h.2
  | insert k' v => exact h2 _ _ h.2
  | tryInsert k' v =>
    rcases r with e | ⟨e, v'⟩
    · exact h2 _ _ h.2.2
    · exact absurd h.2.2 h1
  | tryInsertWith k' f =>
    rcases r with e | e
    · exact h2 _ _ h.2.2.2
    · exact absurd h.2 h1
  | getOrInsert k' v =>
    rcases h with h | h
    · exact absurd h.2 h1
    · exact h2 _ _ h.2.2
  | getOrInsertWith k' f =>
    rcases h with h | h
    · exact absurd h.2 h1
    · exact h2 _ _ h.2.2.2
  | update k' f =>
    obtain ⟨calls, out⟩ := r
    cases out with
    | none => exact absurd h.2.2 h1
    | some e => obtain ⟨_, _, _, _, _, h⟩ := h; exact h2 _ _ h
  | updateOrInsert k' u v => exact h2 _ _ h.2.2.1
  | updateOrInsertWith k' u f => exact h2 _ _ h.2.2.1
  | compute k' f =>
    obtain ⟨calls, out⟩ := r
    cases out with
    | inserted e => exact h2 _ _ h.2.2.2.2.2
    | updated o n => exact h2 _ _ h.2.2.2.2.2
    | removed e => exact h2 _ _ h.2.2.2.2
    | aborted a s => exact absurd h.2.2.2.2 h1
  | remove k' => exact h2 _ _ h.2
  | removeIf k' f =>
    obtain ⟨calls, out⟩ := r
    cases out with
    | absent => exact absurd h.2.2 h1
    | removed e => exact h2 _ _ h.2.2.2
    | kept e => exact absurd h.2.2.2 h1
  | _ => exact False.elim h

/-- The binding of a key changes only through an event on that key. -/
theorem change_event {A : List (Ev K V)} {k : K} {x : Option V} {l : List (Ev K V)} (h : vals (abs (A ++ l)) k = x)
    (hne : vals (abs A) k ≠ x) :
    ∃ B ev D, l = B ++ ev :: D ∧ ev.key = k ∧ vals (abs (A ++ B)) k ≠ x ∧ ev.new.map Entry.val = x := by
  induction l using List.reverseRecOn with
  | nil => rw [List.append_nil] at h; exact absurd h hne
  | append_singleton l ev ih =>
    by_cases hl : vals (abs (A ++ l)) k = x
    · obtain ⟨B, ev', D, h1, h2, h3, h4⟩ := ih hl
      exact ⟨B, ev', D ++ [ev], by rw [h1]; simp, h2, h3, h4⟩
    · rw [← List.append_assoc, vals_snoc] at h
      have h : (if k = ev.key then ev.new.map Entry.val else vals (abs (A ++ l)) k) = x := h
      by_cases hk : k = ev.key
      · rw [if_pos hk] at h
        exact ⟨l, ev, [], by simp, hk.symm, hl, h⟩
      · rw [if_neg hk] at h; exact absurd h hl

/-- A binding that changes between two states is changed by a call that had not ended in the first one. -/
theorem change_call (h : Reach C ps) (hs : Steps C ps ps') {k : K} {x : Option V}
    (h1 : ¬ ∀ v, ps.mem.Holds k v ↔ x = some v) (h2 : ∀ v, ps'.mem.Holds k v ↔ x = some v) :
    ∃ o c, HEv.inv o c ∈ ps'.hist ∧ ¬ Ended ps.hist o ∧ c.Writes k ∧
      ((∃ m r m', SpecOp c m r m' ∧ m k ≠ x ∧ m' = m.put k x) ∨ (x = none ∧ ∃ v, SpecDel c (k, v))) := by
  obtain ⟨S, S', g, g', ⟨a1, a2, _, _, _, a6⟩, ⟨b1, b2, _, _, _, b6⟩, hgr, hret, _⟩ := steps_grow h hs
  have hx : vals (abs S'.log) k = x := by
    cases x with
    | some v => exact (holds_iff b2).1 (by rw [b1]; exact (h2 v).2 rfl)
    | none =>
      cases hv : vals (abs S'.log) k with
      | none => rfl
      | some v =>
        have := (h2 v).1 (by rw [← b1]; exact (holds_iff b2).2 hv)
        cases this
  have hne : vals (abs S.log) k ≠ x := by
    intro he
    refine h1 fun v => ?_
    rw [← a1, holds_iff a2, he]
  obtain ⟨l, hl⟩ := hgr.log
  rw [← hl] at hx
  obtain ⟨B, ev, D, h3, h4, h5, h6⟩ := change_event hx hne
  have hev : ev ∈ S'.log := by rw [← hl, h3]; simp
  obtain ⟨c, hc, heff⟩ := b6.evInv b2 hev
  have hold : ev.old.map Entry.val ≠ x := by
    have := (b2.e.e1 (S.log ++ B) ev ⟨D, by rw [← hl, h3]; simp⟩).old
    rw [this, h4]; exact h5
  refine ⟨ev.op, c, hc, ?_, ?_⟩
  · intro hr
    obtain ⟨h7, h8⟩ := hret _ hr
    have hq : S'.log[(S.log ++ B).length]? = some ev := by
      rw [← hl, h3, ← List.append_assoc, List.getElem?_append_right (Nat.le_refl _)]; simp
    have h9 := (b6.ev _ _ hq).2 h7
    have h10 := (a6.rt _ hr).2
    rw [h8, List.length_append] at h9
    omega
  · rcases heff with ⟨_, r, hr⟩ | ⟨e, e1, e2, e3, e4⟩
    · have h11 := hr (fun _ => ev.old.map Entry.val) rfl
      rw [h4, h6] at h11
      exact ⟨specOp_writes h11 (by rw [show AMap.put _ k x k = x from if_pos rfl]; exact hold), .inl ⟨_, r, _, h11, hold, rfl⟩⟩
    · refine ⟨?_, .inr ⟨?_, e.val, ?_⟩⟩
      · cases c <;> first | trivial | exact False.elim e4
      · rw [← h6, e2]; rfl
      · rw [← h4, e3]; exact e4

/-- **C14** Between any two states of an execution, the binding of a key is the same, unless some call that may write this key
was made and had not ended (returned or panicked) in the first state. Resizing, helping, promotion, reclamation, `reserve`,
readers, or writers of other keys change nothing. -/
theorem C14_contents_stable (h : Reach C ps) (hs : Steps C ps ps') (k : K)
    (hw : ∀ o c, HEv.inv o c ∈ ps'.hist → c.Writes k → Ended ps.hist o) (v : V) :
    ps'.mem.Holds k v ↔ ps.mem.Holds k v := by
  obtain ⟨L, m, _, hm⟩ := C01_linearizable (h.steps hs)
  by_contra hne
  obtain ⟨o, c, h1, h2, h3, _⟩ := change_call h hs (k := k) (x := m k) (fun h' => hne (by rw [h', hm])) (hm k)
  exact h2 (hw o c h1 h3)

-- key 3 survives the resize that moves it, while another key is inserted
example : ∃ ps ps' : PSt Nat Nat, Reach cfgI ps ∧ Steps cfgI ps ps' ∧ ps.mem.root = some 0 ∧ ps'.mem.root = some 1 ∧
    (∀ o c, HEv.inv o c ∈ ps'.hist → c.Writes 3 → Ended ps.hist o) ∧ ps'.mem.Holds 3 30 := by
  obtain ⟨ps, ps', h1, h2, h3, h4, h5⟩ := demo_two (C := cfgI) (V := Nat) (l1 := midResize 66) (m := 17)
    (l2 := [.call 1 (.insert 50 1), .fin 1 5000, .fin 0 5000, .call 1 .iter, .fin 1 5000])
    (P1 := fun ps => ps.mem.root == some 0 && holdsB ps.mem 7 3 30)
    (P2 := fun ps => ps.mem.root == some 1 && settledB 17 3 ps.hist) (by decide +kernel) (by decide +kernel)
  simp only [Bool.and_eq_true, beq_iff_eq] at h4 h5
  have hw : ∀ o c, HEv.inv o c ∈ ps'.hist → c.Writes 3 → Ended ps.hist o := by rw [h3]; exact settledB_iff h5.2
  exact ⟨ps, ps', h1, h2, h4.1, h5.1, hw, (C14_contents_stable h1 h2 3 hw 30).2 (holdsB_iff h4.2)⟩

/-- **C37** A key that is absent stays absent until a call that inserts this key — pending, or made later — takes
effect; it is then bound to the value such a call inserts. -/
theorem C37_no_resurrection (h : Reach C ps) (hs : Steps C ps ps') {k : K} {v : V} (h1 : ¬ ps.mem.Holds k v)
    (h2 : ps'.mem.Holds k v) :
    ∃ o c, HEv.inv o c ∈ ps'.hist ∧ ¬ Ended ps.hist o ∧ c.Writes k ∧
      ∃ m r, SpecOp c m r (m.put k (some v)) ∧ m k ≠ some v := by
  obtain ⟨L, m, _, hm⟩ := C01_linearizable (h.steps hs)
  have hmk : m k = some v := (hm k v).1 h2
  obtain ⟨o, c, h3, h4, h5, h6⟩ := change_call h hs (k := k) (x := m k)
    (fun h' => h1 ((h' v).2 hmk)) (hm k)
  refine ⟨o, c, h3, h4, h5, ?_⟩
  rcases h6 with ⟨m', r, m'', h6, h7, rfl⟩ | ⟨h6, _⟩
  · rw [hmk] at h6 h7; exact ⟨m', r, h6, h7⟩
  · rw [hmk] at h6; cases h6

-- a removed key comes back because it is inserted again
example : ∃ ps ps' : PSt Nat Nat, Reach cfgB ps ∧ Steps cfgB ps ps' ∧ ¬ ps.mem.Holds 3 31 ∧ ps'.mem.Holds 3 31 := by
  obtain ⟨ps, ps', h1, h2, _, h4, h5⟩ := demo_two (C := cfgB) (V := Nat) (l1 := fill 5) (m := 10)
    (l2 := [.call 1 (.remove 3), .fin 1 5000, .call 1 (.insert 3 31), .fin 1 5000])
    (P1 := fun ps => holdsB ps.mem 7 3 30)
    (P2 := fun ps => holdsB ps.mem 1 3 31) (by decide +kernel) (by decide +kernel)
  refine ⟨ps, ps', h1, h2, fun h => ?_, holdsB_iff h5⟩
  obtain ⟨e, b1, b2, b3⟩ := h
  obtain ⟨e', c1, c2, c3⟩ := holdsB_iff h4
  have := C36_binds_unique h1 b1 c1 (by rw [b2, c2])
  subst this; omega

/-- **C32** Once a map has a root table it keeps one; without root table nothing has been allocated, and the tables
allocated later are successors of the first one. -/
theorem C32_root_once (h : Reach C ps) :
    (ps.mem.root = none → ps.mem.nTabs = 0) ∧
    (∀ r, ps.mem.root = some r → ∀ {ps'}, Steps C ps ps' → ∃ r', ps'.mem.root = some r' ∧ r ≤ r') ∧
    ∀ T, 0 < T → T < ps.mem.nTabs → ps.mem.next (T - 1) = some T := by
  obtain ⟨S, g, ⟨g1, g2, g3, g4, g5, g6⟩, _⟩ := h.pinv 1
  refine ⟨?_, ?_, ?_⟩
  · rw [← g1]; exact fun h => (g2.s.none h).1
  · intro r hr ps' hs
    obtain ⟨S, S', g, g', ⟨a1, _⟩, ⟨b1, _⟩, hgr, _⟩ := steps_grow h hs
    rw [← b1]
    exact hgr.root r (by rw [← a1] at hr; exact hr)
  · rw [← g1]
    intro T h0 hT
    have hT : T < S.nTabs := hT
    have := g2.s.next (T - 1) (by omega)
    rw [this, if_pos (by omega)]
    congr 1; omega

/-- **C33** The successor of a table is chosen once: all the threads that ask for it, at any time, get the same one. -/
theorem C33_successor_once (h : Reach C ps) (hs : Steps C ps ps') {T N : Nat} (hT : T < ps.mem.nTabs)
    (hn : ps.mem.next T = some N) : ps'.mem.next T = some N ∧ ps'.mem.cap N = ps.mem.cap N := by
  obtain ⟨S, S', g, g', ⟨a1, a2, _⟩, ⟨b1, b2, _⟩, hgr, _⟩ := steps_grow h hs
  rw [← a1] at hT hn ⊢
  rw [← b1]
  have hT : T < S.nTabs := hT
  have h1 := a2.s.next T hT
  have hn : S.next T = some N := hn
  rw [hn] at h1
  split at h1
  · rename_i h2
    cases h1
    have h3 := hgr.nTabs
    refine ⟨?_, hgr.cap _ h2⟩
    show S'.next T = _
    rw [b2.s.next T (by omega), if_pos (by omega)]
  · cases h1

-- the successor of the root table, before and after the resize
example : ∃ ps ps' : PSt Nat Nat, Reach cfgI ps ∧ Steps cfgI ps ps' ∧ ps.mem.next 0 = some 1 ∧ ps.mem.root = some 0 ∧
    ps'.mem.root = some 1 ∧ 0 < ps.mem.nTabs := by
  obtain ⟨ps, ps', h1, h2, _, h4, h5⟩ := demo_two (C := cfgI) (V := Nat) (l1 := midResize 66) (m := 17)
    (l2 := [.fin 0 5000, .call 1 .iter, .fin 1 5000])
    (P1 := fun ps => ps.mem.next 0 == some 1 && ps.mem.root == some 0)
    (P2 := fun ps => ps.mem.root == some 1) (by decide +kernel) (by decide +kernel)
  simp only [Bool.and_eq_true, beq_iff_eq] at h4 h5
  refine ⟨ps, ps', h1, h2, h4.1, h4.2, h5, ?_⟩
  by_contra h0
  have := (C32_root_once h1).2.1 0 h4.2 .refl
  exact absurd (C15_root_not_aborted h1 h4.2).1 h0

/-- **C28** Every table the map ever allocates has a power of two of at least 8 slots, and at least as many slots as
the requested capacity. -/
theorem C28_tables (h : Reach C ps) {T : Nat} (hT : T < ps.mem.nTabs) :
    (∃ n, ps.mem.cap T = 2 ^ n) ∧ 8 ≤ ps.mem.cap T ∧ C.capacity ≤ ps.mem.cap T := by
  obtain ⟨S, g, ⟨g1, g2, g3, g4, g5, g6⟩, _⟩ := h.pinv 1
  rw [← g1] at hT ⊢
  obtain ⟨h1, h2, h3⟩ := g2.s.cap T hT
  refine ⟨h1, h2, Nat.le_trans ?_ h3⟩
  unfold Cfg.initialCapacity
  split <;> omega

-- a map that has grown: two tables
example : ∃ ps : PSt Nat Nat, Reach cfgB ps ∧ 1 < ps.mem.nTabs ∧ ps.mem.cap 1 = 16 := by
  obtain ⟨ps, _, h1, h2⟩ := demo_run (C := cfgB) (V := Nat) (l := fill 9)
    (P := fun ps => decide (1 < ps.mem.nTabs) && ps.mem.cap 1 == 16) (by decide +kernel)
  simp only [Bool.and_eq_true, beq_iff_eq, decide_eq_true_eq] at h2
  exact ⟨ps, h1, h2⟩

/-- **C09** The only panics are the documented ones. -/
theorem C09_panics (h : Reach C ps) {o : OpId} {c : Call K V} {w : PanicReason} (hp : HEv.panic o c w ∈ ps.hist) :
    c.MayPanic C w := by
  induction h with
  | init h => rw [h.2.2.2.2] at hp; cases hp
  | @step ps ps' h hs ih =>
    cases hs with
    | inv t c' =>
      rcases List.mem_append.1 hp with hp | hp
      · exact ih hp
      · cases List.mem_singleton.1 hp
    | ret t =>
      rcases List.mem_append.1 hp with hp | hp
      · exact ih hp
      · cases List.mem_singleton.1 hp
    | @panic t c' w' ht =>
      rcases List.mem_append.1 hp with hp | hp
      · exact ih hp
      · cases List.mem_singleton.1 hp
        obtain ⟨S, g, ⟨g1, g2, g3, g4, g5, g6⟩, _⟩ := h.pinv 1
        have := g4 t
        rw [ht] at this
        exact this.1
    | _ => exact ih hp

-- a predicate that panics; a `compute` that answers `Remove` to `None`
example : (∃ ps, Reach cfgB ps ∧
      HEv.panic (1, 1) (.removeIf 3 ⟨Unit, (), fun _ _ => .error .user⟩ : Call Nat Nat) .user ∈ ps.hist) ∧
    ∃ ps, Reach cfgB ps ∧
      HEv.panic (1, 1) (.compute (R := Unit) 30 (.pure fun _ => .remove) : Call Nat Nat) .removeNone ∈ ps.hist := by
  constructor
  · obtain ⟨ps, ps', h1, h2, _, _, h3⟩ := demo_panic (C := cfgB) (V := Nat) (l1 := fill 5) (t := 1) (n := 1) (w := .user)
      (c := .removeIf 3 ⟨Unit, (), fun _ _ => .error .user⟩) (l2 := [.fin 1 500]) (by intro s i r h; cases h; rfl)
      (P1 := fun _ => true) (P2 := fun _ => true) (by decide +kernel) (by decide +kernel)
    exact ⟨ps', h1.steps h2, h3⟩
  · obtain ⟨ps, ps', h1, h2, _, _, h3⟩ := demo_panic (C := cfgB) (V := Nat) (l1 := fill 5) (t := 1) (n := 1) (w := .removeNone)
      (c := .compute (R := Unit) 30 (.pure fun _ => .remove)) (l2 := [.fin 1 500]) pure_wf
      (P1 := fun _ => true) (P2 := fun _ => true) (by decide +kernel) (by decide +kernel)
    exact ⟨ps', h1.steps h2, h3⟩

theorem mayPanic_ne {c : Call K V} {w : PanicReason} (h : c.MayPanic C w) : w ≠ .unreachableCode ∧ w ≠ .unwrapNone := by
  have hs : SysPanic C w → w ≠ .unreachableCode ∧ w ≠ .unwrapNone := by
    rintro (⟨rfl, _⟩ | rfl | ⟨rfl, _⟩ | rfl) <;> simp
  cases c <;> simp only [Call.MayPanic] at h
  all_goals first | exact hs h | exact h.elim | skip
  all_goals rcases h with h | h
  all_goals first | exact hs h | (subst h; simp) | (rcases h with ⟨rfl, _⟩ | ⟨rfl, _⟩ <;> simp)

/-- **C09** No internal `unreachable!()` or `unwrap()` on `None` is ever reached. -/
theorem C09_no_internal_panic (h : Reach C ps) {c : Call K V} {w : PanicReason} (ht : ps.th t = .run c (.panic w)) :
    w ≠ .unreachableCode ∧ w ≠ .unwrapNone := by
  obtain ⟨S, g, ⟨g1, g2, g3, g4, g5, g6⟩, _⟩ := h.pinv 1
  have := g4 t
  rw [ht] at this
  exact mayPanic_ne this.1

end Papaya
