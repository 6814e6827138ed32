import Verif.Exec.Run
import Verif.Spec.Quiet
import Verif.Proof.PInv

/-! # Concrete executions

Used next to the theorems to show that their hypotheses are met by non-trivial executions: the scheduler of
`Verif/Exec/Run.lean` runs a list of commands, the kernel evaluates it, and what it reaches is reachable. -/

set_option linter.unusedSectionVars false
set_option linter.unusedVariables false

namespace Papaya

variable {K V : Type} [DecidableEq K]

variable {C : Cfg K} {ps ps' : PSt K V}

theorem step_hist (h : Step C ps ps') : ps.hist <+: ps'.hist := by
  cases h with
  | inv => exact List.prefix_append _ _
  | ret => exact List.prefix_append _ _
  | panic => exact List.prefix_append _ _
  | _ => exact List.prefix_refl _

/-- Histories only grow. -/
theorem steps_hist (h : Steps C ps ps') : ps.hist <+: ps'.hist := by
  induction h with
  | refl => exact List.prefix_refl _
  | tail _ h1 ih => exact List.IsPrefix.trans ih (step_hist h1)

/-- Test for the return of call `o`. -/
def HEv.retTest (o : OpId) (Q : (c : Call K V) → c.Res → Bool) : HEv K V → Bool
  | .ret o' c r => o' == o && Q c r
  | _ => false

/-- Test for a panic of call `o`. -/
def HEv.panicTest (o : OpId) (w : PanicReason) : HEv K V → Bool
  | .panic o' _ w' => o' == o && w' == w
  | _ => false

theorem ret_of_test {hist : List (HEv K V)} {o : OpId} {Q : (c : Call K V) → c.Res → Bool}
    (h : hist.any (HEv.retTest o Q) = true) : ∃ c r, HEv.ret o c r ∈ hist ∧ Q c r = true := by
  obtain ⟨ev, h1, h2⟩ := List.any_eq_true.1 h
  cases ev with
  | ret o' c r =>
    simp only [HEv.retTest, Bool.and_eq_true, beq_iff_eq] at h2
    obtain ⟨rfl, h2⟩ := h2
    exact ⟨c, r, h1, h2⟩
  | _ => cases h2

theorem panic_of_test {hist : List (HEv K V)} {o : OpId} {w : PanicReason}
    (h : hist.any (HEv.panicTest o w) = true) : ∃ c, HEv.panic o c w ∈ hist := by
  obtain ⟨ev, h1, h2⟩ := List.any_eq_true.1 h
  cases ev with
  | panic o' c r =>
    simp only [HEv.panicTest, Bool.and_eq_true, beq_iff_eq] at h2
    obtain ⟨rfl, rfl⟩ := h2
    exact ⟨c, h1⟩
  | _ => cases h2

variable [DecidableEq V]

theorem demo_run {l : List (Cmd K V)} {P : PSt K V → Bool} (h : (runMap C l).any P = true) :
    ∃ ps, runMap C l = some ps ∧ Reach C ps ∧ P ps = true := by
  obtain ⟨ps, h1, h2⟩ := (Option.any_eq_true _ _).1 h
  exact ⟨ps, h1, runMap_reach h1, h2⟩

theorem runCmds_append {l l' : List (Cmd K V)} : runCmds C (l ++ l') ps = (runCmds C l ps).bind (runCmds C l') := by
  induction l generalizing ps with
  | nil => rfl
  | cons c l ih =>
    simp only [List.cons_append, runCmds, Option.bind_assoc]
    congr 1
    funext q
    exact ih

/-- The scheduler runs `l1`, then the operation `c` is called (call number `n` of guard `t`), and `l2` follows. -/
theorem demo_call {l1 l2 : List (Cmd K V)} {t : Tid} {c : Call K V} (hc : c.WF) {n : Nat} {P1 P2 : PSt K V → Bool}
    (h1 : (runMap C l1).any (fun ps => ps.seq t + 1 == n && P1 ps) = true)
    (h2 : (runMap C (l1 ++ .call t c hc :: l2)).any P2 = true) :
    ∃ ps ps', Reach C ps ∧ Steps C ps ps' ∧ P1 ps = true ∧ P2 ps' = true ∧ HEv.inv (t, n) c ∈ ps'.hist ∧
      ∀ c', HEv.inv (t, n) c' ∉ ps.hist := by
  obtain ⟨ps, h3, h4, h5⟩ := demo_run h1
  obtain ⟨ps', h6, h7, h8⟩ := demo_run h2
  simp only [Bool.and_eq_true, beq_iff_eq] at h5
  have h9 : runCmds C (.call t c hc :: l2) ps = some ps' := by
    unfold runMap at h3 h6
    cases hi : initPSt (V := V) C with
    | none => rw [hi] at h3; cases h3
    | some q =>
      rw [hi] at h3 h6
      simp only [Option.bind_some, runCmds_append] at h3 h6
      rw [h3] at h6
      exact h6
  obtain ⟨_, hst⟩ := runMap_append h3 h9
  have hinv : HEv.inv (t, n) c ∈ ps'.hist := by
    simp only [runCmds, cmdFn] at h9
    split at h9
    · simp only [Option.bind_some] at h9
      refine (steps_hist (runCmds_steps h9 (runMap_ok h3).2).1).subset ?_
      rw [← h5.1]
      exact List.mem_append_right _ (List.mem_singleton.2 rfl)
    · cases h9
  refine ⟨ps, ps', h4, hst, h5.2, h8, hinv, fun c' hc' => ?_⟩
  obtain ⟨S, g, ⟨_, _, _, _, _, g6⟩, _⟩ := h7.pinv 1
  simp only [runCmds, cmdFn] at h9
  split at h9
  · simp only [Option.bind_some] at h9
    obtain ⟨A, hA⟩ := steps_hist (runCmds_steps h9 (runMap_ok h3).2).1
    refine g6.wf.inv_first (o := (t, n)) (c := c) (A := ps.hist) (B := [.inv (t, n) c] ++ A) ?_ (by simp) _ hc' rfl
    rw [← hA, ← h5.1, List.append_assoc]
  · cases h9

/-- Likewise, and the operation returns. -/
theorem demo_ret {l1 l2 : List (Cmd K V)} {t : Tid} {c : Call K V} (hc : c.WF) {n : Nat} {P1 P2 : PSt K V → Bool}
    {Q : (c : Call K V) → c.Res → Bool} (h1 : (runMap C l1).any (fun ps => ps.seq t + 1 == n && P1 ps) = true)
    (h2 : (runMap C (l1 ++ .call t c hc :: l2)).any (fun ps => ps.hist.any (HEv.retTest (t, n) Q) && P2 ps) = true) :
    ∃ ps ps' r, Reach C ps ∧ Steps C ps ps' ∧ P1 ps = true ∧ P2 ps' = true ∧ HEv.inv (t, n) c ∈ ps'.hist ∧
      (∀ c', HEv.inv (t, n) c' ∉ ps.hist) ∧ HEv.ret (t, n) c r ∈ ps'.hist ∧ Q c r = true := by
  obtain ⟨ps, ps', a1, a2, a3, a4, a5, a6⟩ := demo_call hc h1 h2
  rw [Bool.and_eq_true] at a4
  obtain ⟨c', r, h3, h4⟩ := ret_of_test a4.1
  obtain ⟨S, g, ⟨_, _, _, _, _, g6⟩, _⟩ := (a1.steps a2).pinv 1
  have := g6.wf.inv_unique a5 (g6.wf.ret_inv' h3)
  subst this
  exact ⟨ps, ps', r, a1, a2, a3, a4.2, a5, a6, h3, h4⟩

/-- Likewise, and the operation panics. -/
theorem demo_panic {l1 l2 : List (Cmd K V)} {t : Tid} {c : Call K V} (hc : c.WF) {n : Nat} {w : PanicReason}
    {P1 P2 : PSt K V → Bool} (h1 : (runMap C l1).any (fun ps => ps.seq t + 1 == n && P1 ps) = true)
    (h2 : (runMap C (l1 ++ .call t c hc :: l2)).any (fun ps => ps.hist.any (HEv.panicTest (t, n) w) && P2 ps) = true) :
    ∃ ps ps', Reach C ps ∧ Steps C ps ps' ∧ P1 ps = true ∧ P2 ps' = true ∧ HEv.panic (t, n) c w ∈ ps'.hist := by
  obtain ⟨ps, ps', a1, a2, a3, a4, a5, a6⟩ := demo_call hc h1 h2
  rw [Bool.and_eq_true] at a4
  obtain ⟨c', h3⟩ := panic_of_test a4.1
  obtain ⟨S, g, ⟨_, _, _, _, _, g6⟩, _⟩ := (a1.steps a2).pinv 1
  have := g6.wf.inv_unique a5 (g6.wf.panic_inv h3)
  subst this
  exact ⟨ps, ps', a1, a2, a3, a4.2, h3⟩

/-- Test for `Call.readOnly`. -/
def readOnlyB : Call K V → Bool
  | .get _ | .containsKey _ | .iter | .iterTake _ | .len | .isEmpty | .reserve _ => true
  | _ => false

theorem readOnlyB_iff {c : Call K V} : readOnlyB c = true → c.readOnly := by
  intro h; cases c <;> trivial

def HEv.endTest (o : OpId) : HEv K V → Bool
  | .ret o' _ _ => o' == o
  | .panic o' _ _ => o' == o
  | _ => false

/-- Test for `NoWriter`. -/
def quietB (hist : List (HEv K V)) : Bool :=
  hist.all fun ev => match ev with
    | .inv o c => readOnlyB c || hist.any (HEv.endTest o)
    | _ => true

theorem quietB_iff {hist : List (HEv K V)} (h : quietB hist = true) : NoWriter hist := by
  intro o c ho
  have := List.all_eq_true.1 h _ ho
  simp only [Bool.or_eq_true] at this
  rcases this with h1 | h1
  · exact .inl (readOnlyB_iff h1)
  · obtain ⟨ev, h2, h3⟩ := List.any_eq_true.1 h1
    refine .inr ?_
    cases ev with
    | inv => cases h3
    | ret o' c' r => simp only [HEv.endTest, beq_iff_eq] at h3; subst h3; exact .inl ⟨c', r, h2⟩
    | panic o' c' r => simp only [HEv.endTest, beq_iff_eq] at h3; subst h3; exact .inr ⟨c', r, h2⟩

/-- All calls in the history, except `o` and the first `m` events, are read only. -/
def othersB (m : Nat) (o : OpId) (hist : List (HEv K V)) : Bool :=
  (hist.drop m).all fun ev => match ev with
    | .inv o' c => o' == o || readOnlyB c
    | _ => true

/-- Likewise for an operation executed without concurrent writers. -/
theorem demo_alone {l1 l2 : List (Cmd K V)} {t : Tid} {c : Call K V} (hc : c.WF) {n m : Nat}
    {P2 : PSt K V → Bool} {Q : (c : Call K V) → c.Res → Bool}
    (h1 : (runMap C l1).any (fun ps => ps.seq t + 1 == n && (quietB ps.hist && ps.hist.length == m)) = true)
    (h2 : (runMap C (l1 ++ .call t c hc :: l2)).any
      (fun ps => ps.hist.any (HEv.retTest (t, n) Q) && (othersB m (t, n) ps.hist && P2 ps)) = true) :
    ∃ ps ps' r, Alone C ps ps' (t, n) c ∧ P2 ps' = true ∧ HEv.ret (t, n) c r ∈ ps'.hist ∧ Q c r = true := by
  obtain ⟨ps, ps', r, a1, a2, a3, a4, a5, a6, a7, a8⟩ := demo_ret hc h1 h2
  simp only [Bool.and_eq_true, beq_iff_eq] at a3 a4
  refine ⟨ps, ps', r, ⟨a1, a2, quietB_iff a3.1, a6 _, a5, fun o' c' h3 h4 => ?_⟩, a4.2, a7, a8⟩
  obtain ⟨A, hA⟩ := steps_hist a2
  have h5 := a4.1
  rw [← hA] at h3 h5
  rw [← a3.2] at h5
  have h6 : HEv.inv o' c' ∈ (ps.hist ++ A).drop ps.hist.length := by
    rw [List.drop_left]
    exact (List.mem_append.1 h3).resolve_left h4
  have := List.all_eq_true.1 h5 _ h6
  simp only [Bool.or_eq_true, beq_iff_eq] at this
  exact this.imp id readOnlyB_iff

/-- Likewise for an operation that panics. -/
theorem demo_alone_panic {l1 l2 : List (Cmd K V)} {t : Tid} {c : Call K V} (hc : c.WF) {n m : Nat} {w : PanicReason}
    {P2 : PSt K V → Bool}
    (h1 : (runMap C l1).any (fun ps => ps.seq t + 1 == n && (quietB ps.hist && ps.hist.length == m)) = true)
    (h2 : (runMap C (l1 ++ .call t c hc :: l2)).any
      (fun ps => ps.hist.any (HEv.panicTest (t, n) w) && (othersB m (t, n) ps.hist && P2 ps)) = true) :
    ∃ ps ps', Alone C ps ps' (t, n) c ∧ P2 ps' = true ∧ HEv.panic (t, n) c w ∈ ps'.hist := by
  obtain ⟨ps, ps', a1, a2, a3, a4, a5, a6⟩ := demo_call hc h1 h2
  simp only [Bool.and_eq_true, beq_iff_eq] at a3 a4
  obtain ⟨c', h3⟩ := panic_of_test a4.1
  obtain ⟨S, g, ⟨_, _, _, _, _, g6⟩, _⟩ := (a1.steps a2).pinv 1
  have := g6.wf.inv_unique a5 (g6.wf.panic_inv h3)
  subst this
  refine ⟨ps, ps', ⟨a1, a2, quietB_iff a3.1, a6 _, a5, fun o' c' h3 h4 => ?_⟩, a4.2.2, h3⟩
  obtain ⟨A, hA⟩ := steps_hist a2
  have h5 := a4.2.1
  rw [← hA] at h3 h5
  rw [← a3.2] at h5
  have h6 : HEv.inv o' c' ∈ (ps.hist ++ A).drop ps.hist.length := by
    rw [List.drop_left]
    exact (List.mem_append.1 h3).resolve_left h4
  have := List.all_eq_true.1 h5 _ h6
  simp only [Bool.or_eq_true, beq_iff_eq] at this
  exact this.imp id readOnlyB_iff

/-- Test for `Call.Writes`. -/
def writesB (k : K) : Call K V → Bool
  | .insert k' _ | .tryInsert k' _ | .tryInsertWith k' _ | .getOrInsert k' _ | .getOrInsertWith k' _ | .update k' _
  | .updateOrInsert k' _ _ | .updateOrInsertWith k' _ _ | .compute k' _ | .remove k' | .removeIf k' _ => k' == k
  | .clear | .retain _ => true
  | .get _ | .containsKey _ | .iter | .iterTake _ | .len | .isEmpty | .reserve _ => false

theorem writesB_of {k : K} {c : Call K V} (h : c.Writes k) : writesB k c = true := by
  cases c <;> first | (have h : _ = k := h; exact beq_iff_eq.2 h) | trivial

theorem ended_of_test {hist : List (HEv K V)} {o : OpId} (h : hist.any (HEv.endTest o) = true) : Ended hist o := by
  obtain ⟨ev, h2, h3⟩ := List.any_eq_true.1 h
  cases ev with
  | inv => cases h3
  | ret o' c' r => simp only [HEv.endTest, beq_iff_eq] at h3; subst h3; exact .inl ⟨c', r, h2⟩
  | panic o' c' r => simp only [HEv.endTest, beq_iff_eq] at h3; subst h3; exact .inr ⟨c', r, h2⟩

/-- Every call that writes `k` has ended within the first `m` events. -/
def settledB (m : Nat) (k : K) (hist : List (HEv K V)) : Bool :=
  hist.all fun ev => match ev with
    | .inv o c => !writesB k c || (hist.take m).any (HEv.endTest o)
    | _ => true

theorem settledB_iff {m : Nat} {k : K} {hist : List (HEv K V)} (h : settledB m k hist = true) :
    ∀ o c, HEv.inv o c ∈ hist → c.Writes k → Ended (hist.take m) o := by
  intro o c h1 h2
  have := List.all_eq_true.1 h _ h1
  simp only [writesB_of h2, Bool.not_true, Bool.false_or] at this
  exact ended_of_test this

def HEv.invTest (o : OpId) : HEv K V → Bool
  | .inv o' _ => o' == o
  | _ => false

/-- Test for `Precedes`. -/
def precedesB (hist : List (HEv K V)) (a b : OpId) : Bool :=
  (List.range (hist.length + 1)).any fun i => (hist.take i).any (HEv.endTest a) && (hist.drop i).any (HEv.invTest b)

theorem precedesB_iff {hist : List (HEv K V)} {a b : OpId} (h : precedesB hist a b = true) : Precedes hist a b := by
  obtain ⟨i, _, h2⟩ := List.any_eq_true.1 h
  rw [Bool.and_eq_true] at h2
  refine ⟨hist.take i, hist.drop i, (List.take_append_drop i hist).symm, ended_of_test h2.1, ?_⟩
  obtain ⟨ev, h3, h4⟩ := List.any_eq_true.1 h2.2
  cases ev with
  | inv o c => simp only [HEv.invTest, beq_iff_eq] at h4; subst h4; exact ⟨c, h3⟩
  | _ => cases h4

/-- Slot `i` of the root table shows that `k` is bound to `v`. -/
def holdsB (σ : St K V) (i : Nat) (k : K) (v : V) : Bool :=
  σ.status σ.rootIx != .aborted && (σ.md σ.rootIx i != EMPTY && (!(σ.slot σ.rootIx i).copied &&
    match (σ.slot σ.rootIx i).ptr with
    | some e => e.key == k && e.val == v
    | none => false))

theorem holdsB_iff {σ : St K V} {i : Nat} {k : K} {v : V} (h : holdsB σ i k v = true) : σ.Holds k v := by
  unfold holdsB at h
  simp only [Bool.and_eq_true, bne_iff_ne, ne_eq, Bool.not_eq_true'] at h
  obtain ⟨h1, h2, h3, h4⟩ := h
  split at h4
  · rename_i e he
    simp only [Bool.and_eq_true, beq_iff_eq] at h4
    refine ⟨e, ⟨σ.rootIx, i, Nat.le_refl _, h1, he, h2, fun h => ?_, fun h => absurd h.1 (Nat.lt_irrefl _)⟩, h4⟩
    have := h.1; rw [h3] at this; cases this
  · cases h4

/-- The scheduler runs `l1`, then `l2`. -/
theorem demo_two {l1 l2 : List (Cmd K V)} {m : Nat} {P1 P2 : PSt K V → Bool}
    (h1 : (runMap C l1).any (fun ps => ps.hist.length == m && P1 ps) = true)
    (h2 : (runMap C (l1 ++ l2)).any P2 = true) :
    ∃ ps ps', Reach C ps ∧ Steps C ps ps' ∧ ps.hist = ps'.hist.take m ∧ P1 ps = true ∧ P2 ps' = true := by
  obtain ⟨ps, h3, h4, h5⟩ := demo_run h1
  obtain ⟨ps', h6, h7, h8⟩ := demo_run h2
  simp only [Bool.and_eq_true, beq_iff_eq] at h5
  have h9 : runCmds C l2 ps = some ps' := by
    unfold runMap at h3 h6
    cases hi : initPSt (V := V) C with
    | none => rw [hi] at h3; cases h3
    | some q =>
      rw [hi] at h3 h6
      simp only [Option.bind_some, runCmds_append] at h3 h6
      rw [h3] at h6
      exact h6
  obtain ⟨_, hst⟩ := runMap_append h3 h9
  obtain ⟨A, hA⟩ := steps_hist hst
  exact ⟨ps, ps', h4, hst, by rw [← hA, ← h5.1, List.take_left], h5.2, h8⟩

/-! ## Scenarios -/

/-- A map with blocking resizing, created with 8 slots. -/
def cfgB : Cfg Nat := ⟨fun k => UInt64.ofNat (k * 0x9E3779B97F4A7C15), .blocking, 1, 1, fun t => t, 0, 0, 0, fun _ => true⟩

/-- A map with incremental resizing (2 slots at a time), created with 8 slots. -/
def cfgI : Cfg Nat := ⟨fun k => UInt64.ofNat (k * 0x9E3779B97F4A7C15), .incremental 2, 1, 1, fun t => t, 0, 0, 0, fun _ => true⟩

/-- Two guards; guard 0 inserts `n` keys. -/
def fill (n : Nat) : List (Cmd Nat Nat) :=
  [.pin 0, .pin 1] ++ (List.range n).flatMap fun k => [.call 0 (.insert k (10 * k)), .fin 0 5000]

/-- … and starts inserting another one: a resize begins and is interrupted. -/
def midResize (n : Nat) : List (Cmd Nat Nat) := fill 8 ++ [.call 0 (.insert 8 80), .go 0 n]

theorem pure_wf {I O : Type} {g : I → O} : (Closure.pure g).WF := by
  intro s i r h; cases h

/-- Guard 1 calls `c` in the middle of an incremental resize — guard 0, which started it, is suspended: it has copied the
first slot and is copying the second one — and the operation completes. -/
theorem scene {c : Call Nat Nat} (hc : c.WF) (Q : (c : Call Nat Nat) → c.Res → Bool)
    (h : (runMap cfgI (midResize 66 ++ [.call 1 c hc, .fin 1 5000])).any (fun ps => ps.hist.any (HEv.retTest (1, 1) Q) &&
      (ps.mem.root == some 0 && ps.mem.next 0 == some 1)) = true) :
    ∃ ps r, Reach cfgI ps ∧ HEv.ret (1, 1) c r ∈ ps.hist ∧ Q c r = true ∧ ps.mem.root = some 0 ∧ ps.mem.next 0 = some 1 := by
  obtain ⟨ps, ps', r, h1, h2, _, h3, _, _, h4, h5⟩ := demo_ret (C := cfgI) (l1 := midResize 66) (l2 := [.fin 1 5000])
    (t := 1) (n := 1) (P1 := fun _ => true) hc (by decide +kernel) h
  simp only [Bool.and_eq_true, beq_iff_eq] at h3
  exact ⟨ps', r, h1.steps h2, h4, h5, h3⟩

end Papaya
