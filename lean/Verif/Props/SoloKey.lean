import Verif.Props.Term
import Verif.Props.OwnKey

/-! # C71: operations executed alone end, although other operations are suspended or abandoned -/

set_option linter.unusedSectionVars false
set_option linter.unusedVariables false

namespace Papaya

open GSt

variable {K V : Type} [DecidableEq K] {C : Cfg K} {ps ps' : PSt K V} {k : K} {t : Tid} {sp : Bool}

/-- **C71** In incremental mode, an operation on a single key ends when it is executed alone, from every reachable state — whichever other operations
are suspended, or were abandoned, at whichever points, in the middle of however many resizes — provided only that no entry of its key is just being
copied, and nobody is just allocating a table. (Weak compare-exchanges are assumed not to fail spuriously.) -/
theorem C71_ends (h : Reach C ps) (hi : C.inc = true) (ht : ps.th t = .idle) {c : Call K V} (hc : c.key? = some k) (hwf : c.WF)
    (hcopy : ¬ ps.mem.CopyingKey k) (hlock : ¬ ps.mem.Allocating) : EndsAlone C t false ps c := by
  refine endsAlone_of h ht hwf (tt_key hi (ks := fun x => x = k) (kk := none) ⟨rfl, .inr ⟨rfl, rfl⟩⟩ hc) ⟨?_, ?_, ?_⟩
  · intro T i e _ hp hk hcg
    by_contra hcd
    exact hcopy ⟨T, i, e, hp, hk, hcg, by simpa using hcd⟩
  · rintro x hx; cases hx
  · exact fun T u hl => hlock ⟨T, u, hl⟩

/-- **C71** If the key has never been stored (or no table has an entry of it any more), the operation ends even if weak compare-exchanges may fail
spuriously. -/
theorem C71_new_key_ends (h : Reach C ps) (hi : C.inc = true) (ht : ps.th t = .idle) {c : Call K V} (hc : c.key? = some k) (hwf : c.WF)
    (hk : ¬ ps.mem.Stores k) (hlock : ¬ ps.mem.Allocating) : EndsAlone C t sp ps c := by
  have hno : ∀ {T i e}, (ps.mem.slot T i).ptr = some e → e.key = k → False := fun hp he => hk ⟨_, _, _, hp, he⟩
  cases sp with
  | false => exact C71_ends h hi ht hc hwf (fun ⟨_, _, _, hp, he, _⟩ => hno hp he) hlock
  | true =>
    refine endsAlone_of h ht hwf (tt_key hi (ks := fun x => x = k) (kk := some k) ⟨rfl, .inl ⟨rfl, rfl⟩⟩ hc) ⟨?_, ?_, ?_⟩
    · exact fun T i e _ hp hk _ => (hno hp hk).elim
    · rintro x hx T i e hp he
      cases hx
      exact (hno hp he).elim
    · exact fun T u hl => hlock ⟨T, u, hl⟩

/-- **C71** A lookup executed alone ends, in both modes, from every reachable state whatsoever: whatever is suspended, abandoned, being copied or being
allocated. -/
theorem C71_lookup_ends (h : Reach C ps) (ht : ps.th t = .idle) {c : Call K V} (hc : c = .get k ∨ c = .containsKey k) : EndsAlone C t sp ps c := by
  rcases hc with rfl | rfl
  · exact endsAlone_of h ht trivial (P := fun _ => True) tt_get trivial
  · exact endsAlone_of h ht trivial (P := fun _ => True) (Tt.bind (fun _ _ => True) tt_get fun _ => Tt.ret (Q := fun _ _ => True) fun _ _ h => h) trivial

/-- **C71** So such an operation does return, or panics for a documented reason (C09), and nobody else has to do anything. -/
theorem C71_returns (h : Reach C ps) (hi : C.inc = true) (ht : ps.th t = .idle) {c : Call K V} (hc : c.key? = some k) (hwf : c.WF)
    (hcopy : ¬ ps.mem.CopyingKey k) (hlock : ¬ ps.mem.Allocating) :
    ∃ n ps', SoloRun C t false n (ps.call C t c) ps' ∧ ((∃ r, ps'.hist = (ps.call C t c).hist ++ [.ret (t, ps.seq t + 1) c r]) ∨
      ∃ w, ps'.hist = (ps.call C t c).hist ++ [.panic (t, ps.seq t + 1) c w] ∧ c.MayPanic C w) :=
  (C71_ends h hi ht hc hwf hcopy hlock).reaches h ht hwf

/-! ## A state in the middle of a copy -/

/-- Test for the hypotheses of C71. -/
def freeKeyB (σ : St Nat Nat) (k : Nat) : Bool :=
  ((List.range σ.nTabs).all fun T => (List.range (σ.cap T)).all fun i => match (σ.slot T i).ptr with
    | some e => e.key != k || (!(σ.slot T i).copying || (σ.slot T i).copied)
    | none => true) &&
  (List.range σ.nTabs).all fun T => match σ.lock T with
    | .held _ => false
    | _ => true

theorem freeKeyB_iff {C : Cfg Nat} {ps : PSt Nat Nat} (h : Reach C ps) {k : Nat} (hb : freeKeyB ps.mem k = true) :
    ¬ ps.mem.CopyingKey k ∧ ¬ ps.mem.Allocating := by
  obtain ⟨S, g, ⟨g1, g2, _⟩, _⟩ := h.pinv 1
  unfold freeKeyB at hb
  simp only [Bool.and_eq_true, List.all_eq_true, List.mem_range] at hb
  refine ⟨?_, ?_⟩
  · rintro ⟨T, i, e, h1, h2, h3, h4⟩
    have hk : S.kslot T i e := by rw [← g1] at h1; exact h1
    have b1 := kslot_lt g2.s hk
    have b2 := kslot_idx g2.s g2.p hk
    have hm : ps.mem.nTabs = S.nTabs ∧ ps.mem.cap T = S.cap T := by rw [← g1]; exact ⟨rfl, rfl⟩
    have := hb.1 T (by rw [hm.1]; exact b1) i (by rw [hm.2]; exact b2)
    rw [h1] at this
    simp [h2, h3, h4] at this
  · rintro ⟨T, u, hl⟩
    by_cases hT : T < ps.mem.nTabs
    · have := hb.2 T hT
      rw [hl] at this
      cases this
    · have hg : GoodSt C ps.mem := ⟨S, g1, g2⟩
      have := (hg.out (Nat.le_of_not_lt hT)).2.2.2.2.2
      rw [hl] at this
      cases this

-- guard 0 was killed while it was copying the entry of key 0 (so that an `insert` of key 0 would wait forever, C69): an `update` of key 3 ends
example : ∃ ps : PSt Nat Nat, Reach cfgI ps ∧ ps.th 0 = .gone ∧ ps.th 1 = .idle ∧ ps.mem.CopyingKey 0 ∧ ps.mem.Holds 3 30 ∧
    ps.mem.root = some 0 ∧ ps.mem.next 0 = some 1 ∧ EndsAlone cfgI 1 false ps (.update 3 (Closure.pure fun v => v + 1)) := by
  obtain ⟨ps, h0, h1, h2⟩ := demo_run (C := cfgI) (V := Nat) (l := midResize 57 ++ [.abandon 0, .call 1 (.get 5) trivial, .fin 1 500])
    (P := fun ps => freeKeyB ps.mem 3 && ((((List.range 8).any fun i => holdsB ps.mem i 3 30) && (ps.mem.root == some 0 && ps.mem.next 0 == some 1)) &&
      (((match ps.th 0 with | .gone => true | _ => false) && (match ps.th 1 with | .idle => true | _ => false)) &&
        (match (ps.mem.slot 0 0).ptr with | some e => e.key == 0 && ((ps.mem.slot 0 0).copying && !(ps.mem.slot 0 0).copied) | none => false))))
    (by decide +kernel)
  simp only [Bool.and_eq_true, beq_iff_eq] at h2
  obtain ⟨a1, ⟨a2, a3, a4⟩, ⟨a5, a6⟩, a7⟩ := h2
  obtain ⟨b1, b2⟩ := freeKeyB_iff h1 a1
  obtain ⟨i, _, hi⟩ := List.any_eq_true.1 a2
  have c0 : ps.th 0 = .gone := by split at a5 <;> first | assumption | cases a5
  have c1 : ps.th 1 = .idle := by split at a6 <;> first | assumption | cases a6
  refine ⟨ps, h1, c0, c1, ?_, holdsB_iff hi, a3, a4, C71_ends h1 rfl c1 rfl pure_wf b1 b2⟩
  split at a7
  · rename_i e he
    simp only [Bool.and_eq_true, beq_iff_eq, Bool.not_eq_true'] at a7
    exact ⟨0, 0, e, he, a7.1, a7.2.1, a7.2.2⟩
  · cases a7

/-! ## Both exceptions are necessary -/

theorem execFn_nsp [DecidableEq V] {β : Type} {a : Act K V β} {σ σ' : St K V} {r : β} (h : execFn C t a σ = some (r, σ')) : NoSpurious σ a r := by
  cases a with
  | cas w T i x y =>
    intro hr hs
    simp only [execFn, if_pos hs, Option.some.injEq, Prod.mk.injEq] at h
    exact hr h.1.symm
  | casNew w T i x k v =>
    rintro ⟨s, hr⟩ hs
    simp only [execFn, if_pos hs, Option.some.injEq, Prod.mk.injEq] at h
    rw [← h.1] at hr
    cases hr
  | _ => trivial

theorem stepFn_solo [DecidableEq V] (h : stepFn C t ps = some ps') : SoloStep C t sp ps ps' := by
  unfold stepFn at h
  split at h
  · rename_i c β a k hth
    rw [Option.map_eq_some_iff] at h
    obtain ⟨⟨r, σ⟩, h1, h2⟩ := h
    cases h2
    exact .act hth (execFn_sound h1) fun _ => execFn_nsp h1
  · rename_i hth; cases h; exact .loop hth
  · rename_i hth; cases h; exact .ret hth
  · rename_i hth; cases h; exact .panic hth
  · cases h

theorem goFn_solo [DecidableEq V] {n : Nat} (h : goFn C t n ps = some ps') : SoloRun C t sp n ps ps' := by
  induction n generalizing ps with
  | zero => cases h; exact .refl
  | succ n ih =>
    simp only [goFn, Option.bind_eq_some_iff] at h
    obtain ⟨q, h1, h2⟩ := h
    exact .step (stepFn_solo h1) (ih h2)

/-- An operation that, executed alone, gets to wait does not end. -/
theorem not_endsAlone_of_waiting {c : Call K V} {n : Nat} (hr : SoloRun C t sp n (ps.call C t c) ps') (hw : Waiting C ps' t)
    (hl : ps'.hist.length = (ps.call C t c).hist.length) : ¬ EndsAlone C t sp ps c := by
  rintro ⟨N, hN⟩
  rcases (hN n ps' hr).2 with ⟨q, hq⟩ | ⟨r, hq⟩ | ⟨w, hq⟩
  · refine hw.2 ?_
    cases hq with
    | act h he _ => exact ⟨_, .act h he⟩
    | loop h => exact ⟨_, .loop h⟩
    | ret h => exact ⟨_, .ret h⟩
    | panic h => exact ⟨_, .panic h⟩
  · rw [hq, List.length_append, List.length_singleton] at hl; omega
  · rw [hq, List.length_append, List.length_singleton] at hl; omega

/-- Test: called now and executed alone, the operation waits after `n` steps. -/
def stuckB (C : Cfg Nat) (t : Tid) (n : Nat) (c : Call Nat Nat) (ps : PSt Nat Nat) : Bool :=
  (goFn C t n (ps.call C t c)).any fun q => waitingB C t q && q.hist.length == (ps.call C t c).hist.length

theorem stuckB_iff {C : Cfg Nat} {ps : PSt Nat Nat} {n : Nat} {c : Call Nat Nat} (h : stuckB C t n c ps = true) : ¬ EndsAlone C t false ps c := by
  obtain ⟨q, h1, h2⟩ := (Option.any_eq_true _ _).1 h
  simp only [Bool.and_eq_true, beq_iff_eq] at h2
  exact not_endsAlone_of_waiting (goFn_solo h1) (waitingB_iff h2.1) h2.2

/-- **C71** The first exception is necessary: while the entry of key 0 is being copied by an operation that is suspended (or gone), an `insert` of key 0 executed
alone does not end, although nobody is allocating a table. -/
theorem C71_copy_necessary : ∃ ps : PSt Nat Nat, Reach cfgI ps ∧ ps.th 1 = .idle ∧ ¬ ps.mem.Allocating ∧
    ¬ EndsAlone cfgI 1 false ps (.insert 0 90) := by
  obtain ⟨ps, h0, h1, h2⟩ := demo_run (C := cfgI) (V := Nat) (l := midResize 57)
    (P := fun ps => freeKeyB ps.mem 3 && ((match ps.th 1 with | .idle => true | _ => false) && stuckB cfgI 1 38 (.insert 0 90) ps))
    (by decide +kernel)
  simp only [Bool.and_eq_true] at h2
  obtain ⟨a1, a2, a3⟩ := h2
  exact ⟨ps, h1, (by split at a2 <;> first | assumption | cases a2), (freeKeyB_iff h1 a1).2, stuckB_iff a3⟩

/-- Test for `St.CopyingKey` failing. -/
def noCopyB (σ : St Nat Nat) : Bool :=
  (List.range σ.nTabs).all fun T => (List.range (σ.cap T)).all fun i => !(σ.slot T i).copying

theorem noCopyB_iff {C : Cfg Nat} {ps : PSt Nat Nat} (h : Reach C ps) (hb : noCopyB ps.mem = true) (k : Nat) : ¬ ps.mem.CopyingKey k := by
  obtain ⟨S, g, ⟨g1, g2, _⟩, _⟩ := h.pinv 1
  rintro ⟨T, i, e, h1, h2, h3, h4⟩
  have hk : S.kslot T i e := by rw [← g1] at h1; exact h1
  have b1 := kslot_lt g2.s hk
  have b2 := kslot_idx g2.s g2.p hk
  have hm : ps.mem.nTabs = S.nTabs ∧ ps.mem.cap T = S.cap T := by rw [← g1]; exact ⟨rfl, rfl⟩
  simp only [noCopyB, List.all_eq_true, List.mem_range] at hb
  have := hb T (by rw [hm.1]; exact b1) i (by rw [hm.2]; exact b2)
  rw [h3] at this
  cases this

/-- **C71** The second one too: while a suspended operation is allocating the next table, an `insert` of another key that does not fit into the table does not
end, although no entry whatsoever is being copied. -/
theorem C71_allocation_necessary : ∃ ps : PSt Nat Nat, Reach cfgI ps ∧ ps.th 1 = .idle ∧ (∀ k, ¬ ps.mem.CopyingKey k) ∧
    ¬ EndsAlone cfgI 1 false ps (.insert 9 90) := by
  obtain ⟨ps, h0, h1, h2⟩ := demo_run (C := cfgI) (V := Nat) (l := midResize 37)
    (P := fun ps => noCopyB ps.mem && ((match ps.th 1 with | .idle => true | _ => false) && stuckB cfgI 1 40 (.insert 9 90) ps))
    (by decide +kernel)
  simp only [Bool.and_eq_true] at h2
  obtain ⟨a1, a2, a3⟩ := h2
  exact ⟨ps, h1, (by split at a2 <;> first | assumption | cases a2), noCopyB_iff h1 a1, stuckB_iff a3⟩

end Papaya
