import Verif.Proof.OwnIns

/-! # C64: every key and value given to a call ends up in exactly one place -/

set_option linter.unusedSectionVars false
set_option linter.unusedVariables false

namespace Papaya

variable {K V : Type} [DecidableEq K] (C : Cfg K)

/-- **C64.** A call of `compute` that returns: the values its closure has returned are, each exactly once, either in the
entry that has been put into the map or dropped; the key of the call is either in that entry or dropped; the allocation
made for the entry is not lost. There is no undefined behaviour on the way (no read of an uninitialised value, no access
to an entry that belongs to the map, no double free), whatever the other threads do. -/
theorem C64_compute_returns {R : Type} {f : Closure (Option (K × V)) (Operation V R)} {k : K} {pubs : List (Entry K V)}
    {fr : CFrame K V R f} {r : Compute K V R} (h : Own.compute C (CFrame.new f k) pubs fr (.ok r)) :
    pubs = r.published ∧
    (madeVals fr.st.calls).Perm (pubs.map Entry.val ++ fr.deadVals) ∧
    [k] = pubs.map Entry.key ++ fr.deadKeys ∧
    (∀ k' cell, fr.box ≠ .mine k' cell) :=
  Own.closed_compute C (k := k) (Own.acc_new f k) _ _ _ h

/-- **C64**, if the call panics: the values are accounted for in the same way; the key is not dropped twice, but it may be
lost together with the allocation, if an attempt to publish it has failed before. -/
theorem C64_compute_panics {R : Type} {f : Closure (Option (K × V)) (Operation V R)} {k : K} {pubs : List (Entry K V)}
    {fr : CFrame K V R f} {why : PanicReason} (h : Own.compute C (CFrame.new f k) pubs fr (.panic why)) :
    (madeVals fr.st.calls).Perm (pubs.map Entry.val ++ fr.deadVals) ∧
    (([k] = pubs.map Entry.key ++ fr.deadKeys ∧ ∀ k' cell, fr.box ≠ .mine k' cell) ∨
      (pubs = [] ∧ fr.deadKeys = [] ∧ fr.box = .mine k none)) :=
  Own.closed_compute C (k := k) (Own.acc_new f k) _ _ _ h

/-- **C64**: no undefined behaviour in `compute`. -/
theorem C64_compute_safe {R : Type} {f : Closure (Option (K × V)) (Operation V R)} {k : K} {pubs : List (Entry K V)}
    {fr : CFrame K V R f} : ¬ Own.compute C (CFrame.new f k) pubs fr .fault :=
  fun h => Own.closed_compute C (k := k) (Own.acc_new f k) _ _ _ h

/-- **C64** for `insert`, `try_insert` and `get_or_insert`: the value is either in the entry that has been put into the map
or handed back; the key is either in that entry or dropped. If the call panics before the entry is published, both are lost
together with the allocation. No undefined behaviour. -/
theorem C64_insert {k : K} {v : V} {replace : Bool} {pubs : List (Entry K V)} {fr : IFrame K V} {out : Out (InsRes K V)}
    (h : Own.insert C k v replace ⟨.none, []⟩ pubs fr out) :
    (∃ r, out = .ok r ∧ pubs = r.published ∧ [v] = pubs.map Entry.val ++ r.handedBack ∧
      [k] = pubs.map Entry.key ++ fr.deadKeys ∧ ∀ k' cell, fr.box ≠ .mine k' cell) ∨
    (∃ why, out = .panic why ∧
      ((∃ e, pubs = [e] ∧ e.key = k ∧ e.val = v ∧ fr.deadKeys = [] ∧ fr.box = .published) ∨
        (pubs = [] ∧ fr.deadKeys = [] ∧ fr.box = .mine k (some v)))) := by
  have hc := closed_insert C (k := k) (v := v) (replace := replace) _ _ _ h
  cases out with
  | ok r => exact .inl ⟨r, rfl, hc⟩
  | panic why => exact .inr ⟨why, rfl, hc⟩
  | fault => exact hc.elim

/-- **C64**, for the calls of the system: a call of `compute` that is about to return has run the code of Model/Own.lean,
with the same result and the same calls of its closure. So the theorems above apply to it. -/
theorem C64_compute_of_system {ps : PSt K V} (h : Reach C ps) {t : Tid} {R : Type} {k : K}
    {f : Closure (Option (K × V)) (Operation V R)} {r : (Call.compute k f).Res}
    (ht : ps.th t = .run (.compute k f) (.ret r)) :
    ∃ pubs fr, Own.compute C (CFrame.new f k) pubs fr (.ok r.out) ∧ fr.st.calls = r.calls := by
  obtain ⟨pubs, he⟩ := reach_ret C h ht
  obtain ⟨fr, h1, h2⟩ := Own.sim_compute C he
  exact ⟨pubs, fr, h1, h2⟩

/-- **C64**, for all calls made by way of `compute` that are about to return. -/
theorem C64_returns_of_system {ps : PSt K V} (h : Reach C ps) {t : Tid} {c : Call K V} {R : Type} {k : K}
    {f : Closure (Option (K × V)) (Operation V R)} (hc : c.Computes R k f) {r : c.Res}
    (ht : ps.th t = .run c (.ret r)) : ∃ pubs fr r', Own.compute C (CFrame.new f k) pubs fr (.ok r') := by
  obtain ⟨pubs, he⟩ := reach_ret C h ht
  obtain ⟨o, h1, h2⟩ := computes_ends C hc he
  obtain ⟨x, rfl⟩ := h2 r rfl
  obtain ⟨fr, h3, _⟩ := Own.sim_compute C h1
  exact ⟨pubs, fr, _, h3⟩

/-- **C64**, for all calls made by way of `compute` that are about to panic: inside `compute`, or after it has returned. -/
theorem C64_panics_of_system {ps : PSt K V} (h : Reach C ps) {t : Tid} {c : Call K V} {R : Type} {k : K}
    {f : Closure (Option (K × V)) (Operation V R)} (hc : c.Computes R k f) {why : PanicReason}
    (ht : ps.th t = .run c (.panic why)) :
    ∃ pubs fr, (∃ why', Own.compute C (CFrame.new f k) pubs fr (.panic why')) ∨
      (∃ r', Own.compute C (CFrame.new f k) pubs fr (.ok r')) := by
  obtain ⟨pubs, he⟩ := reach_panic C h ht
  obtain ⟨o, h1, _⟩ := computes_ends C hc he
  obtain ⟨fr, h2⟩ := Own.sim_compute C h1
  cases o with
  | ok x => exact ⟨pubs, fr, .inr ⟨_, h2.1⟩⟩
  | error r => exact ⟨pubs, fr, .inl ⟨r, h2⟩⟩

/-- **C64**, for the calls of `try_insert` of the system that are about to return. -/
theorem C64_tryInsert_of_system {ps : PSt K V} (h : Reach C ps) {t : Tid} {k : K} {v : V} {r : (Call.tryInsert k v).Res}
    (ht : ps.th t = .run (.tryInsert k v) (.ret r)) :
    ∃ pubs fr r', Own.insert C k v false ⟨.none, []⟩ pubs fr (.ok r') ∧
      match r with
      | .inl e => r' = .inserted e
      | .inr (cur, w) => r' = .error cur w := by
  obtain ⟨pubs, he⟩ := reach_ret C h ht
  change (Call.tryInsertProg C k v).Ends pubs (.ok r) at he
  unfold Call.tryInsertProg at he
  rw [Prog.bind_eq, Prog.ends_bind] at he
  rcases he with ⟨p₁, p₂, x, h1, h2, rfl⟩ | ⟨r, _, h2⟩
  · obtain ⟨fr, a, h3, rfl⟩ := sim_insert C _ _ h1
    cases a with
    | inserted e => obtain ⟨rfl, h2⟩ := h2; cases h2; exact ⟨_, fr, _, h3, rfl⟩
    | error cur w => obtain ⟨rfl, h2⟩ := h2; cases h2; exact ⟨_, fr, _, h3, rfl⟩
    | replaced o n => obtain ⟨rfl, h2⟩ := h2; cases h2
  · cases h2

/-- **C64**, for the calls of `insert` of the system that are about to return. -/
theorem C64_insert_of_system {ps : PSt K V} (h : Reach C ps) {t : Tid} {k : K} {v : V} {r : (Call.insert k v).Res}
    (ht : ps.th t = .run (.insert k v) (.ret r)) :
    ∃ pubs fr r', Own.insert C k v true ⟨.none, []⟩ pubs fr (.ok r') ∧ r'.handedBack = [] := by
  obtain ⟨pubs, he⟩ := reach_ret C h ht
  simp only [Call.prog] at he
  rw [Prog.bind_eq, Prog.ends_bind] at he
  rcases he with ⟨p₁, p₂, x, h1, h2, rfl⟩ | ⟨r, _, h2⟩
  · obtain ⟨fr, a, h3, rfl⟩ := sim_insert C _ _ h1
    cases a with
    | inserted e => obtain ⟨rfl, h2⟩ := h2; exact ⟨_, fr, _, h3, rfl⟩
    | error cur w => obtain ⟨rfl, h2⟩ := h2; cases h2
    | replaced o n => obtain ⟨rfl, h2⟩ := h2; exact ⟨_, fr, _, h3, rfl⟩
  · cases h2

end Papaya
