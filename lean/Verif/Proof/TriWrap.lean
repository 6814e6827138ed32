import Verif.Proof.TriCompute

/-! # Triples of the operations built on `compute` -/

set_option linter.unusedSectionVars false
set_option linter.unusedVariables false

namespace Papaya

variable {K V : Type} [DecidableEq K]

open GSt

variable {C : Cfg K} {t : Tid} {Ap : PanicReason → Prop} {S S' : GSt K V} {k : K}

/-- An induction principle for the calls of a closure. -/
theorem Closure.Run.ind {I O : Type} {f : Closure I O} {J : f.Tr → Prop} (h0 : J f.start)
    (hs : ∀ s st' i o, f.Run s → J s → f.call s.st i = .ok (st', o) → J ⟨st', s.calls ++ [(i, o)]⟩) {s : f.Tr} (h : f.Run s) : J s := by
  induction h with
  | start => exact h0
  | call h hc ih => exact hs _ _ _ _ h ih hc

/-- An induction principle for the answers of a closure. -/
theorem Closure.says_ind {I O : Type} {f : Closure I O} {J : f.Tr → Prop} {P : I → O → Prop} (h0 : J f.start)
    (hs : ∀ s st' i o, f.Run s → J s → f.call s.st i = .ok (st', o) → J ⟨st', s.calls ++ [(i, o)]⟩ ∧ P i o) {s : f.Tr} (h : f.Run s) :
    J s ∧ ∀ i o, (i, o) ∈ s.calls → P i o := by
  induction h with
  | start => exact ⟨h0, fun i o h => by cases h⟩
  | call h hc ih =>
    obtain ⟨h1, h2⟩ := hs _ _ _ _ h ih.1 hc
    refine ⟨h1, fun i o hm => ?_⟩
    rcases List.mem_append.1 hm with g | g
    · exact ih.2 i o g
    · rw [List.mem_singleton] at g
      cases g; exact h2

/-- States of a closure that consumes its initialiser: unused or its value has been cached. -/
def OnceJ (f : Closure Unit V) (s : Option f.S) (ins : Option V) : Prop :=
  s = some f.init ∨ (s = none ∧ ins ≠ none)

/-- The answers of the closure of `try_insert_with`. -/
theorem try_run {f : Closure Unit V} {s} (h : (tryInsertClosure (K := K) f).Run s) :
    (s.st = some f.init ∨ s.st = none) ∧ ∀ i o, (i, o) ∈ s.calls →
      match i with
      | none => ∃ v, o = .insert v ∧ Gives f v
      | some x => o = .abort x.2 := by
  refine Closure.says_ind (f := tryInsertClosure (K := K) f) (J := fun s => s.st = some f.init ∨ s.st = none) (.inl rfl) ?_ h
  rintro ⟨st, cs⟩ s' i o _ hj hc
  cases i with
  | some x => obtain ⟨a, b⟩ := x; cases hc; exact ⟨hj, rfl⟩
  | none =>
    rcases hj with hj | hj <;> simp only at hj <;> subst hj <;> simp only [tryInsertClosure] at hc
    · split at hc
      · rename_i s'' v hc'
        cases hc; exact ⟨.inr rfl, v, rfl, s'', hc'⟩
      · cases hc
    · cases hc

theorem try_says_none {f : Closure Unit V} {op} (h : (tryInsertClosure (K := K) f).Says none op) :
    ∃ v, op = .insert v ∧ Gives f v := by
  obtain ⟨calls, ⟨st, h1⟩, h2⟩ := h
  exact (try_run h1).2 none op h2

theorem try_says_some {f : Closure Unit V} {x : K × V} {op} (h : (tryInsertClosure f).Says (some x) op) :
    op = .abort x.2 := by
  obtain ⟨calls, ⟨st, h1⟩, h2⟩ := h
  exact (try_run h1).2 (some x) op h2

/-- `try_insert_with` uses its initialiser at most once. -/
def tryProto {f : Closure Unit V} (hpan : ∀ r, f.call f.init () = .error r → Ap r) :
    Proto Ap (tryInsertClosure (K := K) f) where
  J s := OnceJ f s.st
  init := .inl rfl
  none_ok := by
    rintro ⟨s, cs⟩ s' v _ hj h
    rcases hj with hj | ⟨_, h2⟩
    · simp only at hj; subst hj
      simp only [tryInsertClosure] at h
      split at h
      · cases h; exact .inr ⟨rfl, by simp⟩
      · cases h
    · exact absurd rfl h2
  none_err := by
    rintro ⟨s, cs⟩ r _ hj h
    rcases hj with hj | ⟨_, h2⟩
    · simp only at hj; subst hj
      simp only [tryInsertClosure] at h
      split at h
      · cases h
      · rename_i r' hc; cases h; exact hpan _ hc
    · exact absurd rfl h2
  some_ok := by
    rintro s s' ⟨a, b⟩ op ins _ hj h
    cases h; exact hj
  some_err := by
    rintro s ⟨a, b⟩ r ins _ hj h
    cases h
  removeNone s h1' _ h2' := by
    have h := h1'.says h2'
    obtain ⟨v, h1, _⟩ := try_says_none h; cases h1

/-- The entry `e` was inserted with the initialiser's value. -/
def InsBy (t : Tid) (k : K) (f : Closure Unit V) (e : Entry K V) (S : GSt K V) : Prop :=
  Idle t S ∧ Gives f e.val ∧ DoneEv t k none (some e) S ∧ S.Prot t e ∧ e.key = k

/-- The entry `e` was seen. -/
def SeenE (t : Tid) (k : K) (o : OpI K V) (e : Entry K V) (S : GSt K V) : Prop :=
  OpB t o S ∧ SeenIn t k (some e) S ∧ S.Prot t e ∧ e.key = k

/-- Result of `try_insert_with`. -/
def TryFin (t : Tid) (k : K) (f : Closure Unit V) (o : OpI K V) (r : Entry K V ⊕ Entry K V) (S : GSt K V) : Prop :=
  match r with
  | .inl e => InsBy t k f e S
  | .inr e => SeenE t k o e S

theorem tri_tryInsertWith [hA : SysP C Ap] {f : Closure Unit V} {o : OpI K V}
    (hpan : ∀ r, f.call f.init () = .error r → Ap r) (hmul : o.multi = false)
    (hins : ∀ v id, Gives f v → o.eff k none (some ⟨id, k, v⟩)) :
    Tri C t (PB Ap (OpB t o)) (Mo t) (OpB t o) (tryInsertWith C k f) (TryFin t k f o) := by
  unfold tryInsertWith
  refine Tri.bind _ (tri_compute (tryProto hpan) (ComEff.says hmul ?_ ?_ ?_)) ?_
  · intro v id h
    obtain ⟨v', h1, h2⟩ := try_says_none h
    cases h1; exact hins v id h2
  · intro v id e _ h; cases try_says_some h
  · intro e _ h; cases try_says_some h
  rintro ⟨calls, (e | ⟨old, new⟩ | e | ⟨a, _ | e⟩)⟩
  · refine Tri.ret fun S _ h => ?_
    obtain ⟨⟨h0, _⟩, h1, h2, h3, h4, h5⟩ := h
    obtain ⟨v', g1, g2⟩ := try_says_none ⟨_, h0, h5⟩
    cases g1
    exact ⟨h1, g2, h2, h3, h4⟩
  · exact Tri.false fun S _ h => by cases try_says_some ⟨_, h.1.1, h.2.2⟩
  · exact Tri.false fun S _ h => by cases try_says_some ⟨_, h.1.1, h.2.2⟩
  · refine Tri.false fun S _ h => ?_
    obtain ⟨v', g1, _⟩ := try_says_none ⟨_, h.1.1, h.2.2.2⟩; cases g1
  · exact Tri.ret fun S _ h => ⟨h.2.1, h.2.2.1, h.2.2.2.1, h.2.2.2.2.1⟩

/-- Result of `get_or_insert_with`. -/
def GoiFin (t : Tid) (k : K) (f : Closure Unit V) (o : OpI K V) (e : Entry K V) (S : GSt K V) : Prop :=
  InsBy t k f e S ∨ SeenE t k o e S

theorem tri_getOrInsertWith [hA : SysP C Ap] {f : Closure Unit V} {o : OpI K V}
    (hpan : ∀ r, f.call f.init () = .error r → Ap r) (hmul : o.multi = false)
    (hins : ∀ v id, Gives f v → o.eff k none (some ⟨id, k, v⟩)) :
    Tri C t (PB Ap (OpB t o)) (Mo t) (OpB t o) (getOrInsertWith C k f) (GoiFin t k f o) := by
  unfold getOrInsertWith
  refine Tri.bind _ (tri_tryInsertWith hpan hmul hins) ?_
  rintro (v | v)
  · exact Tri.ret fun S _ h => .inl h
  · exact Tri.ret fun S _ h => .inr h

/-! ## `update` -/

/-- The calls of the closure of `update`. -/
theorem update_run {f : Closure V V} {s} (h : (updateClosure (K := K) f).Run s) :
    f.Run ⟨s.st, updateCalls s.calls⟩ ∧ ∀ i o, (i, o) ∈ s.calls →
      match i with
      | none => o = .abort ()
      | some _ => ∃ v, o = .insert v := by
  refine Closure.says_ind (f := updateClosure (K := K) f) (J := fun s => f.Run ⟨s.st, updateCalls s.calls⟩) .start ?_ h
  rintro ⟨st, cs⟩ s' i o _ hj hc
  cases i with
  | none =>
    cases hc
    refine ⟨?_, rfl⟩
    simpa [updateCalls, List.filterMap_append] using hj
  | some x =>
    obtain ⟨a, b⟩ := x
    simp only [updateClosure] at hc
    split at hc
    · rename_i s'' v' hc'
      cases hc
      refine ⟨?_, v', rfl⟩
      have := hj.call hc'
      simpa [updateCalls, List.filterMap_append] using this
    · cases hc

theorem mem_updateCalls {calls : List (Option (K × V) × Operation V Unit)} {x : K × V} {v : V}
    (h : (some x, .insert v) ∈ calls) : (x.2, v) ∈ updateCalls calls :=
  List.mem_filterMap.2 ⟨_, h, rfl⟩

theorem update_made {f : Closure V V} {calls} (h : (updateClosure (K := K) f).Made calls) : f.Made (updateCalls calls) := by
  obtain ⟨st, h⟩ := h
  exact ⟨_, (update_run h).1⟩

theorem update_says_none {f : Closure V V} {op} (h : (updateClosure (K := K) f).Says none op) : op = .abort () := by
  obtain ⟨calls, ⟨st, h1⟩, h2⟩ := h
  exact (update_run h1).2 none op h2

theorem update_says_some {f : Closure V V} {x : K × V} {op} (h : (updateClosure f).Says (some x) op) :
    ∃ v, op = .insert v ∧ f.Says x.2 v := by
  obtain ⟨calls, ⟨st, h1⟩, h2⟩ := h
  obtain ⟨v, rfl⟩ := (update_run h1).2 (some x) op h2
  exact ⟨v, rfl, _, ⟨_, (update_run h1).1⟩, mem_updateCalls h2⟩

def updateProto {f : Closure V V} (hpan : ∀ s x r, f.Run s → f.call s.st x = .error r → Ap r) :
    Proto Ap (updateClosure (K := K) f) where
  J _ _ := True
  init := trivial
  none_ok := fun _ _ _ _ _ _ => trivial
  none_err := by intro s r _ _ h; cases h
  some_ok := fun _ _ _ _ _ _ _ _ => trivial
  some_err := by
    rintro s ⟨a, b⟩ r ins hr _ h
    have hr := (update_run hr).1
    simp only [updateClosure] at h
    split at h
    · cases h
    · rename_i r' hc; cases h; exact hpan _ _ _ hr hc
  removeNone s h1' _ h2' := by
    have h := h1'.says h2'
    cases update_says_none h

/-- Result of `update`. -/
def UpdFin (t : Tid) (k : K) (f : Closure V V) (o : OpI K V) (r : Called V V (Option (Entry K V))) (S : GSt K V) : Prop :=
  f.Made r.calls ∧ match r.out with
  | some new => ∃ old, Repl t k new.val old new S ∧ (old.val, new.val) ∈ r.calls
  | none => OpB t o S ∧ SeenIn t k none S

theorem tri_update [hA : SysP C Ap] {f : Closure V V} {o : OpI K V}
    (hpan : ∀ s x r, f.Run s → f.call s.st x = .error r → Ap r) (hmul : o.multi = false)
    (hupd : ∀ v id (e : Entry K V), e.key = k → f.Says e.val v → o.eff k (some e) (some ⟨id, k, v⟩)) :
    Tri C t (PB Ap (OpB t o)) (Mo t) (OpB t o) (update C k f) (UpdFin t k f o) := by
  unfold update
  refine Tri.bind _ (tri_compute (updateProto hpan) (ComEff.says hmul ?_ ?_ ?_)) ?_
  · intro v id h; cases update_says_none h
  · intro v id e he h
    obtain ⟨v', h1, h2⟩ := update_says_some h
    cases h1; exact hupd v id e he h2
  · intro e he h
    obtain ⟨v', h1, h2⟩ := update_says_some h
    cases h1
  rintro ⟨calls, (e | ⟨old, new⟩ | e | ⟨a, _ | e⟩)⟩
  · exact Tri.false fun S _ h => by cases update_says_none ⟨_, h.1.1, h.2.2.2.2.2⟩
  · exact Tri.ret fun S _ h => ⟨update_made h.1.1, old, h.2.1, mem_updateCalls h.2.2⟩
  · refine Tri.false fun S _ h => ?_
    obtain ⟨v', h1, h2⟩ := update_says_some ⟨_, h.1.1, h.2.2⟩
    cases h1
  · exact Tri.ret fun S _ h => ⟨update_made h.1.1, h.2.1, h.2.2.1⟩
  · refine Tri.false fun S _ h => ?_
    obtain ⟨v', h1, h2⟩ := update_says_some ⟨_, h.1.1, h.2.2.2.2.2⟩
    cases h1

/-! ## `update_or_insert_with` -/

/-- The calls of the closure of `update_or_insert_with`. -/
theorem uoi_run {u : Closure V V} {f : Closure Unit V} {s} (h : (updateOrInsertClosure (K := K) u f).Run s) :
    (u.Run ⟨s.st.1, updateCalls s.calls⟩ ∧ (s.st.2 = some f.init ∨ s.st.2 = none)) ∧ ∀ i o, (i, o) ∈ s.calls →
      match i with
      | none => ∃ v, o = .insert v ∧ Gives f v
      | some _ => ∃ v, o = .insert v := by
  refine Closure.says_ind (f := updateOrInsertClosure (K := K) u f)
    (J := fun s => u.Run ⟨s.st.1, updateCalls s.calls⟩ ∧ (s.st.2 = some f.init ∨ s.st.2 = none)) ⟨.start, .inl rfl⟩ ?_ h
  rintro ⟨⟨su, st⟩, cs⟩ ⟨su', st'⟩ i o _ ⟨hj, hj'⟩ hc
  cases i with
  | none =>
    rcases hj' with hj' | hj' <;> simp only at hj' <;> subst hj' <;> simp only [updateOrInsertClosure] at hc
    · split at hc
      · rename_i s'' v hc'
        cases hc
        refine ⟨⟨?_, .inr rfl⟩, v, rfl, s'', hc'⟩
        simpa [updateCalls, List.filterMap_append] using hj
      · cases hc
    · cases hc
  | some x =>
    obtain ⟨a, b⟩ := x
    simp only [updateOrInsertClosure] at hc
    split at hc
    · rename_i s'' v' hc'
      cases hc
      refine ⟨⟨?_, hj'⟩, v', rfl⟩
      have := hj.call hc'
      simpa [updateCalls, List.filterMap_append] using this
    · cases hc

theorem uoi_made {u : Closure V V} {f : Closure Unit V} {calls} (h : (updateOrInsertClosure (K := K) u f).Made calls) :
    u.Made (updateCalls calls) := by
  obtain ⟨st, h⟩ := h
  exact ⟨_, (uoi_run h).1.1⟩

theorem uoi_says_none {u : Closure V V} {f : Closure Unit V} {op} (h : (updateOrInsertClosure (K := K) u f).Says none op) :
    ∃ v, op = .insert v ∧ Gives f v := by
  obtain ⟨calls, ⟨st, h1⟩, h2⟩ := h
  exact (uoi_run h1).2 none op h2

theorem uoi_says_some {u : Closure V V} {f : Closure Unit V} {x : K × V} {op}
    (h : (updateOrInsertClosure u f).Says (some x) op) : ∃ v, op = .insert v ∧ u.Says x.2 v := by
  obtain ⟨calls, ⟨st, h1⟩, h2⟩ := h
  obtain ⟨v, rfl⟩ := (uoi_run h1).2 (some x) op h2
  exact ⟨v, rfl, _, ⟨_, (uoi_run h1).1.1⟩, mem_updateCalls h2⟩

def uoiProto {u : Closure V V} {f : Closure Unit V} (hpu : ∀ s x r, u.Run s → u.call s.st x = .error r → Ap r)
    (hpan : ∀ r, f.call f.init () = .error r → Ap r) :
    Proto Ap (updateOrInsertClosure (K := K) u f) where
  J s := OnceJ f s.st.2
  init := .inl rfl
  none_ok := by
    rintro ⟨⟨su, s⟩, cs⟩ s' v _ hj h
    rcases hj with hj | ⟨_, h2⟩
    · simp only at hj; subst hj
      simp only [updateOrInsertClosure] at h
      split at h
      · cases h; exact .inr ⟨rfl, by simp⟩
      · cases h
    · exact absurd rfl h2
  none_err := by
    rintro ⟨⟨su, s⟩, cs⟩ r _ hj h
    rcases hj with hj | ⟨_, h2⟩
    · simp only at hj; subst hj
      simp only [updateOrInsertClosure] at h
      split at h
      · cases h
      · rename_i r' hc; cases h; exact hpan _ hc
    · exact absurd rfl h2
  some_ok := by
    rintro s s' ⟨a, b⟩ op ins _ hj h
    simp only [updateOrInsertClosure] at h
    split at h
    · cases h; exact hj
    · cases h
  some_err := by
    rintro s ⟨a, b⟩ r ins hr hj h
    have hr := (uoi_run hr).1.1
    simp only [updateOrInsertClosure] at h
    split at h
    · cases h
    · rename_i r' hc; cases h; exact hpu _ _ _ hr hc
  removeNone s h1' _ h2' := by
    have h := h1'.says h2'
    obtain ⟨v, h1, _⟩ := uoi_says_none h; cases h1

/-- Result of `update_or_insert_with`. -/
def UoiFin (t : Tid) (k : K) (u : Closure V V) (f : Closure Unit V) (r : Called V V (Entry K V)) (S : GSt K V) : Prop :=
  u.Made r.calls ∧ (InsBy t k f r.out S ∨ ∃ old, Repl t k r.out.val old r.out S ∧ (old.val, r.out.val) ∈ r.calls)

theorem tri_updateOrInsertWith [hA : SysP C Ap] {u : Closure V V} {f : Closure Unit V} {o : OpI K V}
    (hpu : ∀ s x r, u.Run s → u.call s.st x = .error r → Ap r)
    (hpan : ∀ r, f.call f.init () = .error r → Ap r) (hmul : o.multi = false)
    (hins : ∀ v id, Gives f v → o.eff k none (some ⟨id, k, v⟩))
    (hupd : ∀ v id (e : Entry K V), e.key = k → u.Says e.val v → o.eff k (some e) (some ⟨id, k, v⟩)) :
    Tri C t (PB Ap (OpB t o)) (Mo t) (OpB t o) (updateOrInsertWith C k u f) (UoiFin t k u f) := by
  unfold updateOrInsertWith
  refine Tri.bind _ (tri_compute (uoiProto hpu hpan) (ComEff.says hmul ?_ ?_ ?_)) ?_
  · intro v id h
    obtain ⟨v', h1, h2⟩ := uoi_says_none h
    cases h1; exact hins v id h2
  · intro v id e he h
    obtain ⟨v', h1, h2⟩ := uoi_says_some h
    cases h1; exact hupd v id e he h2
  · intro e _ h
    obtain ⟨v', h1, h2⟩ := uoi_says_some h
    cases h1
  rintro ⟨calls, (e | ⟨old, new⟩ | e | ⟨a, _ | e⟩)⟩
  · refine Tri.ret fun S _ h => ?_
    obtain ⟨⟨h0, _⟩, h1, h2, h3, h4, h5⟩ := h
    obtain ⟨v', g1, g2⟩ := uoi_says_none ⟨_, h0, h5⟩
    cases g1
    exact ⟨uoi_made h0, .inl ⟨h1, g2, h2, h3, h4⟩⟩
  · exact Tri.ret fun S _ h => ⟨uoi_made h.1.1, .inr ⟨old, h.2.1, mem_updateCalls h.2.2⟩⟩
  · refine Tri.false fun S _ h => ?_
    obtain ⟨v', h1, h2⟩ := uoi_says_some ⟨_, h.1.1, h.2.2⟩
    cases h1
  · refine Tri.false fun S _ h => ?_
    obtain ⟨v', g1, _⟩ := uoi_says_none ⟨_, h.1.1, h.2.2.2⟩; cases g1
  · refine Tri.false fun S _ h => ?_
    obtain ⟨v', h1, h2⟩ := uoi_says_some ⟨_, h.1.1, h.2.2.2.2.2⟩
    cases h1

end Papaya
