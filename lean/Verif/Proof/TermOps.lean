import Verif.Proof.TermHelp

/-! # Termination of the operations (incremental resizing) -/

set_option linter.unusedSectionVars false
set_option linter.unusedVariables false

namespace Papaya

variable {K V : Type} [DecidableEq K] {C : Cfg K} {t : Tid} {sp : Bool} {ks : K → Prop} {kk : Option K} {k : K}

open GSt

/-- While probing table `T`; `m` is the measure at the start. -/
def Pb (ks : K → Prop) (kk : Option K) (T : Table) (m : Nat) (σ : St K V) : Prop :=
  (W ks kk σ ∧ TOk T σ) ∧ (m = 2 * (σ.nTabs - T.id) ∨ FreshT T σ)

/-- The table is not empty. -/
def Pn (ks : K → Prop) (kk : Option K) (T : Table) (m : Nat) (σ : St K V) : Prop :=
  (W ks kk σ ∧ TOk T σ) ∧ m = 2 * (σ.nTabs - T.id) ∧ ¬ FreshT T σ

theorem Pb.pn {T : Table} {m : Nat} {σ : St K V} (h : Pb ks kk T m σ) (hn : ¬ FreshT T σ) : Pn ks kk T m σ := ⟨h.1, h.2.resolve_right hn, hn⟩

theorem Pn.pb {T : Table} {m : Nat} {σ : St K V} (h : Pn ks kk T m σ) : Pb ks kk T m σ := ⟨h.1, .inl h.2.1⟩

theorem Pn.setMd {T : Table} {m i x : Nat} {σ : St K V} (h : Pn ks kk T m σ) (hs : σ.slot T.id i ≠ Slot.null) :
    Pn ks kk T m (σ.setMd T.id i x) := ⟨⟨h.1.1.md _ _ _, h.1.2⟩, h.2.1, fun hf => hf.md hs⟩

/-- How probing a table ends. -/
def Wq {R : Type} (ks : K → Prop) (kk : Option K) (T : Table) (m : Nat) (r : WOut R) (σ : St K V) : Prop :=
  match r with
  | .done _ => True
  | .retry c => (W ks kk σ ∧ TOk T σ) ∧ m = 2 * (σ.nTabs - T.id) ∧ CpdO T c σ

theorem Pn.copying {T : Table} {m i : Nat} {σ : St K V} {e : Entry K V} {s : Slot K V} (h : Pn ks kk T m σ) (hs : σ.slot T.id i = s)
    (he : s.ptr = some e) (hq : ks e.key) (hc : s.copying = true) : Cpd T.id i σ := by
  subst hs
  exact ⟨by rw [he]; simp, h.1.1.c _ _ e (by simp) he hq hc⟩

theorem nn_of_ptr {σ : St K V} {T i : Nat} {s : Slot K V} {e : Entry K V} (hs : σ.slot T i = s) (he : s.ptr = some e) : σ.slot T i ≠ Slot.null := by
  intro h
  rw [h] at hs
  rw [← hs] at he
  cases he

/-- The key `k` is one of `ks`; spurious failures are possible only if no slot has key `kk`. -/
def Sp (sp : Bool) (ks : K → Prop) (kk : Option K) (k : K) : Prop := ks k ∧ ((sp = true ∧ kk = some k) ∨ (sp = false ∧ kk = none))

/-! ## insert -/

theorem tt_insertAt {T : Table} {i x m : Nat} {v : V} :
    Tt C t sp (Pb (V := V) ks kk T m) (insertAt C i x k v T) (fun r σ => match r with
      | .inserted _ => True
      | .found (.value e s) => Pn ks kk T m σ ∧ σ.slot T.id i = s ∧ s.ptr = some e
      | .found (.copied e s) => False
      | .found .null => Pn ks kk T m σ) := by
  unfold insertAt
  refine Tt.stepA (fun r σ => match r with
    | .inl _ => True
    | .inr s => Pn ks kk T m σ ∧ σ.slot T.id i = s ∧ s ≠ Slot.null) ?_ fun r => ?_
  · rintro σ r σ' hg h hg' he
    rcases he.exec with ⟨g1, rfl, rfl⟩ | ⟨g1, rfl, rfl⟩
    · trivial
    · have hn : σ'.slot T.id i ≠ Slot.null := g1.resolve_right (by simp)
      exact ⟨h.pn fun hf => hn (hf i).1, rfl, hn⟩
  · cases r with
    | inl e =>
      exact Tt.stepA (fun _ _ => True) (fun _ _ _ _ _ _ _ => trivial) fun _ => Tt.ret fun _ _ _ => trivial
    | inr s =>
      simp only
      cases hs : s.ptr with
      | some e =>
        simp only
        refine Tt.read (fun _ => ()) (fun _ => rfl) fun _ => ?_
        refine Tt.read (fun σ => σ.md T.id i) (fun _ => rfl) fun m' => ?_
        refine Tt.ite (fun _ => ?_) fun _ => Tt.ret fun σ _ h => ⟨h.1.1.1, h.1.1.2.1, by first | rfl | exact hs⟩
        refine Tt.stepA (fun _ σ => Pn ks kk T m σ ∧ σ.slot T.id i = s) ?_ fun _ => Tt.ret fun σ _ h => ⟨h.1, h.2, by first | rfl | exact hs⟩
        rintro σ r σ' hg ⟨⟨h1, _⟩, _⟩ hg' he
        have he : σ' = _ := he.exec
        subst he
        exact ⟨h1.1.setMd (h1.2.1 ▸ h1.2.2), h1.2.1⟩
      | none =>
        simp only
        refine Tt.read (fun σ => σ.md T.id i) (fun _ => rfl) fun m' => ?_
        refine Tt.ite (fun _ => ?_) fun _ => Tt.ret fun σ _ h => h.1.1
        refine Tt.stepA (fun _ σ => Pn ks kk T m σ) ?_ fun _ => Tt.ret fun σ _ h => h
        rintro σ r σ' hg ⟨h1, _⟩ hg' he
        have he : σ' = _ := he.exec
        subst he
        exact h1.1.setMd (h1.2.1 ▸ h1.2.2)

/-- A slot with key `k` that is not being copied. -/
def Upd (ks : K → Prop) (kk : Option K) (T : Table) (i : Nat) (k : K) (e : Entry K V) (s : Slot K V) (σ : St K V) : Prop :=
  (W ks kk σ ∧ TOk T σ) ∧ σ.slot T.id i = s ∧ s.ptr = some e ∧ s.copying = false ∧ e.key = k

theorem Upd.false {T : Table} {i : Nat} {e : Entry K V} {s : Slot K V} {σ : St K V} (hg : GoodSt C σ) (h : Upd ks (some k) T i k e s σ) : False := by
  obtain ⟨⟨h1, h2⟩, rfl, h4, h5, h6⟩ := h
  have := hg.copying h4 (h1.k k rfl _ _ e h4 h6)
  rw [h5] at this; cases this

theorem tt_updateAtNew (hi : C.inc = true) (hsp : Sp sp ks kk k) {T : Table} {i : Nat} {e : Entry K V} {s : Slot K V} {v : V} :
    Tt C t sp (Upd ks kk T i k e s) (updateAtNew C i e s k v T) (fun r _ => ∃ new, r = .replaced (some new)) := by
  unfold updateAtNew
  rcases hsp.2 with ⟨rfl, rfl⟩ | ⟨rfl, rfl⟩
  · exact Tt.absurd' fun σ hg h => h.false hg
  refine Tt.stepA (fun r σ => (W ks none σ ∧ TOk T σ) ∧ ∃ new, r = .inl new) ?_ fun r => ?_
  · rintro σ r σ' hg ⟨⟨h1, h2⟩, h3, h4, h5, h6⟩ hg' he
    rcases he.exec with ⟨g1, rfl, rfl⟩ | ⟨g1, rfl, rfl⟩
    · refine ⟨⟨?_, h2⟩, _, rfl⟩
      have := h1.set (T := T.id) (i := i) (s := Slot.untagged ⟨σ.nIds, k, v⟩) fun e he => ⟨fun _ h => (by cases h), fun x hx => (by cases hx)⟩
      exact this.same rfl this.l
    · exact absurd h3 (he.nsp rfl ⟨_, rfl⟩)
  · cases r with
    | inr s => exact Tt.absurd' fun σ _ h => by obtain ⟨_, _, h⟩ := h; cases h
    | inl new =>
      exact Tt.bind _ ((tt_deferRetire hi).weaken fun σ _ h => h.1) fun _ => Tt.ret fun σ _ h => ⟨new, rfl⟩

theorem tt_updateAtTomb (hi : C.inc = true) (hsp : Sp sp ks kk k) {T : Table} {i : Nat} {e : Entry K V} {s : Slot K V} :
    Tt C t sp (Upd ks kk T i k e s) (updateAtTomb C i e s T) (fun r _ => r = .replaced none) := by
  unfold updateAtTomb
  rcases hsp.2 with ⟨rfl, rfl⟩ | ⟨rfl, rfl⟩
  · exact Tt.absurd' fun σ hg h => h.false hg
  refine Tt.stepA (fun r σ => (W ks none σ ∧ TOk T σ) ∧ r = none) ?_ fun r => ?_
  · rintro σ r σ' hg ⟨⟨h1, h2⟩, h3, h4, h5, h6⟩ hg' he
    rcases he.exec with ⟨g1, rfl, rfl⟩ | ⟨g1, rfl, rfl⟩
    · exact ⟨⟨h1.set fun e he => (by cases he), h2⟩, rfl⟩
    · exact absurd h3 (he.nsp rfl (by simp))
  · cases r with
    | some s => exact Tt.absurd' fun σ _ h => by cases h.2
    | none =>
      exact Tt.bind _ ((tt_deferRetire hi).weaken fun σ _ h => h.1) fun _ => Tt.ret fun σ _ h => rfl

theorem tt_insertSlow (hi : C.inc = true) (hsp : Sp sp ks kk k) {T : Table} {i : Nat} {e : Entry K V} {s : Slot K V} {v : V} :
    Tt C t sp (Upd ks kk T i k e s) (insertSlow C i e s k v T) (fun r _ => ∃ x, r = .inl x) := by
  unfold insertSlow
  refine Tt.loop1 (Tt.bind _ (tt_updateAtNew hi hsp) fun r => ?_)
  refine Tt.extract (fun _ _ h => h) ?_
  rintro ⟨new, rfl⟩
  exact Tt.ret fun σ _ h => ⟨_, rfl⟩

theorem tt_insertFound (hi : C.inc = true) (hsp : Sp sp ks kk k) {T : Table} {probe : Probe} {e : Entry K V} {s : Slot K V} {v : V} {rep : Bool}
    {m : Nat} : Tt C t sp (fun σ => Pn ks kk T m σ ∧ σ.slot T.id probe.i = s ∧ s.ptr = some e) (insertFound C k v rep T probe e s)
      (fun r σ => match r with
        | .inl p => p = probe.next T.mask ∧ Pn ks kk T m σ
        | .inr r => Wq ks kk T m r σ) := by
  unfold insertFound
  refine Tt.read (fun _ => ()) (fun _ => rfl) fun _ => ?_
  refine Tt.ite (fun hk => ?_) fun hk => Tt.ret fun σ _ h => ⟨rfl, h.1.1⟩
  refine Tt.ite (fun hc => Tt.ret fun σ _ h => ?_) fun hc => ?_
  · exact ⟨h.1.1.1, h.1.1.2.1, fun i hi => by cases hi; exact h.1.1.copying h.1.2.1 h.1.2.2 (hk ▸ hsp.1) hc⟩
  refine Tt.ite (fun _ => Tt.ret fun σ _ h => trivial) fun _ => ?_
  refine Tt.bind _ ((tt_insertSlow hi hsp).weaken fun σ _ h => ?_) fun r => ?_
  · exact ⟨h.1.1.1, h.1.2.1, h.1.2.2, by simpa using hc, hk⟩
  · refine Tt.extract (fun _ _ h => h) ?_
    rintro ⟨⟨old, new⟩, rfl⟩
    exact Tt.ret fun σ _ h => trivial

theorem probe_dec {T : Table} {probe : Probe} (h : probe.len ≤ T.limit) :
    T.limit + 1 - (probe.next T.mask).len < T.limit + 1 - probe.len := by
  show T.limit + 1 - (probe.len + 1) < T.limit + 1 - probe.len
  omega

theorem tt_insertProbe (hi : C.inc = true) (hsp : Sp sp ks kk k) {T : Table} {v : V} {rep : Bool} {m : Nat} :
    Tt C t sp (fun σ => (W ks kk σ ∧ TOk T σ) ∧ mu T σ = m) (insertProbe C k v rep T) (Wq ks kk T m) := by
  unfold insertProbe
  refine (Tt.loopN (fun (probe : Probe) σ => Pb ks kk T m σ ∧ (FreshT T σ → probe.len = 0)) (fun probe => T.limit + 1 - probe.len) ?_).weaken ?_
  rotate_left
  · rintro σ _ ⟨h1, h2⟩
    exact ⟨⟨h1, h2 ▸ mu_or T σ⟩, fun _ => rfl⟩
  intro probe
  refine Tt.ite (fun hlim => ?_) fun hlim => Tt.ret ?_
  rotate_left
  · rintro σ hg ⟨h1, h2⟩
    have := h1.pn fun hf => hlim (by rw [h2 hf]; exact Nat.zero_le _)
    exact ⟨this.1, this.2.1, fun i h => by cases h⟩
  have hfound : ∀ e s, Tt C t sp (fun σ => Pn ks kk T m σ ∧ σ.slot T.id probe.i = s ∧ s.ptr = some e) (insertFound C k v rep T probe e s)
      (fun x σ => match x with
      | .inl s' => (Pb ks kk T m σ ∧ (FreshT T σ → s'.len = 0)) ∧ T.limit + 1 - s'.len < T.limit + 1 - probe.len
      | .inr b => Wq ks kk T m b σ) := by
    intro e s
    refine (tt_insertFound hi hsp).post fun r σ _ h => ?_
    cases r with
    | inl p =>
      obtain ⟨rfl, h⟩ := h
      exact ⟨⟨h.pb, fun hf => absurd hf h.2.2⟩, probe_dec hlim⟩
    | inr r => exact h
  have hnext : ∀ P : St K V → Prop, (∀ σ, P σ → Pn ks kk T m σ) → Tt C t sp P (pure (Sum.inl (probe.next T.mask)))
      (fun (x : Probe ⊕ WOut (InsRes K V)) σ => match x with
      | .inl s' => (Pb ks kk T m σ ∧ (FreshT T σ → s'.len = 0)) ∧ T.limit + 1 - s'.len < T.limit + 1 - probe.len
      | .inr b => Wq ks kk T m b σ) := by
    intro P hP
    refine Tt.ret fun σ _ h => ⟨⟨(hP σ h).pb, fun hf => absurd hf (hP σ h).2.2⟩, probe_dec hlim⟩
  refine Tt.read (fun σ => σ.md T.id probe.i) (fun _ => rfl) fun m' => ?_
  refine Tt.ite (fun hm => ?_) fun hm => ?_
  · refine Tt.bind _ (tt_insertAt.weaken fun σ _ h => h.1.1) fun r => ?_
    rcases r with e | ⟨_ | ⟨e, s⟩ | ⟨e, s⟩⟩
    · exact Tt.ret fun σ _ h => trivial
    · exact (hnext _ fun σ h => h).post fun x σ _ h => by cases x <;> exact h
    · exact Tt.absurd' fun σ _ h => h
    · exact (hfound e s).post fun x σ _ h => by cases x <;> exact h
  · have hpn : ∀ σ : St K V, (Pb ks kk T m σ ∧ (FreshT T σ → probe.len = 0)) ∧ m' = σ.md T.id probe.i → Pn ks kk T m σ :=
      fun σ h => h.1.1.pn fun hf => hm (h.2.trans (hf probe.i).2)
    refine Tt.ite (fun hm2 => ?_) fun hm2 => (hnext _ hpn).post fun x σ _ h => by cases x <;> exact h
    refine Tt.read (fun σ => σ.slot T.id probe.i) (fun _ => rfl) fun s => ?_
    cases hs : s.ptr with
    | none =>
      refine Tt.post (hnext _ ?_) fun x σ _ h => by cases x <;> exact h
      exact fun σ h => hpn σ h.1
    | some e =>
      refine Tt.post ((hfound e s).weaken ?_) fun x σ _ h => by cases x <;> exact h
      exact fun σ _ h => ⟨hpn σ h.1, h.2.symm, by first | rfl | exact hs⟩

/-- The first table. -/
theorem tt_initTable {P : St K V → Prop} (hP : ∀ σ, P σ → W ks kk σ) {cp : Option Nat} :
    Tt C t sp P (initTable C cp) (fun T σ => W ks kk σ ∧ TOk T σ) := by
  unfold initTable
  refine Tt.ite (fun _ => Tt.ite (fun _ => ?_) fun _ => Tt.panic) fun _ => Tt.panic
  refine Tt.lastA ?_
  rintro σ r σ' hg h hg' he
  have he := he.exec
  have hw := hP σ h
  simp only [Exec] at he
  split at he
  · rename_i hr
    obtain ⟨h1, h2⟩ := he
    have hn := hg.noRoot hr
    subst h2
    refine ⟨?_, ⟨by rw [h1]; exact Nat.lt_succ_self _, rfl⟩⟩
    rw [h1]
    refine hw.same ?_ ?_
    · funext T i
      show (if T = σ.nTabs then Slot.null else σ.slot T i) = _
      split
      · rename_i hT; rw [hT, (hg.out (Nat.le_refl _)).1 i]
      · rfl
    · intro T u
      show (if T = σ.nTabs then Lock.free else σ.lock T) ≠ _
      split
      · exact fun h => by cases h
      · exact hw.l T u
  · rename_i T hr
    obtain ⟨rfl, rfl⟩ := he
    exact ⟨hw, tok_handle (hg.root hr)⟩

theorem tt_root {P : St K V → Prop} {f : Option Table → Prog K V α} {Q : α → St K V → Prop}
    (h1 : ∀ T, Tt C t sp (fun σ => P σ ∧ TOk T σ ∧ σ.root = some T.id) (f (some T)) Q)
    (h2 : Tt C t sp (fun σ => P σ ∧ σ.root = none) (f none) Q) : Tt C t sp P (A.loadRoot >>= f) Q := by
  refine Tt.read (fun σ => σ.root.map σ.handle) (fun _ => rfl) fun r => ?_
  cases r with
  | none => exact h2.weaken fun σ _ h => ⟨h.1, Option.map_eq_none_iff.1 h.2.symm⟩
  | some T =>
    refine (h1 T).weaken fun σ hg h => ⟨h.1, ?_⟩
    obtain ⟨x, hx, hx2⟩ := Option.map_eq_some_iff.1 h.2.symm
    rw [← hx2]
    exact ⟨tok_handle (hg.root hx), hx⟩

theorem tt_insertInner (hi : C.inc = true) (hsp : Sp sp ks kk k) {v : V} {rep : Bool} :
    Tt C t sp (W ks kk) (insertInner C k v rep) (fun _ _ => True) := by
  unfold insertInner
  refine Tt.bind (fun T σ => W ks kk σ ∧ TOk T σ) ?_ fun T => ?_
  · refine tt_root (fun T => Tt.ret fun σ _ h => ⟨h.1, h.2.1⟩) (tt_initTable fun σ h => h.1)
  · refine Tt.loop (M := Nat × Nat) (s := (T, true)) (fun (x : Table × Bool) σ => W ks kk σ ∧ TOk x.1 σ) (fun x σ => ((if x.2 then 1 else 0), mu x.1 σ)) ?_
    rintro ⟨T, help⟩ ⟨m1, m2⟩
    refine Tt.extract (φ := m1 = if help then 1 else 0) (fun σ _ h => ?_) fun hm1 => ?_
    · have h2 : ((if help then 1 else 0 : Nat), mu T σ) = (m1, m2) := h.2
      exact (congrArg Prod.fst h2).symm
    refine Tt.bind _ ((tt_insertProbe hi hsp (m := m2)).weaken fun σ _ h => ⟨h.1, ?_⟩) fun r => ?_
    · have h2 : ((if help then 1 else 0 : Nat), mu T σ) = (m1, m2) := h.2
      exact congrArg Prod.snd h2
    cases r with
    | done r => exact Tt.ret fun σ _ h => trivial
    | retry c =>
      refine Tt.pre fun σ1 hg1 h1 => ?_
      refine Tt.bind _ (tt_prepareRetryInsert hi h1.1.2 h1.1.1 h1.2.2) fun N => Tt.ret fun σ _ h => ?_
      refine ⟨⟨h.1, h.2.1.2⟩, ?_⟩
      subst hm1
      cases help with
      | true => exact Prod.Lex.left _ _ Nat.zero_lt_one
      | false =>
        refine Prod.Lex.right _ ?_
        show mu N σ < m2
        have := h1.2.1
        rw [this]
        exact (h.2.2 rfl).mu hg1 h1.1.2

theorem tt_insert (hi : C.inc = true) (hsp : Sp sp ks kk k) {v : V} {rep : Bool} :
    Tt C t sp (W ks kk) (insert C k v rep) (fun _ _ => True) := by
  unfold insert
  refine Tt.bind _ (tt_insertInner hi hsp) fun r => ?_
  cases r with
  | inserted e => exact Tt.stepA (fun _ _ => True) (fun _ _ _ _ _ _ _ => trivial) fun _ => Tt.ret fun _ _ _ => trivial
  | replaced a b => exact Tt.ret fun _ _ _ => trivial
  | error a b => exact Tt.ret fun _ _ _ => trivial

/-! ## remove -/

theorem tt_invoke {I O : Type} {f : Closure I O} {st : f.Tr} {i : I} {P : St K V → Prop} : Tt C t sp P (f.invoke st i) (fun _ => P) := by
  unfold Closure.invoke
  split
  · exact Tt.ret fun σ _ h => h
  · exact Tt.panic

theorem tt_any {p : Prog K V α} {P : St K V → Prop} {Q : α → St K V → Prop} (h : Tt C t sp P p Q) : Tt C t sp P p (fun _ _ => True) :=
  h.post fun _ _ _ _ => trivial

theorem tt_removeLoop (hi : C.inc = true) (hsp : Sp sp ks kk k) {f : Closure (K × V) Bool} {st : f.Tr} {T : Table} {i : Nat} {e : Entry K V}
    {s : Slot K V} : Tt C t sp (Upd ks kk T i k e s) (removeLoop C f T i st e s) (fun r _ => ∃ st x, r = (st, .done x)) := by
  unfold removeLoop
  refine Tt.loop1 ?_
  refine Tt.read (fun _ => ()) (fun _ => rfl) fun _ => ?_
  refine Tt.bind _ tt_invoke fun x => ?_
  obtain ⟨st, b⟩ := x
  refine Tt.ite (fun _ => Tt.ret fun σ _ h => ⟨_, _, rfl⟩) fun _ => ?_
  refine Tt.bind _ ((tt_updateAtTomb hi hsp).weaken fun σ _ h => h.1) fun r => ?_
  refine Tt.extract (fun _ _ h => h) ?_
  rintro rfl
  refine Tt.stepA (fun _ _ => True) (fun _ _ _ _ _ _ _ => trivial) fun _ => ?_
  refine Tt.stepA (fun _ _ => True) (fun _ _ _ _ _ _ _ => trivial) fun _ => Tt.ret fun σ _ h => ⟨_, _, rfl⟩

/-- A table, with the measure `m`. -/
def Pt (ks : K → Prop) (kk : Option K) (T : Table) (m : Nat) (σ : St K V) : Prop := (W ks kk σ ∧ TOk T σ) ∧ m = 2 * (σ.nTabs - T.id)

theorem Pt.copying {T : Table} {m i : Nat} {σ : St K V} {e : Entry K V} {s : Slot K V} (h : Pt ks kk T m σ) (hs : σ.slot T.id i = s)
    (he : s.ptr = some e) (hq : ks e.key) (hc : s.copying = true) : Cpd T.id i σ := by
  subst hs
  exact ⟨by rw [he]; simp, h.1.1.c _ _ e (by simp) he hq hc⟩

theorem tt_removeProbe (hi : C.inc = true) (hsp : Sp sp ks kk k) {f : Closure (K × V) Bool} {st : f.Tr} {T : Table} {m : Nat} :
    Tt C t sp (Pt ks kk T m) (removeProbe C k f st T) (fun r σ => Wq ks kk T m r.2 σ) := by
  unfold removeProbe
  refine Tt.loopN (fun (_ : Probe) => Pt ks kk T m) (fun probe => T.limit + 1 - probe.len) fun probe => ?_
  refine Tt.ite (fun hlim => ?_) fun hlim => Tt.ret fun σ _ h => ⟨h.1, h.2, fun i h => by cases h⟩
  refine Tt.read (fun σ => σ.md T.id probe.i) (fun _ => rfl) fun m' => ?_
  refine Tt.ite (fun _ => Tt.ret fun σ _ h => trivial) fun _ => ?_
  refine Tt.ite (fun _ => Tt.ret fun σ _ h => ⟨h.1, probe_dec hlim⟩) fun _ => ?_
  refine Tt.read (fun σ => σ.slot T.id probe.i) (fun _ => rfl) fun s => ?_
  cases hs : s.ptr with
  | none => exact Tt.ret fun σ _ h => ⟨h.1.1, probe_dec hlim⟩
  | some e =>
    simp only
    refine Tt.read (fun _ => ()) (fun _ => rfl) fun _ => ?_
    refine Tt.ite (fun _ => Tt.ret fun σ _ h => ⟨h.1.1.1, probe_dec hlim⟩) fun hk => ?_
    refine Tt.ite (fun hc => Tt.ret fun σ _ h => ?_) fun hc => ?_
    · exact ⟨h.1.1.1.1, h.1.1.1.2, fun i hi => by cases hi; exact h.1.1.1.copying h.1.2.symm hs ((show e.key = k by simpa using hk) ▸ hsp.1) hc⟩
    · refine Tt.bind _ ((tt_removeLoop hi hsp).weaken fun σ _ h => ?_) fun r => ?_
      · exact ⟨h.1.1.1.1, h.1.2.symm, hs, by simpa using hc, by simpa using hk⟩
      · refine Tt.extract (fun _ _ h => h) ?_
        rintro ⟨st, x, rfl⟩
        exact Tt.ret fun σ _ h => trivial

theorem tt_removeIf (hi : C.inc = true) (hsp : Sp sp ks kk k) {f : Closure (K × V) Bool} :
    Tt C t sp (W ks kk) (removeIf C k f) (fun _ _ => True) := by
  unfold removeIf
  refine tt_root (fun T => ?_) (Tt.ret fun _ _ _ => trivial)
  simp only
  refine (Tt.loop (M := Nat × Nat) (s := (T, true, f.start)) (fun (x : Table × Bool × f.Tr) σ => W ks kk σ ∧ TOk x.1 σ)
    (fun x σ => ((if x.2.1 then 1 else 0), 2 * (σ.nTabs - x.1.id))) ?_).weaken fun σ _ h => ⟨h.1, h.2.1⟩
  rintro ⟨T, help, st⟩ ⟨m1, m2⟩
  refine Tt.extract (φ := m1 = if help then 1 else 0) (fun σ _ h => ?_) fun hm1 => ?_
  · have h2 : ((if help then 1 else 0 : Nat), 2 * (σ.nTabs - T.id)) = (m1, m2) := h.2
    exact (congrArg Prod.fst h2).symm
  refine Tt.bind _ ((tt_removeProbe hi hsp (m := m2)).weaken fun σ _ h => ⟨h.1, ?_⟩) fun r => ?_
  · have h2 : ((if help then 1 else 0 : Nat), 2 * (σ.nTabs - T.id)) = (m1, m2) := h.2
    exact (congrArg Prod.snd h2).symm
  obtain ⟨st, r⟩ := r
  cases r with
  | done r => exact Tt.ret fun σ _ h => trivial
  | retry c =>
    refine Tt.pre fun σ1 hg1 h1 => ?_
    refine Tt.bind _ (tt_prepareRetry hi h1.1.2 h1.1.1 h1.2.2) fun N => ?_
    cases N with
    | none => exact Tt.ret fun σ _ h => trivial
    | some N =>
      refine Tt.ret fun σ _ h => ?_
      have hN := h.2.2.2.2 N rfl
      refine ⟨⟨h.1, hN.2⟩, ?_⟩
      subst hm1
      cases help with
      | true => exact Prod.Lex.left _ _ Nat.zero_lt_one
      | false =>
        refine Prod.Lex.right _ ?_
        have h3 := h.2.1 rfl
        show 2 * (σ.nTabs - N.id) < m2
        rw [h1.2.1, h3, hN.1]
        have := h1.1.2.1
        omega

theorem tt_remove (hi : C.inc = true) (hsp : Sp sp ks kk k) : Tt C t sp (W (V := V) ks kk) (remove C k) (fun _ _ => True) := by
  unfold remove
  refine Tt.bind _ (tt_removeIf hi hsp) fun r => ?_
  split
  · exact Tt.ret fun _ _ _ => trivial
  · exact Tt.ret fun _ _ _ => trivial
  · exact Tt.panic

/-! ## compute -/

section

variable {R : Type} {f : Closure (Option (K × V)) (Operation V R)}

theorem tt_next {c : CState K V R f} {e : Option (Entry K V)} {P : St K V → Prop} : Tt C t sp P (c.next e) (fun _ => P) := by
  unfold CState.next
  split
  · split
    · exact Tt.ret fun σ _ h => h
    · exact Tt.bind _ tt_invoke fun x => Tt.ret fun σ _ h => h
  · split
    · refine Tt.sameEntry (fun _ => Tt.ret fun σ _ h => h) fun _ => ?_
      exact Tt.read (fun _ => ()) (fun _ => rfl) fun _ => Tt.bind _ tt_invoke fun x => Tt.ret fun σ _ h => h.1
    · exact Tt.read (fun _ => ()) (fun _ => rfl) fun _ => Tt.bind _ tt_invoke fun x => Tt.ret fun σ _ h => h.1

theorem tt_restore {c : CState K V R f} {e : Option (Entry K V)} {o : Operation V R} {P : St K V → Prop} :
    Tt C t sp P (c.restore e o) (fun _ => P) := by
  unfold CState.restore
  split
  · exact Tt.ret fun σ _ h => h
  · split
    · exact Tt.ret fun σ _ h => h
    · exact Tt.panic

theorem tt_computeLoop (hi : C.inc = true) (hsp : Sp sp ks kk k) {T : Table} {probe : Probe} {c : CState K V R f} {e : Entry K V}
    {s : Slot K V} : Tt C t sp (Upd ks kk T probe.i k e s) (computeLoop C k T probe c e s) (fun r _ => ∃ c x, r = .inr (c, .done x)) := by
  unfold computeLoop
  refine Tt.loop1 ?_
  refine Tt.bind _ tt_next fun x => ?_
  obtain ⟨c, op⟩ := x
  cases op with
  | abort a => exact Tt.ret fun σ _ h => ⟨_, _, rfl⟩
  | insert v =>
    refine Tt.bind _ (tt_updateAtNew hi hsp) fun r => ?_
    refine Tt.extract (fun _ _ h => h) ?_
    rintro ⟨new, rfl⟩
    exact Tt.ret fun σ _ h => ⟨_, _, rfl⟩
  | remove =>
    refine Tt.bind _ (tt_updateAtTomb hi hsp) fun r => ?_
    refine Tt.extract (fun _ _ h => h) ?_
    rintro rfl
    refine Tt.stepA (fun _ _ => True) (fun _ _ _ _ _ _ _ => trivial) fun _ => ?_
    refine Tt.stepA (fun _ _ => True) (fun _ _ _ _ _ _ _ => trivial) fun _ => Tt.ret fun σ _ h => ⟨_, _, rfl⟩

theorem tt_computeFound (hi : C.inc = true) (hsp : Sp sp ks kk k) {T : Table} {probe : Probe} {c : CState K V R f} {e : Entry K V}
    {s : Slot K V} {m : Nat} : Tt C t sp (fun σ => Pn ks kk T m σ ∧ σ.slot T.id probe.i = s ∧ s.ptr = some e)
      (computeFound C k T probe c e s) (fun r σ => match r with
        | .inl p => p.2 = probe.next T.mask ∧ Pn ks kk T m σ
        | .inr r => Wq ks kk T m r.2 σ) := by
  unfold computeFound
  refine Tt.read (fun _ => ()) (fun _ => rfl) fun _ => ?_
  refine Tt.ite (fun hk => Tt.ret fun σ _ h => ⟨rfl, h.1.1⟩) fun hk => ?_
  refine Tt.ite (fun hc => Tt.ret fun σ _ h => ?_) fun hc => ?_
  · exact ⟨h.1.1.1, h.1.1.2.1, fun i hi => by cases hi; exact h.1.1.copying h.1.2.1 h.1.2.2 ((show e.key = k by simpa using hk) ▸ hsp.1) hc⟩
  · refine ((tt_computeLoop hi hsp).weaken fun σ _ h => ?_).post ?_
    · exact ⟨h.1.1.1, h.1.2.1, h.1.2.2, by simpa using hc, by simpa using hk⟩
    · rintro r σ _ ⟨c, x, rfl⟩
      trivial

theorem tt_computeProbe (hi : C.inc = true) (hsp : Sp sp ks kk k) {T : Table} {c : CState K V R f} {m : Nat} :
    Tt C t sp (fun σ => (W ks kk σ ∧ TOk T σ) ∧ mu T σ = m) (computeProbe C k T c) (fun r σ => Wq ks kk T m r.2 σ) := by
  unfold computeProbe
  refine (Tt.loopN (s := (c, Probe.start (C.h1 k) T.mask)) (fun (x : CState K V R f × Probe) σ => Pb ks kk T m σ ∧ (FreshT T σ → x.2.len = 0))
    (fun x => T.limit + 1 - x.2.len) ?_).weaken ?_
  rotate_left
  · rintro σ _ ⟨h1, h2⟩
    exact ⟨⟨h1, h2 ▸ mu_or T σ⟩, fun _ => rfl⟩
  rintro ⟨c, probe⟩
  refine Tt.ite (fun hlim => ?_) fun hlim => Tt.ret ?_
  rotate_left
  · rintro σ hg ⟨h1, h2⟩
    have := h1.pn fun hf => hlim (by rw [h2 hf]; exact Nat.zero_le _)
    exact ⟨this.1, this.2.1, fun i h => by cases h⟩
  have hfound : ∀ c e s, Tt C t sp (fun σ => Pn ks kk T m σ ∧ σ.slot T.id probe.i = s ∧ s.ptr = some e) (computeFound C k T probe c e s)
      (fun (x : (CState K V R f × Probe) ⊕ _) σ => match x with
      | .inl s' => (Pb ks kk T m σ ∧ (FreshT T σ → s'.2.len = 0)) ∧ T.limit + 1 - s'.2.len < T.limit + 1 - probe.len
      | .inr b => Wq ks kk T m b.2 σ) := by
    intro c e s
    refine (tt_computeFound hi hsp).post fun r σ _ h => ?_
    cases r with
    | inl p =>
      obtain ⟨h0, h⟩ := h
      refine ⟨⟨h.pb, fun hf => absurd hf h.2.2⟩, ?_⟩
      rw [h0]
      exact probe_dec hlim
    | inr r => exact h
  have hnext : ∀ c, ∀ P : St K V → Prop, (∀ σ, P σ → Pn ks kk T m σ) → Tt C t sp P (pure (Sum.inl (c, probe.next T.mask)))
      (fun (x : (CState K V R f × Probe) ⊕ (CState K V R f × WOut (Compute K V R))) σ => match x with
      | .inl s' => (Pb ks kk T m σ ∧ (FreshT T σ → s'.2.len = 0)) ∧ T.limit + 1 - s'.2.len < T.limit + 1 - probe.len
      | .inr b => Wq ks kk T m b.2 σ) := by
    intro c P hP
    refine Tt.ret fun σ _ h => ⟨⟨(hP σ h).pb, fun hf => absurd hf (hP σ h).2.2⟩, probe_dec hlim⟩
  refine Tt.read (fun σ => σ.md T.id probe.i) (fun _ => rfl) fun m' => ?_
  refine Tt.ite (fun hm => ?_) fun hm => ?_
  · refine Tt.bind _ tt_next fun x => ?_
    obtain ⟨c, op⟩ := x
    cases op with
    | remove => exact Tt.panic
    | abort a => exact Tt.ret fun σ _ h => trivial
    | insert v =>
      refine Tt.bind _ (tt_insertAt.weaken fun σ _ h => h.1.1) fun r => ?_
      rcases r with e | ⟨_ | ⟨e, s⟩ | ⟨e, s⟩⟩
      · exact Tt.stepA (fun _ _ => True) (fun _ _ _ _ _ _ _ => trivial) fun _ => Tt.ret fun σ _ h => trivial
      · exact Tt.bind _ tt_restore fun c => (hnext c _ fun σ h => h).post fun x σ _ h => by cases x <;> exact h
      · exact Tt.absurd' fun σ _ h => h
      · exact Tt.bind _ tt_restore fun c => (hfound c e s).post fun x σ _ h => by cases x <;> exact h
  · have hpn : ∀ σ : St K V, (Pb ks kk T m σ ∧ (FreshT T σ → probe.len = 0)) ∧ m' = σ.md T.id probe.i → Pn ks kk T m σ :=
      fun σ h => h.1.1.pn fun hf => hm (h.2.trans (hf probe.i).2)
    refine Tt.ite (fun hm2 => ?_) fun hm2 => (hnext c _ hpn).post fun x σ _ h => by cases x <;> exact h
    refine Tt.read (fun σ => σ.slot T.id probe.i) (fun _ => rfl) fun s => ?_
    cases hs : s.ptr with
    | none =>
      refine Tt.post (hnext c _ ?_) fun x σ _ h => by cases x <;> exact h
      exact fun σ h => hpn σ h.1
    | some e =>
      refine Tt.post ((hfound c e s).weaken ?_) fun x σ _ h => by cases x <;> exact h
      exact fun σ _ h => ⟨hpn σ h.1, h.2.symm, by first | rfl | exact hs⟩

theorem tt_computeInit {c : CState K V R f} : Tt C t sp (W ks kk) (computeInit C c) (fun r σ => match r with
    | .inl (c, T) => W ks kk σ ∧ TOk T σ
    | .inr _ => True) := by
  unfold computeInit
  refine tt_root (fun T => Tt.ret fun σ _ h => ⟨h.1, h.2.1⟩) ?_
  refine Tt.bind _ tt_next fun x => ?_
  obtain ⟨c, op⟩ := x
  cases op with
  | insert v =>
    refine Tt.bind _ tt_restore fun c => ?_
    exact Tt.bind _ (tt_initTable fun σ h => h.1) fun T => Tt.ret fun σ _ h => h
  | remove => exact Tt.panic
  | abort a => exact Tt.ret fun σ _ h => trivial

theorem tt_compute (hi : C.inc = true) (hsp : Sp sp ks kk k) : Tt C t sp (W ks kk) (compute C k f) (fun _ _ => True) := by
  unfold compute
  refine Tt.bind _ tt_computeInit fun x => ?_
  rcases x with ⟨c, T⟩ | ⟨c, a⟩
  rotate_left
  · exact Tt.ret fun σ _ h => trivial
  simp only
  refine Tt.loop (s := (T, false, c)) (fun (x : Table × Bool × CState K V R f) σ => (W ks kk σ ∧ TOk x.1 σ) ∧ x.2.1 = false) (fun x σ => mu x.1 σ) ?_ |>.weaken
    fun σ _ h => ⟨h, rfl⟩
  rintro ⟨T, help, c⟩ m
  refine Tt.extract (φ := help = false) (fun σ _ h => h.1.2) ?_
  rintro rfl
  refine Tt.bind _ ((tt_computeProbe hi hsp (m := m)).weaken fun σ _ h => ⟨h.1.1, h.2⟩) fun r => ?_
  obtain ⟨c, r⟩ := r
  cases r with
  | done r => exact Tt.ret fun σ _ h => trivial
  | retry cp =>
    refine Tt.pre fun σ1 hg1 h1 => ?_
    refine Tt.bind _ (tt_prepareRetry hi h1.1.2 h1.1.1 h1.2.2) fun N => ?_
    cases N with
    | some N =>
      refine Tt.ret fun σ _ h => ?_
      have hN := h.2.2.2.2 N rfl
      refine ⟨⟨⟨h.1, hN.2⟩, rfl⟩, ?_⟩
      show mu N σ < m
      have h3 := h.2.1 rfl
      have h4 := mu_le N σ
      have h5 := h1.2.1
      have h6 := hN.1
      have h7 := h1.1.2.1
      rw [h3] at h4
      rw [h3]
      rw [h6] at h4
      omega
    | none =>
      simp only
      refine Tt.bind _ tt_next fun x => ?_
      obtain ⟨c, op⟩ := x
      cases op with
      | remove => exact Tt.panic
      | abort a => exact Tt.ret fun σ _ h => trivial
      | insert v =>
        refine Tt.bind _ ((tt_prepareRetryInsert (ks := ks) (kk := kk) hi h1.1.2 h1.1.1 (c := none) (fun i h => by cases h)).weaken
          fun σ _ h => h.2.2.2.1 (by first | rfl | trivial)) fun N => ?_
        refine Tt.bind _ tt_restore fun c => Tt.ret fun σ _ h => ?_
        refine ⟨⟨⟨h.1, h.2.1.2⟩, rfl⟩, ?_⟩
        show mu N σ < m
        have := h1.2.1
        rw [this]
        exact (h.2.2 rfl).mu hg1 h1.1.2

end

/-! ## get -/

theorem tt_getProbe {T : Table} {P : St K V → Prop} : Tt C t sp P (getProbe C k T) (fun _ => P) := by
  unfold getProbe
  refine Tt.loopN (fun (_ : Probe) => P) (fun probe => T.limit + 1 - probe.len) fun probe => ?_
  refine Tt.ite (fun hlim => ?_) fun hlim => Tt.ret fun σ _ h => h
  refine Tt.read (fun σ => σ.md T.id probe.i) (fun _ => rfl) fun m' => ?_
  refine Tt.ite (fun _ => ?_) fun _ => ?_
  · refine Tt.read (fun σ => σ.slot T.id probe.i) (fun _ => rfl) fun s => ?_
    cases s.ptr with
    | none => exact Tt.ret fun σ _ h => ⟨h.1.1, probe_dec hlim⟩
    | some e =>
      simp only
      refine Tt.read (fun _ => ()) (fun _ => rfl) fun _ => ?_
      refine Tt.ite (fun _ => ?_) fun _ => ?_
      · refine Tt.ite (fun _ => Tt.ret fun σ _ h => h.1.1.1) fun _ => Tt.ret fun σ _ h => h.1.1.1
      · refine Tt.ite (fun _ => Tt.ret fun σ _ h => h.1.1.1) fun _ => Tt.ret fun σ _ h => ⟨h.1.1.1, probe_dec hlim⟩
  · refine Tt.ite (fun _ => Tt.ret fun σ _ h => h.1) fun _ => Tt.ret fun σ _ h => ⟨h.1, probe_dec hlim⟩

theorem tt_get {P : St K V → Prop} : Tt C t sp P (get C k) (fun _ => P) := by
  unfold get
  refine tt_root (fun T => ?_) (Tt.ret fun σ _ h => h.1)
  simp only
  refine (Tt.loop (fun (T : Table) σ => P σ ∧ TOk T σ) (fun (T : Table) σ => σ.nTabs - T.id) ?_).weaken fun σ _ h => ⟨h.1, h.2.1⟩
  intro T m
  refine Tt.bind _ tt_getProbe fun r => ?_
  cases r with
  | found e => exact Tt.ret fun σ _ h => h.1.1
  | absent => exact Tt.ret fun σ _ h => h.1.1
  | nextTable =>
    refine Tt.ite (fun _ => ?_) fun _ => Tt.ret fun σ _ h => h.1.1
    refine Tt.read (fun σ => (σ.next T.id).map σ.handle) (fun _ => rfl) fun r => ?_
    cases r with
    | none => exact Tt.ret fun σ _ h => h.1.1.1
    | some N =>
      refine Tt.ret ?_
      rintro σ hg ⟨⟨⟨h1, h2⟩, rfl⟩, h3⟩
      have hN := isNext_load hg h2 h3
      refine ⟨⟨h1, hN.2⟩, ?_⟩
      show σ.nTabs - N.id < σ.nTabs - T.id
      have := hN.1
      have := h2.1
      omega

end Papaya
