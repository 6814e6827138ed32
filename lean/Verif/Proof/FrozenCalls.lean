import Verif.Proof.FrozenOps
import Verif.Model.Api

/-! # The operations, in the logic of `Verif/Proof/Frozen.lean` -/

set_option linter.unusedSectionVars false
set_option linter.unusedVariables false

namespace Papaya

open Prog
open scoped Classical

variable {K V : Type} [DecidableEq K] {C : Cfg K} {D : Box} {T next : Table} {w : Nat}

/-- Probe loops. -/
theorem Gd.probe {R : Type} {σs : Type} {body : σs → Prog K V (σs ⊕ R)} {Q : R → Nat → Prop} {p0 : σs} {m : Nat} (pr : σs → Probe)
    (I : σs → Nat → Prop)
    (h : ∀ s w, I s w → (pr s).len ≤ m → Gd C D w (body s) fun x w' => Sum.elim (fun s' => I s' w' ∧ (pr s').len = (pr s).len + 1) (fun r => Q r w') x)
    (h' : ∀ s w, I s w → ¬ (pr s).len ≤ m → Gd C D w (body s) fun x w' => ∃ r, x = .inr r ∧ Q r w') (h0 : I p0 w) :
    Gd C D w (Prog.loop p0 body) Q := by
  refine Gd.count I (fun p => m + 1 - (pr p).len) (fun s w hs => ?_) h0
  by_cases hp : (pr s).len ≤ m
  · refine (h s w hs hp).post fun x w' hx => ?_
    cases x with
    | inl s' => exact ⟨hx.1, by have := hx.2; show m + 1 - (pr s').len < m + 1 - (pr s).len; omega⟩
    | inr r => exact hx
  · refine (h' s w hs hp).post fun x w' hx => ?_
    obtain ⟨r, rfl, hr⟩ := hx
    exact hr

/-! ## `get` -/

theorem g_getProbe {k : K} : G0 C D (getProbe C k T : Prog K V (GetOut K V)) fun _ => True := by
  unfold getProbe
  refine Gd.probe (m := T.limit) id (fun _ _ => True) (fun p _ _ hp => ?_) (fun p _ _ hp => ?_) trivial
  · simp only [id] at hp ⊢
    rw [if_pos hp]
    refine Gd.go fun m _ => Gd.ite (fun _ => Gd.go fun s _ => ?_) fun _ => ?_
    · cases s.ptr with
      | none => exact Gd.ret ⟨trivial, rfl⟩
      | some e =>
        refine Gd.go fun _ _ => Gd.ite (fun _ => Gd.ite (fun _ => Gd.ret trivial) fun _ => Gd.ret trivial) fun _ => ?_
        exact Gd.ite (fun _ => Gd.ret trivial) fun _ => Gd.ret ⟨trivial, rfl⟩
    · exact Gd.ite (fun _ => Gd.ret trivial) fun _ => Gd.ret ⟨trivial, rfl⟩
  · simp only [id] at hp ⊢
    rw [if_neg hp]
    exact Gd.ret ⟨_, rfl, trivial⟩

theorem g_get {k : K} : G0 C D (get C k : Prog K V (Option (Entry K V))) fun _ => True := by
  unfold get
  refine Gd.go fun r hr => ?_
  cases r with
  | none => exact Gd.ret trivial
  | some T =>
    refine G0.count (fun T => T.In D) (fun T => D.N - T.id) (fun T hT => ?_) (hr T rfl)
    refine Gd.bind0 _ g_getProbe fun o _ => ?_
    cases o with
    | found e => exact Gd.ret trivial
    | absent => exact Gd.ret trivial
    | nextTable =>
      refine Gd.ite (fun _ => Gd.go fun r hr => ?_) fun _ => Gd.ret trivial
      cases r with
      | none => exact Gd.ret trivial
      | some n =>
        have := hr n rfl
        have h1 := this.1.1
        exact Gd.ret ⟨this.1, by show D.N - n.id < D.N - T.id; omega⟩

/-! ## Writing -/

/-- A pointer that can be replaced. -/
def Slot.Live (s : Slot K V) : Prop := s.ptr ≠ none ∧ s.copying = false

/-- The status of a slot, as found by a compare-exchange. -/
def EStat.Of (st : EStat K V) (s : Slot K V) : Prop :=
  match st with
  | .null => True
  | .copied _ _ => True
  | .value _ s' => s' = s ∧ s.Live

theorem EStat.from_of (s : Slot K V) : (EStat.from s).Of s := by
  unfold EStat.from
  cases h : s.ptr with
  | none => trivial
  | some e =>
    dsimp only
    split
    · trivial
    · rename_i hc
      exact ⟨rfl, by rw [h]; exact Option.some_ne_none _, by simpa using hc⟩

theorem g_insertAt {i m : Nat} {k : K} {v : V} (hw : 1 ≤ w) : Gd C D w (insertAt C i m k v T : Prog K V (InsStat K V)) fun x w' =>
    match x with
    | .inserted _ => True
    | .found (.value _ s) => w' = w ∧ s.ptr ≠ none
    | .found (.copied _ s) => w' = w ∧ s.ptr ≠ none
    | .found .null => w' = w := by
  unfold insertAt
  refine Gd.step trivial (fun _ => hw) fun r _ => ?_
  cases r with
  | inl e => exact Gd.go fun _ _ => Gd.ret trivial
  | inr found =>
    have hl : ∀ k v, (Act.casNew false T.id i Slot.null k v : Act K V _).left w (.inr found) = w := fun _ _ => rfl
    rw [hl]
    dsimp only
    have hs : ∀ e, found.ptr = some e → found.ptr ≠ none := fun e h => by rw [h]; exact Option.some_ne_none _
    generalize hp : found.ptr = o at hs
    cases o with
    | some e => exact Gd.go fun _ _ => Gd.go fun _ _ => Gd.ite (fun _ => Gd.go fun _ _ => Gd.ret ⟨rfl, by rw [hp]; exact hs e rfl⟩) fun _ => Gd.ret ⟨rfl, by rw [hp]; exact hs e rfl⟩
    | none => exact Gd.go fun _ _ => Gd.ite (fun _ => Gd.go fun _ _ => Gd.ret rfl) fun _ => Gd.ret rfl

theorem g_updateAtNew {i : Nat} {e : Entry K V} {cur : Slot K V} {k : K} {v : V} (hw : 1 ≤ w) (hT : T.In D) :
    Gd C D w (updateAtNew C i e cur k v T : Prog K V (UpdStat K V)) fun x w' =>
      match x with
      | .replaced n => n ≠ none
      | .found st => w' = w ∧ ∃ s, st.Of s := by
  unfold updateAtNew
  refine Gd.step trivial (fun _ => hw) fun r _ => ?_
  cases r with
  | inl e => exact Gd.bind0 _ (g_deferRetire hT) fun _ _ => Gd.ret (Option.some_ne_none _)
  | inr found => exact Gd.ret ⟨rfl, found, EStat.from_of found⟩

theorem fe_updateAtNew {σ : St K V} {i : Nat} {e : Entry K V} {cur : Slot K V} {k : K} {v : V} :
    FE D σ (updateAtNew C i e cur k v T : Prog K V (UpdStat K V)) fun x => cur ≠ σ.slot T.id i ∧ ∃ st, x = .found st ∧ st.Of (σ.slot T.id i) := by
  unfold updateAtNew
  refine FE.step fun r _ hr => ?_
  obtain ⟨rfl, h⟩ := hr
  exact .ret ⟨fun h' => h h'.symm, _, rfl, EStat.from_of _⟩

theorem g_updateAtTomb {i : Nat} {e : Entry K V} {cur : Slot K V} (hcur : cur.Live) (hT : T.In D) :
    G0 C D (updateAtTomb C i e cur T : Prog K V (UpdStat K V)) fun x => ∀ st, x = .found st → ∃ s, st.Of s := by
  unfold updateAtTomb
  refine Gd.go (fun r _ => ?_) (.inr ⟨hcur.1, hcur.2, rfl⟩)
  cases r with
  | none => exact Gd.bind0 _ (g_deferRetire hT) fun _ _ => Gd.ret (by rintro st ⟨⟩)
  | some found => exact Gd.ret (by rintro st ⟨⟩; exact ⟨_, EStat.from_of found⟩)

theorem fe_casTomb {σ : St K V} {α : Type} {b : Bool} {i : Nat} {cur : Slot K V} {f : Option (Slot K V) → Prog K V α} {Q : α → Prop} (hcur : cur.Live)
    (h : cur ≠ σ.slot T.id i → FE D σ (f (some (σ.slot T.id i))) Q) : FE D σ (A.cas b T.id i cur Slot.tombstone >>= f) Q := by
  refine FE.step fun r _ hr => ?_
  rcases hr with ⟨rfl, h'⟩ | ⟨rfl, h'⟩
  · exact h fun h2 => h' h2.symm
  · exact absurd (by rw [h']; rfl) hcur.1

theorem fe_updateAtTomb {σ : St K V} {i : Nat} {e : Entry K V} {cur : Slot K V} (hcur : cur.Live) :
    FE D σ (updateAtTomb C i e cur T : Prog K V (UpdStat K V)) fun x => cur ≠ σ.slot T.id i ∧ ∃ st, x = .found st ∧ st.Of (σ.slot T.id i) := by
  unfold updateAtTomb
  exact fe_casTomb hcur fun h => .ret ⟨h, _, rfl, EStat.from_of _⟩

theorem g_prepareRetryInsert {o : Option Nat} {b : Bool} (hc : C.Copies) (hT : T.In D) :
    G0 C D (prepareRetryInsert C o b T : Prog K V Table) fun n => n.In D ∧ T.id < n.id := by
  unfold prepareRetryInsert
  refine Gd.bind0 _ g_getOrAllocNext fun n hn => ?_
  generalize hmode : C.mode = md
  cases md with
  | blocking => exact (g_helpCopy hc hT).post fun n _ hn => ⟨hn.1, hn.2 (.inl (by unfold Cfg.inc; rw [hmode]))⟩
  | incremental ch =>
    refine Gd.bind0 (fun n => n.In D ∧ T.id < n.id) ?_ fun n hn => ?_
    · exact Gd.ite (fun _ => (g_helpCopy hc hT).post fun n _ hn => ⟨hn.1, hn.2 (.inr rfl)⟩) fun _ => Gd.ret hn
    · cases o with
      | none => exact Gd.ret hn
      | some i => exact Gd.bind0 _ g_waitCopied fun _ _ => Gd.ret hn

theorem g_prepareRetry {o : Option Nat} {b : Bool} (hc : C.Copies) (hT : T.In D) :
    G0 C D (prepareRetry C o b T : Prog K V (Option Table)) fun r => ∀ n, r = some n → n.In D ∧ T.id < n.id := by
  unfold prepareRetry
  generalize hmode : C.mode = md
  cases md with
  | blocking =>
    cases o with
    | none => exact Gd.ret (by rintro n ⟨⟩)
    | some i =>
      refine Gd.bind0 _ (g_helpCopy hc hT) fun n hn => Gd.ret ?_
      rintro m ⟨⟩
      exact ⟨hn.1, hn.2 (.inl (by unfold Cfg.inc; rw [hmode]))⟩
  | incremental ch =>
    refine Gd.go fun r hr => ?_
    cases r with
    | none => exact Gd.ret (by rintro n ⟨⟩)
    | some n =>
      have hn := hr n rfl
      have jp : G0 C D (match o with
          | some i => do
            waitCopied C i T
            pure (some n)
          | none => pure (some n) : Prog K V (Option Table)) fun r => ∀ n, r = some n → n.In D ∧ T.id < n.id := by
        cases o with
        | none => exact Gd.ret (by rintro m ⟨⟩; exact hn)
        | some i => exact Gd.bind0 _ g_waitCopied fun _ _ => Gd.ret (by rintro m ⟨⟩; exact hn)
      exact Gd.ite (fun _ => Gd.bind0 _ (g_helpCopy hc hT) fun _ _ => jp) fun _ => jp

/-! ## `insert` -/

theorem g_insertSlow {i : Nat} {e : Entry K V} {cur : Slot K V} {k : K} {v : V} (hT : T.In D) :
    Gd C D 1 (insertSlow C i e cur k v T) fun x w' => match x with
      | .inl _ => True
      | .inr st => w' = 1 ∧ ∀ e s, st ≠ .value e s := by
  unfold insertSlow
  refine Gd.loop (fun _ w => w = 1) (fun s w hw => ?_) (fun σ s w hσ _ => ?_) rfl
  · obtain ⟨e, cur⟩ := s
    subst hw
    refine Gd.bind _ (g_updateAtNew (Nat.le_refl _) hT) fun x w' hx => ?_
    cases x with
    | found st =>
      obtain ⟨hw, _⟩ := hx
      cases st with
      | value e s => exact Gd.ret hw
      | null => exact Gd.ret ⟨hw, fun _ _ h => by cases h⟩
      | copied e s => exact Gd.ret ⟨hw, fun _ _ h => by cases h⟩
    | replaced n =>
      cases n with
      | none => exact Gd.panic
      | some n => exact Gd.ret trivial
  · refine FE.loop (fun _ => True) (fun s => if s.2 = σ.slot T.id i then 0 else 1) (fun s _ => ?_) trivial
    obtain ⟨e, cur⟩ := s
    refine FE.bind fe_updateAtNew fun x hx => ?_
    obtain ⟨hne, st, rfl, hst⟩ := hx
    cases st with
    | value e' s' =>
      refine .ret ⟨trivial, ?_⟩
      show (if s' = _ then 0 else 1) < if cur = _ then 0 else 1
      rw [if_pos hst.1, if_neg hne]
      omega
    | null => exact .ret ⟨1, rfl, fun _ _ h => by cases h⟩
    | copied e s => exact .ret ⟨1, rfl, fun _ _ h => by cases h⟩

/-- What a probe loop is left with: credit is kept unless there is a result. -/
def WOut.Keeps {R : Type} (w : Nat) : WOut R → Nat → Prop
  | .done _, _ => True
  | .retry _, w' => w' = w

theorem g_insertFound {k : K} {v : V} {b : Bool} {probe : Probe} {e : Entry K V} {s : Slot K V} (hT : T.In D) :
    Gd C D 1 (insertFound C k v b T probe e s) fun x w' => Sum.elim (fun p => w' = 1 ∧ p.len = probe.len + 1) (fun r => r.Keeps 1 w') x := by
  unfold insertFound
  refine Gd.go fun _ _ => Gd.ite (fun _ => Gd.ite (fun _ => Gd.ret rfl) fun _ => Gd.ite (fun _ => Gd.ret trivial) fun _ => ?_) fun _ => Gd.ret ⟨rfl, rfl⟩
  refine Gd.bind _ (g_insertSlow hT) fun x w' hx => ?_
  cases x with
  | inl p => exact Gd.ret trivial
  | inr st =>
    obtain ⟨rfl, hne⟩ := hx
    cases st with
    | copied e s => exact Gd.ret rfl
    | null => exact Gd.ret ⟨rfl, rfl⟩
    | value e s => exact absurd rfl (hne e s)

theorem g_insertProbe {k : K} {v : V} {b : Bool} (hT : T.In D) :
    Gd C D 1 (insertProbe C k v b T : Prog K V (WOut (InsRes K V))) fun r w' => r.Keeps 1 w' := by
  unfold insertProbe
  refine Gd.probe (m := T.limit) id (fun _ w => w = 1) (fun p w hw hp => ?_) (fun p w hw hp => ?_) rfl
  · simp only [id] at hp ⊢
    subst hw
    rw [if_pos hp]
    refine Gd.go fun m _ => Gd.ite (fun _ => ?_) fun _ => Gd.ite (fun _ => ?_) fun _ => Gd.ret ⟨rfl, rfl⟩
    · refine Gd.bind _ (g_insertAt (Nat.le_refl _)) fun x w' hx => ?_
      cases x with
      | inserted e => exact Gd.ret trivial
      | found st =>
        cases st with
        | value e s => obtain ⟨rfl, _⟩ := hx; exact g_insertFound hT
        | copied e s => obtain ⟨rfl, _⟩ := hx; exact g_insertFound hT
        | null => exact Gd.ret ⟨hx, rfl⟩
    · refine Gd.go fun s _ => ?_
      generalize s.ptr = o
      cases o with
      | none => exact Gd.ret ⟨rfl, rfl⟩
      | some e => exact g_insertFound hT
  · simp only [id] at hp ⊢
    rw [if_neg hp]
    exact Gd.ret ⟨_, rfl, hw⟩

theorem g_insert {k : K} {v : V} {b : Bool} (hc : C.Copies) : Gd C D 1 (insert C k v b : Prog K V (InsRes K V)) fun _ _ => True := by
  unfold insert
  refine Gd.bind (fun _ _ => True) ?_ fun r w' _ => ?_
  · unfold insertInner
    refine Gd.bind0 (fun T => T.In D) ?_ fun T hT => ?_
    · refine Gd.go fun r hr => ?_
      cases r with
      | some T => exact Gd.ret (hr T rfl)
      | none => exact g_initTable
    · refine Gd.count (fun s w => s.1.In D ∧ w = 1) (fun s => D.N - s.1.id) (fun s w hs => ?_) ⟨hT, rfl⟩
      obtain ⟨T, help⟩ := s
      obtain ⟨hT, rfl⟩ := hs
      refine Gd.bind _ (g_insertProbe hT) fun x w' hx => ?_
      cases x with
      | done r => exact Gd.ret trivial
      | retry o =>
        have hx : w' = 1 := hx
        subst hx
        refine Gd.bind0 _ (g_prepareRetryInsert hc hT) fun n hn => Gd.ret ⟨⟨hn.1, rfl⟩, ?_⟩
        have := hn.1.1
        have := hn.2
        show D.N - n.id < D.N - T.id
        have : T.id < n.id := hn.2
        omega
  · cases r with
    | inserted e => exact Gd.go fun _ _ => Gd.ret trivial
    | _ => exact Gd.ret trivial

/-! ## `remove_if` -/

theorem g_invoke {I O : Type} {f : Closure I O} {s : f.Tr} {i : I} : Gd C D w (f.invoke s i : Prog K V (f.Tr × O)) fun _ w' => w' = w := by
  unfold Closure.invoke
  cases f.call s.st i with
  | ok x => exact Gd.ret rfl
  | error r => exact Gd.panic

theorem fe_invoke {I O : Type} {f : Closure I O} {s : f.Tr} {i : I} {σ : St K V} : FE D σ (f.invoke s i : Prog K V (f.Tr × O)) fun _ => True := by
  unfold Closure.invoke
  cases f.call s.st i with
  | ok x => exact .ret trivial
  | error r => exact .panic

theorem g_removeLoop {f : Closure (K × V) Bool} {i : Nat} {st : f.Tr} {e : Entry K V} {s : Slot K V} (hT : T.In D) (hs : s.Live) :
    G0 C D (removeLoop C f T i st e s) fun _ => True := by
  unfold removeLoop
  refine G0.loop (fun x => x.2.2.Live) (fun x hs => ?_) (fun σ x hσ hs => ?_) hs
  · obtain ⟨st, e, s⟩ := x
    refine Gd.go fun _ _ => Gd.bind0 _ (g_invoke.post fun _ _ _ => trivial) fun y _ => ?_
    obtain ⟨st, b⟩ := y
    refine Gd.ite (fun _ => Gd.ret trivial) fun _ => ?_
    refine Gd.bind0 _ (g_updateAtTomb hs hT) fun x hx => ?_
    cases x with
    | replaced n => exact Gd.go fun _ _ => Gd.go fun _ _ => Gd.ret trivial
    | found st =>
      cases st with
      | copied e s => exact Gd.ret trivial
      | null => exact Gd.ret trivial
      | value e' s' =>
        obtain ⟨s2, rfl, h⟩ := hx _ rfl
        exact Gd.ret h
  · refine FE.loop (fun x => x.2.2.Live) (fun x => if x.2.2 = σ.slot T.id i then 0 else 1) (fun x hs => ?_) hs
    obtain ⟨st, e, s⟩ := x
    refine FE.step fun _ _ _ => FE.bind fe_invoke fun y _ => ?_
    obtain ⟨st, b⟩ := y
    refine FE.ite (fun _ => .ret trivial) fun _ => ?_
    refine FE.bind (fe_updateAtTomb hs) fun x hx => ?_
    obtain ⟨hne, est, rfl, hst⟩ := hx
    cases est with
    | copied e s => exact .ret trivial
    | null => exact .ret trivial
    | value e' s' =>
      refine .ret ⟨hst.1 ▸ hst.2, ?_⟩
      show (if s' = _ then 0 else 1) < if s = _ then 0 else 1
      rw [if_pos hst.1, if_neg hne]
      omega

theorem g_removeProbe {k : K} {f : Closure (K × V) Bool} {st : f.Tr} (hT : T.In D) :
    G0 C D (removeProbe C k f st T) fun _ => True := by
  unfold removeProbe
  refine Gd.probe (m := T.limit) id (fun _ _ => True) (fun p w hw hp => ?_) (fun p w hw hp => ?_) trivial
  · simp only [id] at hp ⊢
    rw [if_pos hp]
    refine Gd.go fun m _ => Gd.ite (fun _ => Gd.ret trivial) fun _ => Gd.ite (fun _ => Gd.ret ⟨trivial, rfl⟩) fun _ => ?_
    refine Gd.go fun s _ => ?_
    generalize hp : s.ptr = o
    cases o with
    | none => exact Gd.ret ⟨trivial, rfl⟩
    | some e =>
      refine Gd.go fun _ _ => Gd.ite (fun _ => Gd.ret ⟨trivial, rfl⟩) fun _ => Gd.ite (fun _ => Gd.ret trivial) fun hcp => ?_
      refine Gd.bind0 _ (g_removeLoop hT ⟨by rw [hp]; exact Option.some_ne_none _, by simpa using hcp⟩) fun r _ => Gd.ret trivial
  · simp only [id] at hp ⊢
    rw [if_neg hp]
    exact Gd.ret ⟨_, rfl, trivial⟩

theorem g_removeIf {k : K} {f : Closure (K × V) Bool} (hc : C.Copies) : G0 C D (removeIf C k f) fun _ => True := by
  unfold removeIf
  refine Gd.go fun r hr => ?_
  cases r with
  | none => exact Gd.ret trivial
  | some T =>
    refine G0.count (fun s => s.1.In D) (fun s => D.N - s.1.id) (fun s hs => ?_) (hr T rfl)
    obtain ⟨T, help, st⟩ := s
    refine Gd.bind0 _ (g_removeProbe hs) fun x _ => ?_
    obtain ⟨st, o⟩ := x
    cases o with
    | done r => exact Gd.ret trivial
    | retry o =>
      refine Gd.bind0 _ (g_prepareRetry hc hs) fun r hr => ?_
      cases r with
      | none => exact Gd.ret trivial
      | some n =>
        have h1 := (hr n rfl).1.1
        have h2 : T.id < n.id := (hr n rfl).2
        exact Gd.ret ⟨(hr n rfl).1, by show D.N - n.id < D.N - T.id; omega⟩

theorem g_remove {k : K} (hc : C.Copies) : G0 C D (remove C k : Prog K V (Option (Entry K V))) fun _ => True := by
  unfold remove
  refine Gd.bind0 _ (g_removeIf hc) fun r _ => ?_
  cases r.out with
  | kept e => exact Gd.panic
  | _ => exact Gd.ret trivial

/-! ## `compute` -/

section compute
variable {R : Type} {f : Closure (Option (K × V)) (Operation V R)}

theorem g_cnext {c : CState K V R f} {o : Option (Entry K V)} : Gd C D w (c.next o) fun _ w' => w' = w := by
  unfold CState.next
  cases o with
  | none =>
    cases c.insert with
    | some v => exact Gd.ret rfl
    | none => exact Gd.bind _ g_invoke fun y w' h => h ▸ Gd.ret rfl
  | some e =>
    cases c.update with
    | some p =>
      obtain ⟨id, op⟩ := p
      exact Gd.go fun b _ => Gd.ite (fun _ => Gd.ret rfl) fun _ => Gd.go fun _ _ => Gd.bind _ g_invoke fun y w' h => h ▸ Gd.ret rfl
    | none => exact Gd.go fun _ _ => Gd.bind _ g_invoke fun y w' h => h ▸ Gd.ret rfl

theorem g_crestore {c : CState K V R f} {o : Option (Entry K V)} {op : Operation V R} : Gd C D w (c.restore o op) fun _ w' => w' = w := by
  unfold CState.restore
  cases o with
  | some e => exact Gd.ret rfl
  | none =>
    cases op with
    | insert v => exact Gd.ret rfl
    | _ => exact Gd.panic

/-- How a probe loop of `compute` goes on. -/
def COut (probe : Probe) (x : (CState K V R f × Probe) ⊕ (CState K V R f × WOut (Compute K V R))) (w' : Nat) : Prop :=
  match x with
  | .inl (_, p) => w' = 1 ∧ p.len = probe.len + 1
  | .inr (_, r) => r.Keeps 1 w'

theorem g_computeFailure {probe : Probe} {c : CState K V R f} {st : EStat K V} (hst : ∃ s, st.Of s) :
    Gd C D 1 (computeFailure T probe c st) fun x w' => match x with
      | .inl (_, _, s) => w' = 1 ∧ s.Live
      | .inr y => COut probe y w' := by
  unfold computeFailure
  cases st with
  | copied e s => exact Gd.ret (show COut probe (.inr _) 1 from rfl)
  | value e s => obtain ⟨s, rfl, h⟩ := hst; exact Gd.ret ⟨rfl, h⟩
  | null =>
    refine Gd.bind _ g_cnext fun x w' hw => ?_
    subst hw
    obtain ⟨c, op⟩ := x
    cases op with
    | insert v => exact Gd.bind _ g_crestore fun c w' hw => by subst hw; exact Gd.ret (show COut probe (.inl _) 1 from ⟨rfl, rfl⟩)
    | remove => exact Gd.panic
    | abort a => exact Gd.ret (show COut probe (.inr _) 1 from trivial)

theorem fe_computeFailure {σ : St K V} {probe : Probe} {c : CState K V R f} {st : EStat K V} {s : Slot K V} (hσ : FOk C D σ) (hst : st.Of s) :
    FE D σ (computeFailure T probe c st) fun x => match x with
      | .inl (_, _, s') => s' = s ∧ s.Live
      | .inr y => ∃ w', COut probe y w' := by
  have h := (g_computeFailure (C := C) (D := D) (T := T) (probe := probe) (c := c) ⟨s, hst⟩).fe hσ
  unfold computeFailure at h ⊢
  cases st with
  | value e s' => exact .ret hst
  | copied e s => exact .ret ⟨1, (show COut probe (.inr _) 1 from rfl)⟩
  | null =>
    refine FE.bind (Gd.fe (g_cnext (C := C) (w := 1)) hσ) fun x _ => ?_
    obtain ⟨c, op⟩ := x
    cases op with
    | insert v => exact FE.bind (Gd.fe (g_crestore (C := C) (w := 1)) hσ) fun c _ => .ret ⟨1, (show COut probe (.inl _) 1 from ⟨rfl, rfl⟩)⟩
    | remove => exact .panic
    | abort a => exact .ret ⟨1, (show COut probe (.inr _) 1 from trivial)⟩

theorem g_computeLoop {k : K} {probe : Probe} {c : CState K V R f} {e : Entry K V} {s : Slot K V} (hT : T.In D) (hs : s.Live) :
    Gd C D 1 (computeLoop C k T probe c e s) (COut probe) := by
  unfold computeLoop
  refine Gd.loop (fun x w => w = 1 ∧ x.2.2.Live) (fun x w hx => ?_) (fun σ x w hσ hx => ?_) ⟨rfl, hs⟩
  · obtain ⟨c, e, s⟩ := x
    obtain ⟨rfl, hs⟩ := hx
    refine Gd.bind _ g_cnext fun x w' hw => ?_
    subst hw
    obtain ⟨c, op⟩ := x
    have fin : ∀ {c : CState K V R f} {st : EStat K V}, (∃ s, st.Of s) → Gd C D 1 (computeFailure T probe c st) fun x w' =>
        Sum.elim (fun s' : CState K V R f × Entry K V × Slot K V => w' = 1 ∧ s'.2.2.Live) (fun b => COut probe b w') x := fun h =>
      (g_computeFailure h).post fun x w' hx => by
        cases x with
        | inl y => exact hx
        | inr y => exact hx
    cases op with
    | abort a => exact Gd.ret trivial
    | insert v =>
      refine Gd.bind _ (g_updateAtNew (Nat.le_refl _) hT) fun x w' hx => ?_
      cases x with
      | replaced n =>
        cases n with
        | none => exact absurd rfl hx
        | some n => exact Gd.ret trivial
      | found st =>
        obtain ⟨rfl, hst⟩ := hx
        refine Gd.bind _ g_crestore fun c w' hw => ?_
        subst hw
        exact fin hst
    | remove =>
      refine Gd.bind0 _ (g_updateAtTomb hs hT) fun x hx => ?_
      cases x with
      | replaced n => exact Gd.go fun _ _ => Gd.go fun _ _ => Gd.ret trivial
      | found st =>
        refine Gd.bind _ g_crestore fun c w' hw => ?_
        subst hw
        exact fin (hx _ rfl)
  · refine FE.loop (fun x => x.2.2.Live) (fun x => if x.2.2 = σ.slot T.id probe.i then 0 else 1) (fun x hs => ?_) hx.2
    obtain ⟨c, e, s⟩ := x
    refine FE.bind (Gd.fe (g_cnext (C := C) (w := 1)) hσ) fun x _ => ?_
    obtain ⟨c, op⟩ := x
    have fin : ∀ {c : CState K V R f} {st : EStat K V}, s ≠ σ.slot T.id probe.i → st.Of (σ.slot T.id probe.i) →
        FE D σ (computeFailure T probe c st) fun x =>
        Sum.elim (fun s' : CState K V R f × Entry K V × Slot K V => s'.2.2.Live ∧
          (if s'.2.2 = σ.slot T.id probe.i then 0 else 1) < (if s = σ.slot T.id probe.i then 0 else 1)) (fun b => ∃ w', COut probe b w') x :=
      fun hne h => (fe_computeFailure hσ h).post fun x hx => by
        cases x with
        | inl y =>
          obtain ⟨c', e', s'⟩ := y
          obtain ⟨rfl, h'⟩ := hx
          refine ⟨h', ?_⟩
          rw [if_pos rfl, if_neg hne]
          omega
        | inr y => exact hx
    cases op with
    | abort a => exact .ret ⟨1, (show COut probe (.inr _) 1 from trivial)⟩
    | insert v =>
      refine FE.bind fe_updateAtNew fun x hx => ?_
      obtain ⟨hne, st, rfl, hst⟩ := hx
      exact FE.bind (Gd.fe (g_crestore (C := C) (w := 1)) hσ) fun c _ => fin hne hst
    | remove =>
      refine FE.bind (fe_updateAtTomb hs) fun x hx => ?_
      obtain ⟨hne, st, rfl, hst⟩ := hx
      exact FE.bind (Gd.fe (g_crestore (C := C) (w := 1)) hσ) fun c _ => fin hne hst

theorem g_computeFound {k : K} {probe : Probe} {c : CState K V R f} {e : Entry K V} {s : Slot K V} (hT : T.In D) (hs : s.ptr ≠ none) :
    Gd C D 1 (computeFound C k T probe c e s) (COut probe) := by
  unfold computeFound
  refine Gd.go fun _ _ => Gd.ite (fun _ => Gd.ret (show COut probe (.inl _) 1 from ⟨rfl, rfl⟩)) fun _ => ?_
  exact Gd.ite (fun _ => Gd.ret (show COut probe (.inr _) 1 from rfl)) fun h => g_computeLoop hT ⟨hs, by simpa using h⟩

theorem g_computeProbe {k : K} {c : CState K V R f} (hT : T.In D) : Gd C D 1 (computeProbe C k T c) fun x w' => x.2.Keeps 1 w' := by
  unfold computeProbe
  have fin : ∀ {p : Probe} {q : Prog K V ((CState K V R f × Probe) ⊕ (CState K V R f × WOut (Compute K V R)))}, Gd C D 1 q (COut p) →
      Gd C D 1 q fun x w' => Sum.elim (fun s' : CState K V R f × Probe => w' = 1 ∧ s'.2.len = p.len + 1) (fun r => r.2.Keeps 1 w') x := fun h =>
    h.post fun x w' hx => by
      cases x with
      | inl y => exact hx
      | inr y => exact hx
  refine Gd.probe (m := T.limit) Prod.snd (fun _ w => w = 1) (fun p w hw hp => ?_) (fun p w hw hp => ?_) rfl
  · obtain ⟨c, p⟩ := p
    dsimp only at hp ⊢
    subst hw
    rw [if_pos hp]
    refine Gd.go fun m _ => Gd.ite (fun _ => ?_) fun _ => Gd.ite (fun _ => ?_) fun _ => Gd.ret ⟨rfl, rfl⟩
    · refine Gd.bind _ g_cnext fun x w' hw => ?_
      subst hw
      obtain ⟨c, op⟩ := x
      cases op with
      | remove => exact Gd.panic
      | abort a => exact Gd.ret trivial
      | insert v =>
        refine Gd.bind _ (g_insertAt (Nat.le_refl _)) fun x w' hx => ?_
        cases x with
        | inserted e => exact Gd.go fun _ _ => Gd.ret trivial
        | found st =>
          cases st with
          | value e s =>
            obtain ⟨rfl, hs⟩ := hx
            exact Gd.bind _ g_crestore fun c w' hw => by subst hw; exact fin (g_computeFound hT hs)
          | copied e s =>
            obtain ⟨rfl, hs⟩ := hx
            exact Gd.bind _ g_crestore fun c w' hw => by subst hw; exact fin (g_computeFound hT hs)
          | null =>
            have hx : w' = 1 := hx
            subst hx
            exact Gd.bind _ g_crestore fun c w' hw => by subst hw; exact Gd.ret ⟨rfl, rfl⟩
    · refine Gd.go fun s _ => ?_
      generalize hp : s.ptr = o
      cases o with
      | none => exact Gd.ret ⟨rfl, rfl⟩
      | some e => exact fin (g_computeFound hT (by rw [hp]; exact Option.some_ne_none _))
  · obtain ⟨c, p⟩ := p
    dsimp only at hp ⊢
    rw [if_neg hp]
    exact Gd.ret ⟨_, rfl, hw⟩

theorem g_compute {k : K} (hc : C.Copies) : Gd C D 1 (compute C k f) fun _ _ => True := by
  unfold compute
  refine Gd.bind (fun x w' => match x with | .inl (_, T) => w' = 1 ∧ T.In D | .inr _ => True) ?_ fun x w' hx => ?_
  · unfold computeInit
    refine Gd.go fun r hr => ?_
    cases r with
    | some T => exact Gd.ret ⟨rfl, hr T rfl⟩
    | none =>
      refine Gd.bind _ g_cnext fun x w' hw => ?_
      subst hw
      obtain ⟨c, op⟩ := x
      cases op with
      | remove => exact Gd.panic
      | abort a => exact Gd.ret trivial
      | insert v =>
        refine Gd.bind _ g_crestore fun c w' hw => ?_
        subst hw
        exact Gd.bind0 _ g_initTable fun T hT => Gd.ret ⟨rfl, hT⟩
  · cases x with
    | inr y => exact Gd.ret trivial
    | inl y =>
      obtain ⟨c, T⟩ := y
      obtain ⟨rfl, hT⟩ := hx
      refine Gd.count (fun s w => s.1.In D ∧ w = 1) (fun s => D.N - s.1.id) (fun s w hs => ?_) ⟨hT, rfl⟩
      obtain ⟨T, help, c⟩ := s
      obtain ⟨hT, rfl⟩ := hs
      refine Gd.bind _ (g_computeProbe hT) fun x w' hx => ?_
      obtain ⟨c, o⟩ := x
      cases o with
      | done r => exact Gd.ret trivial
      | retry o =>
        have hx : w' = 1 := hx
        subst hx
        refine Gd.bind0 _ (g_prepareRetry hc hT) fun r hr => ?_
        cases r with
        | some n =>
          have h1 := (hr n rfl).1.1
          have h2 : T.id < n.id := (hr n rfl).2
          exact Gd.ret ⟨⟨(hr n rfl).1, rfl⟩, by show D.N - n.id < D.N - T.id; omega⟩
        | none =>
          refine Gd.bind _ g_cnext fun x w' hw => ?_
          subst hw
          obtain ⟨c, op⟩ := x
          cases op with
          | remove => exact Gd.panic
          | abort a => exact Gd.ret trivial
          | insert v =>
            refine Gd.bind0 _ (g_prepareRetryInsert hc hT) fun n hn => Gd.bind _ g_crestore fun c w' hw => ?_
            subst hw
            have h1 := hn.1.1
            have h2 : T.id < n.id := hn.2
            exact Gd.ret ⟨⟨hn.1, rfl⟩, by show D.N - n.id < D.N - T.id; omega⟩

end compute

/-! ## Operations on the whole map -/

theorem fe_getOrAllocNext {σ : St K V} {c : Option Nat} (hσ : FOk C D σ) :
    FE D σ (getOrAllocNext C c T : Prog K V Table) fun _ => σ.next T.id ≠ none := by
  have hn : ∀ r : Option Table, r = (σ.next T.id).map σ.handle → ∀ n, r = some n → σ.next T.id ≠ none := by
    rintro r hr n rfl h
    rw [h] at hr
    cases hr
  have hl : FE D σ (allocNextLocked C c T : Prog K V Table) fun _ => σ.next T.id ≠ none := by
    unfold allocNextLocked
    refine FE.step fun r _ hr => ?_
    cases r with
    | some n => exact FE.step fun _ _ _ => .ret (hn _ hr n rfl)
    | none =>
      refine FE.bind (Gd.fe (g_len (D := D)) hσ) fun active _ => ?_
      refine FE.ite (fun _ => FE.ite (fun _ => FE.ite (fun _ => ?_) fun _ => ?_) fun _ => ?_) fun _ => ?_
      · exact FE.step fun n _ h => h.elim
      all_goals exact FE.step fun _ _ _ => .panic
  unfold getOrAllocNext
  refine FE.step fun r _ hr => ?_
  cases r with
  | some n => exact .ret (hn _ hr n rfl)
  | none =>
    refine FE.step fun b _ _ => FE.ite (fun _ => hl) fun _ => ?_
    refine FE.bind (R := fun r => ∀ n, r = some n → σ.next T.id ≠ none) ?_ fun r hr => ?_
    · refine FE.loop (fun _ => True) (fun s => C.spinAlloc + 1 - s) (fun s _ => ?_) trivial
      refine FE.ite (fun hs => ?_) fun _ => .ret (by rintro n ⟨⟩)
      refine FE.step fun r _ hr => ?_
      cases r with
      | some n => exact .ret (by rintro m ⟨⟩; exact hn _ hr n rfl)
      | none => exact .ret ⟨trivial, by show C.spinAlloc + 1 - (s + 1) < C.spinAlloc + 1 - s; omega⟩
    · cases r with
      | some n => exact .ret (hr n rfl)
      | none => exact FE.step fun b _ _ => FE.ite (fun _ => hl) fun _ => .panic

theorem g_reserve {a : Nat} (hc : C.Copies) : G0 C D (reserve C a : Prog K V Unit) fun _ => True := by
  unfold reserve
  refine Gd.bind0 (fun T => T.In D) ?_ fun T hT => ?_
  · refine Gd.go fun r hr => ?_
    cases r with
    | some T => exact Gd.ret (hr T rfl)
    | none =>
      cases entriesFor a with
      | some n => exact g_initTable
      | none => exact Gd.panic
  · refine G0.loop (fun T => T.In D) (fun T hT => ?_) (fun σ T hσ hT => ?_) hT
    · refine Gd.bind0 _ g_len fun n _ => Gd.ite (fun _ => ?_) fun _ => Gd.panic
      cases entriesFor (n + a) with
      | none => exact Gd.panic
      | some cap =>
        exact Gd.ite (fun _ => Gd.ret trivial) fun _ => Gd.bind0 _ g_getOrAllocNext fun _ _ => Gd.bind0 _ (g_helpCopy hc hT) fun n hn => Gd.ret hn.1
    · cases hi : C.inc with
      | true =>
        refine FE.loop (fun T => T.In D) (fun T => if σ.next T.id = none then 0 else 1) (fun T hT => ?_) hT
        refine FE.bind (Gd.fe (g_len (D := D)) hσ) fun n _ => FE.ite (fun _ => ?_) fun _ => .panic
        cases entriesFor (n + a) with
        | none => exact .panic
        | some cap =>
          refine FE.ite (fun _ => .ret trivial) fun _ => FE.bind (fe_getOrAllocNext hσ) fun _ hne => ?_
          refine FE.bind (fe_helpCopy hσ hc hi) fun n hn => .ret ⟨hn.1, ?_⟩
          show (if σ.next n.id = none then 0 else 1) < if σ.next T.id = none then 0 else 1
          rw [if_pos hn.2, if_neg hne]
          omega
      | false =>
        refine FE.loop (fun T => T.In D) (fun T => D.N - T.id) (fun T hT => ?_) hT
        refine FE.bind (Gd.fe (g_len (D := D)) hσ) fun n _ => FE.ite (fun _ => ?_) fun _ => .panic
        cases entriesFor (n + a) with
        | none => exact .panic
        | some cap =>
          refine FE.ite (fun _ => .ret trivial) fun _ => FE.bind (fe_getOrAllocNext hσ) fun _ hne => ?_
          refine FE.bind ((g_helpCopy hc hT).fe hσ) fun n ⟨_, hn⟩ => .ret ⟨hn.1, ?_⟩
          have h1 := hn.1.1
          have h2 := hn.2 (.inl hi)
          show D.N - n.id < D.N - T.id
          omega

theorem fe_deleteLoop {σ : St K V} {f : Closure (K × V) Bool} {i : Nat} {st : f.Tr} {s : Slot K V} :
    FE D σ (deleteLoop C f T i st s) fun r => r.2 = true → s.copying = true ∨ (σ.slot T.id i).copying = true := by
  unfold deleteLoop
  refine FE.loop (fun x => x.2.copying = true → s.copying = true ∨ (σ.slot T.id i).copying = true)
    (fun x => if x.2 = σ.slot T.id i then 0 else 1) (fun x hx => ?_) .inl
  obtain ⟨st, s'⟩ := x
  generalize hp : s'.ptr = o
  cases o with
  | none =>
    dsimp only
    rw [hp]
    exact .ret fun h => by cases h
  | some e =>
    dsimp only at hx ⊢
    rw [hp]
    refine FE.ite (fun h => .ret fun _ => hx h) fun hcp => FE.step fun _ _ _ => FE.bind fe_invoke fun y _ => ?_
    obtain ⟨st, b⟩ := y
    refine FE.ite (fun _ => .ret fun h => by cases h) fun _ => ?_
    refine fe_casTomb ⟨by rw [hp]; exact Option.some_ne_none _, by simpa using hcp⟩ fun hne => .ret ⟨fun h => .inr h, ?_⟩
    show (if σ.slot T.id i = σ.slot T.id i then 0 else 1) < if s' = σ.slot T.id i then 0 else 1
    rw [if_pos rfl, if_neg hne]
    omega

theorem g_deleteLoop {f : Closure (K × V) Bool} {i : Nat} {st : f.Tr} {s : Slot K V} (hT : T.In D) :
    G0 C D (deleteLoop C f T i st s) fun _ => True := by
  unfold deleteLoop
  refine G0.loop (fun _ => True) (fun x _ => ?_) (fun σ x hσ _ => ?_) trivial
  · obtain ⟨st, s⟩ := x
    generalize hp : s.ptr = o
    cases o with
    | none => dsimp only; rw [hp]; exact Gd.ret trivial
    | some e =>
      dsimp only
      rw [hp]
      refine Gd.ite (fun _ => Gd.ret trivial) fun hcp => Gd.go fun _ _ => Gd.bind0 _ (g_invoke.post fun _ _ _ => trivial) fun y _ => ?_
      obtain ⟨st, b⟩ := y
      refine Gd.ite (fun _ => Gd.ret trivial) fun _ => ?_
      refine Gd.go (fun r _ => ?_) (.inr ⟨by rw [hp]; exact Option.some_ne_none _, by simpa using hcp, rfl⟩)
      cases r with
      | none => exact Gd.go fun _ _ => Gd.go fun _ _ => Gd.bind0 _ (g_deferRetire hT) fun _ _ => Gd.ret trivial
      | some found => exact Gd.ret trivial
  · obtain ⟨st, s⟩ := x
    exact (fe_deleteLoop (C := C) (st := st) (s := s)).post fun _ _ => trivial

theorem g_clearPass (hT : T.In D) : G0 C D (clearPass C T : Prog K V Bool) fun _ => True := by
  unfold clearPass
  refine G0.count (fun _ => True) (fun s => T.len - s.1) (fun s _ => ?_) trivial
  obtain ⟨i, c⟩ := s
  refine Gd.ite (fun hi => Gd.go fun s _ => Gd.bind0 _ (g_deleteLoop hT) fun r _ => ?_) fun _ => Gd.ret trivial
  exact Gd.ret ⟨trivial, by show T.len - (i + 1) < T.len - i; omega⟩

theorem fe_clearPass {σ : St K V} (hσ : FOk C D σ) (hn : σ.next T.id = none) : FE D σ (clearPass C T : Prog K V Bool) fun b => b = false := by
  unfold clearPass
  refine FE.loop (fun s => s.2 = false) (fun s => T.len - s.1) (fun s hs => ?_) rfl
  obtain ⟨i, c⟩ := s
  refine FE.ite (fun hi => FE.step fun s _ hs' => FE.bind fe_deleteLoop fun r hr => ?_) fun _ => .ret hs
  have hs' : s = σ.slot T.id i := hs'
  have hs : c = false := hs
  obtain ⟨st, b⟩ := r
  refine .ret ⟨?_, by show T.len - (i + 1) < T.len - i; omega⟩
  show (c || b) = false
  rw [hs, Bool.false_or]
  refine Bool.eq_false_iff.2 fun hb => ?_
  rcases hr hb with h | h
  · exact hσ.copying _ _ (hs' ▸ h) hn
  · exact hσ.copying _ _ h hn

theorem g_clear (hc : C.Copies) : G0 C D (clear C : Prog K V Unit) fun _ => True := by
  unfold clear
  refine Gd.go fun r hr => ?_
  cases r with
  | none => exact Gd.ret trivial
  | some T =>
    refine G0.loop (fun T => T.In D) (fun T hT => ?_) (fun σ T hσ hT => ?_) (hr T rfl)
    · refine Gd.bind0 _ (g_linearize hc hT) fun n hn => Gd.bind0 _ (g_clearPass hn.1) fun b _ => ?_
      exact Gd.ite (fun _ => Gd.bind0 _ (g_helpCopy hc hn.1) fun n hn => Gd.ret hn.1) fun _ => Gd.ret trivial
    · cases hi : C.inc with
      | true =>
        refine FE.once (FE.bind (fe_linearize hσ hc hi hT) fun n hn => FE.bind (fe_clearPass hσ hn.2) fun b hb => ?_)
        exact FE.ite (fun h => absurd h (by rw [hb]; exact Bool.false_ne_true)) fun _ => .ret ⟨_, rfl, trivial⟩
      | false =>
        refine FE.loop (fun T => T.In D) (fun T => D.N - T.id) (fun T hT => ?_) hT
        refine FE.bind ((g_linearize hc hT).fe hσ) fun n ⟨_, hn⟩ => ?_
        obtain ⟨hn, h'⟩ := hn
        have h' := h' hi
        subst h'
        refine FE.bind ((g_clearPass hn).fe hσ) fun b _ => FE.ite (fun _ => ?_) fun _ => .ret trivial
        refine FE.bind ((g_helpCopy hc hn).fe hσ) fun m ⟨_, hm⟩ => .ret ⟨hm.1, ?_⟩
        have h1 := hm.1.1
        have h2 := hm.2 (.inl hi)
        show D.N - m.id < D.N - n.id
        omega

theorem g_retainPass {f : Closure (K × V) Bool} {st : f.Tr} (hT : T.In D) : G0 C D (retainPass C f st T) fun _ => True := by
  unfold retainPass
  refine G0.count (fun _ => True) (fun s => T.len - s.1) (fun s _ => ?_) trivial
  obtain ⟨i, st, c⟩ := s
  have hlt : i < T.len → T.len - (i + 1) < T.len - i := fun _ => by omega
  refine Gd.ite (fun hi => Gd.go fun m _ => Gd.ite (fun _ => Gd.ret ⟨trivial, hlt hi⟩) fun _ => ?_) fun _ => Gd.ret trivial
  exact Gd.go fun s _ => Gd.bind0 _ (g_deleteLoop hT) fun r _ => Gd.ret ⟨trivial, hlt hi⟩

theorem fe_retainPass {σ : St K V} {f : Closure (K × V) Bool} {st : f.Tr} (hσ : FOk C D σ) (hn : σ.next T.id = none) :
    FE D σ (retainPass C f st T) fun r => r.2 = false := by
  unfold retainPass
  refine FE.loop (fun s => s.2.2 = false) (fun s => T.len - s.1) (fun s hs => ?_) rfl
  obtain ⟨i, st, c⟩ := s
  have hs : c = false := hs
  have hlt : i < T.len → T.len - (i + 1) < T.len - i := fun _ => by omega
  refine FE.ite (fun hi => FE.step fun m _ _ => FE.ite (fun _ => .ret ⟨hs, hlt hi⟩) fun _ => ?_) fun _ => .ret hs
  refine FE.step fun s _ hs' => FE.bind fe_deleteLoop fun r hr => ?_
  have hs' : s = σ.slot T.id i := hs'
  obtain ⟨st, b⟩ := r
  refine .ret ⟨?_, hlt hi⟩
  show (c || b) = false
  rw [hs, Bool.false_or]
  refine Bool.eq_false_iff.2 fun hb => ?_
  rcases hr hb with h | h
  · exact hσ.copying _ _ (hs' ▸ h) hn
  · exact hσ.copying _ _ h hn

theorem g_retain {f : Closure (K × V) Bool} (hc : C.Copies) : G0 C D (retain C f) fun _ => True := by
  unfold retain
  refine Gd.go fun r hr => ?_
  cases r with
  | none => exact Gd.ret trivial
  | some T =>
    refine G0.loop (fun s => s.1.In D) (fun s hT => ?_) (fun σ s hσ hT => ?_) (hr T rfl)
    · obtain ⟨T, st⟩ := s
      refine Gd.bind0 _ (g_linearize hc hT) fun n hn => Gd.bind0 _ (g_retainPass hn.1) fun b _ => ?_
      obtain ⟨st, b⟩ := b
      exact Gd.ite (fun _ => Gd.bind0 _ (g_helpCopy hc hn.1) fun n hn => Gd.ret hn.1) fun _ => Gd.ret trivial
    · cases hi : C.inc with
      | true =>
        obtain ⟨T, st⟩ := s
        refine FE.once (FE.bind (fe_linearize hσ hc hi hT) fun n hn => FE.bind (fe_retainPass hσ hn.2) fun b hb => ?_)
        obtain ⟨st, b⟩ := b
        exact FE.ite (fun h => absurd h (by rw [show b = false from hb]; exact Bool.false_ne_true)) fun _ => .ret ⟨_, rfl, trivial⟩
      | false =>
        refine FE.loop (fun s => s.1.In D) (fun s => D.N - s.1.id) (fun s hT => ?_) hT
        obtain ⟨T, st⟩ := s
        refine FE.bind ((g_linearize hc hT).fe hσ) fun n ⟨_, hn⟩ => ?_
        obtain ⟨hn, h'⟩ := hn
        have h' := h' hi
        subst h'
        refine FE.bind ((g_retainPass hn).fe hσ) fun b _ => ?_
        obtain ⟨st, b⟩ := b
        refine FE.ite (fun _ => ?_) fun _ => .ret trivial
        refine FE.bind ((g_helpCopy hc hn).fe hσ) fun m ⟨_, hm⟩ => .ret ⟨hm.1, ?_⟩
        have h1 := hm.1.1
        have h2 := hm.2 (.inl hi)
        show D.N - m.id < D.N - n.id
        omega

theorem g_iterUpTo {l : Option Nat} (hc : C.Copies) : G0 C D (iterUpTo C l : Prog K V (List (Entry K V))) fun _ => True := by
  unfold iterUpTo
  refine Gd.go fun r hr => ?_
  cases r with
  | none => exact Gd.ret trivial
  | some T =>
    refine Gd.bind0 _ (g_linearize hc (hr T rfl)) fun T hT => ?_
    refine G0.count (fun _ => True) (fun s => T.len - s.1) (fun s _ => ?_) trivial
    obtain ⟨i, acc⟩ := s
    have hlt : i < T.len → T.len - (i + 1) < T.len - i := fun _ => by omega
    refine Gd.ite (fun _ => Gd.ret trivial) fun _ => Gd.ite (fun hi => ?_) fun _ => Gd.ret trivial
    refine Gd.go fun m _ => Gd.ite (fun _ => Gd.ret ⟨trivial, hlt hi⟩) fun _ => Gd.go fun s _ => ?_
    cases s.ptr with
    | none => exact Gd.ret ⟨trivial, hlt hi⟩
    | some e => exact Gd.go fun _ _ => Gd.ret ⟨trivial, hlt hi⟩

/-! ## All operations -/

theorem Gd.more {α : Type} {p : Prog K V α} (h : G0 C D p fun _ => True) : Gd C D w p fun _ _ => True :=
  h.frame.post fun _ _ _ => trivial

theorem g_tryInsert {k : K} {v : V} (hc : C.Copies) : Gd C D 1 (Call.tryInsertProg C k v) fun _ _ => True := by
  unfold Call.tryInsertProg
  refine Gd.bind _ (g_insert hc) fun r w _ => ?_
  cases r with
  | replaced a b => exact Gd.panic
  | _ => exact Gd.ret trivial

theorem g_tryInsertWith {k : K} {f : Closure Unit V} (hc : C.Copies) : Gd C D 1 (tryInsertWith C k f) fun _ _ => True := by
  unfold tryInsertWith
  refine Gd.bind _ (g_compute hc) fun r w _ => ?_
  cases r.out with
  | aborted a s =>
    cases s with
    | none => exact Gd.panic
    | some e => exact Gd.ret trivial
  | inserted e => exact Gd.ret trivial
  | updated a b => exact Gd.panic
  | removed e => exact Gd.panic

theorem g_updateOrInsert {k : K} {u : Closure V V} {f : Closure Unit V} (hc : C.Copies) :
    Gd C D 1 (updateOrInsertWith C k u f) fun _ _ => True := by
  unfold updateOrInsertWith
  refine Gd.bind _ (g_compute hc) fun r w _ => ?_
  cases r.out with
  | updated a b => exact Gd.ret trivial
  | inserted e => exact Gd.ret trivial
  | aborted a s => exact Gd.panic
  | removed e => exact Gd.panic

theorem g_call (c : Call K V) (hc : C.Copies) : Gd C D 1 (c.prog C) fun _ _ => True := by
  cases c with
  | get k => exact Gd.more g_get
  | containsKey k => exact Gd.bind _ (Gd.more g_get) fun r w _ => Gd.ret trivial
  | insert k v =>
    refine Gd.bind _ (g_insert hc) fun r w _ => ?_
    cases r with
    | inserted e => exact Gd.ret trivial
    | replaced a b => exact Gd.ret trivial
    | error a b => exact Gd.panic
  | tryInsert k v => exact g_tryInsert hc
  | tryInsertWith k f => exact g_tryInsertWith hc
  | getOrInsert k v =>
    refine Gd.bind _ (g_tryInsert hc) fun r w _ => ?_
    cases r with
    | inl e => exact Gd.ret trivial
    | inr p => exact Gd.ret trivial
  | getOrInsertWith k f =>
    show Gd C D 1 (getOrInsertWith C k f) _
    unfold getOrInsertWith
    refine Gd.bind _ (g_tryInsertWith hc) fun r w _ => ?_
    cases r with
    | inl e => exact Gd.ret trivial
    | inr p => exact Gd.ret trivial
  | update k f =>
    show Gd C D 1 (update C k f) _
    unfold update
    refine Gd.bind _ (g_compute hc) fun r w _ => ?_
    cases r.out with
    | updated a b => exact Gd.ret trivial
    | inserted e => exact Gd.panic
    | aborted a s => exact Gd.ret trivial
    | removed e => exact Gd.panic
  | updateOrInsert k u v => exact g_updateOrInsert hc
  | updateOrInsertWith k u f => exact g_updateOrInsert hc
  | compute k f => exact g_compute hc
  | remove k => exact Gd.more (g_remove hc)
  | removeIf k f => exact Gd.more (g_removeIf hc)
  | clear => exact Gd.more (g_clear hc)
  | retain f => exact Gd.more (g_retain hc)
  | iter => exact Gd.more (g_iterUpTo hc)
  | iterTake n => exact Gd.more (g_iterUpTo hc)
  | len => exact Gd.more g_len
  | isEmpty => exact Gd.bind _ (Gd.more g_len) fun r w _ => Gd.ret trivial
  | reserve n => exact Gd.more (g_reserve hc)

end Papaya
