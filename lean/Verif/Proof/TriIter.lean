import Verif.Proof.TriWrap

/-! # Triples of `clear`, `retain`, `iter` and `reserve` -/

set_option linter.unusedSectionVars false
set_option linter.unusedVariables false

namespace Papaya

variable {K V : Type} [DecidableEq K]

open GSt

variable {C : Cfg K} {t : Tid} {Ap : PanicReason → Prop} {S S' : GSt K V} {k : K}

instance firmGone {T i : Nat} : Firm (V := V) C t (GoneOr (V := V) t T i k) := ⟨fun S S' h1 h2 h3 h4 h => by
  rcases h with ⟨e, g1, g2⟩ | h
  · rcases h3.key T i e g1 with ⟨_, g4⟩ | ⟨e', g3, g4⟩
    · right; rw [g2] at g4; exact SeenIn.now h2 g4
    · left; exact ⟨e', g3, g4.trans g2⟩
  · right; exact Firm.firm (C := C) (t := t) S S' h1 h2 h3 h4 h⟩

theorem DoneEv.new {old new : Option (Entry K V)} (h : S.Inv C) (hd : DoneEv t k old new S) : SeenIn t k new S := by
  obtain ⟨l, hl⟩ := hd
  refine ⟨_, hl, ?_, ?_⟩
  · have := (h.e.e1 l _ hl).pos t rfl
    simp; omega
  · rw [abs_snoc, if_pos rfl]

theorem DoneEv.old {old new : Option (Entry K V)} (h : S.Inv C) (hd : DoneEv t k old new S) : SeenIn t k old S := by
  obtain ⟨l, hl⟩ := hd
  exact ⟨l, (List.prefix_append _ _).trans hl, (h.e.e1 l _ hl).pos t rfl, (h.e.e1 l _ hl).old.symm⟩

/-- Key `k` is dealt with, or (unless it was absent at some instant) it is in table `T` at an index from `lo` on. -/
def LeftR (t : Tid) (Res : K → GSt K V → Prop) (T lo : Nat) (k : K) (S : GSt K V) : Prop :=
  Res k S ∨ ∃ j, lo ≤ j ∧ GoneOr t T j k S ∧ S.md T j ≠ EMPTY

instance {Res : K → GSt K V → Prop} [∀ k, Inert C t (Res k)] {T lo : Nat} : Inert C t (LeftR t Res T lo k) := by
  unfold LeftR; infer_instance

theorem cover (h : S.Inv C) {T : Table} (ha : RootAcc t T S) (hl : C.inc = false ∨ S.nTabs = T.id + 1) (k : K) :
    SeenIn t k none S ∨ ∃ j, GoneOr t T.id j k S ∧ S.md T.id j ≠ EMPTY := by
  have hw := ha.2.1
  rcases Nat.lt_or_eq_of_le hw.2.1 with hr | hr
  · by_cases hn : abs (S.demLog T.id) k = none
    · exact .inl ⟨S.demLog T.id, h.l.d1 _ hw hr, h.l.d2 t _ hw hr ha.2.2, hn⟩
    · rcases h.l.l1 T.id k hw hr hn with ⟨hi, _⟩ | ⟨i, e, h1, h2, h3⟩
      · rcases hl with hl | hl
        · rw [hi] at hl; cases hl
        · have := rt_lt h.s hw.1; omega
      · exact .inr ⟨i, .inl ⟨e, h1, h2⟩, h3⟩
  · cases hk : abs S.log k with
    | none => exact .inl (SeenIn.now h hk)
    | some e =>
      obtain ⟨T', i, hv, h2, h3⟩ := (h.l.a k e).1 hk
      have : T' = T.id := by
        rcases hl with hl | hl
        · exact (vis_blocking h.p hl hv).trans hr.symm
        · have h1 := hv.1
          have h2 := kslot_lt h.s hv.2.2.1
          omega
      subst this
      exact .inr ⟨i, .inl ⟨e, hv.2.2.1, h3⟩, h2⟩

/-- A table that holds every key that was present throughout the call so far. -/
def Covers (t : Tid) (Res : K → GSt K V → Prop) (T lo : Nat) (S : GSt K V) : Prop := ∀ k, LeftR t Res T lo k S

instance {Res : K → GSt K V → Prop} [∀ k, Inert C t (Res k)] {T lo : Nat} : Inert C t (Covers t Res T lo) := by
  unfold Covers; infer_instance

theorem LeftR.mono {Res Res' : K → GSt K V → Prop} {T lo : Nat} (hr : ∀ k, Res k S → Res' k S) (h : LeftR t Res T lo k S) :
    LeftR t Res' T lo k S := h.imp (hr k) id

theorem Covers.mono {Res Res' : K → GSt K V → Prop} {T lo : Nat} (hr : ∀ k, Res k S → Res' k S) (h : Covers t Res T lo S) :
    Covers t Res' T lo S := fun k => (h k).mono hr

theorem covers_root {Res : K → GSt K V → Prop} (h : S.Inv C) (hres : ∀ k, SeenIn t k none S → Res k S)
    {T : Table} (ha : RootAcc t T S) (hl : C.inc = false ∨ S.nTabs = T.id + 1) : Covers t Res T.id 0 S := by
  intro k
  rcases cover h ha hl k with h1 | ⟨j, h1, h2⟩
  · exact .inl (hres k h1)
  · exact .inr ⟨j, Nat.zero_le _, h1, h2⟩

theorem tri_linearizeC {Ap : PanicReason → GSt K V → Prop} [hA : SysA C Ap] {Res : K → GSt K V → Prop} [hR : ∀ k, Inert C t (Res k)]
    (hres : ∀ k S, SeenIn t k none S → Res k S) {T : Table} :
    Tri (V := V) C t Ap (Mt t) (fun S => RootAcc t T S) (linearize C T)
      (fun n S => (RootAcc t n S ∧ (C.inc = true → LinTab t n.id S)) ∧ Covers t Res n.id 0 S) := by
  unfold linearize
  refine Tri.ite (fun hi => ?_) (fun hi => Tri.ret fun S h hp => ⟨⟨hp, fun h' => absurd h' hi⟩,
    covers_root h (hres · S) hp (.inl (by simpa using hi))⟩)
  refine Tri.loop (fun T S => RootAcc t T S) ?_
  intro T
  refine Tri.bind (fun r S => match r with
    | none => (RootAcc t T S ∧ LinTab t T.id S) ∧ Covers t Res T.id 0 S
    | some _ => RootAcc t T S ∧ T.id + 1 < S.nTabs) ?_ ?_
  · refine Tri.mt (tri_loadNext (fun S _ h => h.1) _ ?_ ?_)
    · intro S N h hp h1 h2; exact ⟨hp, by rw [← h2]; exact h1.2.1⟩
    · intro S h hp h1; exact ⟨⟨hp, fun h2 => by omega⟩, covers_root h (hres · S) hp (.inr h1)⟩
  rintro (_ | N)
  · exact Tri.ret fun S _ h => ⟨⟨h.1.1, fun _ => h.1.2⟩, h.2⟩
  · simp only
    refine Tri.bind _ tri_helpCopyAll ?_
    intro n
    exact Tri.ret fun S _ h => h

/-! ## Deleting the entry of a slot -/

/-- What is remembered of the calls of the closure. -/
structure Wit (f : Closure (K × V) Bool) where
  W : f.Tr → K × V → Bool → Prop
  mem : ∀ s x b, f.Run s → (x, b) ∈ s.calls → W s x b
  mono : ∀ s s' x b, s.calls <+: s'.calls → W s x b → W s' x b

/-- Remembering all calls. -/
def Wit.calls (f : Closure (K × V) Bool) : Wit f :=
  ⟨fun s x b => (x, b) ∈ s.calls, fun _ _ _ _ h => h, fun _ _ _ _ h1 h2 => h1.subset h2⟩

/-- The closure of `clear` refuses everything. -/
def Wit.clear : Wit (Closure.pure fun _ : K × V => false) :=
  ⟨fun _ _ b => b = false, fun s x b h1 h2 => Closure.pure_made h1.made h2, fun _ _ _ _ _ h => h⟩

/-- `k` was absent at some instant, or mapped to an entry that `f` accepted. -/
def Kept1 (t : Tid) {f : Closure (K × V) Bool} (Wt : Wit f) (st : f.Tr) (k : K) (S : GSt K V) : Prop :=
  SeenIn t k none S ∨ ∃ e, SeenIn t k (some e) S ∧ e.key = k ∧ Wt.W st (e.key, e.val) true

instance {f : Closure (K × V) Bool} {Wt : Wit f} {st : f.Tr} : Inert C t (Kept1 t Wt st k) := by unfold Kept1; infer_instance
instance {f : Closure (K × V) Bool} {Wt : Wit f} {st : f.Tr} : Firm C t (Kept1 t Wt st k) := by unfold Kept1; infer_instance

theorem Kept1.mono {f : Closure (K × V) Bool} {Wt : Wit f} {st st' : f.Tr} (hp : st.calls <+: st'.calls) (h : Kept1 t Wt st k S) :
    Kept1 t Wt st' k S := h.imp id fun ⟨e, h1, h2, h3⟩ => ⟨e, h1, h2, Wt.mono _ _ _ _ hp h3⟩

/-- All changes made by the current operation are removals of entries that satisfy `D`. -/
def DelOk (t : Tid) (o : OpI K V) (D : K × V → Prop) (S : GSt K V) : Prop :=
  (o.multi = true ∧ OpIs t o S) ∧ ∀ ev ∈ S.log, ev.op = (t, S.seq t) → ∃ e, ev.old = some e ∧ ev.new = none ∧ ev.key = e.key ∧
    D (e.key, e.val)

instance {o : OpI K V} {D : K × V → Prop} : Inert C t (DelOk t o D) := ⟨fun S S' h1 h2 h3 h4 h => by
  refine ⟨⟨h.1.1, Inert.inert (C := C) (t := t) S S' h1 h2 h3 h4 h.1.2⟩, fun ev hev ho => ?_⟩
  obtain ⟨l, hl⟩ := h3.log
  rw [← hl] at hev
  rw [h4.seq] at ho
  rcases List.mem_append.1 hev with g | g
  · exact h.2 ev g ho
  · obtain ⟨_, e, x, g1, g2, g3, g4, g5⟩ := h4.evs ev (by rw [← hl, List.drop_left]; exact g) (by rw [ho])
    have h6 := (h1.e.e5 _ _ g2).2
    have h7 : S.ops (t, S.seq t) = o := h.1.2
    rw [g4, ho, h7, h.1.1] at h6
    cases h6⟩

theorem DelOk.mono {o : OpI K V} {D D' : K × V → Prop} (hd : ∀ x, D x → D' x) (h : DelOk t o D S) : DelOk t o D' S :=
  ⟨h.1, fun ev h1 h2 => let ⟨e, g1, g2, g3, g4⟩ := h.2 ev h1 h2; ⟨e, g1, g2, g3, hd _ g4⟩⟩

/-- Slot `i` of `T` was read as `s` (`cov`: nothing was skipped so far). -/
def SlotI (C : Cfg K) (t : Tid) (cov : Prop) {f : Closure (K × V) Bool} (Wt : Wit f) (st : f.Tr) (T i : Nat) (s : Slot K V) (S : GSt K V) : Prop :=
  (cov → ∀ k, LeftR t (Kept1 t Wt st) T (i + 1) k S ∨ (∃ e, s.ptr = some e ∧ e.key = k) ∧ GoneOr t T i k S ∧ S.md T i ≠ EMPTY) ∧
  ∀ e, s.ptr = some e → S.Prot t e ∧ (s.copying = true → T + 1 < S.nTabs) ∧
    ((∀ x, ¬ f.Says x true) ∨ (S.md T i ≠ EMPTY ∧ (s.copying = false → SeenIn t e.key (some e) S)))

instance {cov : Prop} {f : Closure (K × V) Bool} {Wt : Wit f} {st : f.Tr} {T i : Nat} {s : Slot K V} :
    Inert C t (SlotI C t cov Wt st T i s) := by unfold SlotI; infer_instance

theorem SlotI.mono {cov : Prop} {f : Closure (K × V) Bool} {Wt : Wit f} {st st' : f.Tr} {T i : Nat} {s : Slot K V}
    (hp : st.calls <+: st'.calls) (h : SlotI C t cov Wt st T i s S) : SlotI C t cov Wt st' T i s S :=
  ⟨fun hcov k => (h.1 hcov k).imp (·.mono fun _ => Kept1.mono hp) id, h.2⟩

theorem slotI {cov : Prop} {f : Closure (K × V) Bool} {Wt : Wit f} {st : f.Tr} {T : Table} {i : Nat} (h : S.Inv C) (ha : RootAcc t T S)
    (hc : cov → Covers t (Kept1 t Wt st) T.id i S) (hm : (∀ x, ¬ f.Says x true) ∨ S.md T.id i ≠ EMPTY) :
    SlotI C t cov Wt st T.id i (S.slot T.id i) S := by
  refine ⟨fun hcov k => ?_, fun e he => ⟨ha.1.prot h he, fun hcp => (h.p.p5 _ _ hcp).2, ?_⟩⟩
  · rcases hc hcov k with h1 | ⟨j, h1, h2, h3⟩
    · exact .inl (.inl h1)
    · by_cases hj : j = i
      · subst hj
        rcases h2 with ⟨e, g1, g2⟩ | h2
        · exact .inr ⟨⟨e, g1, g2⟩, .inl ⟨e, g1, g2⟩, h3⟩
        · exact .inl (.inl (.inl h2))
      · exact .inl (.inr ⟨j, by omega, h2, h3⟩)
  · rcases hm with hm | hm
    · exact .inl hm
    · refine .inr ⟨hm, fun hcp => found_seen (C := C) h ha.atTable he rfl ?_ hm⟩
      intro hcd
      have := (h.p.p7 _ _ _ he hcd).2
      unfold copying at this
      rw [hcp] at this; cases this

theorem OpB.delOk {o : OpI K V} {D : K × V → Prop} (h : OpB t o S) (hm : o.multi = true) : DelOk t o D S :=
  ⟨⟨hm, h.2.1⟩, fun ev h1 h2 => absurd h2 (h.2.2.1 ev h1)⟩

theorem tri_deleteLoop {cov : Prop} {f : Closure (K × V) Bool} (Wt : Wit f) {o : OpI K V} {T : Table} {i : Nat} {st : f.Tr}
    {s : Slot K V} (hi : i < T.len) (hre : f.Run st) (hmul : o.multi = true)
    (hpan : ∀ s x r, f.Run s → f.call s.st x = .error r → Ap r)
    (heff : ∀ e : Entry K V, f.Says (e.key, e.val) false → o.eff e.key (some e) none) :
    Tri C t (PB Ap (OpR t o)) (Mo t) (fun S => (OpR t o S ∧ RootAcc t T S) ∧ SlotI C t cov Wt st T.id i s S ∧ DelOk t o (Wt.W st · false) S)
      (deleteLoop C f T i st s)
      (fun r S => (f.Run r.1 ∧ st.calls <+: r.1.calls) ∧ (OpR t o S ∧ RootAcc t T S) ∧
        (r.2 = false → cov → Covers t (Kept1 t Wt r.1) T.id (i + 1) S) ∧
        (r.2 = true → T.id + 1 < S.nTabs) ∧ DelOk t o (Wt.W r.1 · false) S) := by
  have hg := fun S : GSt K V => Mo.refl t S
  unfold deleteLoop
  refine (Tri.loop (s := (st, s)) (fun (x : f.Tr × Slot K V) S => (f.Run x.1 ∧ st.calls <+: x.1.calls) ∧
    ((OpR t o S ∧ RootAcc t T S) ∧ SlotI C t cov Wt x.1 T.id i x.2 S ∧ DelOk t o (Wt.W x.1 · false) S)) ?_).pre
    (fun S _ h => ⟨⟨hre, List.prefix_refl _⟩, h⟩)
  clear hre
  generalize st = st0
  rintro ⟨st, s⟩
  refine Tri.extract (φ := f.Run st ∧ st0.calls <+: st.calls) (fun S _ h => h.1) fun ⟨hre, hpre⟩ => ?_
  refine Tri.pre (P := fun S => (OpR t o S ∧ RootAcc t T S) ∧ SlotI C t cov Wt st T.id i s S ∧ DelOk t o (Wt.W st · false) S) ?_
    (fun S _ h => h.2)
  simp only
  cases hs : s.ptr with
  | none =>
    refine Tri.ret fun S _ h => ⟨⟨hre, hpre⟩, h.1, fun _ hcov k => ?_, by rintro ⟨⟩, h.2.2⟩
    rcases h.2.1.1 hcov k with h1 | ⟨⟨e, h1, _⟩, _⟩
    · exact h1
    · rw [hs] at h1; cases h1
  | some e =>
    simp only
    refine Tri.ite (fun hcp => Tri.ret fun S _ h => ⟨⟨hre, hpre⟩, h.1, by rintro ⟨⟩,
      fun _ => (h.2.1.2 e hs).2.1 hcp, h.2.2⟩) (fun hcp => ?_)
    have hcp' : s.copying = false := by simpa using hcp
    refine Tri.bind _ (tri_deref hg (fun S _ h => (h.2.1.2 e hs).1)) ?_
    intro _
    refine Tri.bind _ (tri_invoke hre (hpan st _ · hre) fun S h => h.1.1) ?_
    rintro ⟨st', b⟩
    refine Tri.extract (φ := f.Run st' ∧ st'.calls = st.calls ++ [((e.key, e.val), b)]) (fun S _ h => ⟨h.1.1, h.1.2.1⟩) ?_
    rintro ⟨hre', hcalls⟩
    have hst : st.calls <+: st'.calls := by rw [hcalls]; exact List.prefix_append _ _
    have hmem : ((e.key, e.val), b) ∈ st'.calls := by rw [hcalls]; simp
    have hpre' := hpre.trans hst
    refine Tri.pre (P := fun S => (OpR t o S ∧ RootAcc t T S) ∧ SlotI C t cov Wt st' T.id i s S ∧ DelOk t o (Wt.W st' · false) S) ?_
      (fun S _ h => ⟨h.2.1, h.2.2.1.mono hst, h.2.2.2.mono fun x => Wt.mono _ _ _ _ hst⟩)
    have hrest : ∀ S : GSt K V, SlotI C t cov Wt st' T.id i s S → Kept1 t Wt st' e.key S → cov →
        Covers t (Kept1 t Wt st') T.id (i + 1) S := by
      intro S h1 h2 hcov k
      rcases h1.1 hcov k with g | ⟨⟨e', g1, g2⟩, _⟩
      · exact g
      · rw [hs] at g1; cases g1
        exact .inl (g2 ▸ h2)
    refine Tri.ite (fun hb => Tri.ret fun S _ h => ?_) (fun hb => ?_)
    · subst hb
      refine ⟨⟨hre', hpre'⟩, h.1, fun _ => hrest S h.2.1 ?_, by rintro ⟨⟩, h.2.2⟩
      rcases (h.2.1.2 e hs).2.2 with g | g
      · exact absurd (hre'.says hmem) (g _)
      · exact .inr ⟨e, g.2 hcp', rfl, Wt.mem _ _ _ hre' hmem⟩
    have hb : b = false := by simpa using hb
    subst hb
    have hsay : f.Says (e.key, e.val) false := hre'.says hmem
    have hinst : Inert C t (fun S : GSt K V => Owes t (-1) S ∧ (RootAcc t T S ∧ Pinned t S ∧ OpIs t o S ∧
      DoneEv t e.key (some e) none S ∧ SlotI C t cov Wt st' T.id i s S ∧ DelOk t o (Wt.W st' · false) S)) := inferInstance
    refine Tri.bind (fun r S => match r with
      | none => (Acc t T S ∧ MdOk C T.id i TOMBSTONE S) ∧ (OneTok t e (unlinkOf C s T.id) S ∧ (Owes t (-1) S ∧
          (RootAcc t T S ∧ Pinned t S ∧ OpIs t o S ∧ DoneEv t e.key (some e) none S ∧ SlotI C t cov Wt st' T.id i s S ∧ DelOk t o (Wt.W st' · false) S)))
      | some s' => (OpR t o S ∧ RootAcc t T S) ∧ SlotI C t cov Wt st' T.id i s' S ∧ DelOk t o (Wt.W st' · false) S) ?_ ?_
    · refine Tri.act (fun S h hp => ⟨hp.1.2.1.idx_len h hi, rfl,
        (fun e' he' => Prot.entIs h (hp.2.1.2 e' he').1), Acc.entOk h hp.1.2.1⟩) ?_
      intro S r σ'' h hp he
      obtain ⟨⟨hb, hc⟩, hw, hdel⟩ := hp
      rcases he with ⟨h1, rfl, rfl⟩ | ⟨h1, rfl, rfl⟩
      · obtain ⟨S', g1, g2, g3, g4, g5, g6, g7, g8, g9, g10, g11, g12⟩ := tomb_step h hs hcp' (heff e hsay) hb
          (hc.pctx (k := e.key)) rfl h1
        have hra : RootAcc t T S' := Firm.firm (C := C) (t := t) _ _ h g2 g3 g5.2.1 hc
        have hop : OpIs t o S' := Firm.firm (C := C) (t := t) _ _ h g2 g3 g5.2.1 hb.2.1
        have hdl : DelOk t o (Wt.W st' · false) S' := by
          refine ⟨⟨hmul, hop⟩, fun ev hev ho => ?_⟩
          rw [g5.2.1.seq] at ho
          rcases g12 ev hev (by rw [ho]) with g | rfl
          · exact hdel.2 ev g ho
          · exact ⟨e, rfl, rfl, rfl, Wt.mem _ _ _ hre' hmem⟩
        have hsl : SlotI C t cov Wt st' T.id i s S' := by
          refine ⟨fun hcov k => ?_, fun e' he' => ⟨g5.2.1.prot _ (hw.2 e' he').1, fun hc' => ?_, ?_⟩⟩
          · rcases hw.1 hcov k with (g | ⟨j, q1, q2, q3⟩) | g
            · exact .inl (.inl (Firm.firm (C := C) (t := t) _ _ h g2 g3 g5.2.1 g))
            · exact .inl (.inr ⟨j, q1, Firm.firm (C := C) (t := t) _ _ h g2 g3 g5.2.1 q2, g3.md _ _ q3⟩)
            · exact .inr ⟨g.1, Firm.firm (C := C) (t := t) _ _ h g2 g3 g5.2.1 g.2.1, g3.md _ _ g.2.2⟩
          · have := (hw.2 e' he').2.1 hc'; have := g3.nTabs; omega
          · rcases (hw.2 e' he').2.2 with g | g
            · exact .inl g
            · exact .inr ⟨g3.md _ _ g.1, fun hc' => Firm.firm (C := C) (t := t) _ _ h g2 g3 g5.2.1 (g.2 hc')⟩
        exact ⟨S', g1, g2, g3, g4, g5, ⟨hra.1, MdOk.of_nulled g11⟩, g7, g9, hra, g8, hop, g10, hsl, hdl⟩
      · refine ⟨S, rfl, h, Evo.refl S, fun t' _ => Own.refl t' S, Mo.refl t S, ⟨hb, hc⟩, ?_, hdel⟩
        refine slotI h hc ?_ ?_
        · intro hcov k
          rcases hw.1 hcov k with g | ⟨_, g1⟩
          · rcases g with g | ⟨j, q1, q2⟩
            · exact .inl g
            · exact .inr ⟨j, by omega, q2⟩
          · exact .inr ⟨i, Nat.le_refl _, g1⟩
        · rcases (hw.2 e hs).2.2 with g | g
          · exact .inl g
          · exact .inr g.1
    rintro (_ | s')
    · simp only
      refine Tri.bind (fun _ S => Owes t (-1) S ∧ (OneTok t e (unlinkOf C s T.id) S ∧ RootAcc t T S ∧ Pinned t S ∧ OpIs t o S ∧
        DoneEv t e.key (some e) none S ∧ SlotI C t cov Wt st' T.id i s S ∧ DelOk t o (Wt.W st' · false) S)) ?_ ?_
      · refine Tri.conseq ((tri_storeMd (V := V) (C := C) (t := t) (Ap := PB Ap (OpR t o)) hi (m := TOMBSTONE) (by decide)).frameQ
          (fun S => OneTok t e (unlinkOf C s T.id) S ∧ (Owes t (-1) S ∧
          (RootAcc t T S ∧ Pinned t S ∧ OpIs t o S ∧ DoneEv t e.key (some e) none S ∧ SlotI C t cov Wt st' T.id i s S ∧ DelOk t o (Wt.W st' · false) S)))).mt.mo ?_ ?_
        · exact fun S _ h => h
        · rintro _ S _ ⟨_, h1, h2, h3⟩
          exact ⟨h2, h1, h3⟩
      intro _
      refine Tri.bind (fun _ S => (Acc t T S ∧ OneTok t e (unlinkOf C s T.id) S) ∧ (Owes t 0 S ∧ (RootAcc t T S ∧ Pinned t S ∧ OpIs t o S ∧
        DoneEv t e.key (some e) none S ∧ SlotI C t cov Wt st' T.id i s S ∧ DelOk t o (Wt.W st' · false) S)))
        ((tri_addCount (d := -1) (d' := -1) rfl (fun S _ h => h)).post ?_) ?_
      · rintro _ S _ ⟨h1, h2, h3⟩
        exact ⟨⟨h3.1.1, h2⟩, by simpa using h1, h3⟩
      intro _
      refine Tri.bind _ (tri_deferRetire.help _) ?_
      intro _
      refine Tri.ret fun S h hp => ?_
      obtain ⟨h1, h2, h3, h4, h5, h6, h7, h8⟩ := hp
      exact ⟨⟨hre', hpre'⟩, ⟨⟨⟨h4, h1, h2⟩, h5, .inl hmul⟩, h3⟩, fun _ => hrest S h7 (.inl (h6.new h)), by rintro ⟨⟩, h8⟩
    · exact Tri.ret fun S _ h => ⟨⟨hre', hpre'⟩, h⟩

/-! ## `clear` and `retain` -/

/-- While a table is being emptied: `b`, some entry was being copied. -/
def PassI (t : Tid) {f : Closure (K × V) Bool} (Wt : Wit f) (st : f.Tr) (o : OpI K V) (T : Table) (i : Nat) (b : Bool)
    (S : GSt K V) : Prop :=
  (OpR t o S ∧ RootAcc t T S) ∧ (b = false → Covers t (Kept1 t Wt st) T.id i S) ∧ (b = true → T.id + 1 < S.nTabs) ∧
    DelOk t o (Wt.W st · false) S

instance {f : Closure (K × V) Bool} {Wt : Wit f} {st : f.Tr} {o : OpI K V} {T : Table} {i : Nat} {b : Bool} :
    Inert C t (PassI t Wt st o T i b) := by unfold PassI; infer_instance

theorem Covers.done {Res : K → GSt K V → Prop} {T : Table} {i : Nat} (h : S.Inv C) (ha : Acc t T S)
    (hres : ∀ k, SeenIn t k none S → Res k S) (hc : Covers t Res T.id i S) (hi : T.len ≤ i) (k : K) : Res k S := by
  rcases hc k with h1 | ⟨j, h1, h2, h3⟩
  · exact h1
  · rcases h2 with ⟨e, g1, g2⟩ | h2
    · have := kslot_idx h.s h.p g1
      rw [ha.len h] at hi
      omega
    · exact hres k h2

/-- Going on after slot `i`. -/
theorem passI_step {f : Closure (K × V) Bool} {Wt : Wit f} {st : f.Tr} {o : OpI K V} {T : Table} {i : Nat} {b c : Bool}
    (h1 : OpR t o S ∧ RootAcc t T S) (h2 : c = false → b = false → Covers t (Kept1 t Wt st) T.id (i + 1) S)
    (h3 : c = true → T.id + 1 < S.nTabs) (h4 : b = true → T.id + 1 < S.nTabs)
    (h5 : DelOk t o (Wt.W st · false) S) : PassI t Wt st o T (i + 1) (b || c) S := by
  refine ⟨h1, ?_, ?_, h5⟩
  · intro h
    rw [Bool.or_eq_false_iff] at h
    exact h2 h.2 h.1
  · intro h
    rw [Bool.or_eq_true_iff] at h
    exact h.elim h4 h3

/-- Result of a pass over a table. -/
def PassO (t : Tid) {f : Closure (K × V) Bool} (Wt : Wit f) (st : f.Tr) (o : OpI K V) (T : Table) (b : Bool) (S : GSt K V) : Prop :=
  (OpR t o S ∧ RootAcc t T S) ∧ (b = false → ∀ k, Kept1 t Wt st k S) ∧ (b = true → T.id + 1 < S.nTabs) ∧
    DelOk t o (Wt.W st · false) S

theorem PassI.out {f : Closure (K × V) Bool} {Wt : Wit f} {st : f.Tr} {o : OpI K V} {T : Table} {i : Nat} {b : Bool} (h : S.Inv C)
    (hp : PassI t Wt st o T i b S) (hi : T.len ≤ i) : PassO t Wt st o T b S :=
  ⟨hp.1, fun hb => (hp.2.1 hb).done h hp.1.2.1 (fun _ => .inl) hi, hp.2.2⟩

theorem tri_clearPass {o : OpI K V} {T : Table} (hmul : o.multi = true)
    (heff : ∀ e : Entry K V, o.eff e.key (some e) none) :
    Tri C t (PB Ap (OpR t o)) (Mo t) (PassI t Wit.clear (Closure.start _) o T 0 false) (clearPass C T)
      (PassO t Wit.clear (Closure.start _) o T) := by
  have hg := fun S : GSt K V => Mo.refl t S
  have hno : ∀ x : K × V, ¬ (Closure.pure fun _ : K × V => false).Says x true := by
    intro x h; cases Closure.pure_says h
  unfold clearPass
  refine Tri.loop (s := (0, false)) (fun (x : Nat × Bool) S => PassI t Wit.clear (Closure.start _) o T x.1 x.2 S) ?_
  rintro ⟨i, b⟩
  refine Tri.ite (fun hi => ?_) (fun hi => Tri.ret fun S h hp => hp.out h (by omega))
  refine Tri.bind (fun s S => (PassI t Wit.clear (Closure.start _) o T i b S) ∧
    SlotI C t (b = false) Wit.clear (Closure.start _) T.id i s S) ?_ ?_
  · refine tri_loadSlot hg (fun S _ h => h.1.2.1) hi _ ?_
    intro S h hp
    exact ⟨hp, slotI h hp.1.2 hp.2.1 (.inl hno)⟩
  intro s
  have hinst : Firm (V := V) C t (fun S : GSt K V => b = true → T.id + 1 < S.nTabs) := inferInstance
  refine Tri.bind _ (Tri.pre ((tri_deleteLoop Wit.clear (cov := b = false) hi .start hmul
    (fun s x r _ h => by cases h) (fun e _ => heff e)).frameO
    (fun S => b = true → T.id + 1 < S.nTabs)) fun S _ h => ⟨⟨h.1.1, h.2, h.1.2.2.2⟩, h.1.2.2.1⟩) ?_
  rintro ⟨_, c⟩
  exact Tri.ret fun S _ h => passI_step h.1.2.1 h.1.2.2.1 h.1.2.2.2.1 h.2 h.1.2.2.2.2

theorem tri_clear [hA : SysP C Ap] {o : OpI K V} (hmul : o.multi = true)
    (heff : ∀ e : Entry K V, o.eff e.key (some e) none) :
    Tri C t (PB Ap (OpR t o)) (Mo t) (OpB t o) (clear C) (fun _ S => (OpR t o S ∧ DelOk t o (fun _ => True) S) ∧ ∀ k, SeenIn t k none S) := by
  have hg := fun S : GSt K V => Mo.refl t S
  unfold clear
  refine Tri.pre (P := fun S => OpR t o S ∧ DelOk t o (fun _ => True) S) ?_ fun S _ h => ⟨h.opR, h.delOk hmul⟩
  refine Tri.bind (fun r S => (OpR t o S ∧ DelOk t o (fun _ => True) S) ∧ match r with | none => ∀ k, SeenIn t k none S | some T => RootAcc t T S) ?_ ?_
  · refine tri_loadRoot hg (fun S _ h => h.1.1.1) _ ?_ ?_
    · intro S T h hp h1 _; exact ⟨hp, h1⟩
    · intro S h hp hr; exact ⟨hp, fun k => SeenIn.now h (absent_noRoot h hr)⟩
  rintro (_ | T)
  · exact Tri.ret fun S _ h => h
  simp only
  refine Tri.loop (fun T S => (OpR t o S ∧ DelOk t o (fun _ => True) S) ∧ RootAcc t T S) ?_
  intro T
  refine Tri.bind _ (Tri.pre ((tri_linearizeC (Res := Kept1 t Wit.clear (Closure.start _))
    (fun k S h => .inl h)).helpS (fun S => OpR t o S ∧ DelOk t o (fun _ => True) S) fun _ h => h.1) fun S _ h => ⟨h.2, h.1⟩) ?_
  intro T
  refine Tri.bind _ (Tri.pre (tri_clearPass hmul heff) fun S _ h => ⟨⟨h.2.1, h.1.1.1⟩, fun _ => h.1.2, by rintro ⟨⟩,
    h.2.2.mono fun _ _ => rfl⟩) ?_
  intro b
  refine Tri.ite (fun hb => ?_) (fun hb => Tri.ret fun S _ h => ⟨⟨h.1.1, h.2.2.2.mono fun _ _ => trivial⟩, fun k => ?_⟩)
  · refine Tri.bind _ (Tri.pre (tri_helpCopyAll.helpS (fun S => OpR t o S ∧ DelOk t o (fun _ => True) S) fun _ h => h.1)
      fun S _ h => ⟨⟨h.1.2, h.2.2.1 hb⟩, h.1.1, h.2.2.2.mono fun _ _ => trivial⟩) ?_
    exact fun n => Tri.ret fun S _ h => ⟨h.2, h.1⟩
  · rcases h.2.1 (by simpa using hb) k with h1 | ⟨e, _, _, h1⟩
    · exact h1
    · cases h1

theorem tri_retainPass {f : Closure (K × V) Bool} {o : OpI K V} {T : Table} {st : f.Tr} (hmul : o.multi = true)
    (hpan : ∀ s x r, f.Run s → f.call s.st x = .error r → Ap r)
    (heff : ∀ e : Entry K V, f.Says (e.key, e.val) false → o.eff e.key (some e) none) (hre : f.Run st) :
    Tri C t (PB Ap (OpR t o)) (Mo t) (PassI t (Wit.calls f) st o T 0 false) (retainPass C f st T)
      (fun r S => f.Run r.1 ∧ PassO t (Wit.calls f) r.1 o T r.2 S) := by
  have hg := fun S : GSt K V => Mo.refl t S
  unfold retainPass
  refine (Tri.loop (s := (0, st, false)) (fun (x : Nat × f.Tr × Bool) S => f.Run x.2.1 ∧ PassI t (Wit.calls f) x.2.1 o T x.1 x.2.2 S) ?_).pre
    (fun S _ h => ⟨hre, h⟩)
  rintro ⟨i, st, b⟩
  refine Tri.extract (φ := f.Run st) (fun S _ h => h.1) fun hre => ?_
  refine Tri.pre (P := PassI t (Wit.calls f) st o T i b) ?_ (fun S _ h => h.2)
  refine Tri.ite (fun hi => ?_) (fun hi => Tri.ret fun S h hp => ⟨hre, hp.out h (by omega)⟩)
  refine Tri.bind (fun m S => PassI t (Wit.calls f) st o T i b S ∧ (m = EMPTY ∨ m = TOMBSTONE → PassI t (Wit.calls f) st o T (i + 1) b S) ∧
    (¬ (m = EMPTY ∨ m = TOMBSTONE) → S.md T.id i ≠ EMPTY)) ?_ ?_
  · refine tri_loadMd hg (fun S _ h => h.1.2.1) hi _ ?_
    intro S h hp
    refine ⟨hp, fun hm => ⟨hp.1, fun hb k => ?_, hp.2.2⟩, fun hm h' => hm (.inl h')⟩
    rcases hp.2.1 hb k with h1 | ⟨j, h1, h2, h3⟩
    · exact .inl h1
    · by_cases hj : j = i
      · subst hj
        rcases h2 with ⟨e, g1, g2⟩ | h2
        · exfalso
          rcases hm with hm | hm
          · exact h3 hm
          · rcases h.p.p2 _ _ _ g1 with g | g
            · exact h3 g
            · rw [g] at hm
              exact h2_ne_TOMBSTONE _ hm
        · exact .inl (.inl h2)
      · exact .inr ⟨j, by omega, h2, h3⟩
  intro m
  refine Tri.ite (fun hm => Tri.ret fun S _ h => ⟨hre, h.2.1 hm⟩) (fun hm => ?_)
  refine Tri.bind (fun s S => (PassI t (Wit.calls f) st o T i b S) ∧ SlotI C t (b = false) (Wit.calls f) st T.id i s S) ?_ ?_
  · refine Tri.pre (P := fun S => PassI t (Wit.calls f) st o T i b S ∧ S.md T.id i ≠ EMPTY) ?_ (fun S _ h => ⟨h.1, h.2.2 hm⟩)
    refine tri_loadSlot hg (fun S _ h => h.1.1.2.1) hi _ ?_
    intro S h hp
    exact ⟨hp.1, slotI h hp.1.1.2 hp.1.2.1 (.inr hp.2)⟩
  intro s
  have hinst : Firm (V := V) C t (fun S : GSt K V => b = true → T.id + 1 < S.nTabs) := inferInstance
  refine Tri.bind _ (Tri.pre ((tri_deleteLoop (Wit.calls f) (cov := b = false) hi hre hmul hpan heff).frameO
    (fun S => b = true → T.id + 1 < S.nTabs)) fun S _ h => ⟨⟨h.1.1, h.2, h.1.2.2.2⟩, h.1.2.2.1⟩) ?_
  rintro ⟨st', c⟩
  exact Tri.ret fun S _ h => ⟨h.1.1.1, passI_step h.1.2.1 h.1.2.2.1 h.1.2.2.2.1 h.2 h.1.2.2.2.2⟩

/-- Result of `retain`. -/
def RetFin (t : Tid) (f : Closure (K × V) Bool) (o : OpI K V) (r : Called (K × V) Bool Unit) (S : GSt K V) : Prop :=
  f.Made r.calls ∧ (OpR t o S ∧ DelOk t o (fun x => (x, false) ∈ r.calls) S) ∧
    ∀ k, SeenIn t k none S ∨ ∃ e, SeenIn t k (some e) S ∧ e.key = k ∧ ((e.key, e.val), true) ∈ r.calls

theorem tri_retain [hA : SysP C Ap] {f : Closure (K × V) Bool} {o : OpI K V} (hmul : o.multi = true)
    (hpan : ∀ s x r, f.Run s → f.call s.st x = .error r → Ap r)
    (heff : ∀ e : Entry K V, f.Says (e.key, e.val) false → o.eff e.key (some e) none) :
    Tri C t (PB Ap (OpR t o)) (Mo t) (OpB t o) (retain C f) (RetFin t f o) := by
  have hg := fun S : GSt K V => Mo.refl t S
  unfold retain
  refine Tri.pre (P := fun S => OpR t o S ∧ DelOk t o (fun x => (x, false) ∈ f.start.calls) S) ?_ fun S _ h => ⟨h.opR, h.delOk hmul⟩
  refine Tri.bind (fun r S => (OpR t o S ∧ DelOk t o (fun x => (x, false) ∈ f.start.calls) S) ∧
    match r with | none => ∀ k, SeenIn t k none S | some T => RootAcc t T S) ?_ ?_
  · refine tri_loadRoot hg (fun S _ h => h.1.1.1) _ ?_ ?_
    · intro S T h hp h1 _; exact ⟨hp, h1⟩
    · intro S h hp hr; exact ⟨hp, fun k => SeenIn.now h (absent_noRoot h hr)⟩
  rintro (_ | T)
  · exact Tri.ret fun S _ h => ⟨⟨_, .start⟩, h.1, fun k => .inl (h.2 k)⟩
  simp only
  refine (Tri.loop (s := (T, f.start)) (fun (x : Table × f.Tr) S => f.Run x.2 ∧
    (OpR t o S ∧ DelOk t o (fun y => (y, false) ∈ x.2.calls) S) ∧ RootAcc t x.1 S) ?_).pre (fun S _ h => ⟨.start, h⟩)
  rintro ⟨T, st⟩
  refine Tri.extract (φ := f.Run st) (fun S _ h => h.1) fun hre => ?_
  refine Tri.bind _ (Tri.pre ((tri_linearizeC (Res := Kept1 t (Wit.calls f) st)
    (fun k S h => .inl h)).helpS (fun S => OpR t o S ∧ DelOk t o (fun y => (y, false) ∈ st.calls) S) fun _ h => h.1) fun S _ h => ⟨h.2.2, h.2.1⟩) ?_
  intro T
  refine Tri.bind _ (Tri.pre (tri_retainPass hmul hpan heff hre) fun S _ h => ⟨⟨h.2.1, h.1.1.1⟩, fun _ => h.1.2, by rintro ⟨⟩, h.2.2⟩) ?_
  rintro ⟨st', b⟩
  refine Tri.extract (φ := f.Run st') (fun S _ h => h.1) fun hre' => ?_
  refine Tri.ite (fun hb => ?_) (fun hb => Tri.ret fun S _ h => ⟨hre'.made, ⟨h.2.1.1, h.2.2.2.2⟩, h.2.2.1 (by simpa using hb)⟩)
  refine Tri.bind _ (Tri.pre (tri_helpCopyAll.helpS (fun S => OpR t o S ∧ DelOk t o (fun y => (y, false) ∈ st'.calls) S) fun _ h => h.1)
    fun S _ h => ⟨⟨h.2.1.2, h.2.2.2.1 hb⟩, h.2.1.1, h.2.2.2.2⟩) ?_
  exact fun n => Tri.ret fun S _ h => ⟨hre', h.2, h.1⟩

end Papaya
