import Verif.Proof.WPub

/-! # Triples of the writers' steps on one slot -/

set_option linter.unusedSectionVars false
set_option linter.unusedVariables false

namespace Papaya

variable {K V : Type} [DecidableEq K]

open GSt

variable {C : Cfg K} {t : Tid} {Ap : PanicReason → GSt K V → Prop} {S S' : GSt K V} {k : K}

/-- What a failed update tells about the slot. -/
def WStat (C : Cfg K) (t : Tid) (k : K) (T i : Nat) (st : EStat K V) (S : GSt K V) : Prop :=
  match st with
  | .null => S.dead T i k ∧ SeenIn t k none S
  | .copied e s => s.ptr = some e ∧ s.copying = true ∧ WK C t k T i s S
  | .value e s => s.ptr = some e ∧ s.copying = false ∧ WK C t k T i s S

instance {T i : Nat} {st : EStat K V} : Inert C t (WStat C t k T i st) := by
  unfold WStat; cases st <;> infer_instance

theorem WK.stat {T i : Nat} {s : Slot K V} (h : WK C t k T i s S) : WStat C t k T i (EStat.from s) S := by
  unfold EStat.from
  cases hs : s.ptr with
  | none => exact h.2.1 hs
  | some e =>
    simp only
    cases hc : s.copying with
    | true => exact ⟨hs, hc, h⟩
    | false => exact ⟨hs, hc, h⟩

theorem tri_updateAtNew {o : OpI K V} {T : Table} {i : Nat} {e : Entry K V} {cur : Slot K V} {v : V} (hi : i < T.len)
    (hcur : cur.ptr = some e) (hcp : cur.copying = false) (hmul : o.multi = false)
    (heff : ∀ id, o.eff k (some e) (some ⟨id, k, v⟩)) :
    Tri C t Ap (Mo t) (fun S => (OpB t o S ∧ PCtx C t k T S) ∧ WK C t k T.id i cur S) (updateAtNew C i e cur k v T)
      (fun r S => match r with
        | .replaced r => ∃ new, r = some new ∧ new.key = k ∧ new.val = v ∧ Idle t S ∧ DoneEv t k (some e) (some new) S ∧
            S.Prot t e ∧ S.Prot t new
        | .found st => (OpB t o S ∧ PCtx C t k T S) ∧ WStat C t k T.id i st S) := by
  unfold updateAtNew
  refine Tri.bind (fun r S => match r with
    | .inl new => (Acc t T S ∧ OneTok t e (unlinkOf C cur T.id) S) ∧ (new.key = k ∧ new.val = v ∧ Pinned t S ∧ Owes t 0 S ∧
        DoneEv t k (some e) (some new) S ∧ S.Prot t e ∧ S.Prot t new)
    | .inr s => (OpB t o S ∧ PCtx C t k T S) ∧ WK C t k T.id i s S) ?_ ?_
  · refine Tri.act (fun S h hp => ⟨hp.1.2.1.idx_len h hi,
      (fun e' he' => Prot.entIs h (hp.2.2.2 e' he').2.1), Acc.entOk h hp.1.2.1⟩) ?_
    intro S r σ'' h hp he
    obtain ⟨⟨hb, hc⟩, hw⟩ := hp
    rcases he with ⟨h1, rfl, rfl⟩ | ⟨h1, rfl, rfl⟩
    · have hk : S.kslot T.id i e := by unfold kslot; rw [h1]; exact hcur
      have hek := (hw.2.2 e hcur).1
      obtain ⟨S', g1, g2, g3, g4, g5, g6, g7, g8, g9, _⟩ := repl_step (new := some v) (d := 0) h hc hk hek
        (by unfold copying; rw [h1, hcp]; simp) (fun _ => hw.1.1) hb.2.1 (.inr hb.2.2) (fun _ => hmul) heff hb.1.2.1
        hb.1.2.2 rfl
      refine ⟨S', g1, g2, g3, g4, g5, ⟨?_, ?_⟩, rfl, rfl, ?_, g8, g6, ?_, g9 v rfl⟩
      · exact Firm.firm (C := C) (t := t) _ _ h g2 g3 g5.2.1 hc.1
      · rw [← h1]; exact g7
      · exact Firm.firm (C := C) (t := t) _ _ h g2 g3 g5.2.1 hb.1.1
      · exact g5.2.1.prot e (hw.2.2 e hcur).2.1
    · exact ⟨S, rfl, h, Evo.refl S, fun t' _ => Own.refl t' S, Mo.refl t S, ⟨hb, hc⟩, wk_slot h hc hw.1.1 hw.1.2.1 hw.1.2.2⟩
  rintro (new | s)
  · simp only
    refine Tri.bind (fun _ S => NoTok t S ∧ (new.key = k ∧ new.val = v ∧ Pinned t S ∧ Owes t 0 S ∧
        DoneEv t k (some e) (some new) S ∧ S.Prot t e ∧ S.Prot t new)) (tri_deferRetire.help _) ?_
    intro _
    exact Tri.ret fun S _ ⟨h0, h1, h2, h3, h4, h5, h6, h7⟩ => ⟨new, rfl, h1, h2, ⟨h3, h0, h4⟩, h5, h6, h7⟩
  · exact Tri.ret fun S _ h => ⟨h.1, h.2.stat⟩

/-- Operations that may still change the map: single-shot and fresh, or multi-shot. -/
def OpR (t : Tid) (o : OpI K V) (S : GSt K V) : Prop :=
  Idle t S ∧ OpIs t o S ∧ (o.multi = true ∨ S.FreshOp t)

instance {o : OpI K V} : Inert C t (OpR t o) := by unfold OpR; infer_instance

theorem OpB.opR {o : OpI K V} (h : OpB t o S) : OpR t o S := ⟨h.1, h.2.1, .inr h.2.2⟩

/-- Deleting the entry of a slot with a CAS. -/
theorem tomb_step {o : OpI K V} {T : Table} {i : Nat} {e : Entry K V} {cur : Slot K V} (h : S.Inv C)
    (hcur : cur.ptr = some e) (hcp : cur.copying = false) (heff : o.eff k (some e) none)
    (hb : OpR t o S) (hc : PCtx C t k T S) (hek : e.key = k) (hs : S.slot T.id i = cur) :
    ∃ S' : GSt K V, S'.toSt = S.toSt.setSlot T.id i Slot.tombstone ∧ S'.Inv C ∧ Evo S S' ∧
      (∀ t', t' ≠ t → Own t' S S') ∧ Mo t S S' ∧ PCtx C t k T S' ∧ OneTok t e (unlinkOf C cur T.id) S' ∧
      Pinned t S' ∧ Owes t (-1) S' ∧ DoneEv t k (some e) none S' ∧ S'.Nulled T.id i ∧
      (∀ ev ∈ S'.log, ev.op.1 = t → ev ∈ S.log ∨ ev = ⟨(t, S.seq t), k, some e, none⟩) := by
  have hk : S.kslot T.id i e := by unfold kslot; rw [hs]; exact hcur
  obtain ⟨S', g1, g2, g3, g4, g5, g6, g7, g8, _, g10, g11⟩ := repl_step (new := none) (d := 0) h hc hk hek
    (by unfold copying; rw [hs, hcp]; simp) (by simp) hb.2.1 hb.2.2 (by simp) (fun _ => heff) hb.1.2.1 hb.1.2.2 rfl
  refine ⟨S', g1, g2, g3, g4, g5, ⟨?_, ?_⟩, ?_, ?_, ?_, g6, g10 rfl, g11⟩
  · exact Firm.firm (C := C) (t := t) _ _ h g2 g3 g5.2.1 hc.1
  · exact AtTable.mono h g2 g3 g5.2.1.rInv hc.2
  · rw [← hs]; exact g7
  · exact Firm.firm (C := C) (t := t) _ _ h g2 g3 g5.2.1 hb.1.1
  · have := g8
    rw [if_neg (by simp)] at this
    simpa using this

theorem tri_updateAtTomb {o : OpI K V} {T : Table} {i : Nat} {e : Entry K V} {cur : Slot K V} (hi : i < T.len)
    (hcur : cur.ptr = some e) (hcp : cur.copying = false) (heff : o.eff k (some e) none) :
    Tri C t Ap (Mo t) (fun S => (OpB t o S ∧ PCtx C t k T S) ∧ WK C t k T.id i cur S) (updateAtTomb C i e cur T)
      (fun r S => match r with
        | .replaced r => NoTok t S ∧ PCtx C t k T S ∧ Pinned t S ∧ Owes t (-1) S ∧ DoneEv t k (some e) none S ∧
            S.Nulled T.id i ∧ S.Prot t e
        | .found st => (OpB t o S ∧ PCtx C t k T S) ∧ WStat C t k T.id i st S) := by
  unfold updateAtTomb
  refine Tri.bind (fun r S => match r with
    | none => (Acc t T S ∧ OneTok t e (unlinkOf C cur T.id) S) ∧ (PCtx C t k T S ∧ Pinned t S ∧ Owes t (-1) S ∧
        DoneEv t k (some e) none S ∧ S.Nulled T.id i ∧ S.Prot t e)
    | some s => (OpB t o S ∧ PCtx C t k T S) ∧ WK C t k T.id i s S) ?_ ?_
  · refine Tri.act (fun S h hp => ⟨hp.1.2.1.idx_len h hi, rfl,
      (fun e' he' => Prot.entIs h (hp.2.2.2 e' he').2.1), Acc.entOk h hp.1.2.1⟩) ?_
    intro S r σ'' h hp he
    obtain ⟨⟨hb, hc⟩, hw⟩ := hp
    rcases he with ⟨h1, rfl, rfl⟩ | ⟨h1, rfl, rfl⟩
    · have hek := (hw.2.2 e hcur).1
      obtain ⟨S', g1, g2, g3, g4, g5, g6, g7, g8, g9, g10, g11⟩ := tomb_step h hcur hcp heff hb.opR hc hek h1
      exact ⟨S', g1, g2, g3, g4, g5, ⟨g6.1, g7⟩, g6, g8, g9, g10, g11.1, g5.2.1.prot e (hw.2.2 e hcur).2.1⟩
    · exact ⟨S, rfl, h, Evo.refl S, fun t' _ => Own.refl t' S, Mo.refl t S, ⟨hb, hc⟩, wk_slot h hc hw.1.1 hw.1.2.1 hw.1.2.2⟩
  rintro (_ | s)
  · simp only
    refine Tri.bind (fun _ S => NoTok t S ∧ (PCtx C t k T S ∧ Pinned t S ∧ Owes t (-1) S ∧
        DoneEv t k (some e) none S ∧ S.Nulled T.id i ∧ S.Prot t e)) (tri_deferRetire.help _) ?_
    intro _
    exact Tri.ret fun S _ h => h
  · exact Tri.ret fun S _ h => ⟨h.1, h.2.stat⟩

/-- Bookkeeping after a removal. -/
theorem tri_removed {T : Table} {i : Nat} (hi : i < T.len) {e : Entry K V} {α : Type} {p : Prog K V α}
    {Q : α → GSt K V → Prop}
    (hp : Tri C t Ap (Mo t) (fun S => Idle t S ∧ DoneEv t k (some e) none S ∧ S.Prot t e) p Q) :
    Tri C t Ap (Mo t) (fun S => NoTok t S ∧ PCtx C t k T S ∧ Pinned t S ∧ Owes t (-1) S ∧ DoneEv t k (some e) none S ∧
            S.Nulled T.id i ∧ S.Prot t e)
      (do A.storeMd T.id i TOMBSTONE
          A.addCount (-1)
          p) Q := by
  have hinst : Inert C t (fun S : GSt K V => Owes t (-1) S ∧ Pinned t S ∧ NoTok t S ∧ DoneEv t k (some e) none S ∧ S.Prot t e) := inferInstance
  refine Tri.bind (fun _ S => Owes t (-1) S ∧ (Pinned t S ∧ NoTok t S ∧ DoneEv t k (some e) none S ∧ S.Prot t e)) ?_ ?_
  · refine Tri.conseq ((tri_storeMd (V := V) (C := C) (t := t) (Ap := Ap) hi (m := TOMBSTONE) (by decide)).mt.help
      (fun S => Owes t (-1) S ∧ Pinned t S ∧ NoTok t S ∧ DoneEv t k (some e) none S ∧ S.Prot t e)) ?_ ?_
    · rintro S h ⟨h1, h2, h3, h4, h5, h6, h7⟩
      exact ⟨⟨h2.1, MdOk.of_nulled h6⟩, h4, h3, h1, h5, h7⟩
    · exact fun _ S _ h => h.2
  · intro _
    refine Tri.bind _ ((tri_addCount (d := -1) (d' := -1) rfl (fun S _ h => h)).post ?_) (fun _ => hp)
    rintro _ S _ ⟨h1, h2, h3, h4, h5⟩
    exact ⟨⟨h2, h3, by simpa using h1⟩, h4, h5⟩

/-! ## Inserting -/

/-- A writer probing table `T`, at step `n`. -/
def WCtx (C : Cfg K) (t : Tid) (k : K) (o : OpI K V) (T : Table) (n : Nat) (S : GSt K V) : Prop :=
  (OpB t o S ∧ PCtx C t k T S) ∧ DeadTo C T k n S

instance {o : OpI K V} {T : Table} {n : Nat} : Inert C t (WCtx C t k o T n) := by unfold WCtx; infer_instance

/-- An entry was inserted but not counted yet. -/
def Ins (t : Tid) (k : K) (v : V) (e : Entry K V) (S : GSt K V) : Prop :=
  Pinned t S ∧ NoTok t S ∧ Owes t 1 S ∧ DoneEv t k none (some e) S ∧ S.Prot t e ∧ e.key = k ∧ e.val = v

instance {v : V} {e : Entry K V} : Inert C t (Ins t k v e) := by unfold Ins; infer_instance

theorem tri_insertAt {o : OpI K V} {T : Table} {n : Nat} {v : V} (hi : (Probe.after (C.h1 k) T.mask n).i < T.len)
    (hn : n ≤ T.limit) (hmul : o.multi = false) (heff : ∀ id, o.eff k none (some ⟨id, k, v⟩)) :
    Tri C t Ap (Mo t) (WCtx C t k o T n) (insertAt C (Probe.after (C.h1 k) T.mask n).i (C.h2 k) k v T)
      (fun r S => match r with
        | .inserted e => Ins t k v e S
        | .found (.value e s) => WCtx C t k o T n S ∧ s.ptr = some e ∧
            WR C t k T.id (Probe.after (C.h1 k) T.mask n).i s S
        | .found .null => WCtx C t k o T n S ∧ S.dead T.id (Probe.after (C.h1 k) T.mask n).i k
        | .found (.copied _ _) => False) := by
  have hg := fun S : GSt K V => Mo.refl t S
  set i := (Probe.after (C.h1 k) T.mask n).i with hidef
  unfold insertAt
  refine Tri.bind (fun r S => match r with
    | .inl e => (Acc t T S ∧ MdOk C T.id i (C.h2 k) S) ∧ (Pub t e T.id i S ∧ Pinned t S ∧ NoTok t S ∧ S.Prot t e ∧
        e.key = k ∧ e.val = v)
    | .inr s => WCtx C t k o T n S ∧ WF C t k T.id i s S) ?_ ?_
  · refine Tri.act (fun S h hp => ⟨hp.1.2.1.idx_len h hi, (fun _ h => by cases h), Acc.entOk h hp.1.2.1⟩) ?_
    intro S r σ'' h hp he
    rcases he with ⟨h1, rfl, rfl⟩ | ⟨h1, rfl, rfl⟩
    · obtain ⟨S', g1, g2, g3, g4, g5, g6, g7, g8, g9⟩ := pub_step h hp.1.2 hn hp.2 h1 hp.1.1 hmul heff
      refine ⟨S', g1, g2, g3, g4, g5, ⟨?_, MdOk.of_keyed (k := k) (kslot_keyed g9)⟩, g6, ?_, g7, g8, rfl, rfl⟩
      · exact Firm.firm (C := C) (t := t) _ _ h g2 g3 g5.2.1 hp.1.2.1
      · exact Firm.firm (C := C) (t := t) _ _ h g2 g3 g5.2.1 hp.1.1.1.1
    · refine ⟨S, rfl, h, Evo.refl S, fun t' _ => Own.refl t' S, Mo.refl t S, hp, wf_slot h hp.1.2 ?_⟩
      rcases h1 with h1 | h1
      · exact h1
      · cases h1
  rintro (e | s)
  · simp only
    refine Tri.bind _ ((tri_storeMd hi (h2_ne C k)).mt.help _) ?_
    intro _
    refine Tri.ret fun S _ ⟨⟨_, h1⟩, h2, h3, h4, h5, h6, h7⟩ => ?_
    obtain ⟨x, g1, g2, g3, g4⟩ := h2.1
    have hl : S.logged e := g2 ▸ h1 _ x g1 g4
    have := h2.owes hl
    rw [h6] at this
    exact ⟨h3, h4, this.1, this.2, h5, h6, h7⟩
  · simp only
    cases hs : s.ptr with
    | none =>
      simp only
      refine Tri.bind (fun m S => (WCtx C t k o T n S ∧ S.Nulled T.id i) ∧ (m ≠ EMPTY → S.md T.id i ≠ EMPTY)) ?_ ?_
      · refine Tri.pre (P := fun S => WCtx C t k o T n S ∧ S.Nulled T.id i) ?_ (fun S _ h => ⟨h.1, h.2.1 hs⟩)
        exact tri_loadMd hg (fun S _ h => h.1.1.2.1) hi _ fun S _ h => ⟨h, fun h => h⟩
      intro m
      refine Tri.ite (fun hm => ?_) (fun hm => ?_)
      · refine Tri.bind _ (Tri.pre ((tri_storeMd (V := V) (C := C) (t := t) (Ap := Ap) hi (m := TOMBSTONE) (by decide)).mt.help
          (fun S => WCtx C t k o T n S ∧ S.Nulled T.id i)) (fun S _ h => ⟨⟨h.1.1.1.2.1, MdOk.of_nulled h.1.2⟩, h.1⟩)) ?_
        intro _
        exact Tri.ret fun S _ h => ⟨h.2.1, dead_of_nulled h.1.1 h.2.2⟩
      · exact Tri.ret fun S _ h => ⟨h.1.1, dead_of_nulled (h.2 hm) h.1.2⟩
    | some e =>
      simp only
      refine Tri.bind (fun _ S => WCtx C t k o T n S ∧ WF C t k T.id i s S) (tri_deref hg (fun S _ h => (h.2.2 e hs).1)) ?_
      intro _
      refine Tri.bind (fun m S => (WCtx C t k o T n S ∧ WF C t k T.id i s S) ∧ (m ≠ EMPTY → S.md T.id i ≠ EMPTY)) ?_ ?_
      · exact tri_loadMd hg (fun S _ h => h.1.1.2.1) hi _ fun S _ h => ⟨h, fun h => h⟩
      intro m
      refine Tri.ite (fun hm => ?_) (fun hm => ?_)
      · refine Tri.bind _ (Tri.pre ((tri_storeMd (V := V) (C := C) (t := t) (Ap := Ap) hi (h2_ne C e.key)).mt.help
          (fun S => WCtx C t k o T n S ∧ WF C t k T.id i s S))
          (fun S _ h => ⟨⟨h.1.1.1.2.1, MdOk.of_keyed (h.1.2.2 e hs).2.1⟩, h.1⟩)) ?_
        intro _
        exact Tri.ret fun S h hp => ⟨hp.2.1, hs, hp.2.2.wr h hp.1.1 (by rw [hs]; simp)⟩
      · exact Tri.ret fun S h hp => ⟨hp.1.1, hs, hp.1.2.wr h (hp.2 hm) (by rw [hs]; simp)⟩

end Papaya
