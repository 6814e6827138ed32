import Verif.Proof.WBase

/-! # Publishing an entry in an empty slot, within an operation -/

set_option linter.unusedSectionVars false
set_option linter.unusedVariables false

namespace Papaya

variable {K V : Type} [DecidableEq K]

open GSt

variable {C : Cfg K} {t : Tid} {Ap : PanicReason → GSt K V → Prop} {S S' : GSt K V} {k : K}

theorem pub_step {o : OpI K V} {T : Table} {n : Nat} {v : V} (h : S.Inv C)
    (hc : PCtx C t k T S) (hn : n ≤ T.limit) (hdt : DeadTo C T k n S)
    (hnull : S.slot T.id (Probe.after (C.h1 k) T.mask n).i = Slot.null) (hb : OpB t o S) (hmul : o.multi = false)
    (heff : ∀ id, o.eff k none (some ⟨id, k, v⟩)) :
    ∃ S' : GSt K V, S'.toSt = { S.toSt.setSlot T.id (Probe.after (C.h1 k) T.mask n).i
        (Slot.untagged ⟨S.nIds, k, v⟩) with nIds := S.nIds + 1 } ∧
      S'.Inv C ∧ Evo S S' ∧ (∀ t', t' ≠ t → Own t' S S') ∧ Mo t S S' ∧
      Pub t ⟨S.nIds, k, v⟩ T.id (Probe.after (C.h1 k) T.mask n).i S' ∧ NoTok t S' ∧ S'.Prot t ⟨S.nIds, k, v⟩ ∧
      S'.kslot T.id (Probe.after (C.h1 k) T.mask n).i ⟨S.nIds, k, v⟩ := by
  set i := (Probe.after (C.h1 k) T.mask n).i with hi
  have hop' : S.ops (t, S.seq t) = o := hb.2.1
  have hinv : (S.pubSt t T.id i k v).Inv C := by
    refine pubSt_Inv h hnull hc.2 (n := n) (by rw [← hc.1.limit]; exact hn) (by rw [← hc.1.after]) (hdt.pos hc.1) hb.2.2 ?_ ?_
    · rw [hop']; exact hmul
    · rw [hop']; exact heff _
  have hevo : Evo S (S.pubSt t T.id i k v) := pubSt_Evo h hnull
  have hinf : ∀ id, (S.pubSt t T.id i k v).info id = if id = S.nIds then
    some ⟨⟨S.nIds, k, v⟩, (t, S.seq t), some (T.id, i)⟩ else S.info id := fun _ => rfl
  have hprot : ∀ e', S.Prot t e' → (S.pubSt t T.id i k v).Prot t e' := by
    intro e' hp
    obtain ⟨x, hx, hxe⟩ := hp.2.1
    exact ⟨hp.1, ⟨x, hevo.info _ _ hx, hxe⟩, hp.2.2⟩
  have hpub : Pub t ⟨S.nIds, k, v⟩ T.id i (S.pubSt t T.id i k v) := by
    refine ⟨⟨_, by rw [hinf, if_pos rfl], rfl, rfl, rfl⟩, ?_, .inr ⟨?_, hb.1.2.2.2⟩⟩
    · intro id x hx ho
      rw [hinf] at hx
      split at hx
      · cases hx; exact .inr rfl
      · exact .inl (hb.1.2.2.1 id x hx ho)
    · intro hl
      have : S.logged ⟨S.nIds, k, v⟩ := hl
      have h2 := fresh_logged h.e this
      exact absurd h2 (Nat.lt_irrefl _)
  refine ⟨S.pubSt t T.id i k v, rfl, hinv, hevo, fun t' ht => pubSt_Own h ht, ⟨hevo, ⟨rfl, rfl, rfl, rfl, rfl, hprot, ?_, ?_, List.prefix_refl _⟩,
    fun _ _ _ _ => .inr ⟨_, _, _, hpub⟩, .inl ⟨[], (List.append_nil _).symm, by simp⟩⟩, hpub, hb.1.2.1, ?_, ?_⟩
  · intro id x hx _
    rw [hinf] at hx
    split at hx
    · cases hx; exact .inr rfl
    · exact .inl hx
  · intro ev hev
    have : ev ∈ S.log.drop S.log.length := hev
    simp at this
  · refine ⟨hc.1.1, ⟨_, by rw [hinf, if_pos rfl], rfl⟩, ?_⟩
    show (match S.tok S.nIds with
      | .live => True
      | .owned _ U b => b = true → S.pr t < U
      | .retired _ => S.blockers S.nIds t = true
      | .deferred P => S.pr t ≤ P)
    rw [h.m.m9 _ (info_fresh h.e)]; trivial
  · unfold kslot
    rw [pubSt, slSt_slot, if_pos ⟨rfl, rfl⟩]; rfl

/-! ## What a writer knows about a slot -/

/-- A slot of key `k` with metadata, and the value `s` read from it. -/
def WK (C : Cfg K) (t : Tid) (k : K) (T i : Nat) (s : Slot K V) (S : GSt K V) : Prop :=
  (S.md T i ≠ EMPTY ∧ S.Keyed T i k ∧ GoneOr t T i k S) ∧
    (s.ptr = none → S.dead T i k ∧ SeenIn t k none S) ∧
    ∀ e, s.ptr = some e → e.key = k ∧ S.Prot t e ∧ (s.copying = true → Frozen T i e S) ∧
      (s.copying = false → SeenIn t k (some e) S)

instance {T i : Nat} {s : Slot K V} : Inert C t (WK C t k T i s) := by unfold WK; infer_instance

theorem wk_slot {T : Table} {i : Nat} (h : S.Inv C) (hc : PCtx C t k T S) (hm : S.md T.id i ≠ EMPTY)
    (hk : S.Keyed T.id i k) (hg : GoneOr t T.id i k S) : WK C t k T.id i (S.slot T.id i) S := by
  refine ⟨⟨hm, hk, hg⟩, fun hn => ?_, fun e he => ?_⟩
  · refine ⟨dead_of_nulled hm ⟨md_nonnull h.p hm, hn⟩, ?_⟩
    rcases hg with ⟨e, g1, _⟩ | hg
    · unfold kslot at g1; rw [hn] at g1; cases g1
    · exact hg
  · have hek := hk.2 e he
    refine ⟨hek, hc.1.prot h he, fun hcp => ⟨he, hcp⟩, fun hcp => ?_⟩
    refine found_seen h hc.2 he hek (fun hcd => ?_) hm
    have := (h.p.p7 _ _ _ he hcd).2
    unfold copying at this
    rw [hcp] at this; cases this

/-- The value `s` read from a slot with metadata. -/
def WR (C : Cfg K) (t : Tid) (k : K) (T i : Nat) (s : Slot K V) (S : GSt K V) : Prop :=
  (s.ptr = none → S.dead T i k) ∧ ∀ e, s.ptr = some e → S.Prot t e ∧ (e.key ≠ k → S.dead T i k) ∧
    (e.key = k → WK C t k T i s S)

instance {T i : Nat} {s : Slot K V} : Inert C t (WR C t k T i s) := by unfold WR; infer_instance

theorem wr_slot {T : Table} {i : Nat} (h : S.Inv C) (hc : PCtx C t k T S) (hm : S.md T.id i ≠ EMPTY) :
    WR C t k T.id i (S.slot T.id i) S := by
  refine ⟨fun hn => dead_of_nulled hm ⟨md_nonnull h.p hm, hn⟩, fun e hk => ⟨hc.1.prot h hk, fun hne => ?_, fun hek => ?_⟩⟩
  · exact dead_of_keyed hm (kslot_keyed hk) hne
  · exact wk_slot h hc hm (hek ▸ kslot_keyed hk) (.inl ⟨e, hk, hek⟩)

/-- The value `s` found by a failed publication in slot `(T, i)`; its metadata may still be missing. -/
def WF (C : Cfg K) (t : Tid) (k : K) (T i : Nat) (s : Slot K V) (S : GSt K V) : Prop :=
  (s.ptr = none → S.Nulled T i) ∧ ∀ e, s.ptr = some e → S.Prot t e ∧ S.Keyed T i e.key ∧
    (e.key = k → GoneOr t T i k S ∧ (s.copying = true → Frozen T i e S) ∧ (s.copying = false →
      (SeenIf t k e S ∧ e.key = k) ∧ (S.logged e ∨ ∃ x, S.info e.id = some x ∧ x.entry = e ∧ x.home = some (T, i))))

instance {T i : Nat} {s : Slot K V} : Inert C t (WF C t k T i s) := by
  unfold WF
  have : ∀ e : Entry K V, Inert C t fun S : GSt K V =>
      S.logged e ∨ ∃ x, S.info e.id = some x ∧ x.entry = e ∧ x.home = some (T, i) := by
    intro e; infer_instance
  infer_instance

theorem wf_slot {T : Table} {i : Nat} (h : S.Inv C) (hc : PCtx C t k T S) (hnn : S.slot T.id i ≠ Slot.null) :
    WF C t k T.id i (S.slot T.id i) S := by
  refine ⟨fun hn => ⟨hnn, hn⟩, fun e hk => ⟨hc.1.prot h hk, kslot_keyed hk, fun hek => ⟨.inl ⟨e, hk, hek⟩,
    fun hcp => ⟨hk, hcp⟩, fun hcp => ?_⟩⟩⟩
  have hncp : ¬ S.copying T.id i := by unfold copying; rw [hcp]; simp
  have hnc : ¬ S.copiedF T.id i := fun hcd => hncp (h.p.p7 _ _ _ hk hcd).2
  refine ⟨⟨found_seenIf h hc.2 hk hek hnc, hek⟩, ?_⟩
  have hv := at_vis h hc.2 hk hek hncp
  by_cases hm : S.md T.id i = EMPTY
  · right
    obtain ⟨_, x, hx, hh⟩ := h.l.u2 _ _ e hk hm hv.1 hv.2.1 hv.2.2.2.1
    obtain ⟨x', g1, g2⟩ := h.p.p3 _ _ e hk
    rw [hx] at g1; cases g1
    exact ⟨x, hx, g2, hh⟩
  · left
    refine logged_of_abs (k := e.key) ?_
    rw [abs_vis h.s h.p h.l hv, if_neg hm]

/-- Once the metadata is there, … -/
theorem WF.wr {T i : Nat} {s : Slot K V} (h : S.Inv C) (hf : WF C t k T i s S) (hm : S.md T i ≠ EMPTY) (hs : s.ptr ≠ none) :
    WR C t k T i s S := by
  refine ⟨fun hn => absurd hn hs, fun e he => ?_⟩
  obtain ⟨h1, h2, h3⟩ := hf.2 e he
  refine ⟨h1, fun hne => dead_of_keyed hm h2 hne, fun hek => ?_⟩
  obtain ⟨g1, g2, g3⟩ := h3 hek
  refine ⟨⟨hm, hek ▸ h2, g1⟩, fun hn => absurd hn hs, fun e' he' => ?_⟩
  rw [he] at he'; cases he'
  refine ⟨hek, h1, g2, fun hcp => ?_⟩
  obtain ⟨⟨q1, _⟩, q2⟩ := g3 hcp
  apply q1
  rcases q2 with q2 | ⟨x, q2, q3, q4⟩
  · exact q2
  · by_contra hl
    obtain ⟨T', i', r1, _, r3, _⟩ := h.l.u1 _ x q2 (by rw [q3]; exact hl)
    rw [q4] at r1; cases r1
    exact hm r3

end Papaya
