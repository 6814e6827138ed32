import Verif.Proof.HistInv

/-! # Calls, responses and panics -/

set_option linter.unusedSectionVars false
set_option linter.unusedVariables false

namespace Papaya

variable {K V : Type} [DecidableEq K]

open GSt

variable {C : Cfg K} {t t' : Tid} {S S' S'' : GSt K V}

def HG.call (g : HG) (o : OpId) (n : Nat) (p : List (Tid × Int)) (r : Nat) : HG :=
  { g with
    tInv := fun x => if x = o then n else g.tInv x
    pInv := fun x => if x = o then p else g.pInv x
    rInv := fun x => if x = o then r else g.rInv x }

def HG.resp (g : HG) (o : OpId) (n q : Nat) : HG :=
  { g with tRet := fun x => if x = o then n else g.tRet x, rpos := fun x => if x = o then q else g.rpos x }

theorem allDone_snoc {H : List (HEv K V)} {x : HEv K V} {A B : List (HEv K V)} {o : OpId} {c : Call K V}
    (h : H ++ [x] = A ++ .inv o c :: B) :
    (A = H ∧ x = .inv o c ∧ B = []) ∨ ∃ B', B = B' ++ [x] ∧ H = A ++ .inv o c :: B' := by
  rcases append_snoc (A := A) (B := .inv o c :: B) h.symm with ⟨h1, _⟩ | ⟨B', h1, h2⟩
  · cases h1
  · cases B' with
    | nil =>
      simp only [List.nil_append, List.cons.injEq] at h1
      simp only [List.append_nil] at h2
      exact .inl ⟨h2, h1.1.symm, h1.2⟩
    | cons y B' =>
      simp only [List.cons_append, List.cons.injEq] at h1
      exact .inr ⟨B', h1.2, by rw [h1.1]; exact h2.symm⟩

/-- A call. -/
theorem HistInv.inv {hist : List (HEv K V)} {th : Tid → Th K V} {g : HG} (h : HistInv S hist th g) (hS : S.Inv C)
    {c : Call K V} {p : Prog K V c.Res} (hq : AllDone hist → paySum S.pays = deltas S.log) (hth : th t = .idle)
    (hdue : Due t 0 S) :
    HistInv (S.invSt t c.opi) (hist ++ [.inv (t, S.seq t + 1) c]) (setTh th t (.run c p))
      (g.call (t, S.seq t + 1) S.log.length S.pays S.rt) := by
  set o : OpId := (t, S.seq t + 1) with ho
  have hfresh : ∀ o' : OpId, o'.2 ≤ S.seq o'.1 → o' ≠ o := by
    rintro o' h1 rfl
    rw [ho] at h1
    simp at h1
  have hid : ∀ e ∈ hist, e.id ≠ o := by
    intro e he
    apply hfresh
    cases e with
    | inv o' c' => exact (h.i1 _ _ he).2.1
    | ret o' c' r' => exact (h.i1 _ _ (h.wf.ret_inv' he)).2.1
    | panic o' c' w =>
      obtain ⟨A, B, hAB⟩ := List.append_of_mem he
      have := (h.wf A _ B hAB).1
      exact (h.i1 o' c' (by rw [hAB]; simp [this])).2.1
  have hnr : ¬ Ended hist o := by
    rintro (⟨c', r, hr⟩ | ⟨c', r, hr⟩) <;> exact hid _ hr rfl
  have hne : ∀ {o'}, Ended hist o' → o' ≠ o := by
    rintro o' hr rfl; exact hnr hr
  have hti : ∀ o', o' ≠ o → (g.call o S.log.length S.pays S.rt).tInv o' = g.tInv o' := fun o' h => if_neg h
  have hto : (g.call o S.log.length S.pays S.rt).tInv o = S.log.length := if_pos rfl
  have hpi : ∀ o', o' ≠ o → (g.call o S.log.length S.pays S.rt).pInv o' = g.pInv o' := fun o' h => if_neg h
  have hpo : (g.call o S.log.length S.pays S.rt).pInv o = S.pays := if_pos rfl
  have hseq : ∀ u, (S.invSt t c.opi).seq u = if u = t then S.seq t + 1 else S.seq u := fun u => rfl
  have hops : ∀ {o' : OpId}, o'.2 ≤ S.seq o'.1 → (S.invSt t c.opi).ops o' = S.ops o' := fun h => invSt_ops h
  refine ⟨h.wf.snoc hid, ?_, ?_, ?_, ?_, ?_, ?_, ?_, ?_, ?_, ?_, ?_, ?_, ?_, ?_, ?_, ?_, ?_, ?_⟩
  · intro o' c' hi
    rcases List.mem_append.1 hi with g1 | g1
    · obtain ⟨h1, h2, h3, h4⟩ := h.i1 o' c' g1
      refine ⟨h1, h2.trans (invSt_seq _), by rw [hops h2]; exact h3, ?_⟩
      rw [hti o' (hfresh o' h2)]; exact h4
    · cases List.mem_singleton.1 g1
      refine ⟨by rw [ho]; exact Nat.succ_pos _, by rw [hseq, ho]; simp, if_pos rfl, ?_⟩
      rw [hto]; exact Nat.le_refl _
  · intro o' h1 h2
    by_cases hlt : o'.2 ≤ S.seq o'.1
    · obtain ⟨c', hc'⟩ := h.i2 o' h1 hlt
      exact ⟨c', List.mem_append_left _ hc'⟩
    · rw [hseq] at h2
      by_cases hu : o'.1 = t
      · rw [if_pos hu] at h2
        rw [hu] at hlt
        have : o' = o := by
          rw [ho]; apply Prod.ext
          · exact hu
          · show o'.2 = S.seq t + 1; omega
        exact ⟨c, by rw [this]; simp⟩
      · rw [if_neg hu] at h2; exact absurd h2 hlt
  · intro u k a b he
    rw [hops (o' := (u, 0)) (Nat.zero_le _)] at he
    exact h.i0 u k a b he
  · intro o' hr
    rw [ended_snoc_inv] at hr
    rw [hti _ (hne hr)]
    exact h.rt o' hr
  · intro a b hp
    rcases precedes_snoc hp with g1 | ⟨g1, c', g2⟩
    · obtain ⟨c', hb⟩ := g1.invd
      rw [hti b (hid _ hb)]
      exact h.pr a b g1
    · cases g2
      rw [hto]
      exact (h.rt a g1).2
  · intro q ev hq
    have hk : ev.op.2 ≤ S.seq ev.op.1 := by
      obtain ⟨A, B, hAB⟩ := List.append_of_mem (List.mem_of_getElem? hq)
      have hAB : S.log = A ++ ev :: B := hAB
      exact (hS.e.e1 A ev ⟨B, by rw [hAB]; simp⟩).seq
    rw [hti _ (hfresh _ hk), ended_snoc_inv]
    exact h.ev q ev hq
  · intro id x hx hnl
    rw [ended_snoc_inv]
    exact h.unl id x hx hnl
  · intro u h1 h2
    rw [hseq, ended_snoc_inv]
    unfold setTh at h1 h2
    by_cases hu : u = t
    · subst hu
      rw [if_pos rfl]
      exact ⟨⟨c, by rw [ho]; simp⟩, hnr⟩
    · rw [if_neg hu] at h1 h2 ⊢
      obtain ⟨⟨c', h3⟩, h4⟩ := h.pend u h1 h2
      exact ⟨⟨c', List.mem_append_left _ h3⟩, h4⟩
  · intro u c' p' h1
    have hip : (S.invSt t c.opi).invPos u = if u = t then S.log.length else S.invPos u := rfl
    rw [hseq, hip]
    unfold setTh at h1
    by_cases hu : u = t
    · subst hu
      rw [if_pos rfl] at h1 ⊢
      cases h1
      rw [if_pos rfl]
      exact ⟨by rw [ho]; simp, hto⟩
    · rw [if_neg hu] at h1 ⊢
      rw [if_neg hu]
      obtain ⟨h3, h4⟩ := h.run u c' p' h1
      exact ⟨List.mem_append_left _ h3, by rw [hti (u, S.seq u) (hid _ h3)]; exact h4⟩
  · intro o' c' r hr hc
    have hr : .ret o' c' r ∈ hist := by
      rcases List.mem_append.1 hr with g1 | g1
      · exact g1
      · cases List.mem_singleton.1 g1
    rw [hti o' (hid _ hr)]
    exact h.done o' c' r hr hc
  · intro o' c' w hw hc
    rcases List.mem_append.1 hw with g1 | g1
    · exact h.pan o' c' w g1 hc
    · cases List.mem_singleton.1 g1
  · intro o' c' r hr
    have hr : .ret o' c' r ∈ hist := by
      rcases List.mem_append.1 hr with g1 | g1
      · exact g1
      · cases List.mem_singleton.1 g1
    rw [hti o' (hid _ hr)]
    exact h.bulk o' c' r hr
  · intro o' c' r hr
    have hr : .ret o' c' r ∈ hist := by
      rcases List.mem_append.1 hr with g1 | g1
      · exact g1
      · cases List.mem_singleton.1 g1
    have hri : (g.call o S.log.length S.pays S.rt).rInv o' = g.rInv o' := if_neg (hid _ hr)
    rw [hpi o' (hid _ hr), hri]
    exact LenAt.mono (S := S) (List.prefix_refl _) (fun T hT => ⟨hT, rfl⟩) (h.len o' c' r hr)
  · intro u c' p' h1
    have hir : (S.invSt t c.opi).rInv u = if u = t then S.rt else S.rInv u := rfl
    rw [hseq, hir]
    unfold setTh at h1
    by_cases hu : u = t
    · subst hu
      rw [if_pos rfl, if_pos rfl]
      exact if_pos rfl
    · rw [if_neg hu] at h1
      rw [if_neg hu, if_neg hu]
      obtain ⟨h3, h4⟩ := h.run u c' p' h1
      exact (if_neg (hid _ h3)).trans (h.ri u c' p' h1)
  · intro o' g1 g2 g3
    rw [ended_snoc_inv]
    rw [hseq] at g2 g3
    by_cases hu : o'.1 = t
    · rw [if_pos hu] at g2 g3
      rcases Nat.lt_or_ge o'.2 (S.seq t + 1) with hlt | hge
      · refine h.old o' g1 (by rw [hu]; omega) fun _ => ?_
        rw [hu, hth]; exact .inr rfl
      · have := g3 (by omega)
        unfold setTh at this
        rw [if_pos hu] at this
        rcases this with h | h <;> cases h
    · rw [if_neg hu] at g2 g3
      refine h.old o' g1 g2 fun he => ?_
      have := g3 he
      unfold setTh at this
      rw [if_neg hu] at this; exact this
  · intro u c' hi hp
    have hd : Due u 0 S := by
      by_cases hu : u = t
      · rw [hu]; exact hdue
      · rw [hseq, if_neg hu] at hi
        rcases List.mem_append.1 hi with g1 | g1
        · exact h.pas u c' g1 hp
        · have g1 := List.mem_singleton.1 g1
          have : (u, S.seq u) = o := congrArg HEv.id g1
          rw [ho] at this
          exact absurd (congrArg Prod.fst this) hu
    exact hd
  · intro H1 o' c' H2 he hd hp hi
    rcases allDone_snoc he with ⟨h1, h2, h3⟩ | ⟨B, rfl, h2⟩
    · cases h2
      rw [hto, hpo]
      refine ⟨rfl, fun k => ?_⟩
      show vals (abs S.log) k = vals (abs (S.log.take S.log.length)) k
      rw [List.take_length]
    · have hm : .inv o' c' ∈ hist := by rw [h2]; simp
      rw [hti o' (hid _ hm), hpi o' (hid _ hm)]
      exact h.quiet H1 o' c' B h2 hd hp fun o c hm => hi o c (List.mem_append_left _ hm)
  · intro H1 o' c' H2 he hd
    rcases allDone_snoc he with ⟨h1, h2, h3⟩ | ⟨B, rfl, h2⟩
    · cases h2
      rw [hto, hpo]
      subst h1
      show _ = deltas (S.log.take S.log.length)
      rw [List.take_length]
      exact hq hd
    · have hm : .inv o' c' ∈ hist := by rw [h2]; simp
      rw [hti o' (hid _ hm), hpi o' (hid _ hm)]
      exact h.q1 H1 o' c' B h2 hd

theorem allDone_resp {H A B : List (HEv K V)} {o : OpId} {c : Call K V} {x : HEv K V} (hx : ∀ o c, x ≠ .inv o c)
    (h : H ++ [x] = A ++ .inv o c :: B) : ∃ B', B = B' ++ [x] ∧ H = A ++ .inv o c :: B' := by
  rcases allDone_snoc h with ⟨_, h2, _⟩ | h
  · exact absurd h2 (hx _ _)
  · exact h

/-- A response. -/
theorem HistInv.ret {hist : List (HEv K V)} {th : Tid → Th K V} {g : HG} (h : HistInv S hist th g) (hS : S.Inv C)
    {c : Call K V} {r : c.Res} {p : Prog K V c.Res} (hth : th t = .run c p)
    (hp : Post t (g.pInv (t, S.seq t)) c r S) :
    ∃ q, HistInv S (hist ++ [.ret (t, S.seq t) c r]) (setTh th t .idle) (g.resp (t, S.seq t) S.log.length q) := by
  set o : OpId := (t, S.seq t) with ho
  have hrun := h.run t c p hth
  rw [← ho] at hrun
  have hnr : ¬ Ended hist o := (h.pend t (by rw [hth]; simp) (by rw [hth]; simp)).2
  have hne : ∀ {o'}, Ended hist o' → o' ≠ o := by
    rintro o' hr rfl; exact hnr hr
  obtain ⟨hidle, hrefs, hat, hbulk⟩ := hp
  have hmem : ∀ {o' : OpId} {c' : Call K V} {r' : c'.Res}, HEv.ret o' c' r' ∈ hist ++ [.ret o c r] →
      HEv.ret o' c' r' ∈ hist ∨ HEv.ret o' c' r' = .ret o c r := by
    intro o' c' r' hr
    rcases List.mem_append.1 hr with g1 | g1
    · exact .inl g1
    · exact .inr (List.mem_singleton.1 g1)
  -- where the operation is linearized if it has no event
  obtain ⟨q, hq⟩ : ∃ q, c.atomic = true → (∃ ev ∈ S.log, ev.op = o ∧ EvSpec c r ev.key ev.old ev.new) ∨
    ((∀ ev ∈ S.log, ev.op ≠ o) ∧ g.tInv o ≤ q ∧ q ≤ S.log.length ∧
      SpecOp c (vals (abs (S.log.take q))) r (vals (abs (S.log.take q)))) := by
    by_cases hc : c.atomic = true
    · rcases hat hc with ⟨k, old, new, ⟨l, g1⟩, g2⟩ | ⟨g1, l, g2, g3, g4⟩
      · exact ⟨0, fun _ => .inl ⟨⟨(t, S.seq t), k, old, new⟩, g1.subset (by simp), rfl, g2⟩⟩
      · refine ⟨l.length, fun _ => .inr ⟨fun ev hev he => g1.1 ev hev he, ?_, g2.length_le, ?_⟩⟩
        · rw [hrun.2]; exact g3
        · rw [← prefix_take g2]; exact g4
    · exact ⟨0, fun h => absurd h hc⟩
  refine ⟨q, ?_⟩
  have hro : (g.resp o S.log.length q).tRet o = S.log.length := if_pos rfl
  have hrn : ∀ o', o' ≠ o → (g.resp o S.log.length q).tRet o' = g.tRet o' := fun o' h => if_neg h
  have hqo : (g.resp o S.log.length q).rpos o = q := if_pos rfl
  have hqn : ∀ o', o' ≠ o → (g.resp o S.log.length q).rpos o' = g.rpos o' := fun o' h => if_neg h
  have hti : (g.resp o S.log.length q).tInv = g.tInv := rfl
  have hpi : (g.resp o S.log.length q).pInv = g.pInv := rfl
  have hsn : ∀ {k : K} {x : Option (Entry K V)}, SeenIn t k x S → SeenAt S.log (g.tInv o) S.log.length k x := by
    intro k x hs
    rw [hrun.2]; exact hs.at
  refine ⟨h.wf.snoc ⟨hrun.1, hnr⟩, ?_, ?_, h.i0, ?_, ?_, ?_, ?_, ?_, ?_, ?_, ?_, ?_, ?_, ?_, ?_, ?_, ?_, ?_⟩
  · intro o' c' hi
    rcases List.mem_append.1 hi with g1 | g1
    · exact h.i1 o' c' g1
    · cases List.mem_singleton.1 g1
  · intro o' h1 h2
    obtain ⟨c', hc'⟩ := h.i2 o' h1 h2
    exact ⟨c', List.mem_append_left _ hc'⟩
  · intro o' hr
    rw [hti]
    rcases ended_snoc_ret.1 hr with g1 | rfl
    · rw [hrn _ (hne g1)]; exact h.rt o' g1
    · rw [hro]; exact ⟨(h.i1 _ _ hrun.1).2.2.2, Nat.le_refl _⟩
  · intro a b hpr
    rcases precedes_snoc hpr with g1 | ⟨_, c', g2⟩
    · rw [hrn _ (hne g1.ended)]; exact h.pr a b g1
    · cases g2
  · intro q' ev hq'
    rw [hti]
    refine ⟨(h.ev q' ev hq').1, fun hr => ?_⟩
    by_cases he : ev.op = o
    · rw [he, hro]
      rw [List.getElem?_eq_some_iff] at hq'
      exact hq'.1
    · rw [hrn _ he]
      rcases ended_snoc_ret.1 hr with g1 | g1
      · exact (h.ev q' ev hq').2 g1
      · exact absurd g1 he
  · intro id x hx hnl hr
    rcases ended_snoc_ret.1 hr with g1 | g1
    · exact h.unl id x hx hnl g1
    · exact hnl (hidle.2.2.1 id x hx (by rw [g1]))
  · intro u h1 h2
    unfold setTh at h1 h2
    by_cases hu : u = t
    · rw [if_pos hu] at h2; exact absurd rfl h2
    · rw [if_neg hu] at h1 h2
      obtain ⟨⟨c', h3⟩, h4⟩ := h.pend u h1 h2
      refine ⟨⟨c', List.mem_append_left _ h3⟩, fun hr => ?_⟩
      rcases ended_snoc_ret.1 hr with g1 | g1
      · exact h4 g1
      · exact hu (congrArg Prod.fst g1)
  · intro u c' p' h1
    unfold setTh at h1
    by_cases hu : u = t
    · rw [if_pos hu] at h1; cases h1
    · rw [if_neg hu] at h1
      obtain ⟨h3, h4⟩ := h.run u c' p' h1
      exact ⟨List.mem_append_left _ h3, h4⟩
  · intro o' c' r' hr hc
    rcases hmem hr with g1 | g1
    · have hn := hne (.ret g1)
      rw [hti, hrn _ hn, hqn _ hn]
      exact h.done o' c' r' g1 hc
    · cases g1
      rw [hti, hro, hqo]
      exact hq hc
  · intro o' c' w hw hc
    rcases List.mem_append.1 hw with g1 | g1
    · exact h.pan o' c' w g1 hc
    · cases List.mem_singleton.1 g1
  · intro o' c' r' hr
    rcases hmem hr with g1 | g1
    · have hn := hne (.ret g1)
      rw [hti, hrn _ hn]
      exact h.bulk o' c' r' g1
    · cases g1
      rw [hti, hro]
      cases c with
      | clear => exact fun k => hsn (hbulk k)
      | retain f =>
        refine ⟨hbulk.1, fun ev hev he => ?_, fun k => ?_⟩
        · obtain ⟨e, g1, _, _, g2⟩ := hbulk.2.1.2 ev hev he
          exact ⟨e, g1, g2⟩
        · rcases hbulk.2.2 k with g1 | ⟨e, g1, g2⟩
          · exact .inl (hsn g1)
          · exact .inr ⟨e, hsn g1, g2⟩
      | iter =>
        have hb : YieldOk t (r : List (Entry K V)) S ∧ ∀ k, Yielded t (r : List (Entry K V)) k S := hbulk
        refine ⟨fun e he => hsn (hb.1.1 e he).1, hb.1.2.imp fun {x y} g hk => hsn (g hk), fun k => ?_⟩
        rcases hb.2 k with g1 | g1
        · exact .inl (hsn g1)
        · exact .inr g1
      | iterTake n =>
        have hb : YieldOk t (r : List (Entry K V)) S ∧ List.length (r : List (Entry K V)) ≤ n ∧ (List.length (r : List (Entry K V)) < n → ∀ k, Yielded t (r : List (Entry K V)) k S) := hbulk
        refine ⟨fun e he => hsn (hb.1.1 e he).1, hb.1.2.imp fun {x y} g hk => hsn (g hk), hb.2.1, fun hl k => ?_⟩
        rcases hb.2.2 hl k with g1 | g1
        · exact .inl (hsn g1)
        · exact .inr g1
      | _ => trivial
  · intro o' c' r' hr
    rw [hpi]
    rcases hmem hr with g1 | g1
    · exact h.len o' c' r' g1
    · cases g1
      cases c with
      | len => exact hbulk
      | isEmpty => exact hbulk
      | reserve a =>
        obtain ⟨T, g1, n, c, g2, g3, g4⟩ := hbulk
        refine ⟨T.id, n, c, g1.2.1, ?_, g2, g3, ?_⟩
        · rw [show (g.resp o S.log.length q).rInv o = g.rInv o from rfl, h.ri t _ p hth]; exact g1.2.2
        · rw [← g1.1.len hS]; exact g4
      | _ => trivial
  · intro u c' p' h1
    unfold setTh at h1
    by_cases hu : u = t
    · rw [if_pos hu] at h1; cases h1
    · rw [if_neg hu] at h1; exact h.ri u c' p' h1
  · intro o' g1 g2 g3
    by_cases hoo : o' = o
    · rw [hoo]; exact ended_snoc_ret.2 (.inr rfl)
    · refine (h.old o' g1 g2 fun he => ?_).mono
      have := g3 he
      unfold setTh at this
      by_cases hu : o'.1 = t
      · refine absurd ?_ hoo
        rw [ho]
        apply Prod.ext
        · exact hu
        · rw [he, hu]
      · rw [if_neg hu] at this; exact this
  · intro u c' hi hp
    rcases List.mem_append.1 hi with g1 | g1
    · exact h.pas u c' g1 hp
    · cases List.mem_singleton.1 g1
  · intro H1 o' c' H2 he hd hpa hi
    obtain ⟨B, rfl, h2⟩ := allDone_resp (by rintro _ _ ⟨⟩) he
    exact h.quiet H1 o' c' B h2 hd hpa fun o c hm => hi o c (List.mem_append_left _ hm)
  · intro H1 o' c' H2 he hd
    obtain ⟨B, rfl, h2⟩ := allDone_resp (by rintro _ _ ⟨⟩) he
    exact h.q1 H1 o' c' B h2 hd

/-- A panic. -/
theorem HistInv.panic {hist : List (HEv K V)} {th : Tid → Th K V} {g : HG} (h : HistInv S hist th g) (hS : S.Inv C)
    {c : Call K V} {w : PanicReason} {p : Prog K V c.Res} (hth : th t = .run c p)
    (hidle : Idle t S) (hfr : c.atomic = true → S.FreshOp t) :
    HistInv S (hist ++ [.panic (t, S.seq t) c w]) (setTh th t .idle) (g.resp (t, S.seq t) S.log.length 0) := by
  set o : OpId := (t, S.seq t) with ho
  have hrun := h.run t c p hth
  rw [← ho] at hrun
  have hnr : ¬ Ended hist o := (h.pend t (by rw [hth]; simp) (by rw [hth]; simp)).2
  have hne : ∀ {o'}, Ended hist o' → o' ≠ o := by
    rintro o' hr rfl; exact hnr hr
  have hmem : ∀ {o' : OpId} {c' : Call K V} {r' : c'.Res}, HEv.ret o' c' r' ∈ hist ++ [.panic o c w] →
      HEv.ret o' c' r' ∈ hist := by
    intro o' c' r' hr
    rcases List.mem_append.1 hr with g1 | g1
    · exact g1
    · cases List.mem_singleton.1 g1
  have hro : (g.resp o S.log.length 0).tRet o = S.log.length := if_pos rfl
  have hrn : ∀ o', o' ≠ o → (g.resp o S.log.length 0).tRet o' = g.tRet o' := fun o' h => if_neg h
  have hqo : (g.resp o S.log.length 0).rpos o = 0 := if_pos rfl
  have hqn : ∀ o', o' ≠ o → (g.resp o S.log.length 0).rpos o' = g.rpos o' := fun o' h => if_neg h
  have hti : (g.resp o S.log.length 0).tInv = g.tInv := rfl
  have hpi : (g.resp o S.log.length 0).pInv = g.pInv := rfl
  refine ⟨h.wf.snoc ⟨hrun.1, hnr⟩, ?_, ?_, h.i0, ?_, ?_, ?_, ?_, ?_, ?_, ?_, ?_, ?_, ?_, ?_, ?_, ?_, ?_, ?_⟩
  · intro o' c' hi
    rcases List.mem_append.1 hi with g1 | g1
    · exact h.i1 o' c' g1
    · cases List.mem_singleton.1 g1
  · intro o' h1 h2
    obtain ⟨c', hc'⟩ := h.i2 o' h1 h2
    exact ⟨c', List.mem_append_left _ hc'⟩
  · intro o' hr
    rw [hti]
    rcases ended_snoc_panic.1 hr with g1 | rfl
    · rw [hrn _ (hne g1)]; exact h.rt o' g1
    · rw [hro]; exact ⟨(h.i1 _ _ hrun.1).2.2.2, Nat.le_refl _⟩
  · intro a b hpr
    rcases precedes_snoc hpr with g1 | ⟨_, c', g2⟩
    · rw [hrn _ (hne g1.ended)]; exact h.pr a b g1
    · cases g2
  · intro q' ev hq'
    rw [hti]
    refine ⟨(h.ev q' ev hq').1, fun hr => ?_⟩
    by_cases he : ev.op = o
    · rw [he, hro]
      rw [List.getElem?_eq_some_iff] at hq'
      exact hq'.1
    · rw [hrn _ he]
      rcases ended_snoc_panic.1 hr with g1 | g1
      · exact (h.ev q' ev hq').2 g1
      · exact absurd g1 he
  · intro id x hx hnl hr
    rcases ended_snoc_panic.1 hr with g1 | g1
    · exact h.unl id x hx hnl g1
    · exact hnl (hidle.2.2.1 id x hx (by rw [g1]))
  · intro u h1 h2
    unfold setTh at h1 h2
    by_cases hu : u = t
    · rw [if_pos hu] at h2; exact absurd rfl h2
    · rw [if_neg hu] at h1 h2
      obtain ⟨⟨c', h3⟩, h4⟩ := h.pend u h1 h2
      refine ⟨⟨c', List.mem_append_left _ h3⟩, fun hr => ?_⟩
      rcases ended_snoc_panic.1 hr with g1 | g1
      · exact h4 g1
      · exact hu (congrArg Prod.fst g1)
  · intro u c' p' h1
    unfold setTh at h1
    by_cases hu : u = t
    · rw [if_pos hu] at h1; cases h1
    · rw [if_neg hu] at h1
      obtain ⟨h3, h4⟩ := h.run u c' p' h1
      exact ⟨List.mem_append_left _ h3, h4⟩
  · intro o' c' r' hr hc
    have g1 := hmem hr
    have hn := hne (.ret g1)
    rw [hti, hrn _ hn, hqn _ hn]
    exact h.done o' c' r' g1 hc
  · intro o' c' w' hw hc
    rcases List.mem_append.1 hw with g1 | g1
    · exact h.pan o' c' w' g1 hc
    · cases List.mem_singleton.1 g1
      exact fun ev hev he => (hfr hc).1 ev hev he
  · intro o' c' r' hr
    have g1 := hmem hr
    have hn := hne (.ret g1)
    rw [hti, hrn _ hn]
    exact h.bulk o' c' r' g1
  · intro o' c' r' hr
    rw [hpi]
    exact h.len o' c' r' (hmem hr)
  · intro u c' p' h1
    unfold setTh at h1
    by_cases hu : u = t
    · rw [if_pos hu] at h1; cases h1
    · rw [if_neg hu] at h1; exact h.ri u c' p' h1
  · intro o' g1 g2 g3
    by_cases hoo : o' = o
    · rw [hoo]; exact ended_snoc_panic.2 (.inr rfl)
    · refine (h.old o' g1 g2 fun he => ?_).mono
      have := g3 he
      unfold setTh at this
      by_cases hu : o'.1 = t
      · refine absurd ?_ hoo
        rw [ho]
        apply Prod.ext
        · exact hu
        · rw [he, hu]
      · rw [if_neg hu] at this; exact this
  · intro u c' hi hp
    rcases List.mem_append.1 hi with g1 | g1
    · exact h.pas u c' g1 hp
    · cases List.mem_singleton.1 g1
  · intro H1 o' c' H2 he hd hpa hi
    obtain ⟨B, rfl, h2⟩ := allDone_resp (by rintro _ _ ⟨⟩) he
    exact h.quiet H1 o' c' B h2 hd hpa fun o c hm => hi o c (List.mem_append_left _ hm)
  · intro H1 o' c' H2 he hd
    obtain ⟨B, rfl, h2⟩ := allDone_resp (by rintro _ _ ⟨⟩) he
    exact h.q1 H1 o' c' B h2 hd


end Papaya
