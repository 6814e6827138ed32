import Verif.Props.Stall
import Verif.Props.ParkDemo
import Verif.Proof.StallInc
import Verif.Proof.WorkInv

/-! # C69: an incremental resize whose copier is gone is never finished -/

set_option linter.unusedSectionVars false
set_option linter.unusedVariables false

namespace Papaya

open GSt

variable {K V : Type} [DecidableEq K] {C : Cfg K} {S S' : GSt K V} {ps ps' : PSt K V} {s i : Nat} {t : Tid} {e : Entry K V}

/-- What the ghost state says. -/
structure LostMark (C : Cfg K) (S : GSt K V) (t : Tid) (s i : Nat) (e : Entry K V) : Prop where
  cs : S.cs (s + 1) i = .marked t
  entry : S.kslot s i e
  copying : S.copying s i

theorem LostMark.pair (hI : S.Inv C) (hinc : C.inc = true) (h : LostMark C S t s i e) : S.CopyPair s (s + 1) ∧ i < S.cap s := by
  obtain ⟨s', h1, h2⟩ := hI.c.c2 (s + 1) i (by rw [h.cs]; nofun)
  have h3 : s' = s := by
    by_contra hne
    have := h1.1
    exact hI.s.incab hinc s (h1.2.2.2 s (by omega) (by omega))
  subst h3
  exact ⟨h1, h2⟩

theorem LostMark.root (hI : S.Inv C) (hinc : C.inc = true) (h : LostMark C S t s i e) : S.root = some s := by
  obtain ⟨h1, h2⟩ := h.pair hI hinc
  have h3 : s ≤ S.rt := h1.2.2.1.2.1
  have h4 : S.rt = s := by
    by_contra hne
    obtain ⟨l, hl⟩ := hI.c.c8 s (s + 1) i h1 ⟨h1.2.1, by omega, hI.s.incab hinc _⟩ h2
    rw [h.cs] at hl; cases hl
  rw [root_eq hI.s h1.2.1, h4]

theorem LostMark.copied (hI : S.Inv C) (hinc : C.inc = true) (h : LostMark C S t s i e) : (S.slot s i).copied = false := by
  by_contra hc
  have hr := h.root hI hinc
  have hrt : S.rt = s := by unfold GSt.rt; rw [hr]; rfl
  obtain ⟨T', i', h1, _⟩ := hI.c.c5 hinc i e (by rw [hrt]; exact h.entry) (by
    rw [hrt]; unfold copiedF; simpa using hc)
  rw [hrt] at h1
  unfold GSt.loc at h1
  rw [h.cs] at h1
  cases h1

theorem LostMark.count (hI : S.Inv C) (hinc : C.inc = true) (h : LostMark C S t s i e) : S.copied (s + 1) < S.cap s := by
  obtain ⟨h1, h2⟩ := h.pair hI hinc
  rw [hI.c.c6]
  unfold nCounted
  refine lt_of_lt_of_eq (Finset.card_lt_card (t := Finset.range (S.cap s)) ?_) (Finset.card_range _)
  rw [Finset.ssubset_iff_of_subset]
  · refine ⟨i, Finset.mem_range.2 h2, fun h3 => ?_⟩
    have := (Finset.mem_filter.1 h3).2
    rw [h.cs] at this; cases this
  · intro j hj
    have hj := (Finset.mem_filter.1 hj).2
    obtain ⟨s', h3, h4⟩ := hI.c.c2 (s + 1) j (by intro h5; rw [h5] at hj; cases hj)
    rw [pair_src h1 h3] at *
    exact Finset.mem_range.2 h4

theorem LostMark.status (hI : S.Inv C) (hinc : C.inc = true) (h : LostMark C S t s i e) : S.status (s + 1) = .pending := by
  have hr := h.root hI hinc
  cases hst : S.status (s + 1) with
  | pending => rfl
  | aborted => exact absurd hst (hI.s.incab hinc _)
  | promoted =>
    have := (hI.s.prom _ hst).1
    have hrt : S.rt = s := by unfold GSt.rt; rw [hr]; rfl
    omega

/-- The invariant of the executions. -/
def Lost (C : Cfg K) (t : Tid) (s i : Nat) (e : Entry K V) (ps : PSt K V) : Prop :=
  ps.th t = .gone ∧ ∀ M, ∃ N, M ≤ N ∧ ∃ S g, PInvG C N ps S g ∧ LostMark C S t s i e

theorem gone_step (hs : Step C ps ps') (h : ps.th t = .gone) : ps'.th t = .gone := by
  have hset : ∀ (u : Tid) (x : Th K V), u ≠ t → setTh ps.th u x t = .gone := by
    intro u x hu
    unfold setTh; rw [if_neg (Ne.symm hu)]; exact h
  have hne : ∀ {u : Tid} {x : Th K V}, ps.th u = x → x ≠ .gone → u ≠ t := by
    rintro u x h1 h2 rfl
    exact h2 (h1 ▸ h)
  cases hs with
  | pin u hu => exact hset _ _ (hne hu nofun)
  | unpin u hu => exact hset _ _ (hne hu nofun)
  | abandon u hu => exact hset _ _ (hne hu nofun)
  | release u hu => exact h
  | inv u c hu _ => exact hset _ _ (hne hu nofun)
  | act u hu _ => exact hset _ _ (hne hu nofun)
  | loop u hu => exact hset _ _ (hne hu nofun)
  | ret u hu => exact hset _ _ (hne hu nofun)
  | panic u hu => exact hset _ _ (hne hu nofun)
  | freeEntry x _ _ _ => exact h
  | freeTable T _ _ _ => exact h

theorem LostMark.step {N : Nat} {g : HG} (h : LostMark C S t s i e) (ht : ps'.th t = ps.th t) (hev : Evo S S')
    (hst : CsStill ps ps' S S') : LostMark C S' t s i e := by
  have hf := hev.frozen s i h.copying
  refine ⟨?_, ?_, hf.2.1⟩
  · rw [hst t (.inl ht) (s + 1) i (.inl (by rw [h.cs]; rfl)), h.cs]
  · unfold GSt.kslot; rw [hf.1]; exact h.entry

theorem Lost.step (h : Lost C t s i e ps) (hs : Step C ps ps') : Lost C t s i e ps' := by
  have hg := gone_step hs h.1
  refine ⟨hg, fun M => ?_⟩
  obtain ⟨N, hN, S, g, h1, h2⟩ := h.2 (M + 1)
  obtain ⟨N, rfl⟩ : ∃ N', N = N' + 1 := ⟨N - 1, by omega⟩
  obtain ⟨S', g', h3, hev, _, hst, _⟩ := pinvG_step h1 hs
  exact ⟨N, by omega, S', g', h3, h2.step (N := N) (g := g) (by rw [hg, h.1]) hev hst⟩

theorem Lost.steps (h : Lost C t s i e ps) (hs : Steps C ps ps') : Lost C t s i e ps' := by
  induction hs with
  | refl => exact h
  | tail _ h1 ih => exact ih.step h1

theorem PInvG.kill {N : Nat} {g : HG} (h : PInvG C N ps S g) {c : Call K V} {p : Prog K V c.Res} (ht : ps.th t = .run c p) :
    PInvG C N (ps.kill t) S g := by
  obtain ⟨g1, g2, g3, g4, g5, g6⟩ := id h
  refine h.outside (t := t) (S' := S) (held := ps.held) g2 (Evo.refl S) (fun t' _ => Own.refl t' S) g1
      rfl rfl rfl rfl rfl rfl (fun _ _ _ => rfl) trivial ?_ ?_ (by rintro (h | h) <;> cases h) (fun _ _ => rfl) (g5.1 t) ?_
  · rw [ht]; intro _ _; simp
  · rintro _ _ ⟨⟩
  · rintro ⟨⟩

/-- The start. -/
theorem lost_start (h : Reach C ps) (hinc : C.inc = true) (h1 : NoneAbandoned ps) (h2 : ∀ o c w, HEv.panic o c w ∈ ps.hist → ¬ AllocPanic w)
    (hf : FrozenSlot ps s i e) : ∃ t, Running ps t ∧ Lost C t s i e (ps.kill t) := by
  suffices H : ∀ N, ∃ t S g, PInvG C N ps S g ∧ LostMark C S t s i e ∧ Running ps t by
    have hfin : {u | Running ps u}.Finite := by
      refine Set.Finite.subset (ps.hist.filterMap fun ev => match ev with | .inv o _ => some o.1 | _ => none).toFinset.finite_toSet ?_
      rintro u ⟨c, p, hu⟩
      obtain ⟨S, g, ⟨_, _, _, _, _, g6⟩, _⟩ := h.pinv 1
      obtain ⟨⟨c', hc'⟩, _⟩ := g6.pend u (by rw [hu]; nofun) (by rw [hu]; nofun)
      rw [Finset.mem_coe, List.mem_toFinset, List.mem_filterMap]
      exact ⟨_, hc', rfl⟩
    by_contra hcon
    have hno : ∀ t, Running ps t → ∃ M, ∀ N, M ≤ N → ¬ ∃ S g, PInvG C N ps S g ∧ LostMark C S t s i e := by
      intro t ht
      by_contra hM
      refine hcon ⟨t, ht, ?_, fun M => ?_⟩
      · show setTh _ _ _ _ = _
        unfold setTh; rw [if_pos rfl]
      · by_contra hN
        refine hM ⟨M, fun N hMN ⟨S, g, h3, h4⟩ => hN ⟨N, hMN, S, g, ?_, h4⟩⟩
        obtain ⟨c, p, h5⟩ := ht
        exact h3.kill h5
    choose! f hfN using hno
    obtain ⟨t, S, g, h3, h4, h5⟩ := H (hfin.toFinset.sup f)
    exact hfN t h5 _ (Finset.le_sup (hfin.mem_toFinset.2 h5)) ⟨S, g, h3, h4⟩
  intro N
  obtain ⟨S, g, hS, hw⟩ := h.work N
  obtain ⟨hm, hI, _⟩ := id hS
  have hroot : S.root = some s := by show S.toSt.root = _; rw [hm]; exact hf.root
  have hent : S.kslot s i e := by unfold GSt.kslot; rw [hm]; exact hf.entry
  have hcp : S.copying s i := by unfold GSt.copying; rw [hm]; exact hf.copying
  have hnc : (S.slot s i).copied = false := by rw [hm]; exact hf.copied
  have hal : ∀ T j, S.kslot T j e → T = s := by
    intro T j hT
    unfold GSt.kslot at hT
    rw [hm] at hT
    exact hf.alone T j hT
  obtain ⟨h3, h4⟩ := hI.p.p5 s i hcp
  have hpair : S.CopyPair s (s + 1) := ⟨by omega, h4, h3, fun P hP hP' => by omega⟩
  have hrt : S.rt = s := by unfold GSt.rt; rw [hroot]; rfl
  have hcs : ∃ u, S.cs (s + 1) i = .marked u := by
    cases hcs : S.cs (s + 1) i with
    | idle => exact absurd hcp (hI.c.c9 hinc s (s + 1) i hpair (.inl hcs))
    | claimed u => exact absurd hcp (hI.c.c9 hinc s (s + 1) i hpair (.inr ⟨u, hcs⟩))
    | marked u => exact ⟨u, rfl⟩
    | placed u T' j =>
      obtain ⟨e', h5, _, h6, _, _, h7⟩ := hI.c.c4 s (s + 1) i T' j (by unfold GSt.loc; rw [hcs]; rfl) hpair
      have : e' = e := by
        unfold GSt.kslot at h5 hent; rw [h5] at hent; exact Option.some.inj hent
      subst this
      have := hal T' j (h7 hrt.symm fun hmv => by
        have := hmv.2.1; unfold copiedF at this; rw [hnc] at this; cases this)
      omega
    | counted l =>
      have := ((hI.c.c3 s (s + 1) i l hcs hpair).2 e hent).1 hinc
      unfold copiedF at this; rw [hnc] at this; cases this
    | lost => exact absurd (hw.lost _ _ hcs) (hI.s.incab hinc _)
  obtain ⟨u, hu⟩ := hcs
  rcases hw.own u (s + 1) ⟨i, by rw [hu]; rfl⟩ with h5 | h5 | ⟨c, p, _, _, _, h5, _⟩
  · exact absurd h5 (not_excused h h1 h2)
  · exact absurd h5 (hI.s.incab hinc _)
  · exact ⟨u, S, g, hS, ⟨hu, hent, hcp⟩, c, p, h5⟩

theorem Lost.facts (h : Lost C t s i e ps) (hinc : C.inc = true) : 
    ps.mem.root = some s ∧ (ps.mem.slot s i).ptr = some e ∧ (ps.mem.slot s i).copying = true ∧ (ps.mem.slot s i).copied = false ∧
    ps.mem.next s = some (s + 1) ∧ ps.mem.status (s + 1) = .pending := by
  obtain ⟨_, h⟩ := h
  obtain ⟨_, _, S, g, ⟨hm, hI, _⟩, hL⟩ := h 0
  refine ⟨?_, ?_, ?_, ?_, ?_, ?_⟩
  · rw [← hm]; exact hL.root hI hinc
  · rw [← hm]; exact hL.entry
  · rw [← hm]; exact hL.copying
  · rw [← hm]; exact hL.copied hI hinc
  · rw [← hm]
    obtain ⟨h1, _⟩ := hL.pair hI hinc
    have := hI.s.next s (by have := h1.1; have := h1.2.1; omega)
    rw [if_pos h1.2.1] at this
    exact this
  · rw [← hm]; exact hL.status hI hinc

/-- The two tables keep their sizes. -/
theorem Lost.handle (h : Lost C t s i e ps) (hinc : C.inc = true) (hs : Step C ps ps') :
    ps'.mem.handle s = ps.mem.handle s ∧ ps'.mem.handle (s + 1) = ps.mem.handle (s + 1) := by
  obtain ⟨N, hN, S, g, h1, h2⟩ := h.2 1
  obtain ⟨N, rfl⟩ : ∃ N', N = N' + 1 := ⟨N - 1, by omega⟩
  obtain ⟨S', g', h3, hev, _⟩ := pinvG_step h1 hs
  obtain ⟨hm, hI, _⟩ := id h1
  obtain ⟨hm', _⟩ := id h3
  obtain ⟨h4, _⟩ := h2.pair hI hinc
  have h5 := h4.2.1
  have h6 : s < s + 1 := h4.1
  have key : ∀ T, T < S.nTabs → ps'.mem.handle T = ps.mem.handle T := by
    intro T hT
    have := hev.cap T hT
    rw [← hm, ← hm']
    unfold St.handle
    rw [show S'.toSt.cap T = S.toSt.cap T from this]
  exact ⟨key s (by omega), key (s + 1) h5⟩

theorem Lost.notAll (h : Lost C t s i e ps) (hinc : C.inc = true) (hc : 8 ≤ ps.mem.cap s) :
    ps.mem.copied (s + 1) < (ps.mem.handle s).len := by
  rw [handle_len hc]
  obtain ⟨_, _, S, g, ⟨hm, hI, _⟩, hL⟩ := h.2 0
  rw [← hm]
  exact hL.count hI hinc

theorem lost_exec (h : Lost C t s i e ps) (h' : Lost C t s i e ps') (hinc : C.inc = true) (hc : 8 ≤ ps'.mem.cap s)
    {u : Tid} {β : Type} {a : Act K V β} {r : β} (he : Exec C u a ps.mem r ps'.mem) {H HN : Table}
    (h1 : ps.mem.handle s = H) (h2 : ps.mem.handle (s + 1) = HN) (h3 : ps'.mem.handle s = H) : a.lostRes H HN i r := by
  have hH : H.id = s := by rw [← h1]; rfl
  have hN : HN.id = s + 1 := by rw [← h2]; rfl
  obtain ⟨f1, f2, f3, f4, f5, f6⟩ := h.facts hinc
  have hnot := h'.notAll hinc hc
  rw [h3] at hnot
  cases a with
  | loadRoot =>
    obtain ⟨rfl, _⟩ := he
    show ps.mem.root.map ps.mem.handle = some H
    rw [f1, Option.map_some, h1]
  | loadNext T =>
    obtain ⟨rfl, _⟩ := he
    rintro rfl
    show (ps.mem.next H.id).map ps.mem.handle = some HN
    rw [hH, f5, Option.map_some, h2]
  | loadStatus T =>
    obtain ⟨rfl, _⟩ := he
    rintro rfl
    show ps.mem.status HN.id = .pending
    rw [hN]; exact f6
  | parkStatus T =>
    obtain ⟨h4, _⟩ := he
    rintro rfl
    rw [hN] at h4
    exact h4 f6
  | parkSlot T j =>
    obtain ⟨h4, _⟩ := he
    rintro ⟨rfl, rfl⟩
    rw [hH, f4] at h4
    cases h4
  | loadCopied T =>
    obtain ⟨rfl, h4⟩ := he
    rintro rfl
    rw [hN, ← h4]
    omega
  | addCopied T n x =>
    obtain ⟨rfl, h4⟩ := he
    rintro rfl
    rw [h4] at hnot
    rw [hN] at hnot ⊢
    have hnot : (if s + 1 = s + 1 then ps.mem.copied (s + 1) + n else ps.mem.copied (s + 1)) < H.len := hnot
    rw [if_pos rfl] at hnot
    show ps.mem.copied (s + 1) + n ≠ H.len
    omega
  | _ => trivial

theorem kill_steps (hr : Running ps t) : Steps C ps (ps.kill t) := by
  obtain ⟨c, p, h⟩ := hr
  exact .single (.abandon t h)

theorem lost_waits (hL : Lost C t s i e ps') (hinc : C.inc = true) (hreach : Reach C ps') {t' : Tid} (hw : WaitsSlot ps' t' s i)
    {q : PSt K V} (hq : Steps C ps' q) :
    (WaitsSlot q t' s i ∨ q.th t' = .gone) ∧ ¬ Ended q.hist (t', ps'.seq t') := by
  suffices H : (WaitsSlot q t' s i ∨ q.th t' = .gone) ∧ q.seq t' = ps'.seq t' ∧ ¬ Ended q.hist (t', ps'.seq t') from ⟨H.1, H.2.2⟩
  induction hq with
  | refl =>
    refine ⟨.inl hw, rfl, ?_⟩
    obtain ⟨S, g, ⟨_, _, g3, _, _, g6⟩, _⟩ := hreach.pinv 1
    obtain ⟨c, k, hc⟩ := hw
    have := (g6.pend t' (by rw [hc]; nofun) (by rw [hc]; nofun)).2
    rwa [show S.seq = ps'.seq from ‹_›] at this
  | @tail x y hx hy ih =>
    obtain ⟨ih1, ih2, ih3⟩ := ih
    have hst := ((hL.steps hx).facts hinc).2.2.2.1
    have keep : ∀ (u : Tid) (z : Th K V), u ≠ t' → ∀ {mem seq held hist},
        WaitsSlot ⟨mem, setTh x.th u z, seq, held, hist⟩ t' s i ∨ (setTh x.th u z) t' = .gone := by
      intro u z hu mem seq held hist
      have : setTh x.th u z t' = x.th t' := by unfold setTh; rw [if_neg (Ne.symm hu)]
      rcases ih1 with ⟨c, k, h1⟩ | h1
      · exact .inl ⟨c, k, this.trans h1⟩
      · exact .inr (this.trans h1)
    have ne : ∀ {u : Tid} {z : Th K V}, x.th u = z → (∀ c k, z ≠ .run c (.act (.parkSlot s i) k)) → z ≠ .gone → u ≠ t' := by
      rintro u z h1 h2 h3 rfl
      rcases ih1 with ⟨c, k, h4⟩ | h4
      · exact h2 c k (h1 ▸ h4)
      · exact h3 (h1 ▸ h4)
    have noend : ∀ {ev : HEv K V}, (∀ c r, ev ≠ .ret (t', ps'.seq t') c r) → (∀ c w, ev ≠ .panic (t', ps'.seq t') c w) →
        ¬ Ended (x.hist ++ [ev]) (t', ps'.seq t') := by
      intro ev h1 h2
      rintro (⟨c, r, h3⟩ | ⟨c, r, h3⟩) <;> rcases List.mem_append.1 h3 with h3 | h3
      · exact ih3 (.inl ⟨c, r, h3⟩)
      · exact h1 _ _ (List.mem_singleton.1 h3).symm
      · exact ih3 (.inr ⟨c, r, h3⟩)
      · exact h2 _ _ (List.mem_singleton.1 h3).symm
    cases hy with
    | pin u hu => exact ⟨keep _ _ (ne hu nofun nofun), ih2, ih3⟩
    | unpin u hu => exact ⟨keep _ _ (ne hu nofun nofun), ih2, ih3⟩
    | abandon u hu =>
      refine ⟨?_, ih2, ih3⟩
      by_cases hut : u = t'
      · subst hut; exact .inr (by show setTh _ _ _ _ = _; unfold setTh; rw [if_pos rfl])
      · exact keep _ _ hut
    | release u hu => exact ⟨ih1, ih2, ih3⟩
    | inv u c hu _ =>
      have hut := ne hu nofun nofun
      refine ⟨keep _ _ hut, ?_, noend nofun nofun⟩
      show (if t' = u then _ else _) = _
      rw [if_neg (Ne.symm hut)]; exact ih2
    | @act u c β a k r σ hu he =>
      refine ⟨?_, ih2, ih3⟩
      refine keep _ _ ?_
      rintro rfl
      rcases ih1 with ⟨c', k', h4⟩ | h4
      · rw [hu] at h4; cases h4
        obtain ⟨h5, _⟩ := he
        rw [hst] at h5; cases h5
      · rw [hu] at h4; cases h4
    | loop u hu => exact ⟨keep _ _ (ne hu nofun nofun), ih2, ih3⟩
    | ret u hu =>
      have hut := ne hu nofun nofun
      exact ⟨keep _ _ hut, ih2, noend (fun c r h => hut (congrArg (fun e : HEv K V => match e with | .ret o _ _ => o.1 | _ => 0) h)) nofun⟩
    | panic u hu =>
      have hut := ne hu nofun nofun
      exact ⟨keep _ _ hut, ih2, noend nofun fun c r h => hut (congrArg (fun e : HEv K V => match e with | .panic o _ _ => o.1 | _ => 0) h)⟩
    | freeEntry x _ _ _ => exact ⟨ih1, ih2, ih3⟩
    | freeTable T _ _ _ => exact ⟨ih1, ih2, ih3⟩

theorem lost_hangs (hL : Lost C t s i e ps) (hinc : C.inc = true) (hR : Reach C ps) (hs : Steps C ps ps') {o : OpId} {c : Call K V}
    (hc : FinishesResize (ps.mem.cap s) c) {r : c.Res} (hret : HEv.ret o c r ∈ ps'.hist) : ∃ c', HEv.inv o c' ∈ ps.hist := by
  have hb : C.mode ≠ .blocking := by
    intro hm; unfold Cfg.inc at hinc; rw [hm] at hinc; cases hinc
  have hlen := handle_len (root_cap hR (hL.facts hinc).1)
  set H := ps.mem.handle s with hH
  set HN := ps.mem.handle (s + 1) with hHN
  have hprog : Hangs H HN i (c.prog C) := by
    apply lost_finishing hb
    cases c <;> simp only [FinishesResize] at hc <;> first
      | exact .inl rfl
      | exact .inr (.inl ⟨_, rfl⟩)
      | exact .inr (.inr (.inl rfl))
      | exact .inr (.inr (.inr (.inl ⟨_, rfl⟩)))
      | exact .inr (.inr (.inr (.inr ⟨_, hlen ▸ hc, rfl⟩)))
  have key : (ps'.mem.handle s = H ∧ ps'.mem.handle (s + 1) = HN) ∧ (∀ u p, ps'.th u = .run c p → Hangs H HN i p ∨ ∃ c', HEv.inv (u, ps'.seq u) c' ∈ ps.hist) ∧
      (HEv.ret o c r ∈ ps'.hist → ∃ c', HEv.inv o c' ∈ ps.hist) := by
    clear hret
    induction hs with
    | refl =>
      obtain ⟨S, g, ⟨_, _, _, _, _, g6⟩, _⟩ := hR.pinv 1
      have hseq : S.seq = ps.seq := ‹_›
      refine ⟨⟨rfl, rfl⟩, fun u p hp => .inr ?_, fun hr => ⟨c, WFH.ret_inv' (C01_history_wf hR) hr⟩⟩
      have := (g6.pend u (by rw [hp]; nofun) (by rw [hp]; nofun)).1
      rwa [hseq] at this
    | @tail x y hx hy ih =>
      obtain ⟨⟨ih0, ih0'⟩, ih1, ih2⟩ := ih
      have hx' := hL.steps hx
      have hy' := hx'.step hy
      obtain ⟨e1, e2⟩ := hx'.handle hinc hy
      have e1 := e1.trans ih0
      have e2 := e2.trans ih0'
      refine ⟨⟨e1, e2⟩, ?_⟩
      have hset : ∀ (u : Tid) (z : Th K V),
          (∀ p, z = .run c p → Hangs H HN i p ∨ ∃ c', HEv.inv (u, x.seq u) c' ∈ ps.hist) →
          ∀ u' p, setTh x.th u z u' = .run c p → Hangs H HN i p ∨ ∃ c', HEv.inv (u', x.seq u') c' ∈ ps.hist := by
        intro u z hz u' p hp
        unfold setTh at hp
        split at hp
        · subst u'; exact hz p hp
        · exact ih1 u' p hp
      have hcap := root_cap (hR.steps (hx.tail hy)) (hy'.facts hinc).1
      cases hy with
      | pin u _ => exact ⟨hset _ _ nofun, ih2⟩
      | unpin u _ => exact ⟨hset _ _ nofun, ih2⟩
      | abandon u _ => exact ⟨hset _ _ nofun, ih2⟩
      | release u _ => exact ⟨ih1, ih2⟩
      | inv u c' _ _ =>
        refine ⟨fun u' p hp => ?_, fun hm => ih2 ?_⟩
        · have hp : setTh x.th u (.run c' (c'.prog C)) u' = .run c p := hp
          unfold setTh at hp
          split at hp
          · cases hp; exact .inl hprog
          · have := ih1 u' p hp
            show Hangs H HN i p ∨ ∃ c'', HEv.inv (u', if u' = u then _ else x.seq u') c'' ∈ ps.hist
            rw [if_neg ‹_›]
            exact this
        · exact (List.mem_append.1 hm).resolve_right fun h => by cases List.mem_singleton.1 h
      | act u hu he =>
        have h6 := lost_exec hx' hy' hinc hcap he ih0 ih0' e1
        refine ⟨hset _ _ fun p hp => ?_, ih2⟩
        cases hp
        exact (ih1 _ _ hu).imp_left fun h => (Obs'.act_inv h).2 _ h6
      | loop u hu =>
        refine ⟨hset _ _ fun p hp => ?_, ih2⟩
        cases hp
        exact (ih1 _ _ hu).imp_left fun h m => h (m + 1)
      | ret u hu =>
        refine ⟨hset _ _ nofun, fun hm => ?_⟩
        rcases List.mem_append.1 hm with hm | hm
        · exact ih2 hm
        · cases List.mem_singleton.1 hm
          exact (ih1 _ _ hu).resolve_left fun h => h 1
      | panic u _ =>
        exact ⟨hset _ _ nofun, fun hm => ih2 ((List.mem_append.1 hm).resolve_right fun h => by cases List.mem_singleton.1 h)⟩
      | freeEntry x _ _ _ => exact ⟨ih1, ih2⟩
      | freeTable T _ _ _ => exact ⟨ih1, ih2⟩
  exact key.2.2 hret


/-- **C69** The same in incremental mode: whenever a slot has been frozen for the copy of its entry and not yet released, there is an operation (the copier
of the slot) such that, if it disappears now (its thread is killed, or the user's `Hash` panics), nobody ever takes over. Whatever else is running and whatever
is called afterwards: the slot is never released, the resize is never promoted or aborted, and the root table is never replaced; an operation that waits for the copy of
that slot waits forever; and no `iter`, `clear` or `retain` that is called afterwards, and no reservation for more elements than the table has slots, ever
returns. -/
theorem C69_inc_copier (h : Reach C ps) (hinc : C.inc = true) (h1 : NoneAbandoned ps)
    (h2 : ∀ o c w, HEv.panic o c w ∈ ps.hist → ¬ AllocPanic w) (hf : FrozenSlot ps s i e) :
    ∃ t, Running ps t ∧ ∀ ps', Steps C (ps.kill t) ps' →
      (ps'.mem.root = some s ∧ (ps'.mem.slot s i).ptr = some e ∧ (ps'.mem.slot s i).copying = true ∧
        (ps'.mem.slot s i).copied = false ∧ ps'.mem.next s = some (s + 1) ∧ ps'.mem.status (s + 1) = .pending) ∧
      (∀ t', WaitsSlot ps' t' s i → ∀ q, Steps C ps' q →
        (WaitsSlot q t' s i ∨ q.th t' = .gone) ∧ ¬ Ended q.hist (t', ps'.seq t')) ∧
      ∀ o c r, FinishesResize (ps.mem.cap s) c → HEv.ret o c r ∈ ps'.hist → HEv.inv o c ∈ ps.hist := by
  obtain ⟨t, hr, hL⟩ := lost_start h hinc h1 h2 hf
  have hR := h.steps (kill_steps hr)
  refine ⟨t, hr, fun ps' hs => ⟨(hL.steps hs).facts hinc,
    fun t' hw q hq => lost_waits (hL.steps hs) hinc (hR.steps hs) hw hq,
    fun o c r hc hret => ?_⟩⟩
  obtain ⟨c', hc'⟩ := lost_hangs hL hinc hR hs hc hret
  have hw := C01_history_wf (hR.steps hs)
  rw [WFH.inv_unique hw (WFH.ret_inv' hw hret) ((steps_hist hs).subset hc')]
  exact hc'


/-- Tests. -/
def onlyRunB (ps : PSt K V) (t : Tid) : Bool :=
  (List.range tidBound).all fun u => decide (u = t) || match ps.th u with | .run _ _ => false | _ => true

theorem onlyRunB_iff [DecidableEq V] (h : Reach C ps) (hr : soundB ps = true) (ho : onlyRunB ps t = true) : ∀ u, Running ps u → u = t := by
  rintro u ⟨c, p, hu⟩
  simp only [onlyRunB, List.all_eq_true, List.mem_range, Bool.or_eq_true, decide_eq_true_eq] at ho
  rcases ho u (used_bound hr h (by rw [hu]; simp) (by rw [hu]; simp)) with h1 | h1
  · exact h1
  · rw [hu] at h1; cases h1

def frozenB [DecidableEq V] (ps : PSt K V) (s i : Nat) : Bool :=
  (ps.mem.root == some s && ((ps.mem.slot s i).ptr.isSome && ((ps.mem.slot s i).copying && !(ps.mem.slot s i).copied))) &&
  ((List.range ps.mem.nTabs).all fun T => decide (T = s) || (List.range (ps.mem.cap T)).all fun j =>
    decide ((ps.mem.slot T j).ptr ≠ (ps.mem.slot s i).ptr))

theorem frozenB_iff [DecidableEq V] (h : Reach C ps) (hr : frozenB ps s i = true) : ∃ e, FrozenSlot ps s i e := by
  simp only [frozenB, Bool.and_eq_true, beq_iff_eq, List.all_eq_true, List.mem_range, Bool.or_eq_true, decide_eq_true_eq,
    Bool.not_eq_true', Option.isSome_iff_exists] at hr
  obtain ⟨⟨h1, ⟨e, h2⟩, h3, h4⟩, h5⟩ := hr
  refine ⟨e, h1, h2, h3, h4, fun T j hT => ?_⟩
  obtain ⟨S, g, ⟨hm, hI, _⟩, _⟩ := h.pinv 1
  have hk : S.kslot T j e := by unfold GSt.kslot; rw [hm]; exact hT
  have h6 := kslot_lt hI.s hk
  have h7 := kslot_idx hI.s hI.p hk
  rcases h5 T (by rw [← hm]; exact h6) with h8 | h8
  · exact h8
  · exact absurd (by rw [hT, h2]) (h8 j (by rw [← hm]; exact h7))

def waitsSlotB (ps : PSt K V) (t s i : Nat) : Bool :=
  match ps.th t with | .run _ (.act (.parkSlot T j) _) => T == s && j == i | _ => false

theorem waitsSlotB_iff {t : Tid} (h : waitsSlotB ps t s i = true) : WaitsSlot ps t s i := by
  unfold waitsSlotB at h
  split at h
  · rename_i c T j k hth
    rw [Bool.and_eq_true, beq_iff_eq, beq_iff_eq] at h
    obtain ⟨rfl, rfl⟩ := h
    exact ⟨c, k, hth⟩
  · cases h

/-- A scenario with a guard whose operation is abandoned. -/
theorem demo_kill [DecidableEq V] {l l2 : List (Cmd K V)} {P1 P2 : PSt K V → Bool} (h1 : (runMap C l).any P1 = true)
    (h2 : (runMap C (l ++ .abandon t :: l2)).any P2 = true) :
    ∃ ps ps', runMap C l = some ps ∧ Reach C ps ∧ P1 ps = true ∧ Steps C (ps.kill t) ps' ∧ P2 ps' = true := by
  obtain ⟨ps, h3, h4, h5⟩ := demo_run h1
  obtain ⟨ps', h6, h7, h8⟩ := demo_run h2
  have h9 : runCmds C (.abandon t :: l2) ps = some ps' := by
    unfold runMap at h3 h6
    cases hi : initPSt (V := V) C with
    | none => rw [hi] at h3; cases h3
    | some q =>
      rw [hi] at h3 h6
      simp only [Option.bind_some, runCmds_append] at h3 h6
      rw [h3] at h6
      exact h6
  have h9' : (cmdFn C ps (.abandon t)).bind (runCmds C l2) = some ps' := h9
  cases hq : cmdFn C ps (.abandon t) with
  | none => rw [hq] at h9'; cases h9'
  | some q =>
    rw [hq] at h9'
    have h10 : runMap C (l ++ [.abandon t]) = some q := by
      unfold runMap at h3 ⊢
      cases hi : initPSt (V := V) C with
      | none => rw [hi] at h3; cases h3
      | some q' =>
        rw [hi] at h3
        simp only [Option.bind_some, runCmds_append] at h3 ⊢
        rw [h3]
        show (cmdFn C ps (.abandon t)).bind (fun x => some x) = some q
        rw [hq]; rfl
    obtain ⟨_, hst⟩ := runMap_append h10 h9'
    have : q = ps.kill t := by
      unfold cmdFn at hq
      dsimp only at hq
      split at hq
      · cases hq; rfl
      · cases hq
    exact ⟨ps, ps', h3, h4, h5, this ▸ hst, h8⟩

/-- **C69** is false of the code in incremental mode too: guard 0 has frozen the slot of key 0 and its thread disappears (the user's `Hash`,
called by `insert_copy` at this point, panics). The `insert` of guard 1 for key 0 then waits, and will never return nor panic,
whatever happens; nor will any `iter`, `clear` or `retain` that is called later. -/
theorem C69_inc_false : ∃ ps ps' : PSt Nat Nat, Reach cfgI ps ∧ Running ps 0 ∧ (∀ u, Running ps u → u = 0) ∧
    Steps cfgI (ps.kill 0) ps' ∧ HEv.inv (1, 1) (.insert 0 90) ∈ ps'.hist ∧
    (∀ q, Steps cfgI ps' q → ¬ Ended q.hist (1, 1)) ∧
    ∀ q, Steps cfgI (ps.kill 0) q → ∀ o (c : Call Nat Nat), FinishesResize (ps.mem.cap 0) c →
      ∀ r, HEv.ret o c r ∈ q.hist → HEv.inv o c ∈ ps.hist := by
  obtain ⟨ps, ps', h0, h1, h2, h3, h4⟩ := demo_kill (C := cfgI) (V := Nat) (t := 0) (l := midResize 57)
    (l2 := [.call 1 (.insert 0 90) trivial, .go 1 38])
    (P1 := fun ps => (soundB ps && onlyRunB ps 0) && frozenB ps 0 0)
    (P2 := fun ps => waitsSlotB ps 1 0 0 && (ps.seq 1 == 1 && ps.hist.any fun ev => match ev with | .inv (1, 1) (.insert 0 90) => true | _ => false))
    (by decide +kernel) (by decide +kernel)
  simp only [Bool.and_eq_true, beq_iff_eq] at h2 h4
  obtain ⟨⟨h5, h6⟩, h7⟩ := h2
  obtain ⟨e, hf⟩ := frozenB_iff h1 h7
  obtain ⟨hs1, hs2⟩ := soundB_iff h0 h5
  have ho := onlyRunB_iff h1 h5 h6
  obtain ⟨t, hr, H⟩ := C69_inc_copier h1 rfl hs1 hs2 hf
  obtain rfl := ho t hr
  refine ⟨ps, ps', h1, hr, ho, h3, ?_, fun q hq => ?_, fun q hq o c hc r hret => (H q hq).2.2 o c r hc hret⟩
  · obtain ⟨ev, h8, h9⟩ := List.any_eq_true.1 h4.2.2
    split at h9
    · exact h8
    · cases h9
  · have := ((H ps' h3).2.1 1 (waitsSlotB_iff h4.1) q hq).2
    rwa [h4.2.1] at this

end Papaya
