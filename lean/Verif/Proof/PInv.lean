import Verif.Proof.Init
import Mathlib.Algebra.BigOperators.Group.Finset.Basic
import Mathlib.Algebra.BigOperators.Group.Finset.Piecewise

/-! # The invariant of the reachable states -/

set_option linter.unusedSectionVars false
set_option linter.unusedVariables false

namespace Papaya

variable {K V : Type} [DecidableEq K]

open GSt

variable {C : Cfg K} {t t' : Tid} {S S' S'' : GSt K V}

/-! ## Counters -/

theorem paySum_finset (F : Finset Tid) (l : List (Tid × Int)) (h : ∀ p ∈ l, p.1 ∈ F) :
    paySum l = ∑ t ∈ F, netPays t l := by
  induction l with
  | nil => simp [paySum, netPays]
  | cons p l ih =>
    have h1 : paySum (p :: l) = p.2 + paySum l := by simp [paySum]
    have h2 : ∀ t, netPays t (p :: l) = (if p.1 = t then p.2 else 0) + netPays t l := by
      intro t
      unfold netPays
      by_cases hp : p.1 = t
      · simp [hp]
      · simp [hp]
    rw [h1, ih fun p hp => h p (List.mem_cons_of_mem _ hp)]
    simp only [h2]
    rw [Finset.sum_add_distrib, Finset.sum_ite_eq, if_pos (h p (by simp))]

theorem paySum_eq {l l' : List (Tid × Int)} (h : ∀ t, netPays t l = netPays t l') : paySum l = paySum l' := by
  let F := (l ++ l').map Prod.fst |>.toFinset
  rw [paySum_finset F l, paySum_finset F l']
  · exact Finset.sum_congr rfl fun t _ => h t
  · intro p hp
    simp only [F, List.mem_toFinset, List.mem_map]
    exact ⟨p, by simp [hp], rfl⟩
  · intro p hp
    simp only [F, List.mem_toFinset, List.mem_map]
    exact ⟨p, by simp [hp], rfl⟩

theorem deltas_eq {l : List (Ev K V)} {p : List (Tid × Int)} (h : ∀ t, net t l = netPays t p) : deltas l = paySum p := by
  have h1 : deltas l = paySum (l.map fun ev => (ev.op.1, ev.delta)) := by
    unfold deltas paySum
    rw [List.map_map]; rfl
  rw [h1]
  apply paySum_eq
  intro t
  rw [← h t]
  unfold net netPays
  rw [List.filter_map, List.map_map]
  rfl

/-! ## Threads -/

/-- What is known of a thread, for the next `N` steps. -/
def ThOk (C : Cfg K) (N : Nat) (S : GSt K V) (g : HG) (t : Tid) : Th K V → Prop
  | .out => NoTok t S ∧ Owes t 0 S
  | .idle => Idle t S
  | .run c p => Safe C (rg K V C) t (c.PanicOk C t) (c.guar t) N p (Post t (g.pInv (t, S.seq t)) c) S
  | .gone => True

theorem ThOk.rely {N : Nat} {g : HG} {x : Th K V} (h : ThOk C N S g t x) (hS : S.Inv C) (hS' : S'.Inv C)
    (hr : (rg K V C).Rely t S S') : ThOk C N S' g t x := by
  cases x with
  | out => 
    have : Stable (rg K V C) t (fun S : GSt K V => NoTok t S ∧ Owes t 0 S) := inferInstance
    exact this.stable S S' hS hS' hr h
  | idle =>
    have : Stable (rg K V C) t (Idle (K := K) (V := V) t) := inferInstance
    exact this.stable S S' hS hS' hr h
  | run c p =>
    have hs := (rely_ownL hr).seq
    unfold ThOk
    rw [hs]
    exact Safe.rely h hS hS' hr (fun r => inferInstance) fun x => inferInstance
  | gone => trivial

theorem ThOk.mono {N M : Nat} {g : HG} {x : Th K V} (h : ThOk C N S g t x) (hm : M ≤ N) : ThOk C M S g t x := by
  cases x with
  | run c p => exact Safe.mono h hm
  | _ => exact h

/-- The invariant, for the next `N` steps. -/
def PInvG (C : Cfg K) (N : Nat) (ps : PSt K V) (S : GSt K V) (g : HG) : Prop :=
  S.toSt = ps.mem ∧ S.Inv C ∧ S.seq = ps.seq ∧ (∀ t, ThOk C N S g t (ps.th t)) ∧
  ((∀ t e, e ∈ ps.held t → S.Prot t e) ∧ ∀ t, ps.th t = .out → ps.held t = []) ∧ HistInv S ps.hist ps.th g

/-- Every allocated entry is known. -/
def AllInfo (S : GSt K V) : Prop := ∀ id, id < S.nIds → S.info id ≠ none

def PInv (C : Cfg K) (N : Nat) (ps : PSt K V) : Prop := ∃ S g, PInvG C N ps S g ∧ AllInfo S ∧ ∀ t, DueOk t S

theorem PInvG.due {N : Nat} {ps : PSt K V} {g : HG} (h : PInvG C N ps S g) (hd : AllDone ps.hist) :
    paySum S.pays = deltas S.log := by
  obtain ⟨_, _, _, h4, _, h6⟩ := h
  refine (deltas_eq fun t => ?_).symm
  have key : Due t 0 S := by
    have h7 := h4 t
    by_cases h1 : ps.th t = .out
    · rw [h1] at h7; exact h7.2.2
    · by_cases h2 : ps.th t = .idle
      · rw [h2] at h7; exact h7.2.2.2
      · obtain ⟨⟨c, h8⟩, h9⟩ := h6.pend t h1 h2
        rcases hd _ _ h8 with h10 | h10
        · exact h6.pas t c h8 h10
        · exact absurd h10 h9
  have := key
  unfold Due at this
  omega

/-- Changing the status of a thread. -/
theorem thOk_set {N : Nat} {g : HG} {th : Tid → Th K V} {x : Th K V} (hx : ThOk C N S g t x)
    (h : ∀ t', t' ≠ t → ThOk C N S g t' (th t')) : ∀ t', ThOk C N S g t' (setTh th t x t') := by
  intro t'
  unfold setTh
  split
  · rename_i hu; rw [hu]; exact hx
  · rename_i hu; exact h t' hu

theorem pinv_init {ps : PSt K V} (h : IsInit C ps) (N : Nat) : PInv C N ps := by
  obtain ⟨h1, h2, h3, h4, h5⟩ := h
  refine ⟨ghost0 ps.mem, ⟨fun _ => 0, fun _ => 0, fun _ => 0, fun _ => [], fun _ => 0⟩, ⟨rfl, inv_init h1, h3.symm, ?_, ?_, ?_⟩, ?_, fun t => .inl ⟨0, .inl rfl, fun id x hx => (by cases hx), rfl⟩⟩
  rotate_left 3
  · intro id hid
    have hid : id < ps.mem.nIds := hid
    have : ps.mem.nIds = 0 := by
      unfold initSt at h1
      simp only at h1
      split at h1
      · rw [← Option.some.inj h1]
      · obtain ⟨n, _, h1⟩ := Option.map_eq_some_iff.1 h1
        rw [← h1]; rfl
    omega
  · intro t
    rw [h2]
    refine ⟨fun id U b hb => (by cases hb), fun id x hx => (by cases hx), rfl⟩
  · refine ⟨fun t e he => ?_, fun t _ => by rw [h4]⟩
    rw [h4] at he; cases he
  · rw [h5]
    refine ⟨WFH.nil, ?_, ?_, ?_, ?_, ?_, ?_, ?_, ?_, ?_, ?_, ?_, ?_, ?_, ?_, ?_, ?_, ?_, ?_⟩
    · intro o c h; cases h
    · intro o h1 h2
      have : o.2 ≤ 0 := h2
      omega
    · exact fun _ _ _ _ h => h
    · rintro o (⟨c, r, h⟩ | ⟨c, r, h⟩) <;> cases h
    · intro a b h
      obtain ⟨c, h⟩ := h.invd
      cases h
    · intro q ev h
      have : ([] : List (Ev K V))[q]? = some ev := h
      simp at this
    · intro id x h; cases h
    · intro t h; rw [h2] at h; exact absurd rfl h
    · intro t c p h; rw [h2] at h; cases h
    · intro o c r h; cases h
    · intro o c r h; cases h
    · intro o c r h; cases h
    · intro o c r h; cases h
    · intro t c p h; rw [h2] at h; cases h
    · intro o h1 h2
      have : o.2 ≤ 0 := h2
      omega
    · intro t c h; cases h
    · intro H1 o c H2 h
      have := congrArg List.length h
      simp at this
    · intro H1 o c H2 h
      have := congrArg List.length h
      simp at this

/-- A step of a guard, outside operations. -/
theorem PInvG.outside {N : Nat} {ps : PSt K V} {g : HG} (h : PInvG C N ps S g) {x : Th K V}
    (hI : S'.Inv C) (he : Evo S S') (ho : ∀ t', t' ≠ t → Own t' S S') {held : Tid → List (Entry K V)}
    {σ : St K V} (hσ : S'.toSt = σ)
    (h1 : S'.log = S.log) (h2 : S'.seq = S.seq) (h3 : S'.ops = S.ops) (h4 : S'.invPos = S.invPos)
    (h5 : S'.info = S.info) (h6 : S'.pays = S.pays) (h7 : ∀ c p, x = .run c p → S'.rInv t = S.rInv t)
    (hx : ThOk C N S' g t x)
    (hx1 : x ≠ .out → x ≠ .idle → ps.th t ≠ .out ∧ ps.th t ≠ .idle)
    (hx2 : ∀ c p, x = .run c p → ∃ p', ps.th t = .run c p')
    (hx3 : x = .out ∨ x = .idle → ps.th t = .out ∨ ps.th t = .idle)
    (hh : ∀ t', t' ≠ t → held t' = ps.held t') (hht : ∀ e ∈ held t, S'.Prot t e) (hho : x = .out → held t = []) :
    PInvG C N { ps with mem := σ, th := setTh ps.th t x, held := held } S' g := by
  obtain ⟨g1, g2, g3, g4, g5, g6⟩ := h
  have hr : ∀ t', t' ≠ t → (rg K V C).Rely t' S S' := fun t' ht => .single ⟨g2, hI, he, ho t' ht⟩
  refine ⟨hσ, hI, h2.trans g3, thOk_set hx fun t' ht => (g4 t').rely g2 hI (hr t' ht), ⟨?_, ?_⟩, ?_⟩
  · intro t' e hm
    by_cases ht : t' = t
    · subst ht; exact hht e hm
    · simp only [hh t' ht] at hm
      exact (ho t' ht).prot e (g5.1 t' e hm)
  · intro t' hm
    have hm : (if t' = t then x else ps.th t') = .out := hm
    by_cases ht : t' = t
    · rw [if_pos ht] at hm
      rw [ht]; exact hho hm
    · rw [if_neg ht] at hm
      show held t' = []
      rw [hh t' ht]; exact g5.2 t' hm
  · refine g6.same h1 h2 h3 h4 h5 h6 ?_ he.wr ?_ ?_ ?_
    · intro u c p h8
      have h8 : (if u = t then x else ps.th u) = .run c p := h8
      by_cases hu : u = t
      · rw [if_pos hu] at h8; rw [hu]; exact h7 c p h8
      · exact (ho u hu).rInv
    · intro u h7 h8
      have h7 : (if u = t then x else ps.th u) ≠ .out := h7
      have h8 : (if u = t then x else ps.th u) ≠ .idle := h8
      by_cases hu : u = t
      · rw [if_pos hu] at h7 h8; rw [hu]; exact hx1 h7 h8
      · rw [if_neg hu] at h7 h8; exact ⟨h7, h8⟩
    · intro u c p h7
      have h7 : (if u = t then x else ps.th u) = .run c p := h7
      by_cases hu : u = t
      · rw [if_pos hu] at h7; rw [hu]; exact hx2 c p h7
      · rw [if_neg hu] at h7; exact ⟨p, h7⟩
    · intro u h7
      have h7 : (if u = t then x else ps.th u) = .out ∨ (if u = t then x else ps.th u) = .idle := h7
      by_cases hu : u = t
      · rw [if_pos hu] at h7; rw [hu]; exact hx3 h7
      · rw [if_neg hu] at h7; exact h7

/-- The collector frees something. -/
theorem PInvG.collect {N : Nat} {ps : PSt K V} {g : HG} (h : PInvG C N ps S g)
    (hI : S'.Inv C) (he : Evo S S') (ho : ∀ t', Own t' S S') {σ : St K V} (hσ : S'.toSt = σ)
    (h1 : S'.log = S.log) (h2 : S'.seq = S.seq) (h3 : S'.ops = S.ops) (h4 : S'.invPos = S.invPos)
    (h5 : S'.info = S.info) (h6 : S'.pays = S.pays) : PInvG C N { ps with mem := σ } S' g := by
  obtain ⟨g1, g2, g3, g4, g5, g6⟩ := h
  have hr : ∀ t', (rg K V C).Rely t' S S' := fun t' => .single ⟨g2, hI, he, ho t'⟩
  exact ⟨hσ, hI, h2.trans g3, fun t' => (g4 t').rely g2 hI (hr t'), ⟨fun t' e hm => (ho t').prot e (g5.1 t' e hm), g5.2⟩,
    g6.same h1 h2 h3 h4 h5 h6 (fun u _ _ _ => (ho u).rInv) he.wr (fun _ h h' => ⟨h, h'⟩) (fun _ _ p h => ⟨p, h⟩) fun _ h => h⟩

theorem FreshOp.inv (h : S.Inv C) {o : OpI K V} : (S.invSt t o).FreshOp t := by
  have hseq : (S.invSt t o).seq t = S.seq t + 1 := if_pos rfl
  unfold FreshOp
  rw [hseq]
  constructor
  · intro ev hev ho
    have hev : ev ∈ S.log := hev
    obtain ⟨A, B, hAB⟩ := List.append_of_mem hev
    have := (h.e.e1 A ev ⟨B, by rw [hAB]; simp⟩).seq
    rw [ho] at this
    simp at this
  · intro id x hx ho
    have := (h.e.e5 id x hx).1
    rw [ho] at this
    simp at this

theorem freeTab_eq {P : Nat} : (S.freeTabSt P).toSt = S.toSt.freeTable P := by
  unfold freeTabSt St.freeTable
  simp only
  congr 1
  funext x
  by_cases h : ∃ e ∈ S.deferred P, e.id = x
  · rw [if_pos h]
    have : (S.deferred P).any (fun e => e.id == x) = true := by
      obtain ⟨e, h1, h2⟩ := h
      exact List.any_eq_true.2 ⟨e, h1, by simp [h2]⟩
    rw [this]; rfl
  · rw [if_neg h]
    have : (S.deferred P).any (fun e => e.id == x) = false := by
      rw [List.any_eq_false]
      intro e he hb
      exact h ⟨e, he, by simpa using hb⟩
    rw [this]; rfl

/-- Guards being dropped. -/
theorem PInvG.unpin {N : Nat} {ps : PSt K V} {g : HG} (h : PInvG C N ps S g) (hth : ps.th t = .idle) :
    PInvG C N { ps with
      mem := ps.mem.unpin t, th := setTh ps.th t .out, held := fun u => if u = t then [] else ps.held u } (S.unpinSt t) g := by
  have h' := h
  obtain ⟨g1, g2, g3, g4, g5, g6⟩ := h
  refine h'.outside (unpinSt_Inv g2) unpinSt_Evo (fun t' ht' => unpinSt_Own ht') ?_ rfl rfl rfl rfl rfl rfl
    (by rintro _ _ ⟨⟩) ?_ ?_ ?_ ?_ (fun t' ht' => if_neg ht') ?_ ?_
  · rw [← g1]; rfl
  · have := g4 t
    rw [hth] at this; exact ⟨this.2.1, this.2.2⟩
  · intro h; exact absurd rfl h
  · rintro _ _ ⟨⟩
  · exact fun _ => .inr hth
  · intro e he
    rw [if_pos rfl] at he; cases he
  · exact fun _ => if_pos rfl

/-- A program differs from its continuations. -/
theorem Prog.act_ne {α : Type} (p : Prog K V α) : ∀ {β : Type} {a : Act K V β} {k : β → Prog K V α} {r : β},
    p = .act a k → k r ≠ p := by
  induction p with
  | act a k ih =>
    intro β a' k' r h hk
    cases h
    exact ih r hk rfl
  | _ => intro β a k r h; cases h

/-- Threads that do not act keep the cells they have claimed, and get no others. -/
def CsStill (ps ps' : PSt K V) (S S' : GSt K V) : Prop :=
  ∀ t, (ps'.th t = ps.th t ∨ ∀ c (β : Type) (a : Act K V β) k, ps.th t ≠ .run c (.act a k)) → ∀ N j,
    ((S.cs N j).owner = some t ∨ (S'.cs N j).owner = some t) → S'.cs N j = S.cs N j

theorem CsStill.same {ps ps' : PSt K V} {S S' : GSt K V} (h : S'.cs = S.cs) : CsStill ps ps' S S' :=
  fun _ _ N j _ => by rw [h]

theorem CsStill.act {ps ps' : PSt K V} {S S' : GSt K V} {t : Tid} {c : Call K V} {β : Type} {a : Act K V β}
    {k : β → Prog K V c.Res} {r : β} (ht : ps.th t = .run c (.act a k)) (ht' : ps'.th = setTh ps.th t (.run c (k r)))
    (h : ∀ t', t' ≠ t → (rg K V C).Rely t' S S') : CsStill ps ps' S S' := by
  intro u hu N j
  have hut : u ≠ t := by
    rintro rfl
    rcases hu with hu | hu
    · rw [ht', ht] at hu
      have hu : (if u = u then Th.run c (k r) else ps.th u) = Th.run c (.act a k) := hu
      rw [if_pos rfl] at hu
      have hu := eq_of_heq (Th.run.inj hu).2
      exact Prog.act_ne _ rfl hu
    · exact hu _ _ _ _ ht
  have hr : Relation.ReflTransGen (GSt.RStep C u) S S' := h u hut
  clear h ht ht' hu
  induction hr with
  | refl => exact fun _ => rfl
  | tail _ h1 ih =>
    rename_i S1 S2
    have ho := h1.2.2.2
    rintro (h2 | h2)
    · have h3 := ih (.inl h2)
      rw [ho.cs N j (by rw [h3]; exact h2), h3]
    · have h3 := ho.cs' N j h2
      rw [h3] at h2
      rw [h3, ih (.inr h2)]

/-- The state after a step, with the ghost state. -/
theorem pinvG_step {N : Nat} {ps ps' : PSt K V} {g : HG} (h : PInvG C (N + 1) ps S g) (hs : Step C ps ps') :
    ∃ S' g', PInvG C N ps' S' g' ∧ Evo S S' ∧ (∀ o, Ended ps.hist o → g'.tRet o = g.tRet o) ∧ CsStill ps ps' S S' ∧
      (∀ o c, HEv.inv o c ∈ ps'.hist → (HEv.inv o c ∈ ps.hist ∧ g'.rInv o = g.rInv o ∧ g'.pInv o = g.pInv o) ∨
        (S.rt ≤ g'.rInv o ∧ g'.pInv o = S.pays)) ∧
      ((∀ t, DueOk t S) → ∀ t, DueOk t S') ∧ (S'.pays = S.pays ∨ ∃ p, S'.pays = S.pays ++ [p]) := by
  have hle : PInvG C N ps S g := by
    obtain ⟨g1, g2, g3, g4, g5, g6⟩ := h
    exact ⟨g1, g2, g3, fun t => (g4 t).mono (Nat.le_succ N), g5, g6⟩
  have hdue := h.due
  obtain ⟨g1, g2, g3, g4, g5, g6⟩ := h
  cases hs with
  | pin t ht =>
    have hx : ThOk C N (S.pinSt t) g t .idle := by
      have := g4 t
      rw [ht] at this
      exact ⟨if_pos rfl, this.1, this.2⟩
    refine ⟨_, _, hle.outside (t := t) (S' := S.pinSt t) (held := ps.held) (x := .idle) (pinSt_Inv g2) pinSt_Evo
      (fun t' ht' => pinSt_Own ht') (by rw [← g1]; rfl) rfl rfl rfl rfl rfl rfl (by rintro _ _ ⟨⟩) hx
      (fun _ h => absurd rfl h) (by rintro _ _ ⟨⟩) (fun _ => .inl ht) (fun _ _ => rfl) ?_ (by rintro ⟨⟩), pinSt_Evo, fun _ _ => rfl, CsStill.same rfl, fun _ _ h => .inl ⟨h, rfl, rfl⟩, fun h => h, .inl rfl⟩
    intro e he
    rw [g5.2 t ht] at he; cases he
  | unpin t ht => exact ⟨_, _, hle.unpin ht, unpinSt_Evo, fun _ _ => rfl, CsStill.same rfl, fun _ _ h => .inl ⟨h, rfl, rfl⟩, fun h => h, .inl rfl⟩
  | @abandon t c p ht =>
    refine ⟨S, g, hle.outside (t := t) (S' := S) (held := ps.held) g2 (Evo.refl S) (fun t' _ => Own.refl t' S) g1
      rfl rfl rfl rfl rfl rfl (fun _ _ _ => rfl) trivial ?_ ?_ (by rintro (h | h) <;> cases h) (fun _ _ => rfl) (g5.1 t) ?_, Evo.refl S, fun _ _ => rfl, CsStill.same rfl, fun _ _ h => .inl ⟨h, rfl, rfl⟩, fun h => h, .inl rfl⟩
    · rw [ht]; intro _ _; simp
    · rintro _ _ ⟨⟩
    · rintro ⟨⟩
  | release t ht =>
    have := hle.outside (t := t) (S' := S.unpinSt t) (x := .gone) (held := fun u => if u = t then [] else ps.held u)
      (unpinSt_Inv g2) unpinSt_Evo (fun t' ht' => unpinSt_Own ht') (σ := ps.mem.unpin t) (by rw [← g1]; rfl) rfl rfl rfl rfl rfl rfl
      (by rintro _ _ ⟨⟩) trivial (fun _ _ => by rw [ht]; simp) (by rintro _ _ ⟨⟩) (by rintro (h | h) <;> cases h)
      (fun t' ht' => if_neg ht') (fun e he => by rw [if_pos rfl] at he; cases he) (by rintro ⟨⟩)
    have hth : setTh ps.th t .gone = ps.th := by
      funext u; unfold setTh; split
      · rename_i hu; rw [hu, ht]
      · rfl
    rw [hth] at this
    exact ⟨_, _, this, unpinSt_Evo, fun _ _ => rfl, CsStill.same rfl, fun _ _ h => .inl ⟨h, rfl, rfl⟩, fun h => h, .inl rfl⟩
  | inv t c ht hwf =>
    have hmove : ∀ t', t' ≠ t → (rg K V C).Rely t' S (S.invSt t c.opi) := fun t' ht' =>
      .single ⟨g2, invSt_Inv g2, invSt_Evo, invSt_Own ht'⟩
    have hid := g4 t
    rw [ht] at hid
    refine ⟨S.invSt t c.opi, g.call (t, S.seq t + 1) S.log.length S.pays S.rt, ⟨g1, invSt_Inv g2, ?_, ?_, ⟨?_, ?_⟩, ?_⟩,
      invSt_Evo, fun _ _ => rfl, CsStill.same rfl, ?_, ?_, .inl rfl⟩
    rotate_left 6
    · intro hd t'
      by_cases ht' : t' = t
      · subst ht'; exact .inl ⟨0, .inl rfl, hid.2.2⟩
      · exact Stable.stable (L := rg K V C) (t := t') S _ g2 (invSt_Inv g2) (hmove t' ht') (hd t')
    rotate_left 5
    · intro o c' hm
      rcases List.mem_append.1 hm with h | h
      · have hne : o ≠ (t, S.seq t + 1) := by
          rintro rfl
          have := (g6.i1 _ _ h).2.1
          simp at this
        exact .inl ⟨h, if_neg hne, if_neg hne⟩
      · have h := congrArg HEv.id (List.mem_singleton.1 h)
        have h : o = (t, S.seq t + 1) := by rw [g3]; exact h
        exact .inr ⟨Nat.le_of_eq (if_pos h).symm, if_pos h⟩
    · funext u
      show (if u = t then S.seq t + 1 else S.seq u) = if u = t then ps.seq t + 1 else ps.seq u
      rw [g3]
    · refine thOk_set ?_ ?_
      · have hpo : (g.call (t, S.seq t + 1) S.log.length S.pays S.rt).pInv (t, (S.invSt t c.opi).seq t) = S.pays := by
          have : (S.invSt t c.opi).seq t = S.seq t + 1 := if_pos rfl
          rw [this]; exact if_pos rfl
        show Safe _ _ _ _ _ _ _ _ _
        rw [hpo]
        refine tri_call c hwf N _ (invSt_Inv g2) ⟨⟨hid, ?_, FreshOp.inv g2⟩, List.prefix_refl _⟩
        have : (S.invSt t c.opi).seq t = S.seq t + 1 := if_pos rfl
        unfold OpIs
        rw [this]; exact if_pos rfl
      · intro t' ht'
        have h7 := ((g4 t').mono (Nat.le_succ N)).rely g2 (invSt_Inv g2) (hmove t' ht')
        cases hth : ps.th t' with
        | run c' p' =>
          rw [hth] at h7
          have hpo : (g.call (t, S.seq t + 1) S.log.length S.pays S.rt).pInv (t', (S.invSt t c.opi).seq t')
              = g.pInv (t', (S.invSt t c.opi).seq t') :=
            if_neg fun he => ht' (congrArg Prod.fst he)
          show Safe _ _ _ _ _ _ _ _ _
          rw [hpo]; exact h7
        | _ => rw [hth] at h7; exact h7
    · intro t' e he
      have := g5.1 t' e he
      exact ⟨this.1, this.2.1, this.2.2⟩
    · intro t' hm
      have hm : (if t' = t then _ else ps.th t') = Th.out := hm
      by_cases htt : t' = t
      · rw [if_pos htt] at hm; cases hm
      · rw [if_neg htt] at hm; exact g5.2 t' hm
    · have h7 := g6.inv (t := t) g2 (p := c.prog C) hdue ht hid.2.2.2
      have : S.seq t = ps.seq t := by rw [g3]
      rw [← this]; exact h7
  | @act t c β a k r σ ht he =>
    have h7 := g4 t
    rw [ht] at h7
    obtain ⟨h8, h9⟩ := h7 S g2 ((rg K V C).refl t S)
    obtain ⟨S', e1, e2, e3, e4, e5⟩ := h9 r σ (by show Exec C t a S.toSt r σ; rw [g1]; exact he)
    have hmo := Call.guar_mo e4
    have hm : Move C t S S' := ⟨g2, e2, hmo.1, e3, hmo.2.1⟩
    refine ⟨S', g, ⟨e1, e2, hm.seq.trans g3, thOk_set ?_ ?_, ⟨?_, ?_⟩, g6.move hm ht e4⟩, hm.evo, fun _ _ => rfl, CsStill.act ht rfl e3, fun _ _ h => .inl ⟨h, rfl, rfl⟩, ?_, ?_⟩
    · show Safe _ _ _ _ _ _ _ _ _
      rw [hm.seq]; exact e5
    · exact fun t' ht' => ((g4 t').mono (Nat.le_succ N)).rely g2 e2 (e3 t' ht')
    · exact fun t' e hm' => hm.prot (g5.1 t' e hm')
    · intro t' hm
      have hm : (if t' = t then _ else ps.th t') = Th.out := hm
      by_cases htt : t' = t
      · rw [if_pos htt] at hm; cases hm
      · rw [if_neg htt] at hm; exact g5.2 t' hm
    · intro hd t'
      by_cases ht' : t' = t
      · subst ht'; exact hmo.2.2.1 C g2 e2 (hd t')
      · exact Stable.stable (L := rg K V C) (t := t') S _ g2 e2 (e3 t' ht') (hd t')
    · rcases hmo.2.2.2 with ⟨l, h1, h2⟩ | h1
      · left
        obtain ⟨l', h3, h4⟩ := hm.pays
        have : l = l' := List.append_cancel_left (h1.symm.trans h3)
        subst this
        cases l with
        | nil => simpa using h1
        | cons p l => exact absurd (h4 p (by simp)) (h2 p (by simp))
      · exact .inr h1
  | @loop t c β σ body s k ht =>
    have h7 := g4 t
    rw [ht] at h7
    refine ⟨S, g, hle.outside (t := t) (S' := S) (held := ps.held) g2 (Evo.refl S) (fun t' _ => Own.refl t' S) g1
      rfl rfl rfl rfl rfl rfl (fun _ _ _ => rfl) h7 ?_ ?_ (by rintro (h | h) <;> cases h) (fun _ _ => rfl) (g5.1 t) ?_, Evo.refl S, fun _ _ => rfl, CsStill.same rfl, fun _ _ h => .inl ⟨h, rfl, rfl⟩, fun h => h, .inl rfl⟩
    · rw [ht]; intro _ _; simp
    · rintro c p ⟨⟩; exact ⟨_, ht⟩
    · rintro ⟨⟩
  | @ret t c r ht =>
    have h7 := g4 t
    rw [ht] at h7
    have hpost : Post t (g.pInv (t, S.seq t)) c r S := h7
    obtain ⟨q, h8⟩ := g6.ret (t := t) g2 ht hpost
    refine ⟨S, _, ⟨g1, g2, g3, thOk_set hpost.1 ?_, ⟨?_, ?_⟩, by rw [← g3]; exact h8⟩, Evo.refl S, ?_, CsStill.same rfl, ?_, fun h => h, .inl rfl⟩
    rotate_left 3
    · intro o ho
      refine if_neg ?_
      rintro rfl
      exact (g6.pend t (by rw [ht]; simp) (by rw [ht]; simp)).2 ho
    · intro o c' hm
      rcases List.mem_append.1 hm with h | h
      · exact .inl ⟨h, rfl, rfl⟩
      · cases List.mem_singleton.1 h
    · intro t' ht'
      have h7 := (g4 t').mono (Nat.le_succ N)
      cases hth : ps.th t' with
      | run c' p' => rw [hth] at h7; exact h7
      | _ => rw [hth] at h7; exact h7
    · intro t' e hm
      have hm : e ∈ (if t' = t then c.refs r ++ ps.held t else ps.held t') := hm
      by_cases htt : t' = t
      · rw [if_pos htt] at hm
        subst htt
        rcases List.mem_append.1 hm with h | h
        · exact hpost.2.1 e h
        · exact g5.1 t' e h
      · rw [if_neg htt] at hm; exact g5.1 t' e hm
    · intro t' hm
      have hm : (if t' = t then _ else ps.th t') = Th.out := hm
      show (if t' = t then c.refs r ++ ps.held t else ps.held t') = []
      by_cases htt : t' = t
      · rw [if_pos htt] at hm; cases hm
      · rw [if_neg htt] at hm ⊢; exact g5.2 t' hm
  | @panic t c w ht =>
    have h7 := g4 t
    rw [ht] at h7
    have hpost : c.PanicOk C t w S := h7
    have h8 := g6.panic (t := t) (w := w) g2 ht hpost.2.1 hpost.2.2
    refine ⟨S, _, ⟨g1, g2, g3, thOk_set hpost.2.1 ?_, ⟨g5.1, ?_⟩, by rw [← g3]; exact h8⟩, Evo.refl S, ?_, CsStill.same rfl, ?_, fun h => h, .inl rfl⟩
    rotate_left 2
    · intro o ho
      refine if_neg ?_
      rintro rfl
      exact (g6.pend t (by rw [ht]; simp) (by rw [ht]; simp)).2 ho
    · intro o c' hm
      rcases List.mem_append.1 hm with h | h
      · exact .inl ⟨h, rfl, rfl⟩
      · cases List.mem_singleton.1 h
    · intro t' ht'
      have h7 := (g4 t').mono (Nat.le_succ N)
      cases hth : ps.th t' with
      | run c' p' => rw [hth] at h7; exact h7
      | _ => rw [hth] at h7; exact h7
    · intro t' hm
      have hm : (if t' = t then _ else ps.th t') = Th.out := hm
      by_cases htt : t' = t
      · rw [if_pos htt] at hm; cases hm
      · rw [if_neg htt] at hm; exact g5.2 t' hm
  | freeEntry x h1 h2 h3 =>
    rw [← g1] at h1 h2
    exact ⟨S.freeSt x, g, hle.collect (freeSt_Inv g2 h1 h2) freeSt_Evo (fun t' => freeSt_Own) (by rw [← g1]; rfl)
      rfl rfl rfl rfl rfl rfl, freeSt_Evo, fun _ _ => rfl, CsStill.same rfl, fun _ _ h => .inl ⟨h, rfl, rfl⟩, fun h => h, .inl rfl⟩
  | freeTable T h1 h2 h3 =>
    rw [← g1] at h1 h2
    exact ⟨S.freeTabSt T, g, hle.collect (freeTabSt_Inv g2 h1 h2) freeTabSt_Evo (fun t' => freeTabSt_Own)
      (by rw [freeTab_eq, g1]) rfl rfl rfl rfl rfl rfl, freeTabSt_Evo, fun _ _ => rfl, CsStill.same rfl, fun _ _ h => .inl ⟨h, rfl, rfl⟩, fun h => h, .inl rfl⟩

/-- New entries are known. -/
theorem full_step {ps ps' : PSt K V} (hs : Step C ps ps') (h1 : S.toSt = ps.mem) (h2 : S'.toSt = ps'.mem)
    (hI : S'.Inv C) (he : Evo S S') (hf : AllInfo S) : AllInfo S' := by
  have hold : ∀ id, id < S.nIds → S'.info id ≠ none := by
    intro id hid hn
    obtain ⟨x, hx⟩ := Option.ne_none_iff_exists'.1 (hf id hid)
    rw [he.info id x hx] at hn; cases hn
  have hn : S.nIds = ps.mem.nIds := congrArg St.nIds h1
  have hn' : S'.nIds = ps'.mem.nIds := congrArg St.nIds h2
  have key : ps'.mem.nIds = ps.mem.nIds ∨ (ps'.mem.nIds = ps.mem.nIds + 1 ∧
      ∃ T i e, (ps'.mem.slot T i).ptr = some e ∧ e.id = ps.mem.nIds) := by
    cases hs with
    | @act t c β a k r σ ht hx =>
      cases a with
      | casRootInit cap =>
        simp only [Exec] at hx
        split at hx
        · rw [hx.1]; exact .inl rfl
        · rw [hx.1]; exact .inl rfl
      | casNew w T i e k0 v =>
        rcases hx with ⟨_, _, h5⟩ | ⟨_, _, h5⟩
        · refine .inr ⟨by rw [h5], T, i, ⟨ps.mem.nIds, k0, v⟩, ?_, rfl⟩
          rw [h5]
          show ((if T = T ∧ i = i then _ else _ : Slot K V)).ptr = _
          rw [if_pos ⟨rfl, rfl⟩]; rfl
        · rw [h5]; exact .inl rfl
      | tryLock T => rcases hx with ⟨_, _, h5⟩ | ⟨_, _, h5⟩ <;> (rw [h5]; exact .inl rfl)
      | lockWait T => rcases hx with ⟨_, _, h5⟩ | ⟨_, _, h5⟩ <;> (rw [h5]; exact .inl rfl)
      | cas w T i e n => rcases hx with ⟨_, _, h5⟩ | ⟨_, _, h5⟩ <;> (rw [h5]; exact .inl rfl)
      | casRoot T N => rcases hx with ⟨_, _, h5⟩ | ⟨_, _, h5⟩ <;> (rw [h5]; exact .inl rfl)
      | storeNext T cap => rw [hx.1]; exact .inl rfl
      | unlock T => rw [show σ = _ from hx]; exact .inl rfl
      | poison T => rw [show σ = _ from hx]; exact .inl rfl
      | storeMd T i m => rw [show σ = _ from hx]; exact .inl rfl
      | storeSlot T i s => rw [show σ = _ from hx]; exact .inl rfl
      | storeStatus T s => rw [show σ = _ from hx]; exact .inl rfl
      | deref e => rw [show σ = _ from hx]; exact .inl rfl
      | retire e => rw [show σ = _ from hx]; exact .inl rfl
      | retireTable e => rw [show σ = _ from hx]; exact .inl rfl
      | pushDeferred T e => rw [show σ = _ from hx]; exact .inl rfl
      | addCount d => rw [show σ = _ from hx]; exact .inl rfl
      | _ => rw [hx.2]; exact .inl rfl
    | _ => exact .inl rfl
  intro id hid
  rcases key with h | ⟨h, T, i, e, h3, h4⟩
  · exact hold id (by omega)
  · by_cases hlt : id < S.nIds
    · exact hold id hlt
    · have : id = e.id := by omega
      rw [this]
      obtain ⟨x, hx, _⟩ := hI.p.p3 T i e (by rw [← h2] at h3; exact h3)
      rw [hx]; simp

theorem pinv_step {N : Nat} {ps ps' : PSt K V} (h : PInv C (N + 1) ps) (hs : Step C ps ps') : PInv C N ps' := by
  obtain ⟨S, g, h, hf, hd⟩ := h
  obtain ⟨S', g', h1, h2, _, _, _, h3, _⟩ := pinvG_step h hs
  exact ⟨S', g', h1, full_step hs h.1 h1.1 h1.2.1 h2 hf, h3 hd⟩

/-- Every reachable state satisfies the invariant. -/
theorem Reach.pinv {ps : PSt K V} (h : Reach C ps) : ∀ N, PInv C N ps := by
  induction h with
  | init h => exact pinv_init h
  | step _ hs ih => exact fun N => pinv_step (ih (N + 1)) hs

end Papaya
