import Verif.Proof.PInv

/-! # Building the linearization -/

set_option linter.unusedSectionVars false
set_option linter.unusedVariables false

namespace Papaya

variable {K V : Type} [DecidableEq K]

open GSt

variable {C : Cfg K} {t t' : Tid} {S S' S'' : GSt K V}

theorem SeqRun.append {m m1 m2 : AMap K V} {A B : List (Item K V)} (h : SeqRun m A m1) (h' : SeqRun m1 B m2) :
    SeqRun m (A ++ B) m2 := by
  induction h with
  | nil => exact h'
  | cons hx _ ih => exact .cons hx (ih h')

theorem SeqRun.single {m m1 : AMap K V} {x : Item K V} (h : x.Apply m m1) : SeqRun m [x] m1 := .cons h .nil

theorem SeqRun.const {m : AMap K V} {A : List (Item K V)} (h : ∀ x ∈ A, x.Apply m m) : SeqRun m A m := by
  induction A with
  | nil => exact .nil
  | cons x A ih => exact .cons (h x (by simp)) (ih fun y hy => h y (by simp [hy]))

/-- The item of an event. -/
structure Good (S : GSt K V) (hist : List (HEv K V)) (ev : Ev K V) (x : Item K V) : Prop where
  id : x.id = ev.op
  called : HEv.inv x.id x.call ∈ hist
  apply : ∀ l, l ++ [ev] <+: S.log → x.Apply (vals (abs l)) (vals (abs (l ++ [ev])))
  ret : ∀ c r, HEv.ret ev.op c r ∈ hist → c.atomic = true → x = .op ev.op c r
  op : x.opId?.isSome → (S.ops ev.op).multi = false
  del : ∀ o c y, x = .del o c y → ∃ e, ev.old = some e ∧ y = (e.key, e.val)

theorem atomic_multi {c : Call K V} (h : c.atomic = true) : c.opi.multi = false := by
  cases c <;> first | rfl | cases h

theorem good_item {hist : List (HEv K V)} {th : Tid → Th K V} {g : HG} (h : HistInv S hist th g) (hS : S.Inv C)
    {ev : Ev K V} (hev : ev ∈ S.log) : ∃ x, Good S hist ev x := by
  obtain ⟨c, hc, heff⟩ := h.evInv hS hev
  have hops := (h.i1 _ _ hc).2.2.1
  have hold : ∀ l, l ++ [ev] <+: S.log → vals (abs l) ev.key = ev.old.map Entry.val := by
    intro l hl
    rw [(hS.e.e1 l ev hl).old]; rfl
  by_cases ha : c.atomic = true
  · obtain ⟨r, hr, hret⟩ : ∃ r, EvSpec c r ev.key ev.old ev.new ∧
        ∀ c' r', HEv.ret ev.op c' r' ∈ hist → (Item.op ev.op c r : Item K V) = .op ev.op c' r' := by
      by_cases hr : ∃ r, HEv.ret ev.op c r ∈ hist
      · obtain ⟨r, hr⟩ := hr
        refine ⟨r, ?_, ?_⟩
        · rcases h.done _ _ _ hr ha with ⟨ev', h1, h2, h3⟩ | ⟨h1, _⟩
          · have hmul : (S.ops ev.op).multi = false := by rw [hops]; exact atomic_multi ha
            have : ev' = ev := by
              by_contra hne
              have h2' := hS.e.e2
              have : ∀ {l : List (Ev K V)}, l.Pairwise (fun a b => a.op = b.op → (S.ops a.op).multi = true) →
                  ev ∈ l → ev' ∈ l → False := by
                intro l hl
                induction hl with
                | nil => intro h; cases h
                | cons hx _ ih =>
                  intro g1 g2
                  rcases List.mem_cons.1 g1 with j1 | g1
                  · rcases List.mem_cons.1 g2 with j2 | g2
                    · exact hne (j2.trans j1.symm)
                    · have := hx _ g2 (by rw [← j1]; exact h2.symm)
                      rw [← j1, hmul] at this; cases this
                  · rcases List.mem_cons.1 g2 with j2 | g2
                    · have := hx _ g1 (by rw [← j2]; exact h2)
                      rw [← j2, h2, hmul] at this; cases this
                    · exact ih g1 g2
              exact this h2' hev h1
            rw [this] at h3; exact h3
          · exact absurd rfl (h1 ev hev)
        · intro c' r' hr'
          have := h.wf.ret_unique hr hr'
          injection this with _ e1 e2
          subst e1
          cases e2; rfl
      · obtain ⟨r, hr'⟩ : ∃ r, EvSpec c r ev.key ev.old ev.new := by
          rcases heff with ⟨_, h1⟩ | ⟨e, h1, h2, h3, h4⟩
          · exact h1
          · cases c <;> first | exact False.elim h4 | cases ha
        refine ⟨r, hr', fun c' r'' hr'' => ?_⟩
        have := h.wf.inv_unique hc (h.wf.ret_inv' hr'')
        subst this
        exact absurd ⟨_, hr''⟩ hr
    refine ⟨.op ev.op c r, rfl, hc, ?_, fun c' r' hr' _ => hret c' r' hr', fun _ => by rw [hops]; exact atomic_multi ha,
      by rintro _ _ _ ⟨⟩⟩
    intro l hl
    rw [vals_snoc]
    exact hr _ (hold l hl)
  · rcases heff with ⟨h1, _⟩ | ⟨e, h1, h2, h3, h4⟩
    · exact absurd h1 ha
    · refine ⟨.del ev.op c (e.key, e.val), rfl, hc, ?_, ?_, by rintro ⟨⟩, ?_⟩
      · intro l hl
        refine ⟨h4, ?_, ?_⟩
        · show vals (abs l) e.key = some e.val
          rw [← h3, hold l hl, h1]; rfl
        · rw [vals_snoc, h2, h3]; rfl
      · intro c' r' hr' ha'
        have := h.wf.inv_unique hc (h.wf.ret_inv' hr')
        subst this
        exact absurd ha' ha
      · rintro _ _ _ ⟨⟩
        exact ⟨e, h1, rfl⟩

open Classical in
/-- The item of a response: an operation without event, linearized at position `p`. -/
noncomputable def readItem (log : List (Ev K V)) (g : HG) (p : Nat) : HEv K V → Option (Item K V)
  | .ret o c r => if c.atomic = true ∧ (∀ ev ∈ log, ev.op ≠ o) ∧ g.rpos o = p then some (.op o c r) else none
  | _ => none

theorem readItem_some {log : List (Ev K V)} {g : HG} {p : Nat} {e : HEv K V} {x : Item K V}
    (h : readItem log g p e = some x) : ∃ o c r, e = .ret o c r ∧ x = .op o c r ∧ c.atomic = true ∧
      (∀ ev ∈ log, ev.op ≠ o) ∧ g.rpos o = p := by
  cases e with
  | inv o c => cases h
  | panic o c w => cases h
  | ret o c r =>
    unfold readItem at h
    simp only at h
    split at h
    · rename_i h1
      cases h
      exact ⟨o, c, r, rfl, rfl, h1⟩
    · cases h

/-- The items at position `p`. -/
noncomputable def block (log : List (Ev K V)) (hist : List (HEv K V)) (g : HG) (f : Ev K V → Item K V) (p : Nat) :
    List (Item K V) :=
  hist.filterMap (readItem log g p) ++ ((log[p]?).map f).toList

/-- The items before position `p`. -/
noncomputable def blocks (log : List (Ev K V)) (hist : List (HEv K V)) (g : HG) (f : Ev K V → Item K V) (p : Nat) :
    List (Item K V) :=
  (List.range p).flatMap (block log hist g f)

section
variable {hist : List (HEv K V)} {th : Tid → Th K V} {g : HG} {f : Ev K V → Item K V}

theorem mem_reads {log : List (Ev K V)} {p : Nat} {H : List (HEv K V)} {x : Item K V} (h : x ∈ H.filterMap (readItem log g p)) :
    ∃ o c r, HEv.ret o c r ∈ H ∧ x = .op o c r ∧ c.atomic = true ∧ (∀ ev ∈ log, ev.op ≠ o) ∧ g.rpos o = p := by
  obtain ⟨e, h1, h2⟩ := List.mem_filterMap.1 h
  obtain ⟨o, c, r, rfl, h3⟩ := readItem_some h2
  exact ⟨o, c, r, h1, h3⟩

theorem mem_evBlock {log : List (Ev K V)} {p : Nat} {x : Item K V} (h : x ∈ ((log[p]?).map f).toList) :
    ∃ ev, log[p]? = some ev ∧ x = f ev := by
  rw [Option.mem_toList, Option.map_eq_some_iff] at h
  obtain ⟨ev, h1, h2⟩ := h
  exact ⟨ev, h1, h2.symm⟩

/-- Where an item of block `p` is in the intervals of its operation. -/
theorem mem_block (h : HistInv S hist th g) (hf : ∀ ev ∈ S.log, Good S hist ev (f ev)) {p : Nat} {x : Item K V}
    (hx : x ∈ block S.log hist g f p) : g.tInv x.id ≤ p ∧ (Ended hist x.id → p ≤ g.tRet x.id) := by
  rcases List.mem_append.1 hx with h1 | h1
  · obtain ⟨o, c, r, h2, rfl, h3, h4, h5⟩ := mem_reads h1
    rcases h.done o c r h2 h3 with ⟨ev, g1, g2, _⟩ | ⟨_, g2, g3, _⟩
    · exact absurd g2 (h4 ev g1)
    · rw [← h5]; exact ⟨g2, fun _ => g3⟩
  · obtain ⟨ev, h2, rfl⟩ := mem_evBlock h1
    rw [(hf ev (List.mem_of_getElem? h2)).id]
    have := h.ev p ev h2
    exact ⟨this.1, fun hr => Nat.le_of_lt (this.2 hr)⟩

theorem take_snoc {log : List (Ev K V)} {p : Nat} {ev : Ev K V} (h : log[p]? = some ev) :
    log.take (p + 1) = log.take p ++ [ev] := by
  rw [List.take_add_one, h]; rfl

theorem run_block (h : HistInv S hist th g) (hf : ∀ ev ∈ S.log, Good S hist ev (f ev)) {H : List (HEv K V)}
    (hH : ∀ e ∈ H, e ∈ hist) {p : Nat} :
    SeqRun (vals (abs (S.log.take p))) (H.filterMap (readItem S.log g p)) (vals (abs (S.log.take p))) := by
  apply SeqRun.const
  intro x hx
  obtain ⟨o, c, r, h2, rfl, h3, h4, h5⟩ := mem_reads hx
  rcases h.done o c r (hH _ h2) h3 with ⟨ev, g1, g2, _⟩ | ⟨_, _, _, g4⟩
  · exact absurd g2 (h4 ev g1)
  · rw [h5] at g4; exact g4

theorem run_ev (h : HistInv S hist th g) (hf : ∀ ev ∈ S.log, Good S hist ev (f ev)) {p : Nat} :
    SeqRun (vals (abs (S.log.take p))) ((S.log[p]?).map f).toList (vals (abs (S.log.take (p + 1)))) := by
  cases he : S.log[p]? with
  | none =>
    have : S.log.take (p + 1) = S.log.take p := by
      rw [List.take_add_one, he]; simp
    rw [this]; exact .nil
  | some ev =>
    rw [take_snoc he]
    refine SeqRun.single ((hf ev (List.mem_of_getElem? he)).apply _ ?_)
    rw [← take_snoc he]
    exact List.take_prefix _ _

theorem run_blocks (h : HistInv S hist th g) (hf : ∀ ev ∈ S.log, Good S hist ev (f ev)) (p : Nat) :
    SeqRun AMap.empty (blocks S.log hist g f p) (vals (abs (S.log.take p))) := by
  induction p with
  | zero => exact .nil
  | succ p ih =>
    have : blocks S.log hist g f (p + 1) = blocks S.log hist g f p ++ block S.log hist g f p := by
      unfold blocks
      rw [List.range_succ, List.flatMap_append]
      simp
    rw [this]
    exact ih.append ((run_block h hf fun _ h => h).append (run_ev h hf))

/-- The linearization. -/
noncomputable def linz (S : GSt K V) (hist : List (HEv K V)) (g : HG) (f : Ev K V → Item K V) : List (Item K V) :=
  blocks S.log hist g f (S.log.length + 1)

theorem mem_blocks {log : List (Ev K V)} {n : Nat} {x : Item K V} :
    x ∈ blocks log hist g f n ↔ ∃ p, p < n ∧ x ∈ block log hist g f p := by
  unfold blocks
  rw [List.mem_flatMap]
  constructor
  · rintro ⟨p, h1, h2⟩; exact ⟨p, List.mem_range.1 h1, h2⟩
  · rintro ⟨p, h1, h2⟩; exact ⟨p, List.mem_range.2 h1, h2⟩

theorem called_block (h : HistInv S hist th g) (hf : ∀ ev ∈ S.log, Good S hist ev (f ev)) {p : Nat} {x : Item K V}
    (hx : x ∈ block S.log hist g f p) : HEv.inv x.id x.call ∈ hist := by
  rcases List.mem_append.1 hx with h1 | h1
  · obtain ⟨o, c, r, h2, rfl, _⟩ := mem_reads h1
    exact h.wf.ret_inv' h2
  · obtain ⟨ev, h2, rfl⟩ := mem_evBlock h1
    exact (hf ev (List.mem_of_getElem? h2)).called

/-- Responses come in order. -/
theorem reads_order (hwf : WFH hist) {H : List (HEv K V)} {B : List (HEv K V)} (he : hist = H ++ B) {log : List (Ev K V)}
    {p : Nat} : (H.filterMap (readItem log g p)).Pairwise fun x y => ¬ Precedes hist y.id x.id := by
  induction H using List.reverseRecOn generalizing B with
  | nil => exact List.Pairwise.nil
  | append_singleton H e ih =>
    rw [List.filterMap_append, List.pairwise_append]
    refine ⟨ih (B := e :: B) (by rw [he]; simp), ?_, ?_⟩
    · cases hr : readItem log g p e with
      | none => simp [hr]
      | some x => simp [hr]
    · intro x hx y hy ⟨A1, A2, e1, h1, c'', h2⟩
      obtain ⟨o, c, r, g1, rfl, _⟩ := mem_reads hx
      obtain ⟨o', c3, r3, g2, rfl, _⟩ := mem_reads hy
      -- `y` returns in the last event of `H ++ [e]`, and `x` before, so that `x` has been called before `y` returns
      have hx' : HEv.inv o c ∈ H := hwf.ret_inv (A := H) (B := e :: B) (by rw [he]; simp) g1
      have h3 : ∀ e ∈ A1, e.id ≠ o := hwf.inv_first e1 h2
      have hB : HEv.ret o' c3 r3 ∈ e :: B := List.mem_cons.2 (.inl (List.mem_singleton.1 g2))
      have e2 : A1 ++ A2 = H ++ (e :: B) := by rw [← e1, he]; simp
      rcases List.append_eq_append_iff.1 e2 with ⟨a, g3, g4⟩ | ⟨a, g3, g4⟩
      · -- `A1` is a prefix of `H`
        have : Ended H o' := by rw [g3]; exact Ended.mono h1
        exact hwf.end_once (A := H) (B := e :: B) (by rw [he]; simp) this hB
      · exact h3 (.inv o c) (by rw [g3]; simp [hx']) rfl

theorem order_linz (h : HistInv S hist th g) (hf : ∀ ev ∈ S.log, Good S hist ev (f ev)) (n : Nat) :
    (blocks S.log hist g f n).Pairwise fun x y => ¬ Precedes hist y.id x.id := by
  unfold blocks
  rw [List.pairwise_flatMap]
  constructor
  · intro p _
    unfold block
    rw [List.pairwise_append]
    refine ⟨reads_order h.wf (B := []) (by simp), ?_, ?_⟩
    · cases S.log[p]? <;> simp
    · intro x hx y hy hpr
      have h1 := (mem_block h hf (p := p) (x := x) (List.mem_append_left _ hx)).1
      obtain ⟨ev, h2, rfl⟩ := mem_evBlock hy
      have h3 := h.pr _ _ hpr
      have hid := (hf ev (List.mem_of_getElem? h2)).id
      have h4 := (h.ev p ev h2).2 (by rw [← hid]; exact hpr.ended)
      rw [hid] at h3
      omega
  · refine List.Pairwise.imp ?_ (List.pairwise_lt_range)
    intro a b hab x hx y hy hpr
    have h1 := (mem_block h hf hx).1
    have h2 := (mem_block h hf hy).2 hpr.ended
    have h3 := h.pr _ _ hpr
    omega

theorem reads_once (hwf : WFH hist) {H : List (HEv K V)} {B : List (HEv K V)} (he : hist = H ++ B) {log : List (Ev K V)}
    {p : Nat} : (H.filterMap (readItem log g p)).Pairwise fun x y => x.id ≠ y.id := by
  induction H using List.reverseRecOn generalizing B with
  | nil => exact List.Pairwise.nil
  | append_singleton H e ih =>
    rw [List.filterMap_append, List.pairwise_append]
    refine ⟨ih (B := e :: B) (by rw [he]; simp), ?_, ?_⟩
    · cases hr : readItem log g p e with
      | none => simp [hr]
      | some x => simp [hr]
    · intro x hx y hy hne
      obtain ⟨o, c, r, g1, rfl, _⟩ := mem_reads hx
      obtain ⟨o', c3, r3, g2, rfl, _⟩ := mem_reads hy
      have hne : o = o' := hne
      subst hne
      exact hwf.ret_once (A := H) (B := e :: B) (by rw [he]; simp) g1
        (List.mem_cons.2 (.inl (List.mem_singleton.1 g2)))

theorem opId?_eq {x : Item K V} {o : OpId} (h : x.opId? = some o) : x.id = o := by
  cases x with
  | op o' c r => injection h
  | del o' c y => cases h

theorem once_linz (h : HistInv S hist th g) (hS : S.Inv C) (hf : ∀ ev ∈ S.log, Good S hist ev (f ev)) (n : Nat) :
    ((blocks S.log hist g f n).filterMap Item.opId?).Nodup := by
  have key : (blocks S.log hist g f n).Pairwise fun x y => ∀ o, x.opId? = some o → y.opId? ≠ some o := by
    unfold blocks
    rw [List.pairwise_flatMap]
    constructor
    · intro p _
      unfold block
      rw [List.pairwise_append]
      refine ⟨?_, ?_, ?_⟩
      · refine (reads_once h.wf (B := []) (by simp)).imp fun {x y} hne o h1 h2 => ?_
        exact hne ((opId?_eq h1).trans (opId?_eq h2).symm)
      · cases S.log[p]? <;> simp
      · intro x hx y hy o h1 h2
        obtain ⟨o', c, r, _, rfl, _, h3, _⟩ := mem_reads hx
        obtain ⟨ev, h4, rfl⟩ := mem_evBlock hy
        have hm := List.mem_of_getElem? h4
        have := opId?_eq h2
        rw [(hf ev hm).id] at this
        injection h1 with h1
        exact h3 ev hm (this.trans h1.symm)
    · refine List.Pairwise.imp ?_ (List.pairwise_lt_range)
      intro a b hab x hx y hy o h1 h2
      rcases List.mem_append.1 hx with hx | hx <;> rcases List.mem_append.1 hy with hy | hy
      · obtain ⟨o1, c1, r1, _, rfl, _, _, e1⟩ := mem_reads hx
        obtain ⟨o2, c2, r2, _, rfl, _, _, e2⟩ := mem_reads hy
        injection h1 with h1
        injection h2 with h2
        rw [h1] at e1; rw [h2] at e2
        omega
      · obtain ⟨o1, c1, r1, _, rfl, _, h3, _⟩ := mem_reads hx
        obtain ⟨ev, h4, rfl⟩ := mem_evBlock hy
        have hm := List.mem_of_getElem? h4
        have := opId?_eq h2
        rw [(hf ev hm).id] at this
        injection h1 with h1
        exact h3 ev hm (this.trans h1.symm)
      · obtain ⟨o1, c1, r1, _, rfl, _, h3, _⟩ := mem_reads hy
        obtain ⟨ev, h4, rfl⟩ := mem_evBlock hx
        have hm := List.mem_of_getElem? h4
        have := opId?_eq h1
        rw [(hf ev hm).id] at this
        injection h2 with h2
        exact h3 ev hm (this.trans h2.symm)
      · obtain ⟨ev, h3, rfl⟩ := mem_evBlock hx
        obtain ⟨ev', h4, rfl⟩ := mem_evBlock hy
        have hm := List.mem_of_getElem? h3
        have hm' := List.mem_of_getElem? h4
        have i1 := opId?_eq h1
        have i2 := opId?_eq h2
        rw [(hf ev hm).id] at i1
        rw [(hf ev' hm').id] at i2
        have hmul := (hf ev hm).op (by rw [h1]; rfl)
        obtain ⟨l1, e1⟩ := List.getElem?_eq_some_iff.1 h3
        obtain ⟨l2, e2⟩ := List.getElem?_eq_some_iff.1 h4
        have := List.pairwise_iff_getElem.1 hS.e.e2 a b l1 l2 hab
        rw [e1, e2] at this
        have := this (i1.trans i2.symm)
        rw [hmul] at this; cases this
  refine List.Pairwise.filterMap _ ?_ key
  intro x y hxy o h1 o' h2 he
  subst he
  exact hxy o h1 h2

theorem complete_linz (h : HistInv S hist th g) (hf : ∀ ev ∈ S.log, Good S hist ev (f ev)) {o : OpId} {c : Call K V}
    {r : c.Res} (hr : .ret o c r ∈ hist) (hc : c.atomic = true) : Item.op o c r ∈ linz S hist g f := by
  rw [linz, mem_blocks]
  rcases h.done o c r hr hc with ⟨ev, h1, h2, h3⟩ | ⟨h1, h2, h3, h4⟩
  · obtain ⟨p, hp⟩ := List.mem_iff_getElem?.1 h1
    have hlt : p < S.log.length := (List.getElem?_eq_some_iff.1 hp).1
    refine ⟨p, by omega, List.mem_append_right _ ?_⟩
    have hg := (hf ev h1).ret c r (by rw [h2]; exact hr) hc
    rw [hp, h2] at *
    simp [hg]
  · have := (h.rt o (.ret hr)).2
    refine ⟨g.rpos o, by omega, List.mem_append_left _ ?_⟩
    refine List.mem_filterMap.2 ⟨_, hr, ?_⟩
    exact if_pos ⟨hc, h1, rfl⟩

/-- The map at a position inside the interval of a call. -/
theorem during_linz (h : HistInv S hist th g) (hf : ∀ ev ∈ S.log, Good S hist ev (f ev)) {o : OpId}
    {c : Call K V} {r : c.Res} (hr : .ret o c r ∈ hist) {p : Nat} (h1 : g.tInv o ≤ p) (h2 : p ≤ g.tRet o)
    {P : AMap K V → Prop} (hP : P (vals (abs (S.log.take p)))) : During hist (linz S hist g f) o P := by
  have hlen := (h.rt o (.ret hr)).2
  obtain ⟨Ha, Hb, hsplit⟩ := List.append_of_mem (h.wf.ret_inv' hr)
  -- the blocks after `p`
  obtain ⟨D, hD, hDm⟩ : ∃ D, blocks S.log hist g f (S.log.length + 1) =
      blocks S.log hist g f p ++ block S.log hist g f p ++ D ∧ ∀ y ∈ D, ∃ b, p < b ∧ y ∈ block S.log hist g f b := by
    refine ⟨(List.range' (p + 1) (S.log.length - p)).flatMap (block S.log hist g f), ?_, ?_⟩
    · unfold blocks
      have : List.range (S.log.length + 1) = List.range p ++ [p] ++ List.range' (p + 1) (S.log.length - p) := by
        have e1 := List.range'_append_1 (s := 0) (m := p + 1) (n := S.log.length - p)
        rw [Nat.zero_add] at e1
        rw [← List.range_succ, List.range_eq_range', List.range_eq_range', e1]
        congr 1
        omega
      rw [this, List.flatMap_append, List.flatMap_append]
      simp
    · intro y hy
      obtain ⟨b, h3, h4⟩ := List.mem_flatMap.1 hy
      have := List.mem_range'_1.1 h3
      exact ⟨b, by omega, h4⟩
  refine ⟨blocks S.log hist g f p ++ Ha.filterMap (readItem S.log g p),
    (HEv.inv o c :: Hb).filterMap (readItem S.log g p) ++ ((S.log[p]?).map f).toList ++ D, _, ?_, ?_, ?_,
    (run_blocks h hf p).append (run_block h hf fun e he => by rw [hsplit]; simp [he]), hP⟩
  · have : block S.log hist g f p = Ha.filterMap (readItem S.log g p) ++
        ((HEv.inv o c :: Hb).filterMap (readItem S.log g p) ++ ((S.log[p]?).map f).toList) := by
      unfold block
      rw [← List.append_assoc, ← List.filterMap_append, ← hsplit]
    rw [linz, hD, this]
    simp only [List.append_assoc]
  · intro x hx hpr
    rcases List.mem_append.1 hx with hx | hx
    · obtain ⟨a, h3, h4⟩ := mem_blocks.1 hx
      have h5 := (mem_block h hf h4).1
      have h6 := h.pr _ _ hpr
      omega
    · -- `x` returned before `o` was called
      obtain ⟨o', c', r', h3, rfl, _⟩ := mem_reads hx
      have hpr : Precedes hist o o' := hpr
      obtain ⟨A1, A2, e1, h4, c2, h5⟩ := hpr
      have h6 : ∀ e ∈ A1, e.id ≠ o' := h.wf.inv_first e1 h5
      have h7 : HEv.inv o' c' ∈ Ha := h.wf.ret_inv (A := Ha) (B := .inv o c :: Hb) hsplit h3
      have h8 : ∀ e ∈ Ha, e.id ≠ o := h.wf.inv_first hsplit (List.mem_cons_self (a := HEv.inv o c))
      have e2 : A1 ++ A2 = Ha ++ (.inv o c :: Hb) := by rw [← e1, hsplit]
      rcases List.append_eq_append_iff.1 e2 with ⟨a, g3, g4⟩ | ⟨a, g3, g4⟩
      · obtain ⟨z, h4, hz⟩ := h4.mem
        exact h8 z (by rw [g3]; exact List.mem_append_left _ h4) hz
      · exact h6 _ (by rw [g3]; exact List.mem_append_left _ h7) rfl
  · intro y hy hpr
    rcases List.mem_append.1 hy with hy | hy
    · rcases List.mem_append.1 hy with hy | hy
      · -- `y` returned after `o` was called
        obtain ⟨o', c', r', h3, rfl, _⟩ := mem_reads hy
        have hpr : Precedes hist o' o := hpr
        obtain ⟨A1, A2, e1, h4, c2, h5⟩ := hpr
        have h6 : ∀ e ∈ A1, e.id ≠ o := h.wf.inv_first e1 h5
        have e2 : A1 ++ A2 = Ha ++ (.inv o c :: Hb) := by rw [← e1, hsplit]
        rcases List.append_eq_append_iff.1 e2 with ⟨a, g3, g4⟩ | ⟨a, g3, g4⟩
        · exact h.wf.end_once (A := Ha) (B := .inv o c :: Hb) hsplit (by rw [g3]; exact h4.mono) h3
        · cases a with
          | nil =>
            simp only [List.append_nil] at g3
            subst g3
            exact h.wf.end_once (A := A1) (B := .inv o c :: Hb) hsplit h4 h3
          | cons z a =>
            simp only [List.cons_append, List.cons.injEq] at g4
            exact h6 (.inv o c) (by rw [g3, ← g4.1]; simp) rfl
      · obtain ⟨ev, h3, rfl⟩ := mem_evBlock hy
        have hid := (hf ev (List.mem_of_getElem? h3)).id
        have h4 := h.pr _ _ hpr
        have h5 := (h.ev p ev h3).2 (by rw [← hid]; exact hpr.ended)
        rw [hid] at h4
        omega
    · obtain ⟨b, h3, h4⟩ := hDm y hy
      have h5 := (mem_block h hf h4).2 hpr.ended
      have h6 := h.pr _ _ hpr
      omega

theorem SeenAt.during (h : HistInv S hist th g) (hf : ∀ ev ∈ S.log, Good S hist ev (f ev)) {o : OpId}
    {c : Call K V} {r : c.Res} (hr : .ret o c r ∈ hist) {k : K} {x : Option (Entry K V)}
    (hs : SeenAt S.log (g.tInv o) (g.tRet o) k x) :
    During hist (linz S hist g f) o fun m => m k = x.map Entry.val := by
  obtain ⟨p, h1, h2, h3⟩ := hs
  exact during_linz h hf hr h1 h2 (by unfold vals; rw [h3])

theorem bulk_linz (h : HistInv S hist th g) (hf : ∀ ev ∈ S.log, Good S hist ev (f ev)) {o : OpId}
    {c : Call K V} {r : c.Res} (hr : .ret o c r ∈ hist) : SpecBulk hist (linz S hist g f) o c r := by
  have hb := h.bulk o c r hr
  cases c with
  | clear => exact fun k => (hb k).during h hf hr
  | retain q =>
    refine ⟨hb.1, ?_, ?_⟩
    · intro x hx
      obtain ⟨p, _, hp⟩ := mem_blocks.1 hx
      rcases List.mem_append.1 hp with h1 | h1
      · obtain ⟨_, _, _, _, h2, _⟩ := mem_reads h1
        cases h2
      · obtain ⟨ev, h2, h3⟩ := mem_evBlock h1
        have hm := List.mem_of_getElem? h2
        have hid := (hf ev hm).id
        rw [← h3] at hid
        obtain ⟨e, h4, h5⟩ := (hf ev hm).del _ _ _ h3.symm
        obtain ⟨e', h6, h7⟩ := hb.2.1 ev hm hid.symm
        rw [h4] at h6
        cases h6
        rw [h5]; exact h7
    · intro k
      rcases hb.2.2 k with h1 | ⟨e, h1, h2, h3⟩
      · exact .inl (h1.during h hf hr)
      · refine .inr ⟨e.val, by rw [← h2]; exact h3, h1.during h hf hr⟩
  | iter =>
    have hb : IterAt S.log (g.tInv o) (g.tRet o) (r : List (Entry K V)) := hb
    refine ⟨fun e he => (hb.1 e he).during h hf hr, fun k => ?_, hb.2.1.imp fun {x y} g1 hk => (g1 hk).during h hf hr⟩
    rcases hb.2.2 k with h1 | h1
    · exact .inr (h1.during h hf hr)
    · exact .inl h1
  | iterTake n =>
    have hb : IterTakeAt S.log (g.tInv o) (g.tRet o) n (r : List (Entry K V)) := hb
    refine ⟨hb.2.2.1, fun e he => (hb.1 e he).during h hf hr, fun hl k => ?_, hb.2.1.imp fun {x y} g1 hk => (g1 hk).during h hf hr⟩
    rcases hb.2.2.2 hl k with h1 | h1
    · exact .inr (h1.during h hf hr)
    · exact .inl h1
  | _ => trivial

/-- The history of every state that satisfies the invariant is linearizable. -/
theorem linearizable (h : HistInv S hist th g) (hS : S.Inv C) : ∃ L, Linearization hist L (vals (abs S.log)) := by
  have : ∃ f : Ev K V → Item K V, ∀ ev ∈ S.log, Good S hist ev (f ev) := by
    classical
    by_cases hne : Nonempty (Item K V)
    · have hx : ∀ ev : Ev K V, ∃ x, ev ∈ S.log → Good S hist ev x := by
        intro ev
        by_cases hev : ev ∈ S.log
        · obtain ⟨x, hx⟩ := good_item h hS hev
          exact ⟨x, fun _ => hx⟩
        · exact ⟨Classical.choice hne, fun h => absurd h hev⟩
      exact ⟨fun ev => (hx ev).choose, fun ev hev => (hx ev).choose_spec hev⟩
    · by_cases hl : ∃ ev, ev ∈ S.log
      · obtain ⟨ev, hev⟩ := hl
        obtain ⟨x, _⟩ := good_item h hS hev
        exact absurd ⟨x⟩ hne
      · by_cases hE : Nonempty (Ev K V → Item K V)
        · exact ⟨Classical.choice hE, fun ev hev => absurd ⟨ev, hev⟩ hl⟩
        · exact absurd ⟨Item.op (0, 0) .len (0 : Nat)⟩ hne
  obtain ⟨f, hf⟩ := this
  refine ⟨linz S hist g f, ?_, ?_, ?_, once_linz h hS hf _, order_linz h hf _, ?_, ?_⟩
  · have := run_blocks h hf (S.log.length + 1)
    rw [List.take_of_length_le (Nat.le_succ _)] at this
    exact this
  · intro x hx
    obtain ⟨p, _, hp⟩ := mem_blocks.1 hx
    exact called_block h hf hp
  · exact fun o c r hr hc => complete_linz h hf hr hc
  · intro o c w hw hc x hx he
    obtain ⟨p, _, hp⟩ := mem_blocks.1 hx
    rcases List.mem_append.1 hp with h1 | h1
    · obtain ⟨o', c', r, h2, rfl, _⟩ := mem_reads h1
      have he : o' = o := he
      subst he
      exact h.wf.ret_panic h2 hw
    · obtain ⟨ev, h2, rfl⟩ := mem_evBlock h1
      rw [(hf ev (List.mem_of_getElem? h2)).id] at he
      exact h.pan o c w hw hc ev (List.mem_of_getElem? h2) he
  · exact fun o c r hr => bulk_linz h hf hr

end

end Papaya
