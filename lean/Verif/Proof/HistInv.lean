import Verif.Proof.Move

/-! # What the ghost log says about the history -/

set_option linter.unusedSectionVars false
set_option linter.unusedVariables false

namespace Papaya

variable {K V : Type} [DecidableEq K]

open GSt

variable {C : Cfg K} {t t' : Tid} {S S' S'' : GSt K V}

/-- Ghost positions of the calls in the log. -/
structure HG where
  /-- length of the log when the call is made -/
  tInv : OpId → Nat
  /-- length of the log when the call returns -/
  tRet : OpId → Nat
  /-- where a call that changes nothing is linearized -/
  rpos : OpId → Nat
  /-- the counter updates made before the call -/
  pInv : OpId → List (Tid × Int)
  /-- the index of the root table when the call is made -/
  rInv : OpId → Nat

/-- Between positions `a` and `b` of the log, `k` was mapped to `x` at some point. -/
def SeenAt (log : List (Ev K V)) (a b : Nat) (k : K) (x : Option (Entry K V)) : Prop :=
  ∃ p, a ≤ p ∧ p ≤ b ∧ abs (log.take p) k = x

/-- What is known of an iterator that yielded `r`. -/
def IterAt (log : List (Ev K V)) (a b : Nat) (r : List (Entry K V)) : Prop :=
  (∀ e ∈ r, SeenAt log a b e.key (some e)) ∧
  r.Pairwise (fun x y => x.key = y.key → SeenAt log a b x.key none) ∧
  ∀ k, SeenAt log a b k none ∨ ∃ e ∈ r, e.key = k

/-- … of an iterator that is dropped when it has yielded `n` entries. -/
def IterTakeAt (log : List (Ev K V)) (a b : Nat) (n : Nat) (r : List (Entry K V)) : Prop :=
  (∀ e ∈ r, SeenAt log a b e.key (some e)) ∧
  r.Pairwise (fun x y => x.key = y.key → SeenAt log a b x.key none) ∧ r.length ≤ n ∧
  (r.length < n → ∀ k, SeenAt log a b k none ∨ ∃ e ∈ r, e.key = k)

/-- What is known of a bulk operation that returned. -/
def BulkAt (log : List (Ev K V)) (a b : Nat) (o : OpId) : (c : Call K V) → c.Res → Prop
  | .clear, _ => ∀ k, SeenAt log a b k none
  | .retain f, r => f.Made r.calls ∧
      (∀ ev ∈ log, ev.op = o → ∃ e, ev.old = some e ∧ ((e.key, e.val), false) ∈ r.calls) ∧
      ∀ k, SeenAt log a b k none ∨ ∃ e, SeenAt log a b k (some e) ∧ e.key = k ∧ ((e.key, e.val), true) ∈ r.calls
  | .iter, r => IterAt log a b r
  | .iterTake n, r => IterTakeAt log a b n r
  | _, _ => True

/-- What is known of the reported length. -/
def LenAt (p0 : List (Tid × Int)) (r0 : Nat) : (c : Call K V) → c.Res → GSt K V → Prop
  | .len, n, S => LenIs p0 n S
  | .isEmpty, b, S => ∃ n : Nat, LenIs p0 n S ∧ b = (n == 0)
  | .reserve a, _, S => ∃ T n c, S.wasRoot T ∧ r0 ≤ T ∧ LenIs p0 n S ∧ entriesFor (n + a) = some c ∧ c ≤ S.cap T
  | _, _, _ => True

/-- Every call that may write has returned. -/
def AllDone (hist : List (HEv K V)) : Prop := ∀ o c, HEv.inv o c ∈ hist → c.passive = true ∨ Ended hist o

/-- Sum of the size changes. -/
def deltas (l : List (Ev K V)) : Int := (l.map Ev.delta).sum

def paySum (l : List (Tid × Int)) : Int := (l.map Prod.snd).sum

structure HistInv (S : GSt K V) (hist : List (HEv K V)) (th : Tid → Th K V) (g : HG) : Prop where
  wf : WFH hist
  i1 : ∀ o c, HEv.inv o c ∈ hist → 0 < o.2 ∧ o.2 ≤ S.seq o.1 ∧ S.ops o = c.opi ∧ g.tInv o ≤ S.log.length
  i2 : ∀ o : OpId, 0 < o.2 → o.2 ≤ S.seq o.1 → ∃ c, HEv.inv o c ∈ hist
  i0 : ∀ t k a b, ¬ (S.ops (t, 0)).eff k a b
  rt : ∀ o, Ended hist o → g.tInv o ≤ g.tRet o ∧ g.tRet o ≤ S.log.length
  pr : ∀ a b, Precedes hist a b → g.tRet a ≤ g.tInv b
  ev : ∀ (q : Nat) ev, S.log[q]? = some ev → g.tInv ev.op ≤ q ∧ (Ended hist ev.op → q < g.tRet ev.op)
  unl : ∀ id x, S.info id = some x → ¬ S.logged x.entry → ¬ Ended hist x.op
  pend : ∀ t, th t ≠ .out → th t ≠ .idle → (∃ c, HEv.inv (t, S.seq t) c ∈ hist) ∧ ¬ Ended hist (t, S.seq t)
  run : ∀ t c p, th t = .run c p → HEv.inv (t, S.seq t) c ∈ hist ∧ g.tInv (t, S.seq t) = S.invPos t
  done : ∀ o c r, HEv.ret o c r ∈ hist → c.atomic = true →
    (∃ ev ∈ S.log, ev.op = o ∧ EvSpec c r ev.key ev.old ev.new) ∨
    ((∀ ev ∈ S.log, ev.op ≠ o) ∧ g.tInv o ≤ g.rpos o ∧ g.rpos o ≤ g.tRet o ∧
      SpecOp c (vals (abs (S.log.take (g.rpos o)))) r (vals (abs (S.log.take (g.rpos o)))))
  pan : ∀ o c w, HEv.panic o c w ∈ hist → c.atomic = true → ∀ ev ∈ S.log, ev.op ≠ o
  bulk : ∀ o c r, HEv.ret o c r ∈ hist → BulkAt S.log (g.tInv o) (g.tRet o) o c r
  len : ∀ o c r, HEv.ret o c r ∈ hist → LenAt (g.pInv o) (g.rInv o) c r S
  ri : ∀ t c p, th t = .run c p → g.rInv (t, S.seq t) = S.rInv t
  old : ∀ o : OpId, 0 < o.2 → o.2 ≤ S.seq o.1 → (o.2 = S.seq o.1 → th o.1 = .out ∨ th o.1 = .idle) → Ended hist o
  pas : ∀ t c, HEv.inv (t, S.seq t) c ∈ hist → c.passive = true → Due t 0 S
  quiet : ∀ H1 o c H2, hist = H1 ++ HEv.inv o c :: H2 → AllDone H1 → c.passive = true →
    (∀ o' c', HEv.inv o' c' ∈ H2 → c'.passive = true) →
    S.pays = g.pInv o ∧ ∀ k, vals (abs S.log) k = vals (abs (S.log.take (g.tInv o))) k
  q1 : ∀ H1 o c H2, hist = H1 ++ HEv.inv o c :: H2 → AllDone H1 → paySum (g.pInv o) = deltas (S.log.take (g.tInv o))

theorem _root_.Papaya.Evo.wr (h : Evo S S') (T : Nat) (hT : S.wasRoot T) : S'.wasRoot T ∧ S'.cap T = S.cap T :=
  ⟨h.wasRoot T hT, h.cap T hT.1⟩

/-! ## Growth of the log -/

theorem take_prefix {l l' : List (Ev K V)} (h : l <+: l') {n : Nat} (hn : n ≤ l.length) : l'.take n = l.take n := by
  obtain ⟨a, rfl⟩ := h
  rw [List.take_append_of_le_length hn]

theorem prefix_take {l l' : List (Ev K V)} (h : l <+: l') : l = l'.take l.length := by
  obtain ⟨a, rfl⟩ := h; simp

theorem SeenAt.mono {l l' : List (Ev K V)} (h : l <+: l') {a b : Nat} (hb : b ≤ l.length) {k : K}
    {x : Option (Entry K V)} (hs : SeenAt l a b k x) : SeenAt l' a b k x := by
  obtain ⟨p, h1, h2, h3⟩ := hs
  exact ⟨p, h1, h2, by rw [take_prefix h (by omega)]; exact h3⟩

theorem SeenIn.at {k : K} {x : Option (Entry K V)} (h : SeenIn t k x S) : SeenAt S.log (S.invPos t) S.log.length k x := by
  obtain ⟨l, h1, h2, h3⟩ := h
  exact ⟨l.length, h2, h1.length_le, by rw [← prefix_take h1]; exact h3⟩

theorem BulkAt.mono {l l' : List (Ev K V)} (h : l <+: l') {a b : Nat} (hb : b ≤ l.length) {o : OpId} {c : Call K V}
    {r : c.Res} (hn : ∀ ev ∈ l', ev ∉ l → ev.op ≠ o) (hs : BulkAt l a b o c r) : BulkAt l' a b o c r := by
  cases c with
  | clear => exact fun k => (hs k).mono h hb
  | retain f =>
    refine ⟨hs.1, fun ev hev ho => ?_, fun k => ?_⟩
    · by_cases hm : ev ∈ l
      · exact hs.2.1 ev hm ho
      · exact absurd ho (hn ev hev hm)
    · rcases hs.2.2 k with g | ⟨e, g1, g2⟩
      · exact .inl (g.mono h hb)
      · exact .inr ⟨e, g1.mono h hb, g2⟩
  | iter =>
    refine ⟨fun e he => (hs.1 e he).mono h hb, ?_, fun k => ?_⟩
    · have := hs.2.1
      exact this.imp fun {x y} g hk => (g hk).mono h hb
    · rcases hs.2.2 k with g | g
      · exact .inl (g.mono h hb)
      · exact .inr g
  | iterTake n =>
    refine ⟨fun e he => (hs.1 e he).mono h hb, ?_, hs.2.2.1, fun hl k => ?_⟩
    · have := hs.2.1
      exact this.imp fun {x y} g hk => (g hk).mono h hb
    · rcases hs.2.2.2 hl k with g | g
      · exact .inl (g.mono h hb)
      · exact .inr g
  | _ => trivial

theorem LenAt.mono {p0 : List (Tid × Int)} {r0 : Nat} {c : Call K V} {r : c.Res} (h : S.pays <+: S'.pays)
    (hw : ∀ T, S.wasRoot T → S'.wasRoot T ∧ S'.cap T = S.cap T) (hl : LenAt p0 r0 c r S) : LenAt p0 r0 c r S' := by
  have key : ∀ {n : Nat}, LenIs p0 n S → LenIs p0 n S' := by
    exact fun hn => hn.mono h
  cases c with
  | len => exact key hl
  | isEmpty => obtain ⟨n, h1, h2⟩ := hl; exact ⟨n, key h1, h2⟩
  | reserve a =>
    obtain ⟨T, n, c, h1, h2, h3, h4, h5⟩ := hl
    exact ⟨T, n, c, (hw T h1).1, h2, key h3, h4, by rw [(hw T h1).2]; exact h5⟩
  | _ => trivial

/-! ## Steps that do not concern the history -/

theorem HistInv.same {hist : List (HEv K V)} {th th' : Tid → Th K V} {g : HG} (h : HistInv S hist th g)
    (h1 : S'.log = S.log) (h2 : S'.seq = S.seq) (h3 : S'.ops = S.ops) (h4 : S'.invPos = S.invPos)
    (h5 : S'.info = S.info) (h6 : S'.pays = S.pays) (h7 : ∀ t c p, th' t = .run c p → S'.rInv t = S.rInv t)
    (hw : ∀ T, S.wasRoot T → S'.wasRoot T ∧ S'.cap T = S.cap T)
    (ht : ∀ t, th' t ≠ .out → th' t ≠ .idle → th t ≠ .out ∧ th t ≠ .idle)
    (ht' : ∀ t c p, th' t = .run c p → ∃ p', th t = .run c p')
    (ht'' : ∀ t, th' t = .out ∨ th' t = .idle → th t = .out ∨ th t = .idle) : HistInv S' hist th' g where
  wf := h.wf
  i1 := by rw [h1, h2, h3]; exact h.i1
  i2 := by rw [h2]; exact h.i2
  i0 := by rw [h3]; exact h.i0
  rt := by rw [h1]; exact h.rt
  pr := h.pr
  ev := by rw [h1]; exact h.ev
  unl := by unfold GSt.logged; rw [h1, h5]; exact h.unl
  pend t g1 g2 := by
    obtain ⟨g3, g4⟩ := ht t g1 g2
    rw [h2]; exact h.pend t g3 g4
  run t c p g1 := by
    obtain ⟨p', g2⟩ := ht' t c p g1
    rw [h2, h4]; exact h.run t c p' g2
  done := by rw [h1]; exact h.done
  pan := by rw [h1]; exact h.pan
  bulk := by rw [h1]; exact h.bulk
  len o c r hr := (h.len o c r hr).mono (by rw [h6]) hw
  ri t c p g1 := by
    obtain ⟨p', g2⟩ := ht' t c p g1
    rw [h2, h7 t c p g1]; exact h.ri t c p' g2
  old o g1 g2 g3 := by
    rw [h2] at g2 g3
    exact h.old o g1 g2 fun he => ht'' _ (g3 he)
  pas := by unfold Due; rw [h1, h2, h6]; exact h.pas
  quiet := by rw [h1, h6]; exact h.quiet
  q1 := by rw [h1]; exact h.q1

theorem getElem?_prefix {l l' : List (Ev K V)} (h : l <+: l') {q : Nat} {ev : Ev K V} (hq : l'[q]? = some ev) :
    l[q]? = some ev ∨ (l.length ≤ q ∧ ev ∈ l'.drop l.length) := by
  obtain ⟨a, rfl⟩ := h
  rcases Nat.lt_or_ge q l.length with g | g
  · left; rwa [List.getElem?_append_left g] at hq
  · right
    refine ⟨g, ?_⟩
    rw [List.getElem?_append_right g] at hq
    simpa using List.mem_of_getElem? hq

theorem mem_prefix {l l' : List (Ev K V)} (h : l <+: l') {ev : Ev K V} (hq : ev ∈ l') :
    ev ∈ l ∨ ev ∈ l'.drop l.length := by
  obtain ⟨a, rfl⟩ := h
  simpa using hq

/-- The operation of an event has been called. -/
theorem HistInv.evInv {hist : List (HEv K V)} {th : Tid → Th K V} {g : HG} (h : HistInv S hist th g) (hS : S.Inv C)
    {ev : Ev K V} (hev : ev ∈ S.log) : ∃ c, HEv.inv ev.op c ∈ hist ∧ c.opi.eff ev.key ev.old ev.new := by
  obtain ⟨A, B, he⟩ := List.append_of_mem hev
  have hk := hS.e.e1 A ev ⟨B, by rw [he]; simp⟩
  have h0 : 0 < ev.op.2 := by
    rcases Nat.eq_zero_or_pos ev.op.2 with h0 | h0
    · have : ev.op = (ev.op.1, 0) := by rw [← h0]
      have h1 := hk.eff
      rw [this] at h1
      exact absurd h1 (h.i0 _ _ _ _)
    · exact h0
  obtain ⟨c, hc⟩ := h.i2 ev.op h0 hk.seq
  refine ⟨c, hc, ?_⟩
  have := hk.eff
  rw [(h.i1 _ _ hc).2.2.1] at this
  exact this

theorem passive_eff {c : Call K V} (hc : c.passive = true) {k : K} {a b : Option (Entry K V)}
    (h : c.opi.eff k a b) : b.map Entry.val = a.map Entry.val := by
  rcases h with ⟨_, r, h⟩ | ⟨e, _, _, _, h⟩
  · have h1 := h (fun _ => a.map Entry.val) rfl
    have key : AMap.put (fun _ => a.map Entry.val) k (b.map Entry.val) = fun _ => a.map Entry.val := by
      cases c with
      | get k' => exact h1.2
      | containsKey k' => exact h1.2
      | iter => exact False.elim h1
      | iterTake n => exact False.elim h1
      | len => exact False.elim h1
      | isEmpty => exact False.elim h1
      | reserve _ => exact False.elim h1
      | _ => cases hc
    have := congrFun key k
    unfold AMap.put at this
    rw [if_pos rfl] at this
    exact this
  · cases c <;> first | exact False.elim h | cases hc

theorem delta_zero {ev : Ev K V} (h : ev.new.map Entry.val = ev.old.map Entry.val) : ev.delta = 0 := by
  unfold Ev.delta
  cases h1 : ev.old <;> cases h2 : ev.new <;> simp [h1, h2] at h ⊢

theorem net_zero {l : List (Ev K V)} (h : ∀ ev ∈ l, ev.op.1 = t → ev.delta = 0) : net t l = 0 := by
  induction l with
  | nil => rfl
  | cons ev l ih =>
    have ih := ih fun e he => h e (List.mem_cons_of_mem _ he)
    unfold net at ih ⊢
    by_cases ho : ev.op.1 = t
    · rw [List.filter_cons_of_pos (by simpa using ho), List.map_cons, List.sum_cons, ih, h ev (by simp) ho]; rfl
    · rw [List.filter_cons_of_neg (by simpa using ho)]; exact ih

theorem vals_snoc {l : List (Ev K V)} {ev : Ev K V} :
    vals (abs (l ++ [ev])) = (vals (abs l)).put ev.key (ev.new.map Entry.val) := by
  funext k
  unfold vals AMap.put
  rw [abs_snoc]
  split <;> rfl

/-- Events that change nothing. -/
theorem vals_quiet (hS : S.Inv C) {l l' : List (Ev K V)} (h : l ++ l' <+: S.log)
    (hq : ∀ ev ∈ l', ev.new.map Entry.val = ev.old.map Entry.val) (k : K) : vals (abs (l ++ l')) k = vals (abs l) k := by
  induction l' using List.reverseRecOn with
  | nil => rw [List.append_nil]
  | append_singleton l' ev ih =>
    rw [← List.append_assoc] at h ⊢
    have ih := ih (List.IsPrefix.trans ⟨[ev], rfl⟩ h) fun e he => hq e (by simp [he])
    have hold := (hS.e.e1 _ _ h).old
    have hev := hq ev (by simp)
    rw [vals_snoc, ← ih]
    show (if k = ev.key then ev.new.map Entry.val else vals (abs (l ++ l')) k) = _
    split
    · rename_i hk
      rw [hev, hold, hk]; rfl
    · rfl

/-- A step of a running operation. -/
theorem HistInv.move {hist : List (HEv K V)} {th : Tid → Th K V} {g : HG} (h : HistInv S hist th g)
    (hm : Move C t S S') {c : Call K V} {p p' : Prog K V c.Res} (hth : th t = .run c p) (hg : c.guar t S S') :
    HistInv S' hist (setTh th t (.run c p')) g := by
  have hlog := hm.evo.log
  have hlen := hlog.length_le
  have hrun := h.run t c p hth
  have hnr : ¬ Ended hist (t, S.seq t) := (h.pend t (by rw [hth]; simp) (by rw [hth]; simp)).2
  have hnew : ∀ ev, ev ∈ S'.log.drop S.log.length → ¬ Ended hist ev.op ∧ g.tInv ev.op ≤ S.log.length := by
    intro ev hev
    rcases hm.evs hev with h1 | ⟨id, x, h1, h2, h3⟩
    · rw [h1]; exact ⟨hnr, (h.i1 _ _ hrun.1).2.2.2⟩
    · rw [← h2]
      refine ⟨h.unl id x h1 h3, ?_⟩
      obtain ⟨_, _, _, _, _, _, _, heff⟩ := hm.inv.l.u1 id x h1 h3
      have h0 : 0 < x.op.2 := by
        rcases Nat.eq_zero_or_pos x.op.2 with h0 | h0
        · have : x.op = (x.op.1, 0) := by rw [← h0]
          rw [this] at heff
          exact absurd heff (h.i0 _ _ _ _)
        · exact h0
      obtain ⟨c', hc'⟩ := h.i2 x.op h0 (hm.inv.e.e5 id x h1).1
      exact (h.i1 _ _ hc').2.2.2
  have hevc : ∀ ev, ev ∈ S'.log.drop S.log.length → ∃ c', HEv.inv ev.op c' ∈ hist ∧ c'.opi.eff ev.key ev.old ev.new := by
    intro ev hev
    have hevl : ev ∈ S'.log := List.mem_of_mem_drop hev
    obtain ⟨A, B, hAB⟩ := List.append_of_mem hevl
    have hk := hm.inv'.e.e1 A ev ⟨B, by rw [hAB]; simp⟩
    have hsq : ev.op.2 ≤ S.seq ev.op.1 := by have := hk.seq; rw [hm.seq] at this; exact this
    have heff := hk.eff
    rw [hm.evo.ops ev.op hsq] at heff
    have h0 : 0 < ev.op.2 := by
      rcases Nat.eq_zero_or_pos ev.op.2 with h0 | h0
      · have : ev.op = (ev.op.1, 0) := by rw [← h0]
        rw [this] at heff
        exact absurd heff (h.i0 _ _ _ _)
      · exact h0
    obtain ⟨c', hc'⟩ := h.i2 ev.op h0 hsq
    rw [(h.i1 _ _ hc').2.2.1] at heff
    exact ⟨c', hc', heff⟩
  have hnew' : ∀ ev o, ev ∈ S'.log → Ended hist o → ev.op = o → ev ∈ S.log := by
    intro ev o hev ho he
    rcases mem_prefix hlog hev with g1 | g1
    · exact g1
    · exact absurd (he ▸ ho) (hnew ev g1).1
  have htid : ∀ u, setTh th t (.run c p') u ≠ .out → setTh th t (.run c p') u ≠ .idle → th u ≠ .out ∧ th u ≠ .idle := by
    intro u h1 h2
    unfold setTh at h1 h2
    by_cases hu : u = t
    · subst hu; rw [hth]; simp
    · rw [if_neg hu] at h1 h2; exact ⟨h1, h2⟩
  refine ⟨h.wf, ?_, ?_, ?_, ?_, h.pr, ?_, ?_, ?_, ?_, ?_, ?_, ?_, ?_, ?_, ?_, ?_, ?_, ?_⟩
  · intro o c ho
    obtain ⟨h1, h2, h3, h4⟩ := h.i1 o c ho
    exact ⟨h1, by rw [hm.seq]; exact h2, by rw [hm.evo.ops o h2]; exact h3, by omega⟩
  · rw [hm.seq]; exact h.i2
  · intro u k a b he
    rw [hm.evo.ops (u, 0) (Nat.zero_le _)] at he
    exact h.i0 u k a b he
  · intro o ho
    have := h.rt o ho
    omega
  · intro q ev hq
    rcases getElem?_prefix hlog hq with h1 | ⟨h1, h2⟩
    · exact h.ev q ev h1
    · have := hnew ev h2
      exact ⟨by omega, fun hr => absurd hr this.1⟩
  · intro id x hx hnl
    rcases hm.info hx with h1 | h1
    · exact h.unl id x h1 fun hl => hnl (logged_mono hlog hl)
    · rw [h1]; exact hnr
  · intro u h1 h2
    obtain ⟨h3, h4⟩ := htid u h1 h2
    rw [hm.seq]; exact h.pend u h3 h4
  · intro u c' p'' h1
    rw [hm.seq, hm.invPos]
    unfold setTh at h1
    by_cases hu : u = t
    · subst hu
      rw [if_pos rfl] at h1
      cases h1
      exact hrun
    · rw [if_neg hu] at h1
      exact h.run u c' p'' h1
  · intro o c' r hr hc
    rcases h.done o c' r hr hc with ⟨ev, h1, h2⟩ | ⟨h1, h2, h3, h4⟩
    · exact .inl ⟨ev, hlog.subset h1, h2⟩
    · refine .inr ⟨fun ev hev he => h1 ev (hnew' ev o hev (.ret hr) he) he, h2, h3, ?_⟩
      have := (h.rt o (.ret hr)).2
      rw [take_prefix hlog (by omega)]
      exact h4
  · intro o c' w hw hc ev hev he
    exact h.pan o c' w hw hc ev (hnew' ev o hev (.panic hw) he) he
  · intro o c' r hr
    exact (h.bulk o c' r hr).mono hlog (h.rt o (.ret hr)).2 fun ev hev hn he =>
      hn (hnew' ev o hev (.ret hr) he)
  · intro o c' r hr
    exact (h.len o c' r hr).mono hm.own.pays hm.evo.wr
  · intro u c' p'' h1
    unfold setTh at h1
    rw [hm.seq, hm.rInv]
    by_cases hu : u = t
    · subst hu
      rw [if_pos rfl] at h1
      cases h1
      exact h.ri u c p hth
    · rw [if_neg hu] at h1
      exact h.ri u c' p'' h1
  · intro o g1 g2 g3
    rw [hm.seq] at g2 g3
    refine h.old o g1 g2 fun he => ?_
    have := g3 he
    unfold setTh at this
    by_cases hu : o.1 = t
    · rw [if_pos hu] at this; rcases this with h | h <;> cases h
    · rw [if_neg hu] at this; exact this
  · intro u c' hi hp
    rw [hm.seq] at hi
    have hdue := h.pas u c' hi hp
    have hpay : netPays u S'.pays = netPays u S.pays := by
      by_cases hu : u = t
      · subst hu
        have := h.wf.inv_unique hi hrun.1
        subst this
        rw [hm.pays_mt (Call.guar_mt hp hg)]
      · obtain ⟨l, e1, h1⟩ := hm.pays
        rw [e1, netPays_append, netPays_other (l := l) (t := u), add_zero]
        intro p hp he
        exact hu (he.symm.trans (h1 p hp))
    have hnet : net u S'.log = net u S.log := by
      obtain ⟨l, hl⟩ := hlog
      suffices hz : net u l = 0 by rw [← hl, net_append, hz, add_zero]
      apply net_zero
      intro ev hev ho
      have hev' : ev ∈ S'.log.drop S.log.length := by rw [← hl]; simpa using hev
      obtain ⟨c'', g1, g2⟩ := hevc ev hev'
      have hop : ev.op = (u, S.seq u) := by
        have := (hnew ev hev').1
        by_contra hne
        obtain ⟨g3, g4, _⟩ := h.i1 _ _ g1
        refine this (h.old ev.op g3 g4 fun he => absurd ?_ hne)
        apply Prod.ext
        · exact ho
        · rw [he, ho]
      rw [hop] at g1
      have := h.wf.inv_unique hi g1
      subst this
      exact delta_zero (passive_eff hp g2)
    unfold Due at hdue ⊢
    rw [hpay, hnet]; exact hdue
  · intro H1 o c' H2 he hd hp hid
    obtain ⟨h1, h2⟩ := h.quiet H1 o c' H2 he hd hp hid
    have hin : ∀ {o' : OpId} {c'' : Call K V}, HEv.inv o' c'' ∈ hist → ¬ Ended hist o' → c''.passive = true := by
      intro o' c'' hi hnr'
      rw [he] at hi hnr'
      rcases List.mem_append.1 hi with g1 | g1
      · rcases hd _ _ g1 with g2 | g2
        · exact g2
        · exact absurd g2.mono hnr'
      · rcases List.mem_cons.1 g1 with g1 | g1
        · cases g1; exact hp
        · exact hid _ _ g1
    refine ⟨by rw [hm.pays_mt (Call.guar_mt (hin hrun.1 hnr) hg)]; exact h1, fun k => ?_⟩
    rw [take_prefix hlog (h.i1 o c' (by rw [he]; simp)).2.2.2, ← h2]
    obtain ⟨l, hl⟩ := hlog
    rw [← hl]
    refine vals_quiet hm.inv' (by rw [hl]) (fun ev hev => ?_) k
    have hev' : ev ∈ S'.log.drop S.log.length := by rw [← hl]; simpa using hev
    obtain ⟨c'', g1, g2⟩ := hevc ev hev'
    exact passive_eff (hin g1 (hnew ev hev').1) g2
  · intro H1 o c' H2 he hd
    rw [take_prefix hlog (h.i1 o c' (by rw [he]; simp)).2.2.2]
    exact h.q1 H1 o c' H2 he hd

end Papaya
