import Verif.Proof.TriGet

/-! # Steps with which an operation takes effect -/

set_option linter.unusedSectionVars false
set_option linter.unusedVariables false

namespace Papaya

variable {K V : Type} [DecidableEq K]

open GSt

variable {C : Cfg K} {t : Tid} {Ap : PanicReason → GSt K V → Prop} {S S' : GSt K V} {k : K}

/-- All events of `t` are logged and `t` owes `d` to the counters. -/
def Owes (t : Tid) (d : Int) (S : GSt K V) : Prop := Quiet t S ∧ Due t d S

instance {d : Int} : Inert (V := V) C t (Owes (K := K) t d) := by unfold Owes; infer_instance

/-- `e` is the only entry of `t` that may still have to be logged. -/
def PubOnly (t : Tid) (e : Entry K V) (S : GSt K V) : Prop :=
  ∀ id x, S.info id = some x → x.op.1 = t → S.logged x.entry ∨ x.entry = e

/-- `t` published `e` in slot `(T, i)`; the insertion may have been logged by another thread. -/
def Pub (t : Tid) (e : Entry K V) (T i : Nat) (S : GSt K V) : Prop :=
  (∃ x, S.info e.id = some x ∧ x.entry = e ∧ x.op = (t, S.seq t) ∧ x.home = some (T, i)) ∧ PubOnly t e S ∧
    ((S.logged e ∧ Due t 1 S ∧ DoneEv t e.key none (some e) S) ∨ (¬ S.logged e ∧ Due t 0 S))

theorem Pub.owes {e : Entry K V} {T i : Nat} (h : Pub t e T i S) (hl : S.logged e) :
    Owes t 1 S ∧ DoneEv t e.key none (some e) S := by
  rcases h.2.2 with ⟨_, h1, h2⟩ | ⟨h1, _⟩
  · refine ⟨⟨fun id x hx ho => ?_, h1⟩, h2⟩
    rcases h.2.1 id x hx ho with h3 | h3
    · exact h3
    · rw [h3]; exact hl
  · exact absurd hl h1

instance {e : Entry K V} {T i : Nat} : Inert C t (Pub t e T i) := ⟨fun S S' h1 h2 h3 h4 h => by
  obtain ⟨⟨x, hx, hxe, hxo, hxh⟩, hpo, hd⟩ := h
  have hpo' : PubOnly t e S' := fun id x' hx' ho => by
    rcases hpo id x' (h4.info id x' hx' ho) ho with g | g
    · exact .inl (logged_mono h3.log g)
    · exact .inr g
  refine ⟨⟨x, h3.info _ _ hx, hxe, by rw [h4.seq]; exact hxo, hxh⟩, hpo', ?_⟩
  rcases hd with ⟨g1, g2, g3⟩ | ⟨g1, g2⟩
  · left
    refine ⟨logged_mono h3.log g1, ?_, Inert.inert (C := C) (t := t) S S' h1 h2 h3 h4 g3⟩
    have : Owes t 1 S := (Pub.owes (T := T) (i := i) ⟨⟨x, hx, hxe, hxo, hxh⟩, hpo, .inl ⟨g1, g2, g3⟩⟩ g1).1
    exact (Inert.inert (C := C) (t := t) S S' h1 h2 h3 h4 this).2
  · obtain ⟨l, hl⟩ := h3.log
    obtain ⟨m, hm, hm'⟩ := h4.pays
    have hev : ∀ ev ∈ l, ev.op.1 = t → ev.old = none ∧ ev.new = some e := by
      intro ev hmem hop
      obtain ⟨q1, e', x', q2, q3, q4, q5, q6⟩ := h4.evs ev (by rw [← hl]; simpa using hmem) hop
      rcases hpo _ x' q3 (by rw [q5]; exact hop) with q7 | q7
      · exact absurd (q4 ▸ q7) q6
      · exact ⟨q1, by rw [q2, ← q4, q7]⟩
    have hdue : ∀ n : Int, net t l = n → Due t n S' := by
      intro n hn
      unfold Due at *
      rw [← hl, hm, net_append, netPays_append, netPays_other hm', hn]
      omega
    by_cases hlg : S'.logged e
    · left
      refine ⟨hlg, ?_⟩
      obtain ⟨ev, p1, p2⟩ := hlg
      have hmem : ev ∈ l := by
        rw [← hl] at p1
        rcases List.mem_append.1 p1 with p1 | p1
        · exact absurd ⟨ev, p1, p2⟩ g1
        · exact p1
      obtain ⟨a, b, hab⟩ := List.append_of_mem hmem
      have hpre : (S.log ++ a) ++ [ev] <+: S'.log := ⟨b, by rw [← hl, hab]; simp⟩
      obtain ⟨x', r1, r2, r3, r4, r5, r6, _⟩ := (h2.e.e1 _ _ hpre).new e p2
      have hxx : x' = x := by
        have := h3.info _ _ hx
        rw [r1] at this; exact Option.some.inj this
      subst hxx
      have hop : ev.op = (t, S.seq t) := r3.symm.trans hxo
      have ha : ∀ ev' ∈ a, ev'.op.1 ≠ t := by
        intro ev' hm' ho
        exact r5 ev' (List.mem_append_right _ hm') (hev ev' (by rw [hab]; exact List.mem_append_left _ hm') ho).2
      have hb : ∀ ev' ∈ b, ev'.op.1 ≠ t := by
        intro ev' hm' ho
        obtain ⟨c, d, hcd⟩ := List.append_of_mem hm'
        have hpre2 : (S.log ++ a ++ [ev] ++ c) ++ [ev'] <+: S'.log := ⟨d, by rw [← hl, hab, hcd]; simp⟩
        have hn' := (hev ev' (by rw [hab]; exact List.mem_append_right _ (List.mem_cons_of_mem _ hm')) ho).2
        obtain ⟨_, _, _, _, _, q, _⟩ := (h2.e.e1 _ _ hpre2).new e hn'
        exact q ev (by simp) p2
      refine ⟨hdue 1 ?_, S.log ++ a, ?_⟩
      · have : l = a ++ [ev] ++ b := by rw [hab]; simp
        rw [this, net_append, net_append, net_other ha, net_other hb]
        have h1 : ev.delta = 1 := by unfold Ev.delta; rw [(hev ev hmem (by rw [hop])).1, p2]
        simp [net, hop, h1]
      · have : ev = ⟨(t, S'.seq t), e.key, none, some e⟩ := by
          obtain ⟨o, kk, ol, nw⟩ := ev
          have := (hev _ hmem (by rw [hop])).1
          simp only at this p2 hop r4
          rw [this, p2, hop, r4, h4.seq]
        rw [← this]; exact hpre
    · right
      refine ⟨hlg, hdue 0 (net_other ?_)⟩
      intro ev hmem ho
      refine hlg ⟨ev, ?_, (hev ev hmem ho).2⟩
      rw [← hl]; exact List.mem_append_right _ hmem⟩

/-- `d` is the effect on the size of one event of the current operation of `t`, if not zero. -/
def DueEv (t : Tid) (d : Int) (S : GSt K V) : Prop := d = 0 ∨ ∃ ev ∈ S.log, ev.op = (t, S.seq t) ∧ ev.delta = d

instance {d : Int} : Inert (V := V) C t (DueEv (K := K) t d) := ⟨fun S S' h1 h2 h3 h4 h => by
  rcases h with h | ⟨ev, e1, e2, e3⟩
  · exact .inl h
  · exact .inr ⟨ev, h3.log.subset e1, by rw [h4.seq]; exact e2, e3⟩⟩

/-- What `t` owes to the counters is at most one event of its current operation. -/
def DueOk (t : Tid) (S : GSt K V) : Prop := (∃ d : Int, DueEv t d S ∧ Owes t d S) ∨ ∃ e T i, Pub t e T i S

instance : Inert (V := V) C t (DueOk (K := K) t) := by unfold DueOk; infer_instance

/-- What a thread keeps through all of its own steps. -/
structure Own1 (t : Tid) (S S' : GSt K V) : Prop where
  seq : S'.seq t = S.seq t
  invPos : S'.invPos t = S.invPos t
  rInv : S'.rInv t = S.rInv t
  pr : S'.pr t = S.pr t
  pinned : S'.pinned t = S.pinned t
  prot : ∀ e, S.Prot t e → S'.Prot t e
  /-- only the current operation creates entries -/
  info : ∀ id x, S'.info id = some x → x.op.1 = t → S.info id = some x ∨ x.op = (t, S.seq t)
  /-- only the current operation, or entries published before, are logged -/
  evs : ∀ ev, ev ∈ S'.log.drop S.log.length → ev.op.1 = t → ev.op = (t, S.seq t) ∨
    ∃ e x, ev.new = some e ∧ S.info e.id = some x ∧ x.entry = e ∧ x.op = ev.op ∧ ¬ S.logged e
  pays : S.pays <+: S'.pays

theorem Own0.own1 (h : Own0 t S S') : Own1 t S S' :=
  ⟨h.seq, h.invPos, h.rInv, h.pr, h.pinned, h.prot, fun id x h1 h2 => .inl (h.info id x h1 h2),
    fun ev h1 h2 => .inr (h.evs ev h1 h2).2, let ⟨l, hl, _⟩ := h.pays; ⟨l, hl.symm⟩⟩

/-- The guarantee of an operation. -/
def Mo (t : Tid) (S S' : GSt K V) : Prop :=
  Evo S S' ∧ Own1 t S S' ∧ (∀ C : Cfg K, S.Inv C → S'.Inv C → DueOk t S → DueOk t S') ∧
    ((∃ l, S'.pays = S.pays ++ l ∧ ∀ p ∈ l, p.1 ≠ t) ∨ ∃ p, S'.pays = S.pays ++ [p])

theorem Mt.mo (h : Mt t S S') : Mo t S S' := ⟨h.1, h.2.own1, fun C h1 h2 hd => Inert.inert (C := C) (t := t) S S' h1 h2 h.1 h.2 hd, .inl h.2.pays⟩
theorem Mo.refl (t : Tid) (S : GSt K V) : Mo t S S := (Mt.refl t S).mo

/-- Assertions preserved by all threads, including steps with which the thread's own operations take effect. -/
class Firm (C : Cfg K) (t : Tid) (P : GSt K V → Prop) : Prop where
  firm : ∀ S S', S.Inv C → S'.Inv C → Evo S S' → Own1 t S S' → P S → P S'

theorem Firm.toInert {P : GSt K V → Prop} [hP : Firm C t P] : Inert C t P :=
  ⟨fun S S' h1 h2 h3 h4 h5 => hP.firm S S' h1 h2 h3 h4.own1 h5⟩

theorem Firm.mono {P : GSt K V → Prop} (h : ∀ S S', S.Inv C → S'.Inv C → Evo S S' → P S → P S') : Firm C t P :=
  ⟨fun S S' h1 h2 h3 _ hp => h S S' h1 h2 h3 hp⟩

namespace Firm

instance and {P Q : GSt K V → Prop} [hp : Firm C t P] [hq : Firm C t Q] : Firm C t fun S => P S ∧ Q S :=
  ⟨fun S S' h1 h2 h3 h4 h => ⟨hp.firm S S' h1 h2 h3 h4 h.1, hq.firm S S' h1 h2 h3 h4 h.2⟩⟩

instance or {P Q : GSt K V → Prop} [hp : Firm C t P] [hq : Firm C t Q] : Firm C t fun S => P S ∨ Q S :=
  ⟨fun S S' h1 h2 h3 h4 h => h.imp (hp.firm S S' h1 h2 h3 h4) (hq.firm S S' h1 h2 h3 h4)⟩

instance ex {ι : Sort _} {P : ι → GSt K V → Prop} [hp : ∀ i, Firm C t (P i)] : Firm C t fun S => ∃ i, P i S :=
  ⟨fun S S' h1 h2 h3 h4 ⟨i, h⟩ => ⟨i, (hp i).firm S S' h1 h2 h3 h4 h⟩⟩

instance all {ι : Sort _} {P : ι → GSt K V → Prop} [hp : ∀ i, Firm C t (P i)] : Firm C t fun S => ∀ i, P i S :=
  ⟨fun S S' h1 h2 h3 h4 h i => (hp i).firm S S' h1 h2 h3 h4 (h i)⟩

instance const {φ : Prop} : Firm (V := V) C t fun _ => φ := ⟨fun _ _ _ _ _ _ h => h⟩

instance imp {φ : Prop} {P : GSt K V → Prop} [hp : Firm C t P] : Firm C t fun S => φ → P S :=
  ⟨fun S S' h1 h2 h3 h4 h hφ => hp.firm S S' h1 h2 h3 h4 (h hφ)⟩

end Firm

instance firmAcc {T : Table} : Firm (V := V) C t (Acc t T) := ⟨fun S S' h1 h2 h3 h4 h =>
  ⟨by rw [h4.pinned]; exact h.1, by have := h3.nTabs; have := h.2.1; omega,
    by rw [handle_mono h3 h.2.1]; exact h.2.2.1, by rw [h4.pr]; exact h.2.2.2⟩⟩

instance firmPinned : Firm (V := V) C t (Pinned (K := K) t) := ⟨fun S S' h1 h2 h3 h4 h => by
  unfold Pinned; rw [h4.pinned]; exact h⟩

instance firmProt {e : Entry K V} : Firm C t fun S => S.Prot t e := ⟨fun S S' h1 h2 h3 h4 h => h4.prot e h⟩

instance firmSeen {k : K} {x : Option (Entry K V)} : Firm C t (SeenIn t k x) := ⟨fun S S' h1 h2 h3 h4 h => by
  unfold SeenIn at *
  rw [h4.invPos]; exact h.mono h3.log⟩

instance firmDone {k : K} {old new : Option (Entry K V)} : Firm C t (DoneEv t k old new) := ⟨fun S S' h1 h2 h3 h4 h => by
  obtain ⟨l, h⟩ := h
  exact ⟨l, by rw [h4.seq]; exact h.trans h3.log⟩⟩

instance firmOpIs {o : OpI K V} : Firm C t (OpIs t o) := ⟨fun S S' h1 h2 h3 h4 h => by
  unfold OpIs
  rw [h4.seq, h3.ops (t, S.seq t) (Nat.le_refl _)]; exact h⟩

instance firmRootAcc {T : Table} : Firm (V := V) C t (RootAcc t T) := ⟨fun S S' h1 h2 h3 h4 h =>
  ⟨Firm.firm (C := C) (t := t) S S' h1 h2 h3 h4 h.1, h3.wasRoot _ h.2.1, by rw [h4.rInv]; exact h.2.2⟩⟩

instance firmLin {T : Nat} : Firm C t (LinTab (K := K) (V := V) t T) := ⟨fun S S' h1 h2 h3 h4 h hlt => by
  rw [h4.invPos]
  by_cases hn : T + 1 < S.nTabs
  · rw [h3.nlog T hn]; exact h hn
  · have := (h3.nlog' T (by omega) hlt).length_le
    have := h1.e.e6 t
    omega⟩

instance firmMd {T i : Nat} : Firm (V := V) C t fun S => S.md T i ≠ EMPTY :=
  Firm.mono fun S S' h1 h2 h3 h => h3.md _ _ h

instance firmNulled {T i : Nat} : Firm (V := V) C t fun S => S.Nulled T i :=
  Firm.mono fun S S' h1 h2 h3 h => h.mono h3

instance firmDead {T i : Nat} : Firm (V := V) C t fun S => S.dead T i k :=
  Firm.mono fun S S' h1 h2 h3 h => dead_mono h1.p h3 h

instance firmDeadTo {T : Table} {n : Nat} : Firm (V := V) C t (DeadTo C T k n) := by unfold DeadTo; infer_instance

instance firmLt {T : Nat} : Firm (V := V) C t fun S => T < S.nTabs :=
  Firm.mono fun S S' h1 h2 h3 h => Nat.lt_of_lt_of_le h h3.nTabs

/-- Framing around a whole operation. -/
theorem Tri.frameO {α : Type} {P : GSt K V → Prop} {Q : α → GSt K V → Prop} {p : Prog K V α} (F : GSt K V → Prop)
    [hF : Firm C t F] (h : Tri C t Ap (Mo t) P p Q) :
    Tri C t Ap (Mo t) (fun S => P S ∧ F S) p (fun x S => Q x S ∧ F S) :=
  Hoare.frame (L := rg K V C) (hst := Inert.stable (hP := Firm.toInert)) h
    fun S S' h1 h2 h3 h4 => hF.firm S S' h1 h2 h3.1 h3.2.1 h4

theorem Tri.mo {α : Type} {P : GSt K V → Prop} {Q : α → GSt K V → Prop} {p : Prog K V α}
    (h : Tri C t Ap (Mt t) P p Q) : Tri C t Ap (Mo t) P p Q := h.guar fun _ _ h => h.mo

/-- Helping, waiting, retiring, … within an operation. -/
theorem Tri.help {α : Type} {P : GSt K V → Prop} {Q : α → GSt K V → Prop} {p : Prog K V α} (F : GSt K V → Prop)
    [hF : Inert C t F] (h : Tri C t Ap (Mt t) P p Q) :
    Tri C t Ap (Mo t) (fun S => P S ∧ F S) p (fun x S => Q x S ∧ F S) := (h.frame F).mo

/-- A panic for one of the reasons `Ap`, in a state that satisfies `F`. -/
abbrev PB (Ap : PanicReason → Prop) (F : GSt K V → Prop) : PanicReason → GSt K V → Prop := fun r S => Ap r ∧ F S

/-- The allowed panics include those of table allocation. -/
class SysP (C : Cfg K) (Ap : PanicReason → Prop) : Prop where
  ok : ∀ r, SysPanic C r → Ap r

/-- Helping, waiting, allocating, … within an operation: if it panics, the operation has not done anything yet. -/
theorem Tri.helpS {α : Type} {Ap : PanicReason → Prop} {P G : GSt K V → Prop} {Q : α → GSt K V → Prop} {p : Prog K V α}
    (F : GSt K V → Prop) [hF : Inert C t F] [hA : SysP C Ap] (hG : ∀ S, F S → G S) (h : Tri C t (SysOnly C) (Mt t) P p Q) :
    Tri C t (PB Ap G) (Mo t) (fun S => P S ∧ F S) p (fun x S => Q x S ∧ F S) :=
  (h.frameP F).mo.panics fun _ _ _ h => ⟨hA.ok _ h.1, hG _ h.2⟩

/-! ## Obligations -/

/-- Nothing left to do. -/
def Idle (t : Tid) (S : GSt K V) : Prop := Pinned t S ∧ NoTok t S ∧ Owes t 0 S

instance : Inert (V := V) C t (Idle (K := K) t) := by unfold Idle; infer_instance

/-- The current operation, specified by `o`, has not taken effect yet. -/
def OpB (t : Tid) (o : OpI K V) (S : GSt K V) : Prop := Idle t S ∧ OpIs t o S ∧ S.FreshOp t

instance {o : OpI K V} : Inert C t (OpB t o) := by unfold OpB; infer_instance

theorem tri_addCount {d d' : Int} {P : GSt K V → Prop} [Stable (rg K V C) t P] (hd : d' = d)
    (hP : ∀ S, S.Inv C → P S → P (S.paySt C t d)) :
    Tri C t Ap (Mo t) (fun S => Owes t d' S ∧ P S) (A.addCount d) (fun _ S => Owes t (d' - d) S ∧ P S) := by
  refine Tri.act (fun _ _ _ => trivial) ?_
  intro S r σ'' h hp he
  have hdue : Due t (d' - d) (S.paySt C t d) := by
    have := hp.1.2
    unfold Due at *
    show net t S.log - netPays t (S.pays ++ [(t, d)]) = _
    rw [netPays_append]
    have h1 : netPays t [(t, d)] = d := by simp [netPays]
    omega
  refine ⟨S.paySt C t d, he.symm, paySt_Inv h, paySt_Evo, fun t' ht => paySt_Own ht, ⟨paySt_Evo, ?_, fun _ _ _ _ =>
    .inl ⟨d' - d, .inl (by omega), hp.1.1, hdue⟩, .inr ⟨_, rfl⟩⟩, ⟨hp.1.1, hdue⟩, hP S h hp.2⟩
  · refine ⟨rfl, rfl, rfl, rfl, rfl, fun e h => h, fun _ _ h _ => .inl h, fun ev h => ?_, List.prefix_append _ _⟩
    have : ev ∈ S.log.drop S.log.length := h
    simp at this

/-! ## Replacing an entry -/

theorem net_snoc (l : List (Ev K V)) (ev : Ev K V) (h : ev.op.1 = t) : net t (l ++ [ev]) = net t l + ev.delta := by
  rw [net_append]; simp [net, h]

theorem info_fresh (h : S.InvE) : S.info S.nIds = none := by
  cases hx : S.info S.nIds with
  | none => rfl
  | some x => have := (h.e0 _ _ hx).2; omega

/-- The log before the replacement of a visible entry: its insertion may still have to be recorded. -/
theorem pre_log {T i : Nat} {e : Entry K V} (h : S.Inv C) (hv : S.vis T i e) (hq : Quiet t S) :
    ∃ l, ({ S with log := S.log ++ l } : GSt K V).InvE ∧ abs (S.log ++ l) e.key = some e ∧
      (∀ k', k' ≠ e.key → abs (S.log ++ l) k' = abs S.log k') ∧
      (∀ e', (∃ ev ∈ S.log ++ l, ev.new = some e') ↔ S.logged e' ∨ e' = e) ∧
      (∀ ev ∈ l, ev.op.1 ≠ t) ∧
      (∀ ev ∈ l, ev.old = none ∧ ∃ e x, ev.new = some e ∧ S.info e.id = some x ∧ x.entry = e ∧ x.op = ev.op ∧
        ¬ S.logged e) := by
  by_cases hm : S.md T i = EMPTY
  · obtain ⟨hnl, x, hx, hh⟩ := h.l.u2 T i e hv.2.2.1 hm hv.1 hv.2.1 hv.2.2.2.1
    have hxe : x.entry = e := by
      obtain ⟨x', g1, g2⟩ := h.p.p3 T i e hv.2.2.1
      rw [hx] at g1; cases g1; exact g2
    have hi := mdSt_event h rfl hv.2.2.1 hm hv.1 hv.2.1 hv.2.2.2.1 hx
    refine ⟨[⟨x.op, e.key, none, some e⟩], hi.e.congr rfl rfl rfl rfl rfl rfl, ?_, ?_, ?_, ?_, ?_⟩
    · rw [abs_snoc, if_pos rfl]
    · intro k' hk; rw [abs_snoc, if_neg hk]
    · intro e'
      constructor
      · rintro ⟨ev, h1, h2⟩
        rcases List.mem_append.1 h1 with h1 | h1
        · exact .inl ⟨ev, h1, h2⟩
        · rw [List.mem_singleton] at h1; subst h1; cases h2; exact .inr rfl
      · rintro (⟨ev, h1, h2⟩ | rfl)
        · exact ⟨ev, List.mem_append_left _ h1, h2⟩
        · exact ⟨_, List.mem_append_right _ (List.mem_singleton.2 rfl), rfl⟩
    · intro ev hev hop
      rw [List.mem_singleton] at hev; subst hev
      exact hnl (hxe ▸ hq _ x hx hop)
    · intro ev hev
      rw [List.mem_singleton] at hev; subst hev
      exact ⟨rfl, e, x, rfl, hx, hxe, rfl, hnl⟩
  · have ha : abs S.log e.key = some e := by rw [abs_vis h.s h.p h.l hv, if_neg hm]
    refine ⟨[], ?_, ?_, ?_, ?_, ?_, ?_⟩
    · simp only [List.append_nil]; exact h.e
    · simpa using ha
    · intro k' _; simp
    · intro e'
      simp only [List.append_nil]
      constructor
      · exact .inl
      · rintro (h1 | rfl)
        · exact h1
        · exact logged_of_abs ha
    · simp
    · simp

theorem repl_step {o : OpI K V} {T : Table} {i : Nat} {e : Entry K V} {new : Option V} {d : Int} (h : S.Inv C)
    (hc : PCtx C t k T S) (hk : S.kslot T.id i e) (hek : e.key = k) (hncp : ¬ S.copying T.id i)
    (hmd : new.isSome → S.md T.id i ≠ EMPTY) (hop : OpIs t o S) (hfr : o.multi = true ∨ S.FreshOp t)
    (hmul : new.isSome → o.multi = false) (heff : ∀ id, o.eff k (some e) (new.map fun v => ⟨id, k, v⟩))
    (hnt : NoTok t S) (hw : Owes t d S) (hd0 : d = 0) :
    ∃ S' : GSt K V, S'.toSt = { S.toSt.setSlot T.id i (replSlot S.nIds k new) with nIds := S.replIds new } ∧
      S'.Inv C ∧ Evo S S' ∧ (∀ t', t' ≠ t → Own t' S S') ∧ Mo t S S' ∧
      DoneEv t k (some e) (new.map fun v => ⟨S.nIds, k, v⟩) S' ∧
      OneTok t e (unlinkOf C (S.slot T.id i) T.id) S' ∧ Owes t (if new.isSome then d else d - 1) S' ∧
      (∀ v, new = some v → S'.Prot t ⟨S.nIds, k, v⟩) ∧ (new = none → S'.Nulled T.id i) ∧
      (∀ ev ∈ S'.log, ev.op.1 = t → ev ∈ S.log ∨ ev = ⟨(t, S.seq t), k, some e, new.map fun v => ⟨S.nIds, k, v⟩⟩) := by
  have hv := at_vis h hc.2 hk hek hncp
  have hlv := vis_live h.s h.p h.l h.m hv
  subst hek
  obtain ⟨l, g1, g2, g3, g4, g5, g6⟩ := pre_log h hv hw.1
  have hop' : S.ops (t, S.seq t) = o := hop
  have hno : ∀ id x, S.info id = some x → x.op ≠ (t, S.seq t) := by
    intro id x hx hxo
    rcases hfr with hm | hf
    · have := (h.e.e5 id x hx).2
      rw [hxo, hop', hm] at this; cases this
    · exact hf.2 id x hx hxo
  have hinv : (S.replSt C t T.id i e.key e new (S.log ++ l)).Inv C := by
    refine replSt_Inv h hc.2 hk rfl hncp hmd (List.prefix_append _ _) g1 g2 g3 g4 ?_ hno ?_ ?_
    · rcases hfr with hm | hf
      · left; rw [hop']; exact hm
      · right
        intro ev hev
        rcases List.mem_append.1 hev with h1 | h1
        · exact hf.1 ev h1
        · intro h2; exact g5 ev h1 (by rw [h2])
    · rw [hop']; exact hmul
    · rw [hop']; exact heff _
  have hevo : Evo S (S.replSt C t T.id i e.key e new (S.log ++ l)) :=
    replSt_Evo h hc.2 hk rfl hncp (List.prefix_append _ _)
  have hlog : (S.replSt C t T.id i e.key e new (S.log ++ l)).log = S.log ++ l ++ [S.replEv t e.key e new] := rfl
  have htk : ∀ id, (S.replSt C t T.id i e.key e new (S.log ++ l)).tok id = if id = e.id then
    .owned t (S.unlinkU C T.id i) (decide (S.rt < S.unlinkU C T.id i)) else S.tok id := fun _ => rfl
  have hsl : (S.replSt C t T.id i e.key e new (S.log ++ l)).slot T.id i = replSlot S.nIds e.key new := by
    rw [replSt, slSt_slot, if_pos ⟨rfl, rfl⟩]
  have hprot : ∀ e', S.Prot t e' → (S.replSt C t T.id i e.key e new (S.log ++ l)).Prot t e' := by
    intro e' hp
    obtain ⟨x, hx, hxe⟩ := hp.2.1
    refine ⟨hp.1, ⟨x, hevo.info _ _ hx, hxe⟩, ?_⟩
    have h3 := hp.2.2
    rw [htk]
    by_cases hid : e'.id = e.id
    · rw [if_pos hid]
      show decide _ = true → S.pr t < _
      intro h4
      have := of_decide_eq_true h4
      have := h.l.d3 t
      omega
    · rw [if_neg hid]; exact h3
  have hinfo : ∀ id x, (S.replSt C t T.id i e.key e new (S.log ++ l)).info id = some x → S.info id = some x ∨
      ∃ v, (new = some v ∧ x.entry = ⟨S.nIds, e.key, v⟩) ∧ x.op = (t, S.seq t) := by
    intro id x hx
    change S.replInfo t e.key new id = some x at hx
    cases new with
    | none => exact .inl hx
    | some v =>
      rcases updInfo_cases hx with hx | ⟨_, rfl⟩
      · exact .inl hx
      · exact .inr ⟨v, ⟨rfl, rfl⟩, rfl⟩
  have howes : Owes t (if new.isSome then d else d - 1) (S.replSt C t T.id i e.key e new (S.log ++ l)) := by
    refine ⟨?_, ?_⟩
    · intro id x hx ho
      rcases hinfo id x hx with hx | ⟨v, ⟨hv1, hv2⟩, _⟩
      · exact logged_mono hevo.log (hw.1 id x hx ho)
      · refine ⟨S.replEv t e.key e new, by rw [hlog]; simp, ?_⟩
        rw [hv1, hv2]; rfl
    · unfold Due
      have hd := hw.2
      unfold Due at hd
      rw [hlog, net_snoc (t := t) _ (S.replEv t e.key e new) rfl, net_append, net_other (l := l) g5]
      show _ - netPays t S.pays = _
      cases new with
      | none =>
        have : (S.replEv t e.key e none).delta = -1 := rfl
        rw [this]; simp; omega
      | some v =>
        have : (S.replEv t e.key e (some v)).delta = 0 := rfl
        rw [this]; simp; omega
  have hdok : DueOk t (S.replSt C t T.id i e.key e new (S.log ++ l)) :=
    .inl ⟨_, by
      subst hd0
      cases new with
      | none => exact .inr ⟨_, by rw [hlog]; exact List.mem_append_right _ (List.mem_singleton.2 rfl), rfl, rfl⟩
      | some v => exact .inl rfl, howes⟩
  refine ⟨S.replSt C t T.id i e.key e new (S.log ++ l), rfl, hinv, hevo, ?_,
    ⟨hevo, ⟨rfl, rfl, rfl, rfl, rfl, hprot, ?_, ?_, List.prefix_refl _⟩, fun _ _ _ _ => hdok, .inl ⟨[], (List.append_nil _).symm, by simp⟩⟩, ?_, ?_, howes, ?_, ?_, ?_⟩
  · intro t' ht
    refine replSt_Own ht h hlv (List.prefix_append _ _) ?_
    intro ev hev _
    rw [List.drop_left] at hev
    exact g6 ev hev
  · intro id x hx _
    rcases hinfo id x hx with hx | ⟨v, _, ho⟩
    · exact .inl hx
    · exact .inr ho
  · intro ev hev ho
    rw [hlog, List.append_assoc, List.drop_left] at hev
    rcases List.mem_append.1 hev with h1 | h1
    · exact absurd ho (g5 ev h1)
    · rw [List.mem_singleton] at h1; subst h1; exact .inl rfl
  · exact ⟨S.log ++ l, by rw [hlog]; exact List.prefix_refl _⟩
  · refine ⟨⟨_, by rw [htk, if_pos rfl]; rfl⟩, fun id U b hb => ?_⟩
    rw [htk] at hb
    split at hb
    · assumption
    · exact absurd hb (hnt id U b)
  · rintro v rfl
    refine ⟨hc.1.1, ?_, ?_⟩
    · refine ⟨⟨⟨S.nIds, e.key, v⟩, (t, S.seq t), none⟩, ?_, rfl⟩
      show S.updInfo _ S.nIds = _
      unfold updInfo; rw [if_pos rfl]
    · rw [htk, if_neg]
      · rw [h.m.m9 _ (info_fresh h.e)]; trivial
      · obtain ⟨x, hx, _⟩ := h.p.p3 _ _ _ hk
        have := (h.e.e0 _ _ hx).2
        show S.nIds ≠ e.id
        omega
  · rintro rfl
    refine ⟨by rw [hsl]; simp [replSlot, Slot.tombstone, Slot.null], by rw [hsl]; rfl⟩
  · intro ev hev ho
    rw [hlog, List.append_assoc] at hev
    rcases List.mem_append.1 hev with h1 | h1
    · exact .inl h1
    · rcases List.mem_append.1 h1 with h1 | h1
      · exact absurd ho (g5 ev h1)
      · rw [List.mem_singleton] at h1; exact .inr h1

end Papaya
