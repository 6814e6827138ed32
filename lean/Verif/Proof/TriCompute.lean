import Verif.Proof.TriRemove
import Verif.Spec.Map

/-! # Triples of `compute` -/

set_option linter.unusedSectionVars false
set_option linter.unusedVariables false

namespace Papaya

variable {K V : Type} [DecidableEq K]

open GSt

variable {C : Cfg K} {t : Tid} {Ap : PanicReason → Prop} {S S' : GSt K V} {k : K} {R : Type}

/-- How a closure may be used by `compute`: `J s ins` holds in closure state `s` when the value `ins` is cached. -/
structure Proto (Ap : PanicReason → Prop) (f : Closure (Option (K × V)) (Operation V R)) where
  J : f.Tr → Option V → Prop
  init : J f.start none
  none_ok : ∀ s s' v, f.Run s → J s none → f.call s.st none = .ok (s', .insert v) → J ⟨s', s.calls ++ [(none, .insert v)]⟩ (some v)
  none_err : ∀ s r, f.Run s → J s none → f.call s.st none = .error r → Ap r
  some_ok : ∀ s s' x op ins, f.Run s → J s ins → f.call s.st (some x) = .ok (s', op) → J ⟨s', s.calls ++ [(some x, op)]⟩ ins
  some_err : ∀ s x r ins, f.Run s → J s ins → f.call s.st (some x) = .error r → Ap r
  removeNone : ∀ s, f.Run s → OnceNone s.calls → (none, .remove) ∈ s.calls → Ap .removeNone

variable {f : Closure (Option (K × V)) (Operation V R)}

/-- The state of a `compute` operation. -/
def CI (t : Tid) (J : f.Tr → Option V → Prop) (c : CState K V R f) (S : GSt K V) : Prop :=
  (f.Run c.st ∧ OnceNone c.st.calls ∧ (c.insert = none → ∀ v, (none, .insert v) ∉ c.st.calls)) ∧
    J c.st c.insert ∧ (∀ v, c.insert = some v → (none, .insert v) ∈ c.st.calls) ∧
    ∀ id op, c.update = some (id, op) → ∃ e : Entry K V, (∃ x, S.info id = some x ∧ x.entry = e) ∧
      (some (e.key, e.val), op) ∈ c.st.calls ∧ e.id = id ∧ S.Prot t e

instance firmInfo {id : Nat} {x : EInfo K V} : Firm C t fun S : GSt K V => S.info id = some x :=
  Firm.mono fun S S' h1 h2 h3 h => h3.info _ _ h

instance firmCI {J : f.Tr → Option V → Prop} {c : CState K V R f} : Firm C t (CI t J c) := by unfold CI; infer_instance
instance inertCI {J : f.Tr → Option V → Prop} {c : CState K V R f} : Inert C t (CI t J c) := Firm.toInert

theorem seen_info (h : S.Inv C) {e : Entry K V} (hs : SeenIn t k (some e) S) : ∃ x, S.info e.id = some x ∧ x.entry = e := by
  obtain ⟨l, h1, _, h3⟩ := hs
  obtain ⟨ev, h4, h5⟩ := logged_of_abs (S := { S with log := l }) h3
  obtain ⟨a, b, hab⟩ := List.append_of_mem (show ev ∈ l from h4)
  obtain ⟨x, g1, g2, _⟩ := (h.e.e1 a ev (List.IsPrefix.trans ⟨b, by rw [hab]; simp⟩ h1)).new e h5
  exact ⟨x, g1, g2⟩

theorem OnceNone.snoc {calls : List (Option (K × V) × Operation V R)} (h : OnceNone calls) {x : Option (K × V) × Operation V R}
    (hx : x.1 = none → ∀ v, (none, .insert v) ∉ calls) : OnceNone (calls ++ [x]) := by
  unfold OnceNone
  rw [List.pairwise_append]
  refine ⟨h, List.pairwise_singleton _ _, fun a ha b hb v hv hn => ?_⟩
  rw [List.mem_singleton] at hb
  subst hb
  exact hx hn v (hv ▸ ha)

/-- The calls made when `compute` returns. -/
def CallsOk (s : f.Tr) : Prop := f.Run s ∧ OnceNone s.calls

theorem tri_nextNone (Pr : Proto Ap f) {c : CState K V R f} {P F : GSt K V → Prop} {Gd : GSt K V → GSt K V → Prop}
    (hF : ∀ S, P S → F S) :
    Tri C t (PB Ap F) Gd (fun S => CI t Pr.J c S ∧ P S) (c.next none)
      (fun r S => ((CallsOk r.1.st ∧ (none, r.2) ∈ r.1.st.calls) ∧
        ∀ v, r.2 = .insert v → CI t Pr.J { r.1 with insert := some v } S) ∧ P S) := by
  unfold CState.next
  simp only
  cases hc : c.insert with
  | some v =>
    refine Tri.ret fun S _ h => ⟨⟨⟨⟨h.1.1.1, h.1.1.2.1⟩, h.1.2.2.1 v hc⟩, ?_⟩, h.2⟩
    rintro _ ⟨⟩
    have := h.1
    obtain ⟨st, ins, upd⟩ := c
    simp only at hc ⊢
    subst hc
    exact this
  | none =>
    refine Tri.extract (φ := (f.Run c.st ∧ OnceNone c.st.calls ∧ ∀ v, (none, .insert v) ∉ c.st.calls) ∧ Pr.J c.st none)
      (fun S _ h => ⟨⟨h.1.1.1, h.1.1.2.1, h.1.1.2.2 hc⟩, hc ▸ h.1.2.1⟩) ?_
    rintro ⟨⟨h1, h3, h4⟩, h2⟩
    refine Tri.bind _ (tri_invoke h1 (fun r => Pr.none_err _ r h1 h2) fun S h => hF S h.2) ?_
    rintro ⟨st, op⟩
    refine Tri.ret fun S _ h => ?_
    obtain ⟨⟨g1, g2, g3⟩, g4, g5⟩ := h
    simp only at g1 g2 g3
    have hon : OnceNone st.calls := by rw [g2]; exact h3.snoc fun _ => h4
    refine ⟨⟨⟨⟨g1, hon⟩, by rw [g2]; simp⟩, ?_⟩, g5⟩
    rintro v ⟨⟩
    have hst : st = ⟨st.st, c.st.calls ++ [(none, .insert v)]⟩ := by rw [← g2]
    refine ⟨⟨g1, hon, by rintro ⟨⟩⟩, ?_, ?_, ?_⟩
    · have := Pr.none_ok _ _ _ h1 h2 g3
      rw [← hst] at this
      exact this
    · rintro _ ⟨⟩
      show _ ∈ st.calls
      rw [g2]; simp
    · intro id op hu
      obtain ⟨e, q1, q2, q3⟩ := g4.2.2.2 id op hu
      refine ⟨e, q1, ?_, q3⟩
      show _ ∈ st.calls
      rw [g2]; exact List.mem_append_left _ q2

theorem tri_nextSome (Pr : Proto Ap f) {c : CState K V R f} {e : Entry K V} {P F : GSt K V → Prop}
    {Gd : GSt K V → GSt K V → Prop} [Stable (rg K V C) t P] (hg : ∀ S, Gd S S)
    (hP : ∀ S, S.Inv C → P S → (∃ x, S.info e.id = some x ∧ x.entry = e) ∧ S.Prot t e)
    (hF : ∀ S, P S → F S) :
    Tri C t (PB Ap F) Gd (fun S => CI t Pr.J c S ∧ P S) (c.next (some e))
      (fun r S => ((some (e.key, e.val), r.2) ∈ r.1.st.calls ∧ CI t Pr.J r.1 S) ∧ P S) := by
  unfold CState.next
  simp only
  have hcall : ∀ u, (u = none ∨ u = c.update) → Tri C t (PB Ap F) Gd (fun S => CI t Pr.J c S ∧ P S)
      (do A.deref e
          let (st, op) ← f.invoke c.st (some (e.key, e.val))
          return ({ c with st := st, update := u }, op) : Prog K V (CState K V R f × Operation V R))
      (fun r S => ((some (e.key, e.val), r.2) ∈ r.1.st.calls ∧ CI t Pr.J r.1 S) ∧ P S) := by
    intro u hu
    refine Tri.extract (φ := f.Run c.st ∧ Pr.J c.st c.insert) (fun S _ h => ⟨h.1.1.1, h.1.2.1⟩) ?_
    rintro ⟨h1, h2⟩
    refine Tri.bind _ (tri_deref hg (fun S h hp => (hP S h hp.2).2)) ?_
    intro _
    refine Tri.bind _ (tri_invoke h1 (fun r => Pr.some_err _ _ r _ h1 h2) fun S h => hF S h.2) ?_
    rintro ⟨st, op⟩
    refine Tri.ret fun S _ h => ?_
    obtain ⟨⟨g1, g2, g3⟩, g4, g5⟩ := h
    simp only at g1 g2 g3
    have hst : st = ⟨st.st, c.st.calls ++ [(some (e.key, e.val), op)]⟩ := by rw [← g2]
    refine ⟨⟨by show _ ∈ st.calls; rw [g2]; simp, ⟨g1, ?_, ?_⟩, ?_, ?_, ?_⟩, g5⟩
    · show OnceNone st.calls
      rw [g2]; exact g4.1.2.1.snoc (by rintro ⟨⟩)
    · intro hn v
      show _ ∉ st.calls
      rw [g2]
      simp only [List.mem_append, List.mem_singleton, not_or]
      exact ⟨g4.1.2.2 hn v, by rintro ⟨⟩⟩
    · have := Pr.some_ok _ _ _ _ _ h1 h2 g3
      rw [← hst] at this
      exact this
    · intro v hv
      show _ ∈ st.calls
      rw [g2]; exact List.mem_append_left _ (g4.2.2.1 v hv)
    · rcases hu with rfl | rfl
      · rintro _ _ ⟨⟩
      · intro id op hu
        obtain ⟨e, q1, q2, q3⟩ := g4.2.2.2 id op hu
        refine ⟨e, q1, ?_, q3⟩
        show _ ∈ st.calls
        rw [g2]; exact List.mem_append_left _ q2
  cases hc : c.update with
  | none =>
    have := hcall c.update (.inr rfl)
    rw [hc] at this
    obtain ⟨st, ins, upd⟩ := c
    simp only at hc
    subst hc
    exact this
  | some x =>
    obtain ⟨id, op⟩ := x
    refine tri_sameEntry hg (fun S h hp => ⟨?_, Prot.entOk h (hP S h hp.2).2⟩)
      (fun hid => Tri.ret fun S h hp => ⟨⟨?_, hp.1.1, hp.1.2.1, hp.1.2.2.1, by rintro _ _ ⟨⟩⟩, hp.2⟩) (fun hid => ?_)
    · obtain ⟨e', _, _, g1, g2⟩ := hp.1.2.2.2 id op hc
      rw [← g1]; exact Prot.entOk h g2
    · obtain ⟨e', ⟨x, g1, g2⟩, g3, _⟩ := hp.1.2.2.2 id op hc
      obtain ⟨x', q1, q2⟩ := (hP S h hp.2).1
      rw [hid, q1] at g1
      cases g1
      rw [← q2, g2]; exact g3
    · exact hcall none (.inl rfl)

/-- Result of `compute`. -/
def ComRes (t : Tid) (k : K) (o : OpI K V) (calls : List (Option (K × V) × Operation V R)) (r : Compute K V R)
    (S : GSt K V) : Prop :=
  match r with
  | .inserted e => Idle t S ∧ DoneEv t k none (some e) S ∧ S.Prot t e ∧ e.key = k ∧ (none, .insert e.val) ∈ calls
  | .updated old new => Repl t k new.val old new S ∧ (some (old.key, old.val), .insert new.val) ∈ calls
  | .removed e => Remd t k e S ∧ (some (e.key, e.val), .remove) ∈ calls
  | .aborted a none => OpB t o S ∧ SeenIn t k none S ∧ (none, .abort a) ∈ calls
  | .aborted a (some e) => OpB t o S ∧ SeenIn t k (some e) S ∧ S.Prot t e ∧ e.key = k ∧
      (some (e.key, e.val), .abort a) ∈ calls

def ComFin (t : Tid) (k : K) (f : Closure (Option (K × V)) (Operation V R)) (o : OpI K V)
    (r : Called (Option (K × V)) (Operation V R) (Compute K V R)) (S : GSt K V) : Prop :=
  (f.Made r.calls ∧ OnceNone r.calls) ∧ ComRes t k o r.calls r.out S

/-- How the probe loop of `compute` ends. -/
def ComOut (C : Cfg K) (t : Tid) (k : K) (J : f.Tr → Option V → Prop) (o : OpI K V) (T : Table)
    (r : CState K V R f × WOut (Compute K V R)) (S : GSt K V) : Prop :=
  match r.2 with
  | .done r' => CallsOk r.1.st ∧ ComRes t k o r.1.st.calls r' S
  | .retry copying => CI t J r.1 S ∧ OpB t o S ∧ (PCtx C t k T S ∧ RetryOk C k T copying S)

/-- Continuing to probe. -/
def ComI (C : Cfg K) (t : Tid) (k : K) (J : f.Tr → Option V → Prop) (o : OpI K V) (T : Table)
    (r : CState K V R f × Probe) (S : GSt K V) : Prop :=
  ∃ n, r.2 = Probe.after (C.h1 k) T.mask n ∧ CI t J r.1 S ∧ WCtx C t k o T n S

theorem tri_computeFailure (Pr : Proto Ap f) {o : OpI K V} {T : Table} {n : Nat} {c : CState K V R f} {st : EStat K V}
    (hi : (Probe.after (C.h1 k) T.mask n).i < T.len) {Gd : GSt K V → GSt K V → Prop} :
    Tri C t (PB Ap (OpB t o)) Gd (fun S => CI t Pr.J c S ∧ WCtx C t k o T n S ∧ WStat C t k T.id (Probe.after (C.h1 k) T.mask n).i st S)
      (computeFailure T (Probe.after (C.h1 k) T.mask n) c st)
      (Sum.elim (fun x S => CI t Pr.J x.1 S ∧ WCtx C t k o T n S ∧ x.2.2.ptr = some x.2.1 ∧ x.2.2.copying = false ∧
          WK C t k T.id (Probe.after (C.h1 k) T.mask n).i x.2.2 S)
        (Sum.elim (ComI C t k Pr.J o T) (ComOut C t k Pr.J o T))) := by
  unfold computeFailure
  cases st with
  | copied e s =>
    refine Tri.ret fun S _ h => ?_
    obtain ⟨h0, h1, h2, h3, h4⟩ := h
    exact ⟨h0, h1.1.1, h1.1.2, hi, h4.1.1, e, (h4.2.2 e h2).1, (h4.2.2 e h2).2.2.1 h3⟩
  | null =>
    simp only
    refine Tri.bind _ (tri_nextNone Pr (F := OpB t o) fun S h => h.1.1.1) ?_
    rintro ⟨c', op⟩
    cases op with
    | insert v =>
      refine Tri.ret fun S _ h => ⟨n + 1, rfl, h.1.2 v rfl, h.2.1.1, h.2.1.2.succ h.2.2.1⟩
    | remove => exact Tri.panic fun S _ h => ⟨Pr.removeNone _ h.1.1.1.1 h.1.1.1.2 h.1.1.2, h.2.1.1.1⟩
    | abort a => exact Tri.ret fun S _ h => ⟨h.1.1.1, h.2.1.1.1, h.2.2.2, h.1.1.2⟩
  | value e s => exact Tri.ret fun S _ h => h

/-- `f` answers `o` to `i` in a sequence of calls that `compute` may make. -/
def SaysO (f : Closure (Option (K × V)) (Operation V R)) (i : Option (K × V)) (o : Operation V R) : Prop :=
  ∃ calls, f.Made calls ∧ OnceNone calls ∧ (i, o) ∈ calls

theorem SaysO.says {i : Option (K × V)} {o : Operation V R} (h : SaysO f i o) : f.Says i o := by
  obtain ⟨calls, h1, _, h3⟩ := h
  exact ⟨calls, h1, h3⟩

theorem CallsOk.says {s : f.Tr} (h : CallsOk s) {i : Option (K × V)} {o : Operation V R} (hm : (i, o) ∈ s.calls) :
    SaysO f i o := ⟨_, h.1.made, h.2, hm⟩

/-- What a `compute` operation may do. -/
structure ComEff (k : K) (f : Closure (Option (K × V)) (Operation V R)) (o : OpI K V) : Prop where
  multi : o.multi = false
  ins : ∀ v id, SaysO f none (.insert v) → o.eff k none (some ⟨id, k, v⟩)
  upd : ∀ v id (e : Entry K V), e.key = k → SaysO f (some (e.key, e.val)) (.insert v) → o.eff k (some e) (some ⟨id, k, v⟩)
  rem : ∀ e : Entry K V, e.key = k → SaysO f (some (e.key, e.val)) .remove → o.eff k (some e) none

theorem ComEff.says {o : OpI K V} (h1 : o.multi = false)
    (h2 : ∀ v id, f.Says none (.insert v) → o.eff k none (some ⟨id, k, v⟩))
    (h3 : ∀ v id (e : Entry K V), e.key = k → f.Says (some (e.key, e.val)) (.insert v) → o.eff k (some e) (some ⟨id, k, v⟩))
    (h4 : ∀ e : Entry K V, e.key = k → f.Says (some (e.key, e.val)) .remove → o.eff k (some e) none) : ComEff k f o :=
  ⟨h1, fun v id h => h2 v id h.says, fun v id e he h => h3 v id e he h.says, fun e he h => h4 e he h.says⟩

theorem tri_computeLoop (Pr : Proto Ap f) {o : OpI K V} {T : Table} {n : Nat} {c : CState K V R f} {e : Entry K V} {s : Slot K V}
    (hi : (Probe.after (C.h1 k) T.mask n).i < T.len) (he : ComEff k f o) :
    Tri C t (PB Ap (OpB t o)) (Mo t) (fun S => CI t Pr.J c S ∧ WCtx C t k o T n S ∧ s.ptr = some e ∧ s.copying = false ∧
          WK C t k T.id (Probe.after (C.h1 k) T.mask n).i s S)
      (computeLoop C k T (Probe.after (C.h1 k) T.mask n) c e s)
      (Sum.elim (ComI C t k Pr.J o T) (ComOut C t k Pr.J o T)) := by
  unfold computeLoop
  refine Tri.loop (s := (c, e, s)) (fun (x : CState K V R f × Entry K V × Slot K V) S => CI t Pr.J x.1 S ∧
    WCtx C t k o T n S ∧ x.2.2.ptr = some x.2.1 ∧ x.2.2.copying = false ∧
          WK C t k T.id (Probe.after (C.h1 k) T.mask n).i x.2.2 S) ?_
  rintro ⟨c, e, s⟩
  refine Tri.extract (φ := s.ptr = some e ∧ s.copying = false ∧ e.key = k)
    (fun S _ h => ⟨h.2.2.1, h.2.2.2.1, (h.2.2.2.2.2.2 e h.2.2.1).1⟩) ?_
  rintro ⟨hs, hcp, hek⟩
  refine Tri.pre (P := fun S => CI t Pr.J c S ∧ (WCtx C t k o T n S ∧ WK C t k T.id (Probe.after (C.h1 k) T.mask n).i s S)) ?_
    (fun S _ h => ⟨h.1, h.2.1, h.2.2.2.2⟩)
  have hinfo : ∀ S : GSt K V, S.Inv C → (WCtx C t k o T n S ∧ WK C t k T.id (Probe.after (C.h1 k) T.mask n).i s S) →
      (∃ x, S.info e.id = some x ∧ x.entry = e) ∧ S.Prot t e :=
    fun S h hp => ⟨seen_info h ((hp.2.2.2 e hs).2.2.2 hcp), (hp.2.2.2 e hs).2.1⟩
  refine Tri.bind _ (tri_nextSome Pr (F := OpB t o) (fun S => Mo.refl t S) hinfo fun S h => h.1.1.1) ?_
  rintro ⟨c', op⟩
  refine Tri.extract (φ := CallsOk c'.st ∧ (some (e.key, e.val), op) ∈ c'.st.calls)
    (fun S _ h => ⟨⟨h.1.2.1.1, h.1.2.1.2.1⟩, h.1.1⟩) ?_
  rintro ⟨hcok, hmem⟩
  have hsay := hcok.says hmem
  have hrest : ∀ S : GSt K V, S.Inv C → CI t Pr.J c' S → ((∃ x, S.info e.id = some x ∧ x.entry = e) ∧ S.Prot t e) →
      CI t Pr.J { c' with update := some (e.id, op) } S := by
    intro S h h1 h2
    refine ⟨h1.1, h1.2.1, h1.2.2.1, ?_⟩
    rintro _ _ ⟨⟩
    exact ⟨e, h2.1, hmem, rfl, h2.2⟩
  cases op with
  | abort a =>
    exact Tri.ret fun S _ h => ⟨hcok, h.2.1.1.1, (h.2.2.2.2 e hs).2.2.2 hcp, (h.2.2.2.2 e hs).2.1, hek, hmem⟩
  | insert v =>
    refine Tri.bind _ (Tri.pre ((tri_updateAtNew' (T := T) (e := e) (cur := s) hi he.multi (fun id h => he.upd v id e h hsay)).frameO
      (fun S => (CI t Pr.J c' S ∧ DeadTo C T k n S) ∧ (∃ x, S.info e.id = some x ∧ x.entry = e) ∧ S.Prot t e))
      fun S h hp => ⟨⟨hp.2.1.1, hs, hcp, hp.2.2⟩, ⟨hp.1.2, hp.2.1.2⟩, hinfo S h hp.2⟩) ?_
    rintro ((_ | new) | st)
    · exact Tri.false fun S _ ⟨⟨_, h, _⟩, _⟩ => by cases h
    · refine Tri.ret fun S _ h => ?_
      obtain ⟨⟨new', h1, h2⟩, _⟩ := h
      cases h1
      have hv : new.val = v := h2.2.2.2.2.2.2
      subst hv
      exact ⟨hcok, h2, hmem⟩
    · exact (tri_computeFailure Pr hi).pre fun S h hp =>
        ⟨hrest S h hp.2.1.1 hp.2.2, ⟨hp.1.1, hp.2.1.2⟩, hp.1.2⟩
  | remove =>
    refine Tri.bind _ (Tri.pre ((tri_updateAtTomb hi hs hcp (he.rem e hek hsay)).frameO
      (fun S => (CI t Pr.J c' S ∧ DeadTo C T k n S) ∧ (∃ x, S.info e.id = some x ∧ x.entry = e) ∧ S.Prot t e))
      fun S h hp => ⟨⟨hp.2.1.1, hp.2.2⟩, ⟨hp.1.2, hp.2.1.2⟩, hinfo S h hp.2⟩) ?_
    rintro (r | st)
    · exact (tri_removed hi (Tri.ret fun S _ h => ⟨hcok, ⟨h.1, h.2.1, h.2.2, hek⟩, hmem⟩)).pre fun S _ h => h.1
    · exact (tri_computeFailure Pr hi).pre fun S h hp =>
        ⟨hrest S h hp.2.1.1 hp.2.2, ⟨hp.1.1, hp.2.1.2⟩, hp.1.2⟩

theorem tri_computeFound (Pr : Proto Ap f) {o : OpI K V} {T : Table} {n : Nat} {c : CState K V R f} {e : Entry K V} {s : Slot K V}
    (hi : (Probe.after (C.h1 k) T.mask n).i < T.len) (he : ComEff k f o) :
    Tri C t (PB Ap (OpB t o)) (Mo t) (fun S => CI t Pr.J c S ∧ WCtx C t k o T n S ∧ s.ptr = some e ∧
          WR C t k T.id (Probe.after (C.h1 k) T.mask n).i s S)
      (computeFound C k T (Probe.after (C.h1 k) T.mask n) c e s)
      (Sum.elim (ComI C t k Pr.J o T) (ComOut C t k Pr.J o T)) := by
  have hg := fun S : GSt K V => Mo.refl t S
  unfold computeFound
  refine Tri.extract (φ := s.ptr = some e) (fun S _ h => h.2.2.1) fun hs => ?_
  refine Tri.pre (P := fun S => CI t Pr.J c S ∧ WCtx C t k o T n S ∧ WR C t k T.id (Probe.after (C.h1 k) T.mask n).i s S) ?_
    (fun S _ h => ⟨h.1, h.2.1, h.2.2.2⟩)
  refine Tri.bind _ (tri_deref hg (fun S _ h => (h.2.2.2 e hs).1)) ?_
  intro _
  refine Tri.ite (fun hk => Tri.ret fun S _ h => ⟨n + 1, rfl, h.1, h.2.1.1, h.2.1.2.succ ((h.2.2.2 e hs).2.1 hk)⟩) (fun hk => ?_)
  have hek : e.key = k := by simpa using hk
  refine Tri.pre (P := fun S => CI t Pr.J c S ∧ WCtx C t k o T n S ∧ WK C t k T.id (Probe.after (C.h1 k) T.mask n).i s S) ?_
    (fun S _ h => ⟨h.1, h.2.1, (h.2.2.2 e hs).2.2 hek⟩)
  refine Tri.ite (fun hcp => Tri.ret fun S _ h => ?_) (fun hcp => ?_)
  · exact ⟨h.1, h.2.1.1.1, h.2.1.1.2, hi, h.2.2.1.1, e, hek, (h.2.2.2.2 e hs).2.2.1 hcp⟩
  · exact (tri_computeLoop Pr hi he).pre fun S _ h => ⟨h.1, h.2.1, hs, by simpa using hcp, h.2.2⟩

/-- Counting a new entry. -/
theorem tri_inserted {Ap : PanicReason → GSt K V → Prop} {v : V} {e : Entry K V} {α : Type} {p : Prog K V α} {Q : α → GSt K V → Prop}
    (hp : Tri C t Ap (Mo t) (fun S => Idle t S ∧ DoneEv t k none (some e) S ∧ S.Prot t e ∧ e.key = k ∧ e.val = v) p Q) :
    Tri C t Ap (Mo t) (Ins t k v e) (do A.addCount 1; p) Q := by
  refine Tri.bind (fun _ S => Owes t (1 - 1) S ∧ (Pinned t S ∧ NoTok t S ∧ DoneEv t k none (some e) S ∧ S.Prot t e ∧
        e.key = k ∧ e.val = v)) (Tri.pre (tri_addCount (d := 1) (d' := 1) rfl (fun S _ h => h)) ?_) ?_
  · rintro S _ ⟨h1, h2, h3, h4⟩
    exact ⟨h3, h1, h2, h4⟩
  · intro _
    exact hp.pre fun S _ h => ⟨⟨h.2.1, h.2.2.1, h.1⟩, h.2.2.2⟩

theorem tri_computeProbe (Pr : Proto Ap f) {o : OpI K V} {T : Table} {c : CState K V R f} (he : ComEff k f o) :
    Tri C t (PB Ap (OpB t o)) (Mo t) (fun S => CI t Pr.J c S ∧ OpB t o S ∧ PCtx C t k T S) (computeProbe C k T c)
      (ComOut C t k Pr.J o T) := by
  have hg := fun S : GSt K V => Mo.refl t S
  unfold computeProbe
  refine (Tri.loop (ComI C t k Pr.J o T) ?_).pre
    (fun S _ h => ⟨0, rfl, h.1, h.2, DeadTo.zero⟩)
  rintro ⟨c, probe⟩
  refine Tri.ex fun n => ?_
  refine Tri.extract (φ := probe = Probe.after (C.h1 k) T.mask n) (fun S _ h => h.1) ?_
  rintro rfl
  refine Tri.pre (P := fun S => CI t Pr.J c S ∧ WCtx C t k o T n S) ?_ (fun S _ h => h.2)
  simp only
  rw [after_len]
  refine Tri.extract (φ := (Probe.after (C.h1 k) T.mask n).i < T.len)
    (fun S h hp => hp.2.1.2.1.after_len h k n) fun hidx => ?_
  refine Tri.ite (fun hn => ?_) (fun hn => Tri.ret fun S _ h => ⟨h.1, h.2.1.1, h.2.1.2, h.2.2.over h.2.1.2.1 (by omega)⟩)
  refine Tri.bind (fun m S => CI t Pr.J c S ∧ WCtx C t k o T n S ∧ (m = EMPTY → SeenIn t k none S) ∧
    (m ≠ EMPTY → S.md T.id (Probe.after (C.h1 k) T.mask n).i ≠ EMPTY) ∧
    (m ≠ EMPTY → m ≠ C.h2 k → S.dead T.id (Probe.after (C.h1 k) T.mask n).i k)) ?_ ?_
  · refine tri_loadMd hg (fun S _ h => h.2.1.2.1) hidx _ ?_
    intro S h hp
    refine ⟨hp.1, hp.2, fun hm => ?_, fun hm => hm, fun h1 h2 => md_dead h h2 h1⟩
    refine absent_empty h hp.2.1.2.2 (n := n) (by rw [← hp.2.1.2.1.limit]; exact hn) (hp.2.2.pos hp.2.1.2.1) ?_
    rw [← hp.2.1.2.1.after]; exact hm
  intro m
  refine Tri.ite (fun hm => ?_) (fun hm => ?_)
  · refine Tri.bind _ (Tri.pre (tri_nextNone Pr (F := OpB t o) (P := fun S => WCtx C t k o T n S ∧ SeenIn t k none S) fun S h => h.1.1.1)
      fun S _ h => ⟨h.1, h.2.1, h.2.2.1 hm⟩) ?_
    rintro ⟨c', op⟩
    refine Tri.extract (φ := CallsOk c'.st ∧ (none, op) ∈ c'.st.calls) (fun S _ h => h.1.1) ?_
    rintro ⟨hcok, hmem⟩
    have hsay := hcok.says hmem
    cases op with
    | remove => exact Tri.panic fun _ _ h => ⟨Pr.removeNone _ hcok.1 hcok.2 hmem, h.2.1.1.1⟩
    | abort a => exact Tri.ret fun S _ h => ⟨hcok, h.2.1.1.1, h.2.2, hmem⟩
    | insert v =>
      simp only
      refine Tri.bind _ (Tri.pre ((tri_insertAt hidx hn he.multi (fun id => he.ins v id hsay)).frameO
        (CI t Pr.J { c' with insert := some v })) fun S _ h => ⟨h.2.1, h.1.2 v rfl⟩) ?_
      rintro (e | (_ | ⟨e, s⟩ | ⟨e, s⟩))
      · refine Tri.pre (P := Ins t k v e) ?_ (fun S _ h => h.1)
        refine tri_inserted (Tri.ret fun S _ h => ?_)
        obtain ⟨h1, h2, h3, h4, rfl⟩ := h
        exact ⟨hcok, h1, h2, h3, h4, hmem⟩
      · exact Tri.ret fun S _ h => ⟨n + 1, rfl, h.2, h.1.1.1, h.1.1.2.succ h.1.2⟩
      · exact Tri.false fun S _ h => h.1
      · refine Tri.bind (fun c'' S => (c'' = { c' with insert := some v }) ∧ CI t Pr.J c'' S ∧ WCtx C t k o T n S ∧ s.ptr = some e ∧
          WR C t k T.id (Probe.after (C.h1 k) T.mask n).i s S) (Tri.ret fun S _ h => ⟨rfl, h.2, h.1⟩) ?_
        exact fun c'' => (tri_computeFound Pr hidx he).pre fun S _ h => h.2
  · refine Tri.ite (fun hm2 => ?_) (fun hm2 => Tri.ret fun S _ h => ⟨n + 1, rfl, h.1, h.2.1.1, h.2.1.2.succ (h.2.2.2.2 hm hm2)⟩)
    refine Tri.bind (fun s S => CI t Pr.J c S ∧ WCtx C t k o T n S ∧ WR C t k T.id (Probe.after (C.h1 k) T.mask n).i s S) ?_ ?_
    · refine Tri.pre (P := fun S => CI t Pr.J c S ∧ WCtx C t k o T n S ∧ S.md T.id (Probe.after (C.h1 k) T.mask n).i ≠ EMPTY) ?_
        (fun S _ h => ⟨h.1, h.2.1, h.2.2.2.1 hm⟩)
      refine tri_loadSlot hg (fun S _ h => h.2.1.1.2.1) hidx _ ?_
      intro S h hp
      exact ⟨hp.1, hp.2.1, wr_slot h hp.2.1.1.2 hp.2.2⟩
    intro s
    cases hs : s.ptr with
    | none => exact Tri.ret fun S _ h => ⟨n + 1, rfl, h.1, h.2.1.1, h.2.1.2.succ (h.2.2.1 hs)⟩
    | some e => exact (tri_computeFound Pr hidx he).pre fun S _ h => ⟨h.1, h.2.1, hs, h.2.2⟩

theorem tri_computeInit [hA : SysP C Ap] (Pr : Proto Ap f) {o : OpI K V} {c : CState K V R f} :
    Tri C t (PB Ap (OpB t o)) (Mo t) (fun S => CI t Pr.J c S ∧ OpB t o S) (computeInit C c)
      (Sum.elim (fun r S => CI t Pr.J r.1 S ∧ OpB t o S ∧ PCtx C t k r.2 S) (fun r S => CallsOk r.1.st ∧ ComRes t k o r.1.st.calls (.aborted r.2 none) S)) := by
  have hg := fun S : GSt K V => Mo.refl t S
  unfold computeInit
  refine Tri.bind (fun r S => (CI t Pr.J c S ∧ OpB t o S) ∧ match r with
    | none => C.capacity = 0 ∧ SeenIn t k none S | some T => PCtx C t k T S) ?_ ?_
  · refine tri_loadRoot hg (fun S _ h => h.2.1.1) _ ?_ ?_
    · intro S T h hp h1 _; exact ⟨hp, h1.pctx⟩
    · intro S h hp hr; exact ⟨hp, (h.s.none hr).2, SeenIn.now h (absent_noRoot h hr)⟩
  rintro (_ | T)
  · simp only
    refine Tri.extract (φ := C.capacity = 0) (fun S _ h => h.2.1) fun hc => ?_
    refine Tri.bind _ (Tri.pre (tri_nextNone Pr (F := OpB t o) (P := fun S => OpB t o S ∧ SeenIn t k none S) fun S h => h.1)
      fun S _ h => ⟨h.1.1, h.1.2, h.2.2⟩) ?_
    rintro ⟨c', op⟩
    cases op with
    | insert v =>
      refine Tri.bind (fun c'' S => CI t Pr.J c'' S ∧ OpB t o S) (Tri.ret fun S _ h => ⟨h.1.2 v rfl, h.2.1⟩) ?_
      intro c''
      refine Tri.bind _ (Tri.pre ((tri_initTable (V := V) (C := C) (t := t) hc (capacity := none) (by intro n h; cases h)).helpS
        (fun S => CI t Pr.J c'' S ∧ OpB t o S) fun _ h => h.2) fun S _ h => ⟨h.2.1.1, h.1, h.2⟩) ?_
      exact fun T => Tri.ret fun S _ h => ⟨h.2.1, h.2.2, h.1.pctx⟩
    | remove => exact Tri.panic fun S _ h => ⟨Pr.removeNone _ h.1.1.1.1 h.1.1.1.2 h.1.1.2, h.2.1⟩
    | abort a => exact Tri.ret fun S _ h => ⟨h.1.1.1, h.2.1, h.2.2, h.1.1.2⟩
  · exact Tri.ret fun S _ h => ⟨h.1.1, h.1.2, h.2⟩

theorem tri_compute [hA : SysP C Ap] (Pr : Proto Ap f) {o : OpI K V} (he : ComEff k f o) :
    Tri C t (PB Ap (OpB t o)) (Mo t) (OpB t o) (compute C k f) (ComFin t k f o) := by
  unfold compute
  refine Tri.bind _ (Tri.pre (tri_computeInit (k := k) Pr) fun S _ h => ⟨?_, h⟩) ?_
  · exact ⟨⟨.start, List.Pairwise.nil, fun _ _ h => by cases h⟩, Pr.init, by rintro _ ⟨⟩, by rintro _ _ ⟨⟩⟩
  rintro (⟨c, T⟩ | ⟨c, a⟩)
  · simp only
    refine Tri.loop (s := (T, false, c)) (fun (x : Table × Bool × CState K V R f) S =>
      CI t Pr.J x.2.2 S ∧ OpB t o S ∧ PCtx C t k x.1 S) ?_
    rintro ⟨T, help, c⟩
    refine Tri.bind _ (tri_computeProbe Pr he) ?_
    rintro ⟨c', (r | copying)⟩
    · exact Tri.ret fun S _ h => ⟨⟨h.1.1.made, h.1.2⟩, h.2⟩
    · simp only
      refine Tri.bind _ (Tri.pre (tri_prepareRetry.helpS (fun S => CI t Pr.J c' S ∧ OpB t o S) fun _ h => h.2)
        fun S _ h => ⟨h.2.2, h.1, h.2.1⟩) ?_
      rintro (_ | N)
      · simp only
        refine Tri.bind _ (Tri.pre (tri_nextNone Pr (F := OpB t o) (P := fun S => OpB t o S ∧ (PCtx C t k T S ∧ S.over C T.id k) ∧ SeenIn t k none S) fun S h => h.1)
          fun S _ h => ⟨h.2.1, h.2.2, h.1⟩) ?_
        rintro ⟨c'', op⟩
        cases op with
        | insert v =>
          refine Tri.bind _ (Tri.pre ((tri_prepareRetryInsert (k := k) (copying := none)).helpS
            (fun S => CI t Pr.J { c'' with insert := some v } S ∧ OpB t o S) fun _ h => h.2) fun S _ h => ⟨h.2.2.1, h.1.2 v rfl, h.2.1⟩) ?_
          exact fun N => Tri.ret fun S _ h => ⟨h.2.1, h.2.2, h.1⟩
        | remove => exact Tri.panic fun S _ h => ⟨Pr.removeNone _ h.1.1.1.1 h.1.1.1.2 h.1.1.2, h.2.1⟩
        | abort a => exact Tri.ret fun S _ h => ⟨⟨h.1.1.1.1.made, h.1.1.1.2⟩, h.2.1, h.2.2.2, h.1.1.2⟩
      · exact Tri.ret fun S _ h => ⟨h.2.1, h.2.2, h.1⟩
  · exact Tri.ret fun S _ h => ⟨⟨h.1.1.made, h.1.2⟩, h.2⟩

end Papaya
