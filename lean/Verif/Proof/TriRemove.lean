import Verif.Proof.TriInsert

/-! # Triples of `remove` and `remove_if` -/

set_option linter.unusedSectionVars false
set_option linter.unusedVariables false

namespace Papaya

variable {K V : Type} [DecidableEq K]

open GSt

variable {C : Cfg K} {t : Tid} {Ap : PanicReason → Prop} {S S' : GSt K V} {k : K}

theorem Closure.pure_says {I O : Type} {g : I → O} {i : I} {o : O} (h : (Closure.pure g).Says i o) : o = g i := by
  obtain ⟨calls, h1, h2⟩ := h
  exact Closure.pure_made h1 h2

theorem Closure.Run.made {I O : Type} {f : Closure I O} {s : f.Tr} (h : f.Run s) : f.Made s.calls := ⟨s.st, h⟩

theorem Closure.Run.says {I O : Type} {f : Closure I O} {s : f.Tr} (h : f.Run s) {i : I} {o : O} (hm : (i, o) ∈ s.calls) :
    f.Says i o := ⟨s.calls, h.made, hm⟩

theorem tri_invoke {I O : Type} {f : Closure I O} {s : f.Tr} {i : I} {P : GSt K V → Prop}
    {Gd : GSt K V → GSt K V → Prop} {F : GSt K V → Prop} (hs : f.Run s) (hp : ∀ r, f.call s.st i = .error r → Ap r) (hF : ∀ S, P S → F S) :
    Tri C t (PB Ap F) Gd P (f.invoke s i) (fun x S => (f.Run x.1 ∧ x.1.calls = s.calls ++ [(i, x.2)] ∧
      f.call s.st i = .ok (x.1.st, x.2)) ∧ P S) := by
  unfold Closure.invoke
  cases h : f.call s.st i with
  | ok x => exact Tri.ret fun S _ hp => ⟨⟨hs.call h, rfl, rfl⟩, hp⟩
  | error r => exact Tri.panic fun _ _ hP => ⟨hp r h, hF _ hP⟩

/-- An entry was removed. -/
def Remd (t : Tid) (k : K) (e : Entry K V) (S : GSt K V) : Prop :=
  Idle t S ∧ DoneEv t k (some e) none S ∧ S.Prot t e ∧ e.key = k

instance {e : Entry K V} : Inert C t (Remd t k e) := by unfold Remd; infer_instance

/-- How the probe loop of `remove_if` ends. -/
def RemOut (C : Cfg K) (t : Tid) (k : K) (f : Closure (K × V) Bool) (o : OpI K V) (T : Table)
    (r : f.Tr × WOut (RemRes K V)) (S : GSt K V) : Prop :=
  match r.2 with
  | .done .absent => OpB t o S ∧ SeenIn t k none S
  | .done (.removed e) => Remd t k e S ∧ ((e.key, e.val), true) ∈ r.1.calls
  | .done (.kept e) => OpB t o S ∧ SeenIn t k (some e) S ∧ S.Prot t e ∧ e.key = k ∧ ((e.key, e.val), false) ∈ r.1.calls
  | .retry copying => OpB t o S ∧ (PCtx C t k T S ∧ RetryOk C k T copying S)

theorem tri_removeLoop {f : Closure (K × V) Bool} {o : OpI K V} {T : Table} {i : Nat} {st : f.Tr} {e : Entry K V}
    {s : Slot K V} (hi : i < T.len)
    (hpan : ∀ s x r, f.Run s → f.call s.st x = .error r → Ap r)
    (heff : ∀ e : Entry K V, e.key = k → f.Says (e.key, e.val) true → o.eff k (some e) none) :
    Tri C t (PB Ap (OpB t o)) (Mo t) (fun S => f.Run st ∧ (OpB t o S ∧ PCtx C t k T S) ∧ s.ptr = some e ∧ s.copying = false ∧
        WK C t k T.id i s S)
      (removeLoop C f T i st e s) (fun r S => f.Run r.1 ∧ RemOut C t k f o T r S) := by
  have hg := fun S : GSt K V => Mo.refl t S
  unfold removeLoop
  refine Tri.loop (s := (st, e, s)) (fun (x : f.Tr × Entry K V × Slot K V) S => f.Run x.1 ∧
    (OpB t o S ∧ PCtx C t k T S) ∧ x.2.2.ptr = some x.2.1 ∧ x.2.2.copying = false ∧ WK C t k T.id i x.2.2 S) ?_
  rintro ⟨st, e, s⟩
  refine Tri.extract (φ := f.Run st ∧ s.ptr = some e ∧ s.copying = false ∧ e.key = k)
    (fun S _ h => ⟨h.1, h.2.2.1, h.2.2.2.1, (h.2.2.2.2.2.2 e h.2.2.1).1⟩) ?_
  rintro ⟨hre, hs, hcp, hek⟩
  refine Tri.pre (P := fun S => (OpB t o S ∧ PCtx C t k T S) ∧ WK C t k T.id i s S) ?_ (fun S _ h => ⟨h.2.1, h.2.2.2.2⟩)
  refine Tri.bind (fun _ S => (OpB t o S ∧ PCtx C t k T S) ∧ WK C t k T.id i s S)
    (tri_deref hg (fun S _ h => (h.2.2.2 e hs).2.1)) ?_
  intro _
  refine Tri.bind _ (tri_invoke hre (hpan st _ · hre) fun S h => h.1.1) ?_
  rintro ⟨st', b⟩
  refine Tri.extract (φ := f.Run st' ∧ st'.calls = st.calls ++ [((e.key, e.val), b)]) (fun S _ h => ⟨h.1.1, h.1.2.1⟩) ?_
  rintro ⟨hre', hcall⟩
  have hmem : ((e.key, e.val), b) ∈ st'.calls := by rw [hcall]; simp
  refine Tri.ite (fun hb => Tri.ret fun S _ h => ?_) (fun hb => ?_)
  · subst hb
    exact ⟨hre', h.2.1.1, (h.2.2.2.2 e hs).2.2.2 hcp, (h.2.2.2.2 e hs).2.1, hek, hmem⟩
  have hb : b = true := by simpa using hb
  subst hb
  have hsay := hre'.says hmem
  refine Tri.bind _ (Tri.pre (tri_updateAtTomb hi hs hcp (heff e hek hsay)) fun S _ h => h.2) ?_
  rintro (r | (_ | ⟨e', s'⟩ | ⟨e', s'⟩))
  · exact tri_removed hi (Tri.ret fun S _ h => ⟨hre', ⟨h.1, h.2.1, h.2.2, hek⟩, hmem⟩)
  · exact Tri.ret fun S _ h => ⟨hre', h.1.1, h.2.2⟩
  · refine Tri.ret fun S _ h => ?_
    obtain ⟨⟨h1, h2⟩, h3, h4, h5⟩ := h
    exact ⟨hre', h1, h2, hi, h5.1.1, e', (h5.2.2 e' h3).1, (h5.2.2 e' h3).2.2.1 h4⟩
  · exact Tri.ret fun S _ h => ⟨hre', h⟩

theorem tri_removeProbe {f : Closure (K × V) Bool} {o : OpI K V} {T : Table} {st : f.Tr} (hre : f.Run st)
    (hpan : ∀ s x r, f.Run s → f.call s.st x = .error r → Ap r)
    (heff : ∀ e : Entry K V, e.key = k → f.Says (e.key, e.val) true → o.eff k (some e) none) :
    Tri C t (PB Ap (OpB t o)) (Mo t) (fun S => OpB t o S ∧ PCtx C t k T S)
      (removeProbe C k f st T) (fun r S => f.Run r.1 ∧ RemOut C t k f o T r S) := by
  have hg := fun S : GSt K V => Mo.refl t S
  unfold removeProbe
  refine (Tri.loop (fun probe S => ∃ n, probe = Probe.after (C.h1 k) T.mask n ∧ WCtx C t k o T n S) ?_).pre
    (fun S _ h => ⟨0, rfl, h, DeadTo.zero⟩)
  intro probe
  refine Tri.ex fun n => ?_
  refine Tri.extract (φ := probe = Probe.after (C.h1 k) T.mask n) (fun S _ h => h.1) ?_
  rintro rfl
  refine Tri.pre (P := WCtx C t k o T n) ?_ (fun S _ h => h.2)
  rw [after_len]
  refine Tri.extract (φ := (Probe.after (C.h1 k) T.mask n).i < T.len)
    (fun S h hp => hp.1.2.1.after_len h k n) fun hidx => ?_
  refine Tri.ite (fun hn => ?_) (fun hn => Tri.ret fun S _ h => ⟨hre, h.1.1, h.1.2, h.2.over h.1.2.1 (by omega)⟩)
  refine Tri.bind (fun m S => WCtx C t k o T n S ∧ (m = EMPTY → SeenIn t k none S) ∧
    (m ≠ EMPTY → S.md T.id (Probe.after (C.h1 k) T.mask n).i ≠ EMPTY) ∧
    (m ≠ EMPTY → m ≠ C.h2 k → S.dead T.id (Probe.after (C.h1 k) T.mask n).i k)) ?_ ?_
  · refine tri_loadMd hg (fun S _ h => h.1.2.1) hidx _ ?_
    intro S h hp
    refine ⟨hp, fun hm => ?_, fun hm => hm, fun h1 h2 => md_dead h h2 h1⟩
    refine absent_empty h hp.1.2.2 (n := n) (by rw [← hp.1.2.1.limit]; exact hn) (hp.2.pos hp.1.2.1) ?_
    rw [← hp.1.2.1.after]; exact hm
  intro m
  refine Tri.ite (fun hm => Tri.ret fun S _ h => ⟨hre, h.1.1.1, h.2.1 hm⟩) (fun hm => ?_)
  refine Tri.ite (fun hm2 => Tri.ret fun S _ h => ⟨n + 1, rfl, h.1.1, h.1.2.succ (h.2.2.2 hm hm2)⟩) (fun hm2 => ?_)
  refine Tri.bind (fun s S => WCtx C t k o T n S ∧ WR C t k T.id (Probe.after (C.h1 k) T.mask n).i s S) ?_ ?_
  · refine Tri.pre (P := fun S => WCtx C t k o T n S ∧ S.md T.id (Probe.after (C.h1 k) T.mask n).i ≠ EMPTY) ?_
      (fun S _ h => ⟨h.1, h.2.2.1 hm⟩)
    refine tri_loadSlot hg (fun S _ h => h.1.1.2.1) hidx _ ?_
    intro S h hp
    exact ⟨hp.1, wr_slot h hp.1.1.2 hp.2⟩
  intro s
  cases hs : s.ptr with
  | none => exact Tri.ret fun S _ h => ⟨n + 1, rfl, h.1.1, h.1.2.succ (h.2.1 hs)⟩
  | some e =>
    simp only
    refine Tri.bind _ (tri_deref hg (fun S _ h => (h.2.2 e hs).1)) ?_
    intro _
    refine Tri.ite (fun hk => Tri.ret fun S _ h => ⟨n + 1, rfl, h.1.1, h.1.2.succ ((h.2.2 e hs).2.1 hk)⟩) (fun hk => ?_)
    have hek : e.key = k := by simpa using hk
    refine Tri.pre (P := fun S => WCtx C t k o T n S ∧ WK C t k T.id (Probe.after (C.h1 k) T.mask n).i s S) ?_
      (fun S _ h => ⟨h.1, (h.2.2 e hs).2.2 hek⟩)
    refine Tri.ite (fun hcp => Tri.ret fun S _ h => ?_) (fun hcp => ?_)
    · exact ⟨hre, h.1.1.1, h.1.1.2, hidx, h.2.1.1, e, hek, (h.2.2.2 e hs).2.2.1 hcp⟩
    refine Tri.bind _ (Tri.pre (tri_removeLoop hidx hpan heff)
      fun S _ h => ⟨hre, h.1.1, hs, by simpa using hcp, h.2⟩) ?_
    exact fun r => Tri.ret fun S _ h => h

/-- Result of `remove_if`. -/
def RemFin (t : Tid) (k : K) (f : Closure (K × V) Bool) (o : OpI K V) (r : Called (K × V) Bool (RemRes K V))
    (S : GSt K V) : Prop :=
  f.Made r.calls ∧ match r.out with
  | .absent => OpB t o S ∧ SeenIn t k none S
  | .removed e => Remd t k e S ∧ ((e.key, e.val), true) ∈ r.calls
  | .kept e => OpB t o S ∧ SeenIn t k (some e) S ∧ S.Prot t e ∧ e.key = k ∧ ((e.key, e.val), false) ∈ r.calls

theorem tri_removeIf [hA : SysP C Ap] {f : Closure (K × V) Bool} {o : OpI K V}
    (hpan : ∀ s x r, f.Run s → f.call s.st x = .error r → Ap r)
    (heff : ∀ e : Entry K V, e.key = k → f.Says (e.key, e.val) true → o.eff k (some e) none) :
    Tri C t (PB Ap (OpB t o)) (Mo t) (OpB t o) (removeIf C k f) (RemFin t k f o) := by
  have hg := fun S : GSt K V => Mo.refl t S
  unfold removeIf
  refine Tri.bind (fun r S => OpB t o S ∧ match r with | none => SeenIn t k none S | some T => PCtx C t k T S) ?_ ?_
  · refine tri_loadRoot hg (fun S _ h => h.1.1) _ ?_ ?_
    · intro S T h hp h1 _; exact ⟨hp, h1.pctx⟩
    · intro S h hp hr; exact ⟨hp, SeenIn.now h (absent_noRoot h hr)⟩
  rintro (_ | T)
  · exact Tri.ret fun S _ h => ⟨⟨_, .start⟩, h⟩
  simp only
  refine Tri.pre (P := fun S => f.Run f.start ∧ (OpB t o S ∧ PCtx C t k T S)) ?_ (fun S _ h => ⟨.start, h⟩)
  refine Tri.loop (s := (T, true, f.start)) (fun (s : Table × Bool × f.Tr) S => f.Run s.2.2 ∧ (OpB t o S ∧ PCtx C t k s.1 S)) ?_
  rintro ⟨T, help, st⟩
  refine Tri.extract (φ := f.Run st) (fun S _ h => h.1) fun hre => ?_
  refine Tri.bind _ (Tri.pre (tri_removeProbe hre hpan heff) fun S _ h => h.2) ?_
  rintro ⟨st', ((_ | e | e) | copying)⟩
  · exact Tri.ret fun S _ h => ⟨h.1.made, h.2⟩
  · exact Tri.ret fun S _ h => ⟨h.1.made, h.2⟩
  · exact Tri.ret fun S _ h => ⟨h.1.made, h.2⟩
  · refine Tri.extract (φ := f.Run st') (fun S _ h => h.1) fun hre' => ?_
    refine Tri.bind _ (Tri.pre (tri_prepareRetry.helpS (OpB t o) fun _ h => h) fun S _ h => ⟨h.2.2, h.2.1⟩) ?_
    rintro (_ | N)
    · exact Tri.ret fun S _ h => ⟨hre'.made, h.2, h.1.2⟩
    · exact Tri.ret fun S _ h => ⟨hre', h.2, h.1⟩

theorem tri_remove [hA : SysP C Ap] {o : OpI K V}
    (heff : ∀ e : Entry K V, e.key = k → o.eff k (some e) none) :
    Tri C t (PB Ap (OpB t o)) (Mo t) (OpB t o) (remove C k) (fun r S => match r with
      | none => OpB t o S ∧ SeenIn t k none S
      | some e => Remd t k e S) := by
  unfold remove
  refine Tri.bind _ (tri_removeIf (fun s x r _ h => by cases h) (fun e h _ => heff e h)) ?_
  rintro ⟨calls, (_ | e | e)⟩
  · exact Tri.ret fun S _ h => h.2
  · exact Tri.ret fun S _ h => h.2.1
  · refine Tri.false fun S _ h => ?_
    cases Closure.pure_made h.1 h.2.2.2.2.2

end Papaya
