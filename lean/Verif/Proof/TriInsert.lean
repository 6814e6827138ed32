import Verif.Proof.TriRetry

/-! # Triples of `insert` -/

set_option linter.unusedSectionVars false
set_option linter.unusedVariables false

namespace Papaya

variable {K V : Type} [DecidableEq K]

open GSt

variable {C : Cfg K} {t : Tid} {Ap : PanicReason → Prop} {S S' : GSt K V} {k : K}

/-- An entry was replaced. -/
def Repl (t : Tid) (k : K) (v : V) (old new : Entry K V) (S : GSt K V) : Prop :=
  Idle t S ∧ DoneEv t k (some old) (some new) S ∧ S.Prot t old ∧ S.Prot t new ∧ old.key = k ∧ new.key = k ∧ new.val = v

instance {v : V} {old new : Entry K V} : Inert C t (Repl t k v old new) := by unfold Repl; infer_instance

theorem tri_updateAtNew' {o : OpI K V} {T : Table} {i : Nat} {e : Entry K V} {cur : Slot K V} {v : V} (hi : i < T.len)
    (hmul : o.multi = false) (heff : ∀ id, e.key = k → o.eff k (some e) (some ⟨id, k, v⟩)) :
    Tri C t (PB Ap (OpB t o)) (Mo t) (fun S => (OpB t o S ∧ PCtx C t k T S) ∧ cur.ptr = some e ∧ cur.copying = false ∧ WK C t k T.id i cur S)
      (updateAtNew C i e cur k v T)
      (fun r S => match r with
        | .replaced r => ∃ new, r = some new ∧ Repl t k v e new S
        | .found st => (OpB t o S ∧ PCtx C t k T S) ∧ WStat C t k T.id i st S) := by
  refine Tri.extract (φ := cur.ptr = some e ∧ cur.copying = false ∧ e.key = k)
    (fun S _ h => ⟨h.2.1, h.2.2.1, (h.2.2.2.2.2 e h.2.1).1⟩) ?_
  rintro ⟨h1, h2, h3⟩
  refine Tri.conseq (tri_updateAtNew hi h1 h2 hmul (fun id => heff id h3)) (fun S _ h => ⟨h.1, h.2.2.2⟩) ?_
  rintro (r | st) S _ h
  · obtain ⟨new, g1, g2, g3, g4, g5, g6, g7⟩ := h
    exact ⟨new, g1, g4, g5, g6, g7, h3, g2, g3⟩
  · exact h

theorem tri_insertSlow {o : OpI K V} {T : Table} {i : Nat} {e : Entry K V} {cur : Slot K V} {v : V} (hi : i < T.len)
    (hmul : o.multi = false) (heff : ∀ id (e : Entry K V), e.key = k → o.eff k (some e) (some ⟨id, k, v⟩)) :
    Tri C t (PB Ap (OpB t o)) (Mo t) (fun S => (OpB t o S ∧ PCtx C t k T S) ∧ cur.ptr = some e ∧ cur.copying = false ∧ WK C t k T.id i cur S)
      (insertSlow C i e cur k v T)
      (fun r S => match r with
        | .inl (old, new) => Repl t k v old new S
        | .inr st => (OpB t o S ∧ PCtx C t k T S) ∧ WStat C t k T.id i st S) := by
  unfold insertSlow
  refine Tri.loop (s := (e, cur)) (fun (s : Entry K V × Slot K V) S =>
    (OpB t o S ∧ PCtx C t k T S) ∧ s.2.ptr = some s.1 ∧ s.2.copying = false ∧ WK C t k T.id i s.2 S) ?_
  rintro ⟨e, cur⟩
  refine Tri.bind _ (tri_updateAtNew' hi hmul (fun id => heff id e)) ?_
  rintro ((_ | new) | (_ | ⟨e', s'⟩ | ⟨e', s'⟩))
  · exact Tri.false fun S _ ⟨_, h, _⟩ => by cases h
  · exact Tri.ret fun S _ ⟨new', h, h'⟩ => by cases h; exact h'
  · exact Tri.ret fun S _ h => h
  · exact Tri.ret fun S _ h => h
  · exact Tri.ret fun S _ h => h

/-- How the probe loop of `insert` ends. -/
def InsOut (C : Cfg K) (t : Tid) (k : K) (v : V) (replace : Bool) (o : OpI K V) (T : Table) (r : WOut (InsRes K V)) (S : GSt K V) : Prop :=
  match r with
  | .done (.inserted e) => Ins t k v e S
  | .done (.replaced old new) => replace = true ∧ Repl t k v old new S
  | .done (.error cur v') => replace = false ∧ OpB t o S ∧ SeenIn t k (some cur) S ∧ S.Prot t cur ∧ cur.key = k ∧ v' = v
  | .retry copying => OpB t o S ∧ (PCtx C t k T S ∧ RetryOk C k T copying S)

theorem tri_insertFound {o : OpI K V} {T : Table} {n : Nat} {v : V} {replace : Bool} {e : Entry K V} {s : Slot K V}
    (hi : (Probe.after (C.h1 k) T.mask n).i < T.len) (hn : n ≤ T.limit)
    (hmul : o.multi = false) (heff : replace = true → ∀ id (e : Entry K V), e.key = k → o.eff k (some e) (some ⟨id, k, v⟩)) :
    Tri C t (PB Ap (OpB t o)) (Mo t) (fun S => WCtx C t k o T n S ∧ s.ptr = some e ∧ WR C t k T.id (Probe.after (C.h1 k) T.mask n).i s S)
      (insertFound C k v replace T (Probe.after (C.h1 k) T.mask n) e s)
      (Sum.elim (fun probe S => ∃ n, probe = Probe.after (C.h1 k) T.mask n ∧ WCtx C t k o T n S)
        (InsOut C t k v replace o T)) := by
  have hg := fun S : GSt K V => Mo.refl t S
  unfold insertFound
  refine Tri.extract (φ := s.ptr = some e) (fun S _ h => h.2.1) fun hs => ?_
  refine Tri.bind _ (tri_deref hg (fun S _ h => (h.2.2.2 e hs).1)) ?_
  intro _
  refine Tri.ite (fun hk => ?_) (fun hk => Tri.ret fun S _ h => ⟨n + 1, rfl, h.1.1, h.1.2.succ ((h.2.2.2 e hs).2.1 hk)⟩)
  refine Tri.pre (P := fun S => WCtx C t k o T n S ∧ WK C t k T.id (Probe.after (C.h1 k) T.mask n).i s S) ?_
    (fun S _ h => ⟨h.1, (h.2.2.2 e hs).2.2 hk⟩)
  refine Tri.ite (fun hcp => Tri.ret fun S _ h => ?_) (fun hcp => ?_)
  · exact ⟨h.1.1.1, h.1.1.2, hi, h.2.1.1, e, hk, (h.2.2.2 e hs).2.2.1 hcp⟩
  have hcp' : s.copying = false := by simpa using hcp
  refine Tri.ite (fun hr => Tri.ret fun S _ h => ?_) (fun hr => ?_)
  · exact ⟨hr, h.1.1.1, (h.2.2.2 e hs).2.2.2 hcp', (h.2.2.2 e hs).2.1, hk, rfl⟩
  have hr' : replace = true := by simpa using hr
  refine Tri.bind _ (Tri.pre ((tri_insertSlow hi hmul (heff hr')).frameO (DeadTo C T k n))
    fun S _ h => ⟨⟨h.1.1, hs, hcp', h.2⟩, h.1.2⟩) ?_
  rintro (⟨old, new⟩ | (_ | ⟨e', s'⟩ | ⟨e', s'⟩))
  · exact Tri.ret fun S _ h => ⟨hr', h.1⟩
  · exact Tri.ret fun S _ h => ⟨n + 1, rfl, h.1.1, h.2.succ h.1.2.1⟩
  · refine Tri.ret fun S _ h => ?_
    obtain ⟨⟨⟨h1, h2⟩, h3, h4, h5⟩, h6⟩ := h
    exact ⟨h1, h2, hi, h5.1.1, e', (h5.2.2 e' h3).1, (h5.2.2 e' h3).2.2.1 h4⟩
  · exact Tri.ret fun S _ h => ⟨n, rfl, h.1.1, h.2⟩

theorem tri_insertProbe {o : OpI K V} {T : Table} {v : V} {replace : Bool} (hmul : o.multi = false)
    (heff : ∀ id, o.eff k none (some ⟨id, k, v⟩))
    (heff' : replace = true → ∀ id (e : Entry K V), e.key = k → o.eff k (some e) (some ⟨id, k, v⟩)) :
    Tri C t (PB Ap (OpB t o)) (Mo t) (fun S => OpB t o S ∧ PCtx C t k T S) (insertProbe C k v replace T) (InsOut C t k v replace o T) := by
  have hg := fun S : GSt K V => Mo.refl t S
  unfold insertProbe
  refine (Tri.loop (fun probe S => ∃ n, probe = Probe.after (C.h1 k) T.mask n ∧ WCtx C t k o T n S) ?_).pre
    (fun S _ h => ⟨0, rfl, h, DeadTo.zero⟩)
  intro probe
  refine Tri.ex fun n => ?_
  refine Tri.extract (φ := probe = Probe.after (C.h1 k) T.mask n) (fun S _ h => h.1) ?_
  rintro rfl
  refine Tri.pre (P := WCtx C t k o T n) ?_ (fun S _ h => h.2)
  rw [after_len]
  refine Tri.extract (φ := (Probe.after (C.h1 k) T.mask n).i < T.len)
    (fun S h hp => hp.1.2.1.after_len h k n) fun hidx => ?_
  refine Tri.ite (fun hn => ?_) (fun hn => Tri.ret fun S _ h => ⟨h.1.1, h.1.2, h.2.over h.1.2.1 (by omega)⟩)
  refine Tri.bind (fun m S => WCtx C t k o T n S ∧
    (m ≠ EMPTY → S.md T.id (Probe.after (C.h1 k) T.mask n).i ≠ EMPTY) ∧
    (m ≠ EMPTY → m ≠ C.h2 k → S.dead T.id (Probe.after (C.h1 k) T.mask n).i k)) ?_ ?_
  · refine tri_loadMd hg (fun S _ h => h.1.2.1) hidx _ ?_
    intro S h hp
    exact ⟨hp, fun hm => hm, fun h1 h2 => md_dead h h2 h1⟩
  intro m
  refine Tri.ite (fun hm => ?_) (fun hm => ?_)
  · refine Tri.bind _ (Tri.pre (tri_insertAt hidx hn hmul heff) fun S _ h => h.1) ?_
    rintro (e | (_ | ⟨e, s⟩ | ⟨e, s⟩))
    · exact Tri.ret fun S _ h => h
    · exact Tri.ret fun S _ h => ⟨n + 1, rfl, h.1.1, h.1.2.succ h.2⟩
    · exact Tri.false fun S _ h => h
    · exact tri_insertFound hidx hn hmul heff'
  · refine Tri.ite (fun hm2 => ?_) (fun hm2 => Tri.ret fun S _ h => ⟨n + 1, rfl, h.1.1, h.1.2.succ (h.2.2 hm hm2)⟩)
    refine Tri.bind (fun s S => WCtx C t k o T n S ∧ WR C t k T.id (Probe.after (C.h1 k) T.mask n).i s S) ?_ ?_
    · refine Tri.pre (P := fun S => WCtx C t k o T n S ∧ S.md T.id (Probe.after (C.h1 k) T.mask n).i ≠ EMPTY) ?_
        (fun S _ h => ⟨h.1, h.2.1 hm⟩)
      refine tri_loadSlot hg (fun S _ h => h.1.1.2.1) hidx _ ?_
      intro S h hp
      exact ⟨hp.1, wr_slot h hp.1.1.2 hp.2⟩
    intro s
    cases hs : s.ptr with
    | none => exact Tri.ret fun S _ h => ⟨n + 1, rfl, h.1.1, h.1.2.succ (h.2.1 hs)⟩
    | some e => exact (tri_insertFound hidx hn hmul heff').pre fun S _ h => ⟨h.1, hs, h.2⟩

/-- Result of `insert_inner`. -/
def InsFin (t : Tid) (k : K) (v : V) (replace : Bool) (o : OpI K V) (d : Bool) (r : InsRes K V) (S : GSt K V) : Prop :=
  match r with
  | .inserted e => (if d then Idle t S else Pinned t S ∧ NoTok t S ∧ Owes t 1 S) ∧ DoneEv t k none (some e) S ∧ S.Prot t e ∧
      e.key = k ∧ e.val = v
  | .replaced old new => replace = true ∧ Repl t k v old new S
  | .error cur v' => replace = false ∧ OpB t o S ∧ SeenIn t k (some cur) S ∧ S.Prot t cur ∧ cur.key = k ∧ v' = v

/-- The table a writer starts with. -/
theorem tri_startTable {Ag : PanicReason → GSt K V → Prop} [SysA C Ag] :
    Tri (V := V) C t Ag (Mt t) (fun S => Pinned t S)
      (do match ← A.loadRoot with
          | some T => return T
          | none => initTable C none) (fun T S => RootAcc t T S) := by
  have hg := fun S : GSt K V => Mt.refl t S
  refine Tri.bind (fun r S => match r with | none => Pinned t S ∧ C.capacity = 0 | some T => RootAcc t T S) ?_ ?_
  · refine tri_loadRoot hg (fun S _ h => h) _ ?_ ?_
    · intro S T h hp h1 _; exact h1
    · intro S h hp hr; exact ⟨hp, (h.s.none hr).2⟩
  rintro (_ | T)
  · simp only
    refine Tri.extract (φ := C.capacity = 0) (fun S _ h => h.2) fun hc => ?_
    exact (tri_initTable hc (by simp)).pre fun S _ h => h.1
  · exact Tri.ret fun S _ h => h

theorem tri_insertInner [hA : SysP C Ap] {o : OpI K V} {v : V} {replace : Bool} (hmul : o.multi = false)
    (heff : ∀ id, o.eff k none (some ⟨id, k, v⟩))
    (heff' : replace = true → ∀ id (e : Entry K V), e.key = k → o.eff k (some e) (some ⟨id, k, v⟩)) :
    Tri C t (PB Ap (OpB t o)) (Mo t) (OpB t o) (insertInner C k v replace) (InsFin t k v replace o false) := by
  unfold insertInner
  refine Tri.bind (fun T S => RootAcc t T S ∧ OpB t o S) (Tri.pre (tri_startTable.helpS (OpB t o) fun _ h => h) fun S _ h => ⟨h.1.1, h⟩) ?_
  intro T
  refine Tri.pre (P := fun S => OpB t o S ∧ PCtx C t k T S) ?_ (fun S _ h => ⟨h.2, h.1.pctx⟩)
  refine Tri.loop (s := (T, true)) (fun (s : Table × Bool) S => OpB t o S ∧ PCtx C t k s.1 S) ?_
  rintro ⟨T, help⟩
  refine Tri.bind _ (tri_insertProbe hmul heff heff') ?_
  rintro ((e | ⟨old, new⟩ | ⟨cur, v'⟩) | copying)
  · refine Tri.ret fun S _ h => ?_
    obtain ⟨h1, h2, h3, h4, h5, h6, h7⟩ := h
    exact ⟨⟨h1, h2, h3⟩, h4, h5, h6, h7⟩
  · exact Tri.ret fun S _ h => h
  · exact Tri.ret fun S _ h => h
  · refine Tri.bind _ (Tri.pre (tri_prepareRetryInsert.helpS (OpB t o) fun _ h => h) fun S _ h => ⟨h.2, h.1⟩) ?_
    exact fun N => Tri.ret fun S _ h => ⟨h.2, h.1⟩

theorem tri_insert [hA : SysP C Ap] {o : OpI K V} {v : V} {replace : Bool} (hmul : o.multi = false)
    (heff : ∀ id, o.eff k none (some ⟨id, k, v⟩))
    (heff' : replace = true → ∀ id (e : Entry K V), e.key = k → o.eff k (some e) (some ⟨id, k, v⟩)) :
    Tri C t (PB Ap (OpB t o)) (Mo t) (OpB t o) (insert C k v replace) (InsFin t k v replace o true) := by
  unfold insert
  refine Tri.bind _ (tri_insertInner hmul heff heff') ?_
  rintro (e | ⟨old, new⟩ | ⟨cur, v'⟩)
  · refine Tri.bind (fun _ S => Owes t (1 - 1) S ∧ (Pinned t S ∧ NoTok t S ∧ DoneEv t k none (some e) S ∧ S.Prot t e ∧
        e.key = k ∧ e.val = v)) (Tri.pre (tri_addCount (d := 1) (d' := 1) rfl (fun S _ h => h)) ?_) ?_
    · rintro S _ ⟨⟨h1, h2, h3⟩, h4⟩
      exact ⟨h3, h1, h2, h4⟩
    · intro _
      refine Tri.ret fun S _ h => ?_
      exact ⟨⟨h.2.1, h.2.2.1, h.1⟩, h.2.2.2⟩
  · exact Tri.ret fun S _ h => h
  · exact Tri.ret fun S _ h => h

end Papaya
