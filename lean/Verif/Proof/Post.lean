import Verif.Proof.TriIterAll
import Verif.Proof.TriWrap
import Verif.Spec.Lin

/-! # What each public operation guarantees when it returns -/

set_option linter.unusedSectionVars false
set_option linter.unusedVariables false

namespace Papaya

variable {K V : Type} [DecidableEq K]

open GSt

variable {C : Cfg K} {t : Tid} {Ap : PanicReason → Prop} {S S' : GSt K V} {k : K}

/-- The values of a map of entries. -/
def vals (m : K → Option (Entry K V)) : AMap K V := fun k => (m k).map Entry.val

/-- An event that changes `k` from `old` to `new` is what `c`, returning `r`, is supposed to do. -/
def EvSpec (c : Call K V) (r : c.Res) (k : K) (old new : Option (Entry K V)) : Prop :=
  ∀ m : AMap K V, m k = old.map Entry.val → SpecOp c m r (m.put k (new.map Entry.val))

/-- Operations that remove several entries. -/
def Call.multi : Call K V → Bool
  | .clear | .retain _ => true
  | _ => false

/-- Operations that never change the map. -/
def Call.passive : Call K V → Bool
  | .get _ | .containsKey _ | .iter | .iterTake _ | .len | .isEmpty | .reserve _ => true
  | _ => false

/-- The effects an operation may have. -/
def Call.opi (c : Call K V) : OpI K V where
  multi := c.multi
  eff k old new := (c.atomic = true ∧ ∃ r, EvSpec c r k old new) ∨
    ∃ e, old = some e ∧ new = none ∧ k = e.key ∧ SpecDel c e.kv

/-- What an operation guarantees at each step. -/
def Call.guar (c : Call K V) (t : Tid) : GSt K V → GSt K V → Prop := if c.passive = true then Mt t else Mo t

theorem Call.guar_mo {c : Call K V} (h : c.guar t S S') : Mo t S S' := by
  unfold Call.guar at h
  split at h
  · exact h.mo
  · exact h

theorem Call.guar_mt {c : Call K V} (hc : c.passive = true) (h : c.guar t S S') : Mt t S S' := by
  unfold Call.guar at h
  rw [if_pos hc] at h; exact h

/-- The operation took effect. -/
def DidEv (t : Tid) (c : Call K V) (r : c.Res) (S : GSt K V) : Prop :=
  ∃ k old new, DoneEv t k old new S ∧ EvSpec c r k old new

/-- The operation did not change the map, and its result is right for the map at some instant of the call. -/
def ReadAt (t : Tid) (c : Call K V) (r : c.Res) (S : GSt K V) : Prop :=
  S.FreshOp t ∧ ∃ l, l <+: S.log ∧ S.invPos t ≤ l.length ∧ SpecOp c (vals (abs l)) r (vals (abs l))

instance {c : Call K V} {r : c.Res} : Inert C t (DidEv t c r) := by unfold DidEv; infer_instance

instance {c : Call K V} {r : c.Res} : Inert C t (ReadAt t c r) := ⟨fun S S' h1 h2 h3 h4 h => by
  refine ⟨Inert.inert (P := fun S : GSt K V => S.FreshOp t) (C := C) (t := t) S S' h1 h2 h3 h4 h.1, ?_⟩
  obtain ⟨l, g1, g2, g3⟩ := h.2
  exact ⟨l, g1.trans h3.log, by rw [h4.invPos]; exact g2, g3⟩⟩

theorem SeenIn.read {c : Call K V} {r : c.Res} {x : Option (Entry K V)} (h : SeenIn t k x S) (hf : S.FreshOp t)
    (hs : ∀ m : AMap K V, m k = x.map Entry.val → SpecOp c m r m) : ReadAt t c r S := by
  obtain ⟨l, g1, g2, g3⟩ := h
  exact ⟨hf, l, g1, g2, hs _ (by unfold vals; rw [g3])⟩

/-- What bulk operations guarantee. -/
def BulkPost (t : Tid) (p0 : List (Tid × Int)) : (c : Call K V) → c.Res → GSt K V → Prop
  | .clear, _, S => ∀ k, SeenIn t k none S
  | .retain f, r, S => f.Made r.calls ∧ DelOk t (Call.opi (.retain f)) (fun x => (x, false) ∈ r.calls) S ∧
      ∀ k, SeenIn t k none S ∨ ∃ e, SeenIn t k (some e) S ∧ e.key = k ∧ ((e.key, e.val), true) ∈ r.calls
  | .iter, r, S => YieldOk t r S ∧ ∀ k, Yielded t r k S
  | .iterTake n, r, S => YieldOk t r S ∧ List.length r ≤ n ∧ (List.length r < n → ∀ k, Yielded t r k S)
  | .len, n, S => LenIs p0 n S
  | .isEmpty, b, S => ∃ n : Nat, LenIs p0 n S ∧ b = (n == 0)
  | .reserve a, _, S => ∃ T : Table, RootAcc t T S ∧ ∃ n c, LenIs p0 n S ∧ entriesFor (n + a) = some c ∧ c ≤ T.len
  | _, _, _ => True

/-- What each operation guarantees when it returns. -/
def Post (t : Tid) (p0 : List (Tid × Int)) (c : Call K V) (r : c.Res) (S : GSt K V) : Prop :=
  Idle t S ∧ (∀ e, e ∈ c.refs r → S.Prot t e) ∧ (c.atomic = true → DidEv t c r S ∨ ReadAt t c r S) ∧ BulkPost t p0 c r S

instance {p0 : List (Tid × Int)} {c : Call K V} {r : c.Res} : Inert C t (BulkPost t p0 c r) := by
  cases c
  case iter =>
    have h : ∀ r : List (Entry K V), Inert C t (fun S => YieldOk t r S ∧ ∀ k, Yielded t r k S) := fun r => inferInstance
    exact h r
  case iterTake n =>
    have h : ∀ r : List (Entry K V), Inert C t (fun S => YieldOk t r S ∧ List.length r ≤ n ∧ (List.length r < n → ∀ k, Yielded t r k S)) :=
      fun r => inferInstance
    exact h r
  case len =>
    have h : ∀ r : Nat, Inert C t (LenIs (K := K) (V := V) p0 r) := fun r => inferInstance
    exact h r
  all_goals unfold BulkPost; infer_instance

instance {p0 : List (Tid × Int)} {c : Call K V} {r : c.Res} : Inert C t (Post t p0 c r) := by
  unfold Post; infer_instance

theorem opi_eff {c : Call K V} (hc : c.atomic = true) (r : c.Res) {k : K} {old new : Option (Entry K V)}
    (h : EvSpec c r k old new) : c.opi.eff k old new := .inl ⟨hc, r, h⟩

theorem post_did {p0 : List (Tid × Int)} {c : Call K V} {r : c.Res} {old new : Option (Entry K V)} (hc : c.atomic = true)
    (hi : Idle t S) (hr : ∀ e, e ∈ c.refs r → S.Prot t e) (hd : DoneEv t k old new S) (hs : EvSpec c r k old new) :
    Post t p0 c r S :=
  ⟨hi, hr, fun _ => .inl ⟨k, old, new, hd, hs⟩, by cases c <;> trivial⟩

theorem post_read {p0 : List (Tid × Int)} {c : Call K V} {r : c.Res} {x : Option (Entry K V)} (hc : c.atomic = true)
    (hb : OpB t c.opi S) (hr : ∀ e, e ∈ c.refs r → S.Prot t e) (h : SeenIn t k x S)
    (hs : ∀ m : AMap K V, m k = x.map Entry.val → SpecOp c m r m) : Post t p0 c r S :=
  ⟨hb.1, hr, fun _ => .inr (h.read hb.2.2 hs), by cases c <;> trivial⟩

variable {p0 : List (Tid × Int)}

/-- If an operation panics: the reason is a documented one, its obligations are fulfilled, and an atomic operation has
not done anything. -/
def Call.PanicOk (C : Cfg K) (c : Call K V) (t : Tid) (r : PanicReason) (S : GSt K V) : Prop :=
  c.MayPanic C r ∧ Idle t S ∧ (c.atomic = true → S.FreshOp t)

instance {c : Call K V} {r : PanicReason} : Inert C t (c.PanicOk C t r) := by unfold Call.PanicOk; infer_instance

/-- The triple of each public operation. -/
abbrev CallTri (C : Cfg K) (t : Tid) (p0 : List (Tid × Int)) (c : Call K V) : Prop :=
  Tri C t (c.PanicOk C t) (c.guar t) (fun S => OpB t c.opi S ∧ PaysFrom p0 S) (c.prog C) (Post t p0 c)

theorem callB {c : Call K V} (h : Tri C t (PB (c.MayPanic C) (OpB t c.opi)) (c.guar t) (fun S => OpB t c.opi S ∧ PaysFrom p0 S)
    (c.prog C) (Post t p0 c)) : CallTri C t p0 c :=
  h.panics fun _ _ _ h => ⟨h.1, h.2.1, fun _ => h.2.2.2⟩

theorem callR {c : Call K V} (hc : c.atomic = false) (h : Tri C t (PB (c.MayPanic C) (OpR t c.opi)) (c.guar t)
    (fun S => OpB t c.opi S ∧ PaysFrom p0 S) (c.prog C) (Post t p0 c)) : CallTri C t p0 c :=
  h.panics fun _ _ _ h => ⟨h.1, h.2.1, fun hc' => by rw [hc] at hc'; cases hc'⟩

theorem call_get (k : K) : CallTri (V := V) C t p0 (.get k) := by
  refine ((tri_get (k := k)).frame (OpB t (Call.opi (.get k)))).conseq (fun S _ h => ⟨h.1.1.1, h.1⟩) ?_
  rintro r S h ⟨⟨h1, h2⟩, h3⟩
  refine post_read rfl h3 ?_ h1 ?_
  · intro e he
    cases r with
    | none => cases he
    | some e' => cases List.mem_singleton.1 he; exact (h2 e rfl).1
  · intro m hm
    refine ⟨?_, rfl⟩
    unfold AMap.at
    rw [hm]
    cases r with
    | none => rfl
    | some e => rw [← (h2 e rfl).2]; rfl

theorem call_containsKey (k : K) : CallTri (V := V) C t p0 (.containsKey k) := by
  refine Tri.bind (fun r S => SeenIn t k r S ∧ OpB t (Call.opi (.containsKey k)) S) ?_ ?_
  · refine ((tri_get (k := k)).frame (OpB t (Call.opi (.containsKey k)))).conseq (fun S _ h => ⟨h.1.1.1, h.1⟩) ?_
    exact fun r S _ h => ⟨h.1.1, h.2⟩
  · intro r
    refine Tri.ret fun S _ h => post_read rfl h.2 (fun e he => by cases he) h.1 ?_
    intro m hm
    refine ⟨?_, rfl⟩
    rw [hm]; cases r <;> rfl

theorem call_insert (k : K) (v : V) : CallTri C t p0 (.insert k v) := by
  refine callB ?_
  haveI : SysP C (Call.MayPanic C (.insert k v : Call K V)) := ⟨fun r h => h⟩
  have e1 : ∀ n : Entry K V, n.val = v → EvSpec (.insert k v : Call K V) (none : Option (Entry K V)) k none (some n) := by
    rintro n rfl m hm; refine ⟨?_, rfl⟩; unfold AMap.at; rw [hm]; rfl
  have e2 : ∀ (e n : Entry K V), e.key = k → n.val = v → EvSpec (.insert k v) (some e) k (some e) (some n) := by
    rintro e n rfl rfl m hm; refine ⟨?_, rfl⟩; unfold AMap.at; rw [hm]; rfl
  refine Tri.bind _ (Tri.pre (tri_insert (o := Call.opi (.insert k v)) rfl (fun id => opi_eff (c := .insert k v) rfl _ (e1 ⟨id, k, v⟩ rfl))
    (fun _ id e he => opi_eff (c := .insert k v) rfl _ (e2 e ⟨id, k, v⟩ he rfl))) fun S _ h => h.1) ?_
  rintro (e | ⟨old, new⟩ | ⟨cur, v'⟩)
  · refine Tri.ret fun S _ h => ?_
    obtain ⟨h1, h2, h3, h4, h5⟩ := h
    refine post_did rfl h1 (fun e he => by cases he) h2 ?_
    intro m hm; refine ⟨?_, ?_⟩
    · unfold AMap.at; rw [hm]; rfl
    · rw [← h5]; rfl
  · refine Tri.ret fun S _ h => ?_
    obtain ⟨_, h1, h2, h3, h4, h5, h6, h7⟩ := h
    exact post_did rfl h1 (fun e he => by cases List.mem_singleton.1 he; exact h3) h2 (e2 _ _ h5 h7)
  · exact Tri.false fun S _ h => by cases h.1

theorem tri_tryInsertProg {c : Call K V} (hm : c.opi.multi = false) [SysP C (c.MayPanic C)] {v : V}
    (he : ∀ id, c.opi.eff k none (some ⟨id, k, v⟩)) :
    Tri C t (PB (c.MayPanic C) (OpB t c.opi)) (Mo t) (OpB t c.opi) (Call.tryInsertProg C k v) (fun r S => match r with
      | .inl e => Idle t S ∧ DoneEv t k none (some e) S ∧ S.Prot t e ∧ e.key = k ∧ e.val = v
      | .inr (e, v') => OpB t c.opi S ∧ SeenIn t k (some e) S ∧ S.Prot t e ∧ e.key = k ∧ v' = v) := by
  refine Tri.bind _ (tri_insert (o := c.opi) hm he (by rintro ⟨⟩)) ?_
  rintro (e | ⟨old, new⟩ | ⟨cur, v'⟩)
  · exact Tri.ret fun S _ h => h
  · exact Tri.false fun S _ h => by cases h.1
  · exact Tri.ret fun S _ h => h.2

theorem call_tryInsert (k : K) (v : V) : CallTri C t p0 (.tryInsert k v) := by
  refine callB ?_
  haveI : SysP C (Call.MayPanic C (.tryInsert k v : Call K V)) := ⟨fun r h => h⟩
  have e1 : ∀ e : Entry K V, e.key = k → e.val = v → EvSpec (.tryInsert k v) (.inl e) k none (some e) := by
    rintro e rfl rfl m hm; exact ⟨hm, rfl, rfl⟩
  refine ((tri_tryInsertProg (c := .tryInsert k v) rfl (fun id => opi_eff rfl _ (e1 ⟨id, k, v⟩ rfl rfl))).conseq
    (fun S _ h => h.1) ?_)
  rintro (e | ⟨e, v'⟩) S _ h
  · exact post_did rfl h.1 (fun e he => by cases List.mem_singleton.1 he; exact h.2.2.1) h.2.1 (e1 e h.2.2.2.1 h.2.2.2.2)
  · obtain ⟨h1, h2, h3, h4, h5⟩ := h
    refine post_read rfl h1 (fun e he => by cases List.mem_singleton.1 he; exact h3) h2 ?_
    intro m hm
    refine ⟨?_, h5, rfl⟩
    unfold AMap.at; rw [hm, ← h4]; rfl

theorem call_getOrInsert (k : K) (v : V) : CallTri C t p0 (.getOrInsert k v) := by
  refine callB ?_
  haveI : SysP C (Call.MayPanic C (.getOrInsert k v : Call K V)) := ⟨fun r h => h⟩
  have e1 : ∀ e : Entry K V, e.key = k → e.val = v → EvSpec (.getOrInsert k v) e k none (some e) := by
    rintro e rfl rfl m hm; exact .inr ⟨hm, rfl, rfl⟩
  refine Tri.bind _ (Tri.pre (tri_tryInsertProg (c := .getOrInsert k v) rfl (fun id => opi_eff rfl _ (e1 ⟨id, k, v⟩ rfl rfl)))
    fun S _ h => h.1) ?_
  rintro (e | ⟨e, v'⟩)
  · exact Tri.ret fun S _ h => post_did rfl h.1 (fun e he => by cases List.mem_singleton.1 he; exact h.2.2.1) h.2.1
      (e1 e h.2.2.2.1 h.2.2.2.2)
  · refine Tri.ret fun S _ h => ?_
    obtain ⟨h1, h2, h3, h4, h5⟩ := h
    refine post_read rfl h1 (fun e he => by cases List.mem_singleton.1 he; exact h3) h2 ?_
    intro m hm
    refine .inl ⟨?_, rfl⟩
    unfold AMap.at; rw [hm, ← h4]; rfl

theorem call_tryInsertWith (k : K) (f : Closure Unit V) (hwf : f.WF) : CallTri C t p0 (.tryInsertWith k f) := by
  refine callB ?_
  haveI : SysP C (Call.MayPanic C (.tryInsertWith k f : Call K V)) := ⟨fun r h => .inl h⟩
  have e1 : ∀ e : Entry K V, e.key = k → Gives f e.val → EvSpec (.tryInsertWith k f) (.inl e) k none (some e) := by
    rintro e rfl hg m hm; exact ⟨hm, rfl, hg, rfl⟩
  refine (tri_tryInsertWith (o := Call.opi (.tryInsertWith k f)) (fun r h => .inr ⟨hwf _ _ _ h, by rw [h, hwf _ _ _ h]⟩) rfl
    (fun v id hv => opi_eff rfl _ (e1 ⟨id, k, v⟩ rfl hv))).conseq (fun S _ h => h.1) ?_
  rintro (e | e) S _ h
  · obtain ⟨h1, h2, h3, h4, h5⟩ := h
    exact post_did rfl h1 (fun e he => by cases List.mem_singleton.1 he; exact h4) h3 (e1 e h5 h2)
  · obtain ⟨h1, h2, h3, h4⟩ := h
    refine post_read rfl h1 (fun e he => by cases List.mem_singleton.1 he; exact h3) h2 ?_
    intro m hm
    refine ⟨?_, rfl⟩
    unfold AMap.at; rw [hm, ← h4]; rfl

theorem call_getOrInsertWith (k : K) (f : Closure Unit V) (hwf : f.WF) : CallTri C t p0 (.getOrInsertWith k f) := by
  refine callB ?_
  haveI : SysP C (Call.MayPanic C (.getOrInsertWith k f : Call K V)) := ⟨fun r h => .inl h⟩
  have e1 : ∀ e : Entry K V, e.key = k → Gives f e.val → EvSpec (.getOrInsertWith k f) e k none (some e) := by
    rintro e rfl hg m hm; exact .inr ⟨hm, rfl, hg, rfl⟩
  refine (tri_getOrInsertWith (o := Call.opi (.getOrInsertWith k f)) (fun r h => .inr ⟨hwf _ _ _ h, by rw [h, hwf _ _ _ h]⟩) rfl
    (fun v id hv => opi_eff rfl _ (e1 ⟨id, k, v⟩ rfl hv))).conseq (fun S _ h => h.1) ?_
  rintro e S _ (h | h)
  · obtain ⟨h1, h2, h3, h4, h5⟩ := h
    exact post_did rfl h1 (fun e he => by cases List.mem_singleton.1 he; exact h4) h3 (e1 e h5 h2)
  · obtain ⟨h1, h2, h3, h4⟩ := h
    refine post_read rfl h1 (fun e he => by cases List.mem_singleton.1 he; exact h3) h2 ?_
    intro m hm
    refine .inl ⟨?_, rfl⟩
    unfold AMap.at; rw [hm, ← h4]; rfl

theorem call_update (k : K) (f : Closure V V) (hwf : f.WF) : CallTri C t p0 (.update k f) := by
  refine callB ?_
  haveI : SysP C (Call.MayPanic C (.update k f : Call K V)) := ⟨fun r h => .inl h⟩
  have e1 : ∀ (calls) (e n : Entry K V), f.Made calls → n.key = k → (e.val, n.val) ∈ calls →
      EvSpec (.update k f) (⟨calls, some n⟩ : Called V V (Option (Entry K V))) k (some e) (some n) := by
    rintro calls e n hc rfl hg m hm; exact ⟨hc, rfl, e.val, hm, hg, rfl⟩
  refine (tri_update (o := Call.opi (.update k f)) (fun s x r hr h => .inr ⟨hwf _ _ _ h, s, x, hr, by rw [h, hwf _ _ _ h]⟩) rfl ?_).conseq (fun S _ h => h.1) ?_
  · rintro v id e he ⟨calls, h1, h2⟩
    exact opi_eff rfl _ (e1 calls e ⟨id, k, v⟩ h1 rfl h2)
  rintro ⟨calls, (_ | n)⟩ S _ ⟨h0, h⟩
  · refine post_read rfl h.1 (fun e he => by cases he) h.2 ?_
    intro m hm
    exact ⟨h0, hm, rfl⟩
  · obtain ⟨old, ⟨h1, h2, h3, h4, h5, h6, h7⟩, h8⟩ := h
    exact post_did rfl h1 (fun e he => by cases List.mem_singleton.1 he; exact h4) h2 (e1 calls old n h0 h6 h8)

theorem call_updateOrInsertWith (k : K) (u : Closure V V) (f : Closure Unit V) (hwu : u.WF) (hwf : f.WF) :
    CallTri C t p0 (.updateOrInsertWith k u f) := by
  refine callB ?_
  haveI : SysP C (Call.MayPanic C (.updateOrInsertWith k u f : Call K V)) := ⟨fun r h => .inl h⟩
  have e1 : ∀ (calls) (e n : Entry K V), u.Made calls → n.key = k → (e.val, n.val) ∈ calls →
      EvSpec (.updateOrInsertWith k u f) (⟨calls, n⟩ : Called V V (Entry K V)) k (some e) (some n) := by
    rintro calls e n hc rfl hg m hm
    refine ⟨hc, rfl, rfl, ?_⟩
    rw [hm]; exact hg
  have e2 : ∀ (calls) (n : Entry K V), u.Made calls → n.key = k → Gives f n.val →
      EvSpec (.updateOrInsertWith k u f) (⟨calls, n⟩ : Called V V (Entry K V)) k none (some n) := by
    rintro calls n hc rfl hg m hm
    refine ⟨hc, rfl, rfl, ?_⟩
    rw [hm]; exact hg
  refine (tri_updateOrInsertWith (o := Call.opi (.updateOrInsertWith k u f)) (fun s x r hr h => .inr ⟨hwu _ _ _ h, .inl ⟨s, x, hr, by rw [h, hwu _ _ _ h]⟩⟩)
    (fun r h => .inr ⟨hwf _ _ _ h, .inr (by rw [h, hwf _ _ _ h])⟩) rfl ?_ ?_).conseq (fun S _ h => h.1) ?_
  · exact fun v id hv => opi_eff rfl _ (e2 [] ⟨id, k, v⟩ ⟨_, .start⟩ rfl hv)
  · rintro v id e he ⟨calls, h1, h2⟩
    exact opi_eff rfl _ (e1 calls e ⟨id, k, v⟩ h1 rfl h2)
  rintro ⟨calls, n⟩ S _ ⟨h0, h | h⟩
  · obtain ⟨h1, h2, h3, h4, h5⟩ := h
    exact post_did rfl h1 (fun e he => by cases List.mem_singleton.1 he; exact h4) h3 (e2 calls n h0 h5 h2)
  · obtain ⟨old, ⟨h1, h2, h3, h4, h5, h6, h7⟩, h8⟩ := h
    exact post_did rfl h1 (fun e he => by cases List.mem_singleton.1 he; exact h4) h2 (e1 calls old n h0 h6 h8)

theorem gives_pure {v w : V} (h : Gives (Closure.pure fun _ => v) w) : w = v := by
  obtain ⟨s, h⟩ := h
  cases h; rfl

theorem call_updateOrInsert (k : K) (u : Closure V V) (v : V) (hwu : u.WF) :
    CallTri C t p0 (.updateOrInsert k u v) := by
  refine callB ?_
  haveI : SysP C (Call.MayPanic C (.updateOrInsert k u v : Call K V)) := ⟨fun r h => .inl h⟩
  have e1 : ∀ (calls) (e n : Entry K V), u.Made calls → n.key = k → (e.val, n.val) ∈ calls →
      EvSpec (.updateOrInsert k u v) (⟨calls, n⟩ : Called V V (Entry K V)) k (some e) (some n) := by
    rintro calls e n hc rfl hg m hm
    refine ⟨hc, rfl, rfl, ?_⟩
    rw [hm]; exact hg
  have e2 : ∀ (calls) (n : Entry K V), u.Made calls → n.key = k → Gives (Closure.pure fun _ => v) n.val →
      EvSpec (.updateOrInsert k u v) (⟨calls, n⟩ : Called V V (Entry K V)) k none (some n) := by
    rintro calls n hc rfl hg m hm
    refine ⟨hc, rfl, rfl, ?_⟩
    rw [hm]; exact gives_pure hg
  refine (tri_updateOrInsertWith (o := Call.opi (.updateOrInsert k u v)) (fun s x r hr h => .inr ⟨hwu _ _ _ h, s, x, hr, by rw [h, hwu _ _ _ h]⟩)
    (fun r h => by cases h) rfl ?_ ?_).conseq (fun S _ h => h.1) ?_
  · exact fun v' id hv => opi_eff rfl _ (e2 [] ⟨id, k, v'⟩ ⟨_, .start⟩ rfl hv)
  · rintro v id e he ⟨calls, h1, h2⟩
    exact opi_eff rfl _ (e1 calls e ⟨id, k, v⟩ h1 rfl h2)
  rintro ⟨calls, n⟩ S _ ⟨h0, h | h⟩
  · obtain ⟨h1, h2, h3, h4, h5⟩ := h
    exact post_did rfl h1 (fun e he => by cases List.mem_singleton.1 he; exact h4) h3 (e2 calls n h0 h5 h2)
  · obtain ⟨old, ⟨h1, h2, h3, h4, h5, h6, h7⟩, h8⟩ := h
    exact post_did rfl h1 (fun e he => by cases List.mem_singleton.1 he; exact h4) h2 (e1 calls old n h0 h6 h8)

/-- Any closure may be passed to `compute`. -/
def userProto {R : Type} {f : Closure (Option (K × V)) (Operation V R)}
    (hp : ∀ s x r, f.Run s → OnceNone s.calls → (x = none → ∀ v, (none, .insert v) ∉ s.calls) →
      f.call s.st x = .error r → Ap r)
    (hr : ∀ calls, f.Made calls → OnceNone calls → (none, .remove) ∈ calls → Ap .removeNone) : Proto Ap f where
  J s ins := OnceNone s.calls ∧ (ins = none → ∀ v, (none, .insert v) ∉ s.calls)
  init := ⟨List.Pairwise.nil, fun _ _ h => by cases h⟩
  none_ok s s' v _ hj _ := ⟨hj.1.snoc fun _ => hj.2 rfl, by rintro ⟨⟩⟩
  none_err s r h1 hj h := hp _ _ _ h1 hj.1 (fun _ => hj.2 rfl) h
  some_ok s s' x op ins _ hj _ := by
    refine ⟨hj.1.snoc (by rintro ⟨⟩), fun hi v hm => ?_⟩
    rcases List.mem_append.1 hm with h | h
    · exact hj.2 hi v h
    · cases List.mem_singleton.1 h
  some_err s x r ins h1 hj h := hp _ _ _ h1 hj.1 (by rintro ⟨⟩) h
  removeNone s h1 h2 h3 := hr _ h1.made h2 h3

theorem call_compute {R : Type} (k : K) (f : Closure (Option (K × V)) (Operation V R)) (hwf : f.WF) :
    CallTri C t p0 (.compute k f) := by
  refine callB ?_
  haveI : SysP C (Call.MayPanic C (.compute k f : Call K V)) := ⟨fun r h => .inl h⟩
  have e1 : ∀ (calls) (n : Entry K V), f.Made calls → OnceNone calls → n.key = k → (none, .insert n.val) ∈ calls →
      EvSpec (.compute k f) (⟨calls, .inserted n⟩ : Called (Option (K × V)) (Operation V R) (Compute K V R)) k none (some n) := by
    rintro calls n hc hc' rfl hg m hm
    exact ⟨hc, hc', hm, rfl, hg, rfl⟩
  have e2 : ∀ (calls) (e n : Entry K V), f.Made calls → OnceNone calls → e.key = k → n.key = k → (some (e.key, e.val), .insert n.val) ∈ calls →
      EvSpec (.compute k f) (⟨calls, .updated e n⟩ : Called (Option (K × V)) (Operation V R) (Compute K V R)) k (some e) (some n) := by
    rintro calls e n hc hc' rfl he hg m hm
    refine ⟨hc, hc', ?_, he, hg, rfl⟩
    unfold AMap.at; rw [hm]; rfl
  have e3 : ∀ (calls) (e : Entry K V), f.Made calls → OnceNone calls → e.key = k → (some (e.key, e.val), .remove) ∈ calls →
      EvSpec (.compute k f) (⟨calls, .removed e⟩ : Called (Option (K × V)) (Operation V R) (Compute K V R)) k (some e) none := by
    rintro calls e hc hc' rfl hg m hm
    refine ⟨hc, hc', ?_, hg, rfl⟩
    unfold AMap.at; rw [hm]; rfl
  refine (tri_compute (o := Call.opi (.compute k f)) (userProto
    (fun s x r h1 h2 h3 h => .inr (.inl ⟨hwf _ _ _ h, s, x, h1, h2, h3, by rw [h, hwf _ _ _ h]⟩))
    (fun calls h1 h2 h3 => .inr (.inr ⟨rfl, calls, h1, h2, h3⟩))) ⟨rfl, ?_, ?_, ?_⟩).conseq (fun S _ h => h.1) ?_
  · rintro v id ⟨calls, h1, h1', h2⟩
    exact opi_eff rfl _ (e1 calls ⟨id, k, v⟩ h1 h1' rfl h2)
  · rintro v id e he ⟨calls, h1, h1', h2⟩
    exact opi_eff rfl _ (e2 calls e ⟨id, k, v⟩ h1 h1' he rfl h2)
  · rintro e he ⟨calls, h1, h1', h2⟩
    exact opi_eff rfl _ (e3 calls e h1 h1' he h2)
  rintro ⟨calls, (e | ⟨old, new⟩ | e | ⟨a, _ | e⟩)⟩ S _ ⟨⟨h0, h0'⟩, h⟩
  · obtain ⟨h1, h2, h3, h4, h5⟩ := h
    exact post_did rfl h1 (fun e he => by cases List.mem_singleton.1 he; exact h3) h2 (e1 calls e h0 h0' h4 h5)
  · obtain ⟨⟨h1, h2, h3, h4, h5, h6, h7⟩, h8⟩ := h
    refine post_did rfl h1 (fun e he => ?_) h2 (e2 calls old new h0 h0' h5 h6 h8)
    rcases List.mem_cons.1 he with rfl | he
    · exact h3
    · cases List.mem_singleton.1 he; exact h4
  · obtain ⟨⟨h1, h2, h3, h4⟩, h5⟩ := h
    exact post_did rfl h1 (fun e he => by cases List.mem_singleton.1 he; exact h3) h2 (e3 calls e h0 h0' h4 h5)
  · obtain ⟨h1, h2, h3⟩ := h
    refine post_read rfl h1 (fun e he => by cases he) h2 ?_
    intro m hm
    have ha : m.at k = none := by unfold AMap.at; rw [hm]; rfl
    refine ⟨h0, h0', ?_⟩
    show m.at k = _ ∧ (m.at k, _) ∈ calls ∧ m = m
    rw [ha]; exact ⟨rfl, h3, rfl⟩
  · obtain ⟨h1, h2, h3, h4, h5⟩ := h
    refine post_read rfl h1 (fun e he => by cases List.mem_singleton.1 he; exact h3) h2 ?_
    intro m hm
    have ha : m.at k = some e.kv := by unfold AMap.at; rw [hm, ← h4]; rfl
    refine ⟨h0, h0', ?_⟩
    show m.at k = _ ∧ (m.at k, _) ∈ calls ∧ m = m
    rw [ha]; exact ⟨rfl, h5, rfl⟩

theorem call_remove (k : K) : CallTri (V := V) C t p0 (.remove k) := by
  refine callB ?_
  haveI : SysP C (Call.MayPanic C (.remove k : Call K V)) := ⟨fun r h => h⟩
  have e1 : ∀ e : Entry K V, e.key = k → EvSpec (.remove k) (some e) k (some e) none := by
    rintro e rfl m hm; refine ⟨?_, rfl⟩; unfold AMap.at; rw [hm]; rfl
  refine (tri_remove (o := Call.opi (.remove k)) (fun e he => opi_eff rfl _ (e1 e he))).conseq (fun S _ h => h.1) ?_
  rintro (_ | e) S _ h
  · refine post_read rfl h.1 (fun e he => by cases he) h.2 ?_
    intro m hm
    refine ⟨by unfold AMap.at; rw [hm]; rfl, ?_⟩
    funext k'
    unfold AMap.put
    split
    · rename_i hk; rw [hk, hm]; rfl
    · rfl
  · obtain ⟨h1, h2, h3, h4⟩ := h
    exact post_did rfl h1 (fun e he => by cases List.mem_singleton.1 he; exact h3) h2 (e1 e h4)

theorem call_removeIf (k : K) (f : Closure (K × V) Bool) (hwf : f.WF) : CallTri C t p0 (.removeIf k f) := by
  refine callB ?_
  haveI : SysP C (Call.MayPanic C (.removeIf k f : Call K V)) := ⟨fun r h => .inl h⟩
  have e1 : ∀ (calls) (e : Entry K V), f.Made calls → e.key = k → ((e.key, e.val), true) ∈ calls →
      EvSpec (.removeIf k f) (⟨calls, .removed e⟩ : Called (K × V) Bool (RemRes K V)) k (some e) none := by
    rintro calls e hc rfl hg m hm
    refine ⟨hc, ?_, hg, rfl⟩
    unfold AMap.at; rw [hm]; rfl
  refine (tri_removeIf (o := Call.opi (.removeIf k f)) (fun s x r hr h => .inr ⟨hwf _ _ _ h, s, x, hr, by rw [h, hwf _ _ _ h]⟩) ?_).conseq (fun S _ h => h.1) ?_
  · rintro e he ⟨calls, h1, h2⟩
    exact opi_eff rfl _ (e1 calls e h1 he h2)
  rintro ⟨calls, (_ | e | e)⟩ S _ ⟨h0, h⟩
  · refine post_read rfl h.1 (fun e he => by cases he) h.2 ?_
    intro m hm
    exact ⟨h0, hm, rfl⟩
  · obtain ⟨⟨h1, h2, h3, h4⟩, h5⟩ := h
    exact post_did rfl h1 (fun e he => by cases List.mem_singleton.1 he; exact h3) h2 (e1 calls e h0 h4 h5)
  · obtain ⟨h1, h2, h3, h4, h5⟩ := h
    refine post_read rfl h1 (fun e he => by cases List.mem_singleton.1 he; exact h3) h2 ?_
    intro m hm
    refine ⟨h0, ?_, h5, rfl⟩
    unfold AMap.at; rw [hm, ← h4]; rfl

theorem call_clear : CallTri (K := K) (V := V) C t p0 .clear := by
  refine callR rfl ?_
  haveI : SysP C (Call.MayPanic C (.clear : Call K V)) := ⟨fun r h => h⟩
  refine (tri_clear (o := Call.opi .clear) rfl (fun e => .inr ⟨e, rfl, rfl, rfl, trivial⟩)).conseq (fun S _ h => h.1) ?_
  exact fun r S _ h => ⟨h.1.1.1, (fun e he => by cases he), (by rintro ⟨⟩), h.2⟩

theorem call_retain (f : Closure (K × V) Bool) (hwf : f.WF) : CallTri C t p0 (.retain f) := by
  refine callR rfl ?_
  haveI : SysP C (Call.MayPanic C (.retain f : Call K V)) := ⟨fun r h => .inl h⟩
  refine (tri_retain (o := Call.opi (.retain f)) rfl (fun s x r hr h => .inr ⟨hwf _ _ _ h, s, x, hr, by rw [h, hwf _ _ _ h]⟩)
    (fun e he => .inr ⟨e, rfl, rfl, rfl, he⟩)).conseq (fun S _ h => h.1) ?_
  exact fun r S _ h => ⟨h.2.1.1.1, (fun e he => by cases he), (by rintro ⟨⟩), h.1, h.2.1.2, h.2.2⟩

theorem call_iter : CallTri (K := K) (V := V) C t p0 .iter := by
  have : SysA C (fun r (_ : GSt K V) => Call.MayPanic C (.iter : Call K V) r) := ⟨fun r _ h => h⟩
  refine callB (((tri_iterUpTo (lim := none) (Ap := fun r _ => Call.MayPanic C (.iter : Call K V) r)).frameP (OpB t (Call.opi .iter))).conseq
    (fun S _ h => ⟨h.1.1.1, h.1⟩) ?_)
  exact fun r S _ h => ⟨h.2.1, (fun e he => (h.1.1.1 e he).2), (by rintro ⟨⟩), h.1.1, h.1.2.2 rfl⟩

theorem call_iterTake (n : Nat) : CallTri (K := K) (V := V) C t p0 (.iterTake n) := by
  have : SysA C (fun r (_ : GSt K V) => Call.MayPanic C (.iterTake n : Call K V) r) := ⟨fun r _ h => h⟩
  refine callB (((tri_iterUpTo (lim := some n) (Ap := fun r _ => Call.MayPanic C (.iterTake n : Call K V) r)).frameP
    (OpB t (Call.opi (.iterTake n)))).conseq (fun S _ h => ⟨h.1.1.1, h.1⟩) ?_)
  exact fun r S _ h => ⟨h.2.1, (fun e he => (h.1.1.1 e he).2), (by rintro ⟨⟩), h.1.1, h.1.2.1 n rfl,
    fun hl => h.1.2.2 (decide_eq_false (Nat.not_le.2 hl))⟩

theorem call_len : CallTri (K := K) (V := V) C t p0 .len := by
  refine ((tri_lenIs (fun S => Mt.refl t S)).frame (OpB t (Call.opi .len))).conseq (fun S _ h => ⟨h.2, h.1⟩) ?_
  exact fun r S _ h => ⟨h.2.1, (fun e he => by cases he), (by rintro ⟨⟩), h.1⟩

theorem call_isEmpty : CallTri (K := K) (V := V) C t p0 .isEmpty := by
  refine Tri.bind _ (((tri_lenIs (fun S => Mt.refl t S)).frame (OpB t (Call.opi .isEmpty))).pre fun S _ h => ⟨h.2, h.1⟩) ?_
  exact fun n => Tri.ret fun S _ h => ⟨h.2.1, (fun e he => by cases he), (by rintro ⟨⟩), n, h.1, rfl⟩

theorem call_reserve (n : Nat) : CallTri (K := K) (V := V) C t p0 (.reserve n) := by
  have : SysA C (fun r (_ : GSt K V) => Call.MayPanic C (.reserve n : Call K V) r) := ⟨fun r _ h => .inl h⟩
  refine callB (((tri_reserve (Ap := fun r _ => Call.MayPanic C (.reserve n : Call K V) r) (fun _ => .inr rfl)).frameP
    (OpB t (Call.opi (.reserve n)))).conseq (fun S _ h => ⟨⟨h.1.1.1, h.2⟩, h.1⟩) ?_)
  exact fun r S _ h => ⟨h.2.1, (fun e he => by cases he), (by rintro ⟨⟩), h.1⟩

/-- Every public operation satisfies its specification, whatever the other threads do. -/
theorem tri_call (c : Call K V) (hwf : c.WF) : CallTri C t p0 c := by
  cases c with
  | get k => exact call_get k
  | containsKey k => exact call_containsKey k
  | insert k v => exact call_insert k v
  | tryInsert k v => exact call_tryInsert k v
  | tryInsertWith k f => exact call_tryInsertWith k f hwf
  | getOrInsert k v => exact call_getOrInsert k v
  | getOrInsertWith k f => exact call_getOrInsertWith k f hwf
  | update k f => exact call_update k f hwf
  | updateOrInsert k u v => exact call_updateOrInsert k u v hwf
  | updateOrInsertWith k u f => exact call_updateOrInsertWith k u f hwf.1 hwf.2
  | compute k f => exact call_compute k f hwf
  | remove k => exact call_remove k
  | removeIf k f => exact call_removeIf k f hwf
  | clear => exact call_clear
  | retain f => exact call_retain f hwf
  | iter => exact call_iter
  | iterTake n => exact call_iterTake n
  | len => exact call_len
  | isEmpty => exact call_isEmpty
  | reserve n => exact call_reserve n

end Papaya
