import Verif.Proof.WeakOps

/-! # `compute` and the public operations on weakly ordered memory -/

set_option linter.unusedSectionVars false
set_option linter.unusedVariables false

namespace Papaya

variable {K V : Type} [DecidableEq K] {D : K → V → Prop} {F : Kn K V} {C : Cfg K}

local notation "KN" => Obs' (knSys D F)

open Obs'

namespace Wk

section
variable {R : Type} {f : Closure (Option (K × V)) (Operation V R)} {J : f.S → Prop} {A : Option (K × V) → Prop}
  {B : Option (K × V) → Operation V R → Prop} {k : K}

/-- What is assumed of the closure. -/
structure CH (D : K → V → Prop) (F : Kn K V) (f : Closure (Option (K × V)) (Operation V R)) (J : f.S → Prop)
    (A : Option (K × V) → Prop) (B : Option (K × V) → Operation V R → Prop) (k : K) : Prop where
  wf : ∀ s i r, f.call s i = .error r → r ≠ .unreachableCode
  init : J f.init
  call : ∀ s i s' o, J s → A i → f.call s i = .ok (s', o) → J s' ∧ B i o
  none : A none
  ent : ∀ e, EntK F k e → A (some (e.key, e.val))
  ins : ∀ i v, A i → B i (.insert v) → D k v

/-- The answer `o` was given to some entry. -/
def AnsS (A : Option (K × V) → Prop) (B : Option (K × V) → Operation V R → Prop) (o : Operation V R) : Prop :=
  ∃ kv, A (some kv) ∧ B (some kv) o

/-- Invariant of the cached answers. -/
def CI (J : f.S → Prop) (A : Option (K × V) → Prop) (B : Option (K × V) → Operation V R → Prop) (c : CState K V R f) : Prop :=
  J c.st.st ∧ (∀ v, c.insert = some v → B none (.insert v)) ∧ ∀ id o, c.update = some (id, o) → AnsS A B o

/-- Results of `compute`. -/
def CompOk (F : Kn K V) (A : Option (K × V) → Prop) (B : Option (K × V) → Operation V R → Prop) (k : K) : Compute K V R → Prop
  | .inserted e => EntK F k e ∧ ∃ v, B none (.insert v)
  | .updated old new => EntK F k old ∧ EntK F k new ∧ ∃ v, AnsS A B (.insert v)
  | .removed e => EntK F k e ∧ AnsS A B .remove
  | .aborted a seen => (∀ e, seen = some e → EntK F k e ∧ AnsS A B (.abort a)) ∧ (seen = none → B none (.abort a))

theorem kn_invokeC (H : CH D F f J A B k) {s : f.Tr} {i : Option (K × V)} (hJ : J s.st) (hi : A i) :
    KN (f.invoke s i) (fun x => J x.1.st ∧ B i x.2) := by
  unfold Closure.invoke
  cases h : f.call s.st i with
  | ok x => exact ret' (H.call _ _ _ _ hJ hi h)
  | error r => exact panic (H.wf _ _ _ h)

theorem kn_nextNone (H : CH D F f J A B k) {c : CState K V R f} (hc : CI J A B c) :
    KN (c.next none) (fun x => CI J A B x.1 ∧ B none x.2) := by
  unfold CState.next
  dsimp only
  split
  · rename_i v hv
    exact ret' ⟨⟨hc.1, (fun _ h => by cases h), hc.2.2⟩, hc.2.1 v hv⟩
  · refine bind _ (kn_invokeC H hc.1 H.none) fun x hx => ?_
    exact ret ⟨⟨hx.1, hc.2⟩, hx.2⟩

theorem kn_nextSome (H : CH D F f J A B k) {c : CState K V R f} (hc : CI J A B c) {e : Entry K V} (he : EntK F k e) :
    KN (c.next (some e)) (fun x => CI J A B x.1 ∧ AnsS A B x.2) := by
  unfold CState.next
  dsimp only
  split
  · rename_i id op hu
    refine step ⟨trivial, trivial⟩ fun b _ => ite (fun _ => ret ?_) fun _ => ?_
    · exact ⟨⟨hc.1, hc.2.1, fun _ _ h => by cases h⟩, hc.2.2 id op hu⟩
    · refine step ⟨he.1, trivial⟩ fun _ _ => bind _ (kn_invokeC H hc.1 (H.ent e he)) fun x hx => ?_
      exact ret ⟨⟨hx.1, hc.2.1, fun _ _ h => by cases h⟩, _, H.ent e he, hx.2⟩
  · refine step ⟨he.1, trivial⟩ fun _ _ => bind _ (kn_invokeC H hc.1 (H.ent e he)) fun x hx => ?_
    exact ret ⟨⟨hx.1, hc.2⟩, _, H.ent e he, hx.2⟩

theorem kn_restoreSome {c : CState K V R f} (hc : CI J A B c) {e : Entry K V} {o : Operation V R} (ho : AnsS A B o) :
    KN (c.restore (some e) o) (CI J A B) :=
  ret' ⟨hc.1, hc.2.1, fun _ _ h => by cases h; exact ho⟩

theorem kn_restoreNone {c : CState K V R f} (hc : CI J A B c) {v : V} (ho : B none (.insert v)) :
    KN (c.restore none (.insert v)) (CI J A B) :=
  ret' ⟨hc.1, (fun _ h => by cases h; exact ho), hc.2.2⟩

/-- How the probe loop of `compute` continues. -/
def PrOk (F : Kn K V) (J : f.S → Prop) (A : Option (K × V) → Prop) (B : Option (K × V) → Operation V R → Prop) (k : K) (T : Table)
    (x : (CState K V R f × Probe) ⊕ (CState K V R f × WOut (Compute K V R))) : Prop :=
  Sum.elim (fun x : CState K V R f × Probe => CI J A B x.1 ∧ x.2.i < T.len)
    (fun x : CState K V R f × WOut (Compute K V R) => CI J A B x.1 ∧ WOk T (CompOk F A B k) x.2) x

theorem kn_computeFailure (H : CH D F f J A B k) {T : Table} {probe : Probe} (hp : probe.i < T.len)
    (hk : F.key T.id probe.i = some k) {c : CState K V R f} (hc : CI J A B c) {st : EStat K V} (hs : StIn F T.id probe.i st) :
    KN (computeFailure T probe c st)
      (fun x => Sum.elim (fun x : CState K V R f × Entry K V × Slot K V => CI J A B x.1 ∧ EntK F k x.2.1) (PrOk F J A B k T) x) := by
  unfold computeFailure
  cases st with
  | copied e s => exact ret ⟨hc, fun i h => by cases h; exact hp⟩
  | value e s => exact ret ⟨hc, hs.1, Option.some.inj (hs.2.1.symm.trans hk)⟩
  | null =>
    refine bind _ (kn_nextNone H hc) ?_
    rintro ⟨c, op⟩ ⟨hc, ho⟩
    cases op with
    | insert v => exact bind _ (kn_restoreNone hc ho) fun c hc => ret ⟨hc, next_lt⟩
    | remove => exact panic np
    | abort a => exact ret ⟨hc, (fun _ h => by cases h), fun _ => ho⟩

theorem kn_computeLoop (H : CH D F f J A B k) {T : Table} (hT : tb F T) {probe : Probe} (hp : probe.i < T.len)
    (hk : F.key T.id probe.i = some k) {c : CState K V R f} (hc : CI J A B c) {e : Entry K V} {s : Slot K V} (he : EntK F k e) :
    KN (computeLoop C k T probe c e s) (PrOk F J A B k T) := by
  unfold computeLoop
  refine loop (fun x : CState K V R f × Entry K V × Slot K V => CI J A B x.1 ∧ EntK F k x.2.1) ⟨hc, he⟩ ?_
  rintro ⟨c, e, s⟩ ⟨hc, he⟩
  refine bind _ (kn_nextSome H hc he) ?_
  rintro ⟨c, op⟩ ⟨hc, ho⟩
  have ho : AnsS A B op := ho
  cases op with
  | abort a => exact ret ⟨hc, (fun _ h => by cases h; exact ⟨he, ho⟩), fun h => by cases h⟩
  | insert v =>
    have hD : D k v := by obtain ⟨kv, h1, h2⟩ := ho; exact H.ins _ _ h1 h2
    refine bind _ (kn_updateAtNew hT hp he.1 hk hD) fun x hx => ?_
    cases x with
    | replaced new =>
      obtain ⟨e', rfl, h1, _⟩ := hx
      exact ret ⟨hc, he, h1, v, ho⟩
    | found st => exact bind _ (kn_restoreSome hc ho) fun c hc => kn_computeFailure H hp hk hc hx
  | remove =>
    refine bind _ (kn_updateAtTomb hT hp he.1) fun x hx => ?_
    cases x with
    | replaced new => exact step ⟨hasIx hT hp, trivial⟩ fun _ _ => step ⟨trivial, trivial⟩ fun _ _ => ret ⟨hc, he, ho⟩
    | found st => exact bind _ (kn_restoreSome hc ho) fun c hc => kn_computeFailure H hp hk hc hx

theorem kn_computeFound (H : CH D F f J A B k) {T : Table} (hT : tb F T) {probe : Probe} (hp : probe.i < T.len)
    {c : CState K V R f} (hc : CI J A B c) {e : Entry K V} {s : Slot K V} (he : F.view.ent e)
    (hk : F.key T.id probe.i = some e.key) : KN (computeFound C k T probe c e s) (PrOk F J A B k T) := by
  unfold computeFound
  refine step ⟨he, trivial⟩ fun _ _ => ite (fun _ => ret ⟨hc, next_lt⟩) fun h => ?_
  have h : e.key = k := not_not.1 h
  exact ite (fun _ => ret ⟨hc, fun i h => by cases h; exact hp⟩) fun _ => kn_computeLoop H hT hp (h ▸ hk) hc ⟨he, h⟩

theorem kn_computeProbe (H : CH D F f J A B k) {T : Table} (hT : tb F T) {c : CState K V R f} (hc : CI J A B c) :
    KN (computeProbe C k T c) (fun x => CI J A B x.1 ∧ WOk T (CompOk F A B k) x.2) := by
  unfold computeProbe
  refine loop (fun x : CState K V R f × Probe => CI J A B x.1 ∧ x.2.i < T.len) ⟨hc, start_lt⟩ ?_
  rintro ⟨c, probe⟩ ⟨hc, hp⟩
  have hp : probe.i < T.len := hp
  refine ite (fun _ => ?_) fun _ => ret ⟨hc, fun i h => by cases h⟩
  refine step ⟨hasIx hT hp, trivial⟩ fun m _ => ite (fun _ => ?_) fun _ => ite (fun _ => ?_) fun _ => ret ⟨hc, next_lt⟩
  · refine bind _ (kn_nextNone H hc) ?_
    rintro ⟨c, op⟩ ⟨hc, ho⟩
    cases op with
    | remove => exact panic np
    | abort a => exact ret ⟨hc, (fun _ h => by cases h), fun _ => ho⟩
    | insert v =>
      refine bind _ (kn_insertAt hT hp (H.ins _ _ H.none ho)) fun x hx => ?_
      cases x with
      | inserted e => exact step ⟨trivial, trivial⟩ fun _ _ => ret ⟨hc, hx.1, v, ho⟩
      | found st =>
        cases st with
        | null => exact bind _ (kn_restoreNone hc ho) fun c hc => ret ⟨hc, next_lt⟩
        | copied e s => exact bind _ (kn_restoreNone hc ho) fun c hc => kn_computeFound H hT hp hc hx.1 hx.2.1
        | value e s => exact bind _ (kn_restoreNone hc ho) fun c hc => kn_computeFound H hT hp hc hx.1 hx.2.1
  · refine step ⟨hasIx hT hp, trivial⟩ fun s hs => ?_
    have hs : F.SlotIn T.id probe.i s := hs
    cases h : s.ptr with
    | none => exact ret ⟨hc, next_lt⟩
    | some e => exact kn_computeFound H hT hp hc (hs e h).1 (hs e h).2

theorem kn_compute (H : CH D F f J A B k) : KN (compute C k f) (fun x => CompOk F A B k x.out) := by
  unfold compute
  have h0 : CI J A B (CState.new f : CState K V R f) := ⟨H.init, (fun _ h => by cases h), fun _ _ h => by cases h⟩
  refine bind (fun x => Sum.elim (fun x : CState K V R f × Table => CI J A B x.1 ∧ tb F x.2)
    (fun x : CState K V R f × R => B none (.abort x.2)) x) ?_ fun x hx => ?_
  · unfold computeInit
    refine step ⟨trivial, trivial⟩ fun r hr => ?_
    cases r with
    | some T => exact ret ⟨h0, hr T rfl⟩
    | none =>
      refine bind _ (kn_nextNone H h0) ?_
      rintro ⟨c, op⟩ ⟨hc, ho⟩
      cases op with
      | insert v => exact bind _ (kn_restoreNone hc ho) fun c hc => bind _ kn_initTable fun T hT => ret ⟨hc, hT⟩
      | remove => exact panic np
      | abort a => exact ret ho
  · rcases x with ⟨c, T⟩ | ⟨c, a⟩
    · refine loop (fun x : Table × Bool × CState K V R f => tb F x.1 ∧ CI J A B x.2.2) ⟨hx.2, hx.1⟩ ?_
      rintro ⟨T, help, c⟩ ⟨hT, hc⟩
      refine bind _ (kn_computeProbe H hT hc) ?_
      rintro ⟨c, x⟩ ⟨hc, hx⟩
      cases x with
      | done r => exact ret hx
      | retry cp =>
        refine bind _ (kn_prepareRetry hT hx) fun r hr => ?_
        cases r with
        | some N => exact ret ⟨hr N rfl, hc⟩
        | none =>
          refine bind _ (kn_nextNone H hc) ?_
          rintro ⟨c, op⟩ ⟨hc, ho⟩
          cases op with
          | insert v =>
            exact bind _ (kn_prepareRetryInsert hT fun _ h => by cases h) fun N hN => bind _ (kn_restoreNone hc ho) fun c hc => ret ⟨hN, hc⟩
          | remove => exact panic np
          | abort a => exact ret ⟨(fun _ h => by cases h), fun _ => ho⟩
    · exact ret ⟨(fun _ h => by cases h), fun _ => hx⟩

end

/-! ## The operations built on `compute` -/

variable (hD : ∀ e, F.view.ent e → D e.key e.val)
include hD

theorem entD {k : K} {e : Entry K V} (h : EntK F k e) : D k e.val := h.2 ▸ hD e h.1

theorem kn_tryInsertWith {k : K} {f : Closure Unit V} (hf : f.WF) (hm : f.Maps (fun _ => True) fun _ v => D k v) :
    KN (tryInsertWith C k f) (fun x => Sum.elim (EntK F k) (EntK F k) x) := by
  obtain ⟨J, j0, j1⟩ := hm
  have H : CH D F (tryInsertClosure (K := K) f) (fun s => ∀ x, s = some x → J x) (fun _ => True)
      (fun i o => (i = none → ∃ v, o = .insert v) ∧ (∀ v, o = .insert v → i = none ∧ D k v) ∧ o ≠ .remove) k := by
    refine ⟨?_, ?_, ?_, trivial, fun _ _ => trivial, fun i v _ h => (h.2.1 v rfl).2⟩
    · intro s i r h
      simp only [tryInsertClosure] at h
      split at h
      · cases h
      · split at h
        · cases h; decide
        · split at h
          · cases h
          · rename_i hc; cases h; rw [hf _ _ _ hc]; decide
    · intro x hx; cases hx; exact j0
    · intro s i s' o hs _ h
      simp only [tryInsertClosure] at h
      split at h
      · cases h
        exact ⟨hs, (fun h => by cases h), (fun v h => by cases h), fun h => by cases h⟩
      · split at h
        · cases h
        · split at h
          · rename_i hc
            cases h
            have := j1 _ _ _ _ (hs _ rfl) trivial hc
            refine ⟨(fun _ h => by cases h), (fun _ => ⟨_, rfl⟩), fun v h => ?_, fun h => by cases h⟩
            cases h; exact ⟨rfl, this.2⟩
          · cases h
  unfold tryInsertWith
  refine bind _ (kn_compute H) fun x hx => ?_
  cases h : x.out with
  | inserted e => rw [h] at hx; exact ret hx.1
  | updated old new =>
    rw [h] at hx
    obtain ⟨_, _, v, kv, _, h1⟩ := hx
    cases (h1.2.1 v rfl).1
  | removed e => rw [h] at hx; obtain ⟨_, kv, _, h1⟩ := hx; exact absurd rfl h1.2.2
  | aborted a seen =>
    rw [h] at hx
    cases seen with
    | none => obtain ⟨v, h1⟩ := (hx.2 rfl).1 rfl; cases h1
    | some e => exact ret (hx.1 e rfl).1

theorem kn_getOrInsertWith {k : K} {f : Closure Unit V} (hf : f.WF) (hm : f.Maps (fun _ => True) fun _ v => D k v) :
    KN (getOrInsertWith C k f) (EntK F k) := by
  unfold getOrInsertWith
  refine bind _ (kn_tryInsertWith hD hf hm) fun x hx => ?_
  cases x <;> exact ret hx

theorem kn_update {k : K} {f : Closure V V} (hf : f.WF) (hm : f.Maps (D k) fun _ v => D k v) :
    KN (update C k f) (fun x => ∀ e, x.out = some e → EntK F k e) := by
  obtain ⟨J, j0, j1⟩ := hm
  have H : CH D F (updateClosure (K := K) f) J (fun i => ∀ kv, i = some kv → D k kv.2)
      (fun i o => (i = none → ∃ a, o = .abort a) ∧ (∀ v, o = .insert v → D k v) ∧ o ≠ .remove) k := by
    refine ⟨?_, j0, ?_, (fun _ h => by cases h), (fun e he kv h => by cases h; exact entD hD he), fun i v _ h => h.2.1 v rfl⟩
    · intro s i r h
      simp only [updateClosure] at h
      split at h
      · cases h
      · split at h
        · cases h
        · rename_i hc; cases h; rw [hf _ _ _ hc]; decide
    · intro s i s' o hs hi h
      simp only [updateClosure] at h
      split at h
      · cases h
        exact ⟨hs, (fun _ => ⟨_, rfl⟩), (fun v h => by cases h), fun h => by cases h⟩
      · split at h
        · rename_i hc
          cases h
          have := j1 _ _ _ _ hs (hi _ rfl) hc
          exact ⟨this.1, (fun h => by cases h), (fun v h => by cases h; exact this.2), fun h => by cases h⟩
        · cases h
  unfold update
  refine bind _ (kn_compute H) fun x hx => ?_
  cases h : x.out with
  | inserted e => rw [h] at hx; obtain ⟨_, v, h1⟩ := hx; obtain ⟨a, h2⟩ := h1.1 rfl; cases h2
  | updated old new => rw [h] at hx; exact ret fun e h => by cases h; exact hx.2.1
  | removed e => rw [h] at hx; obtain ⟨_, kv, _, h1⟩ := hx; exact absurd rfl h1.2.2
  | aborted a seen => exact ret fun e h => by cases h

theorem kn_updateOrInsertWith {k : K} {u : Closure V V} {f : Closure Unit V} (hu : u.WF) (hf : f.WF)
    (hmu : u.Maps (D k) fun _ v => D k v) (hmf : f.Maps (fun _ => True) fun _ v => D k v) :
    KN (updateOrInsertWith C k u f) (fun x => EntK F k x.out) := by
  obtain ⟨J, j0, j1⟩ := hmu
  obtain ⟨J', j0', j1'⟩ := hmf
  have H : CH D F (updateOrInsertClosure (K := K) u f) (fun s => J s.1 ∧ ∀ x, s.2 = some x → J' x)
      (fun i => ∀ kv, i = some kv → D k kv.2) (fun i o => ∃ v, o = .insert v ∧ D k v) k := by
    refine ⟨?_, ⟨j0, fun x hx => by cases hx; exact j0'⟩, ?_, (fun _ h => by cases h),
      (fun e he kv h => by cases h; exact entD hD he), fun i v _ h => by obtain ⟨v', h1, h2⟩ := h; cases h1; exact h2⟩
    · intro s i r h
      simp only [updateOrInsertClosure] at h
      split at h
      · split at h
        · cases h
        · rename_i hc; cases h; rw [hu _ _ _ hc]; decide
      · split at h
        · cases h; decide
        · split at h
          · cases h
          · rename_i hc; cases h; rw [hf _ _ _ hc]; decide
    · intro s i s' o hs hi h
      simp only [updateOrInsertClosure] at h
      split at h
      · split at h
        · rename_i hc
          cases h
          have := j1 _ _ _ _ hs.1 (hi _ rfl) hc
          exact ⟨⟨this.1, hs.2⟩, _, rfl, this.2⟩
        · cases h
      · split at h
        · cases h
        · rename_i hsf
          split at h
          · rename_i hc
            cases h
            have := j1' _ _ _ _ (hs.2 _ hsf) trivial hc
            exact ⟨⟨hs.1, fun _ h => by cases h⟩, _, rfl, this.2⟩
          · cases h
  unfold updateOrInsertWith
  refine bind _ (kn_compute H) fun x hx => ?_
  cases h : x.out with
  | inserted e => rw [h] at hx; exact ret hx.1
  | updated old new => rw [h] at hx; exact ret hx.2.1
  | removed e => rw [h] at hx; obtain ⟨_, kv, _, v, h1, _⟩ := hx; cases h1
  | aborted a seen =>
    rw [h] at hx
    cases seen with
    | none => obtain ⟨v, h1, _⟩ := hx.2 rfl; cases h1
    | some e => obtain ⟨kv, _, v, h1, _⟩ := (hx.1 e rfl).2; cases h1

/-- The references in the result are known, and have the right key. -/
def ResK (F : Kn K V) (c : Call K V) (r : c.Res) : Prop :=
  ∀ e ∈ c.refs r, F.view.ent e ∧ ∀ k, c.key? = some k → e.key = k

theorem kn_prog {c : Call K V} (hwf : c.WF) (hk : c.Keeps D) : KN (c.prog C) (ResK F c) := by
  have one : ∀ {k : K} {e x : Entry K V}, EntK F k e → x ∈ [e] → F.view.ent x ∧ ∀ k', some k = some k' → x.key = k' := by
    intro k e x he hx
    rw [List.mem_singleton.1 hx]
    exact ⟨he.1, fun k' h => by cases h; exact he.2⟩
  have opt : ∀ {k : K} {o : Option (Entry K V)} {x : Entry K V}, (∀ e, o = some e → EntK F k e) → x ∈ o.toList →
      F.view.ent x ∧ ∀ k', some k = some k' → x.key = k' := by
    intro k o x ho hx
    have := ho x (Option.mem_toList.1 hx)
    exact ⟨this.1, fun k' h => by cases h; exact this.2⟩
  have tins : ∀ {k : K} {v : V}, D k v → KN (Call.tryInsertProg C k v) (fun x => Sum.elim (EntK F k) (fun x => EntK F k x.1) x) := by
    intro k v h
    unfold Call.tryInsertProg
    refine bind _ (kn_insert h) fun x hx => ?_
    cases x with
    | inserted e => exact ret hx
    | error e v => exact ret hx.1
    | replaced old new => cases hx.2
  cases c with
  | get k => exact kn_get.post fun x hx e he => opt hx he
  | containsKey k => exact bind _ kn_get fun x hx => ret fun e he => by cases he
  | insert k v =>
    refine bind _ (kn_insert hk) fun x hx => ?_
    cases x with
    | inserted e => exact ret fun e he => by cases he
    | replaced old new => exact ret fun e he => one hx.1.1 he
    | error e v => cases hx.2
  | tryInsert k v => exact (tins hk).post fun x hx e he => by cases x <;> exact one hx he
  | tryInsertWith k f => exact (kn_tryInsertWith hD hwf hk).post fun x hx e he => by cases x <;> exact one hx he
  | getOrInsert k v =>
    refine bind _ (tins hk) fun x hx => ?_
    rcases x with e | ⟨e, v⟩
    · exact ret fun _ he => one hx he
    · exact ret fun _ he => one hx he
  | getOrInsertWith k f => exact (kn_getOrInsertWith hD hwf hk).post fun x hx e he => one hx he
  | update k f => exact (kn_update hD hwf hk).post fun x hx e he => opt hx he
  | updateOrInsert k u v =>
    refine (kn_updateOrInsertWith hD hwf (fun s i r h => by cases h) hk.1 ⟨fun _ => True, trivial, ?_⟩).post fun x hx e he => one hx he
    intro s i s' o _ _ h
    cases h
    exact ⟨trivial, hk.2⟩
  | updateOrInsertWith k u f => exact (kn_updateOrInsertWith hD hwf.1 hwf.2 hk.1 hk.2).post fun x hx e he => one hx he
  | compute k f =>
    obtain ⟨J, j0, j1⟩ := hk
    have H : CH D F f J (fun i => ∀ kv, i = some kv → kv.1 = k ∧ D k kv.2) (fun _ o => ∀ v, o = .insert v → D k v) k :=
      ⟨(fun s i r h => by rw [hwf _ _ _ h]; decide), j0, j1, (fun _ h => by cases h),
        (fun e he kv h => by cases h; exact ⟨he.2, entD hD he⟩), fun i v _ h => h v rfl⟩
    refine (kn_compute H).post fun x hx e he => ?_
    unfold Call.refs at he
    cases h : x.out with
    | inserted e' => simp only [h] at he hx; exact one hx.1 he
    | updated old new =>
      simp only [h] at he hx
      rcases List.mem_cons.1 he with rfl | he
      · exact ⟨hx.1.1, fun k' h => by cases h; exact hx.1.2⟩
      · exact one hx.2.1 he
    | removed e' => simp only [h] at he hx; exact one hx.1 he
    | aborted a seen => simp only [h] at he hx; exact opt (fun e h => (hx.1 e h).1) he
  | remove k => exact kn_remove.post fun x hx e he => opt hx he
  | removeIf k f =>
    refine (kn_removeIf (B := fun _ => True) hwf fun _ _ _ _ _ => trivial).post fun x hx e he => ?_
    unfold Call.refs at he
    cases h : x.out with
    | absent => simp only [h] at he; cases he
    | removed e' => simp only [h] at he hx; exact one hx he
    | kept e' => simp only [h] at he hx; exact one hx.1 he
  | clear => exact kn_clear.post fun x _ e he => by cases he
  | retain f => exact (kn_retain hwf).post fun x _ e he => by cases he
  | iter => exact kn_iterUpTo.post fun x hx e he => ⟨hx e he, fun k h => by cases h⟩
  | iterTake n => exact kn_iterUpTo.post fun x hx e he => ⟨hx e he, fun k h => by cases h⟩
  | len => exact kn_len.post fun x _ e he => by cases he
  | isEmpty => exact bind _ kn_len fun x hx => ret fun e he => by cases he
  | reserve n => exact kn_reserve.post fun x _ e he => by cases he

end Wk

end Papaya
