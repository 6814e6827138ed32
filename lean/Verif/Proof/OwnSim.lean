import Verif.Proof.OwnAcc

/-! # Ownership: the code of Model/Own.lean does to the shared memory what the programs of Model/Ops.lean do -/

set_option linter.unusedSectionVars false
set_option linter.unusedVariables false

namespace Papaya

variable {K V : Type}

namespace OM

variable {F α β γ δ σ τ : Type}

/-- Every complete run of the program is one of the code, with the same publications and the same kind of end. -/
def Sim (m : OM K V F α) (h : F) (q : Prog K V β) (S : F → α → β → Prop) : Prop :=
  ∀ p o, q.Ends p o → match o with
    | .ok b => ∃ h' a, m h p h' (.ok a) ∧ S h' a b
    | .error r => ∃ h', m h p h' (.panic r)

variable {h : F}

theorem sim_bind {m : OM K V F α} {g : α → OM K V F γ} {q : Prog K V β} {q' : β → Prog K V δ} {S₁ : F → α → β → Prop}
    {S : F → γ → δ → Prop} (hm : Sim m h q S₁) (hg : ∀ h₁ a b, S₁ h₁ a b → Sim (g a) h₁ (q' b) S) :
    Sim (m >>= g) h (q >>= q') S := by
  intro p o he
  rw [Prog.bind_eq, Prog.ends_bind] at he
  rcases he with ⟨p₁, p₂, a, h1, h2, rfl⟩ | ⟨r, h1, rfl⟩
  · obtain ⟨h₁, a', h3, h4⟩ := hm _ _ h1
    have := hg _ _ _ h4 _ _ h2
    cases o with
    | ok b =>
      obtain ⟨h', c, h5, h6⟩ := this
      exact ⟨h', c, .inl ⟨p₁, p₂, h₁, a', h3, h5, rfl⟩, h6⟩
    | error r =>
      obtain ⟨h', h5⟩ := this
      exact ⟨h', .inl ⟨p₁, p₂, h₁, a', h3, h5, rfl⟩⟩
  · obtain ⟨h', h5⟩ := hm _ _ h1
    exact ⟨h', .inr (.inl ⟨r, h5, rfl⟩)⟩

theorem sim_post {m : OM K V F α} {q : Prog K V β} {S S' : F → α → β → Prop} (hm : Sim m h q S)
    (hS : ∀ h' a b, S h' a b → S' h' a b) : Sim m h q S' := by
  intro p o he
  have := hm p o he
  cases o with
  | ok b => obtain ⟨h', a, h1, h2⟩ := this; exact ⟨h', a, h1, hS _ _ _ h2⟩
  | error r => exact this

theorem sim_sh (q : Prog K V α) : Sim (sh q) h q (fun h' a b => h' = h ∧ a = b) := by
  intro p o he
  cases o with
  | ok b => exact ⟨h, b, ⟨rfl, .inl ⟨b, he, rfl⟩⟩, rfl, rfl⟩
  | error r => exact ⟨h, rfl, .inr ⟨r, he, rfl⟩⟩

/-- The same access to the shared memory on both sides. -/
theorem sim_both {q : Prog K V α} {g : α → OM K V F γ} {q' : α → Prog K V δ} {S : F → γ → δ → Prop}
    (hg : ∀ a, Sim (g a) h (q' a) S) : Sim (sh q >>= g) h (q >>= q') S :=
  sim_bind (sim_sh q) (by rintro _ a _ ⟨rfl, rfl⟩; exact hg a)

/-- A local step of the code. -/
theorem sim_upd {u : F → F × Out α} {a : α} {g : α → OM K V F γ} {q : Prog K V δ} {S : F → γ → δ → Prop} (hu : (u h).2 = .ok a)
    (hg : Sim (g a) (u h).1 q S) : Sim ((OM.upd u : OM K V F α) >>= g) h q S := by
  intro p o he
  have := hg p o he
  have h0 : (OM.upd u : OM K V F α) h [] (u h).1 (.ok a) := ⟨rfl, rfl, hu.symm⟩
  cases o with
  | ok b =>
    obtain ⟨h', c, h5, h6⟩ := this
    exact ⟨h', c, .inl ⟨[], p, _, a, h0, h5, rfl⟩, h6⟩
  | error r =>
    obtain ⟨h', h5⟩ := this
    exact ⟨h', .inl ⟨[], p, _, a, h0, h5, rfl⟩⟩

theorem sim_ret {a : α} {b : β} {S : F → α → β → Prop} (hs : S h a b) : Sim (pure a : OM K V F α) h (pure b : Prog K V β) S := by
  rintro p o ⟨rfl, rfl⟩
  exact ⟨h, a, ⟨rfl, rfl, rfl⟩, hs⟩

theorem sim_updRet {u : F → F × Out α} {a : α} {b : β} {S : F → α → β → Prop} (hu : (u h).2 = .ok a) (hs : S (u h).1 a b) :
    Sim (OM.upd u : OM K V F α) h (pure b : Prog K V β) S := by
  rintro p o ⟨rfl, rfl⟩
  exact ⟨_, a, ⟨rfl, rfl, hu.symm⟩, hs⟩

theorem sim_panic {r : PanicReason} {S : F → α → β → Prop} : Sim (OM.panic r : OM K V F α) h (Prog.panic r : Prog K V β) S := by
  rintro p o ⟨rfl, rfl⟩
  exact ⟨h, rfl, rfl, rfl⟩

theorem sim_loop {body : σ → OM K V F (σ ⊕ α)} {body' : τ → Prog K V (τ ⊕ β)} {S : F → α → β → Prop} (I : F → σ → τ → Prop)
    (hb : ∀ h s s', I h s s' → Sim (body s) h (body' s') fun h' x y => match x, y with
      | .inl s, .inl s' => I h' s s'
      | .inr a, .inr b => S h' a b
      | _, _ => False) {s : σ} {s' : τ} (hi : I h s s') : Sim (Loop body s) h (Prog.loop s' body') S := by
  have key : ∀ {s' : τ} {p : List (Entry K V)} {o : Except PanicReason β}, LoopEnds (fun s => (body' s).Ends) s' p o →
      ∀ {h : F} {s : σ}, I h s s' → match o with
        | .ok b => ∃ h' a, Loop body s h p h' (.ok a) ∧ S h' a b
        | .error r => ∃ h', Loop body s h p h' (.panic r) := by
    intro s' p o hl
    induction hl with
    | more h1 _ ih =>
      rename_i o' _
      intro h s hi
      obtain ⟨h₁, x, h2, h3⟩ := hb _ _ _ hi _ _ h1
      rcases x with s₁ | a
      · have := ih h3
        cases o' with
        | ok b => obtain ⟨h', c, h5, h6⟩ := this; exact ⟨h', c, .more h2 h5, h6⟩
        | error r => obtain ⟨h', h5⟩ := this; exact ⟨h', .more h2 h5⟩
      · exact h3.elim
    | done h1 =>
      intro h s hi
      obtain ⟨h₁, x, h2, h3⟩ := hb _ _ _ hi _ _ h1
      rcases x with s₁ | a
      · exact h3.elim
      · exact ⟨h₁, a, .done h2, h3⟩
    | panic h1 =>
      intro h s hi
      obtain ⟨h₁, h2⟩ := hb _ _ _ hi _ _ h1
      exact ⟨h₁, .panic h2⟩
  rintro p o (⟨p₁, p₂, b, h1, ⟨rfl, rfl⟩, rfl⟩ | ⟨r, h1, rfl⟩)
  · rw [List.append_nil]; exact key h1 hi
  · exact key h1 hi

end OM

namespace Own

open OM

variable {R : Type} {f : Closure (Option (K × V)) (Operation V R)} {k : K}

/-- The frame and the state of the program correspond. -/
def Rel (k : K) (h : CFrame K V R f) (c : CState K V R f) : Prop :=
  h.Idle k ∧ h.st = c.st ∧ h.insert = c.insert ∧ h.update = c.update

/-- The same while the allocation holds `v`. -/
def RelV (k : K) (v : V) (h : CFrame K V R f) (c : CState K V R f) : Prop :=
  (h.deadKeys = [] ∧ h.entry = .init ∧ h.box = .mine k (some v)) ∧ h.st = c.st ∧ h.insert = c.insert ∧ h.update = c.update

theorem sim_invoke {i : Option (K × V)} {h : CFrame K V R f} {c c' : CState K V R f} (hr : Rel k h c)
    (hc : c'.insert = c.insert ∧ c'.update = c.update) :
    Sim (invoke i) h (f.invoke c.st i >>= fun x => pure ({ c' with st := x.1 }, x.2) : Prog K V _)
      (fun h' op x => op = x.2 ∧ Rel k h' x.1) := by
  unfold invoke Closure.invoke
  obtain ⟨h1, h2, h3, h4⟩ := hr
  rw [← h2]
  cases hf : f.call h.st.st i with
  | error r =>
    rintro p o ⟨rfl, rfl⟩
    refine ⟨h, ?_, rfl, ?_⟩ <;> simp only [hf]
  | ok x =>
    obtain ⟨st, op⟩ := x
    rintro p o ⟨rfl, rfl⟩
    refine ⟨{ h with st := ⟨st, h.st.calls ++ [(i, op)]⟩ }, op, ⟨?_, rfl, ?_⟩, rfl, ?_⟩
    · simp only [hf]
    · simp only [hf]
    · exact ⟨h1, rfl, h3.trans hc.1.symm, h4.trans hc.2.symm⟩

theorem sim_next {entry : Option (Entry K V)} {h : CFrame K V R f} {c : CState K V R f} (hr : Rel k h c) :
    Sim (next entry) h (c.next entry) (fun h' op x => op = x.2 ∧ Rel k h' x.1) := by
  obtain ⟨h1, h2, h3, h4⟩ := id hr
  unfold next frame CState.next
  refine sim_upd (a := h) rfl ?_
  cases entry with
  | none =>
    simp only [h3]
    cases hi : c.insert with
    | none => exact sim_invoke (c' := { c with insert := none }) hr ⟨hi.symm, rfl⟩
    | some v =>
      simp only
      unfold OM.modify
      refine sim_upd rfl (sim_ret ⟨rfl, h1, h2, rfl, h4⟩)
  | some e =>
    simp only [h4]
    cases hu : c.update with
    | none =>
      simp only
      exact sim_both fun _ => sim_invoke (c' := { c with update := none }) hr ⟨rfl, hu.symm⟩
    | some x =>
      obtain ⟨id, op⟩ := x
      simp only
      refine sim_both fun b => ?_
      split
      · unfold OM.modify
        exact sim_upd rfl (sim_ret ⟨rfl, h1, h2, h3, rfl⟩)
      · unfold OM.modify
        refine sim_upd rfl (sim_both fun _ => ?_)
        exact sim_invoke (h := h.dropUpdate) (c := { c with update := none }) (c' := { c with update := none })
          ⟨h1, h2, h3, rfl⟩ ⟨rfl, rfl⟩

theorem sim_restore {input : Option (Entry K V)} {op : Operation V R} {h : CFrame K V R f} {c : CState K V R f} (hr : Rel k h c) :
    Sim (restore input op) h (c.restore input op) (fun h' _ c' => Rel k h' c') := by
  obtain ⟨h1, h2, h3, h4⟩ := id hr
  unfold restore CState.restore OM.modify
  cases input with
  | some e =>
    refine sim_upd rfl (sim_updRet rfl ⟨h1, h2, h3, rfl⟩)
  | none =>
    cases op with
    | insert v => exact sim_upd rfl (sim_updRet rfl ⟨h1, h2, rfl, h4⟩)
    | remove => exact sim_panic
    | abort a => exact sim_panic

theorem sim_load {α β : Type} {v : V} {h : CFrame K V R f} {c : CState K V R f} (hr : Rel k h c)
    {g : Unit → OM K V (CFrame K V R f) α} {q : Prog K V β} {S : CFrame K V R f → α → β → Prop}
    (hg : ∀ h' : CFrame K V R f, RelV k v h' c → Sim (g ()) h' q S) : Sim (init >>= fun _ => write v >>= g) h q S := by
  obtain ⟨⟨h1, hb⟩, h2, h3, h4⟩ := hr
  unfold init OM.modify write
  refine sim_upd rfl ?_
  rcases hb with ⟨h5, h6⟩ | ⟨h5, h6⟩
  · refine sim_upd (a := ()) ?_ (hg _ ?_)
    · simp only [h5]
    · simp only [h5]; exact ⟨⟨h1, rfl, rfl⟩, h2, h3, h4⟩
  · refine sim_upd (a := ()) ?_ (hg _ ?_)
    · simp only [h5, h6]
    · simp only [h5, h6]; exact ⟨⟨h1, rfl, rfl⟩, h2, h3, h4⟩

theorem sim_moveOut {α β : Type} {v : V} {h : CFrame K V R f} {c : CState K V R f} (hr : RelV k v h c)
    {g : V → OM K V (CFrame K V R f) α} {q : Prog K V β} {S : CFrame K V R f → α → β → Prop}
    (hg : ∀ h' : CFrame K V R f, Rel k h' c → Sim (g v) h' q S) : Sim (moveOut >>= g) h q S := by
  obtain ⟨⟨h1, h5, h6⟩, h2, h3, h4⟩ := hr
  unfold moveOut
  refine sim_upd (a := v) ?_ (hg _ ?_)
  · simp only [h6]
  · simp only [h6]; exact ⟨⟨h1, .inr ⟨h5, rfl⟩⟩, h2, h3, h4⟩

variable [DecidableEq K]

theorem sim_key {α β : Type} {h : CFrame K V R f} {c : CState K V R f} (hr : Rel k h c)
    {g : K → OM K V (CFrame K V R f) α} {q : Prog K V β} {S : CFrame K V R f → α → β → Prop}
    (hg : Sim (g k) h q S) : Sim (key >>= g) h q S := by
  obtain ⟨⟨h1, hb⟩, h2, h3, h4⟩ := hr
  unfold key
  rcases hb with ⟨h5, h6⟩ | ⟨h5, h6⟩
  · refine sim_upd (a := k) ?_ ?_
    · simp only [h5]
    · simp only [h5]; exact hg
  · refine sim_upd (a := k) ?_ ?_
    · simp only [h5, h6]
    · simp only [h5, h6]; exact hg

theorem sim_insertAt (C : Cfg K) {i m : Nat} {T : Table} {v : V} {h : CFrame K V R f} {c : CState K V R f} (hr : RelV k v h c) :
    Sim (insertAt C i m T) h (Papaya.insertAt C i m k v T) (fun h' a b => a = b ∧
      (h'.st = c.st) ∧ ∀ s, a = .found s → RelV k v h' c) := by
  obtain ⟨⟨h1, h5, h6⟩, h2, h3, h4⟩ := id hr
  intro p o he
  rcases insertAt_ends C he with ⟨e, hk, hv, rfl, rfl⟩ | ⟨s, rfl, rfl⟩
  · refine ⟨{ h with box := .published }, _, ?_, rfl, h2, by intro s hs; cases hs⟩
    simp only [insertAt, attempt, h6]
    exact ⟨.inl ⟨_, he, rfl⟩, trivial⟩
  · refine ⟨h, _, ?_, rfl, h2, fun _ _ => hr⟩
    simp only [insertAt, attempt, h6]
    exact ⟨.inl ⟨_, he, rfl⟩, trivial⟩

theorem sim_updateAt (C : Cfg K) {i : Nat} {e : Entry K V} {s : Slot K V} {T : Table} {v : V} {h : CFrame K V R f}
    {c : CState K V R f} (hr : RelV k v h c) :
    Sim (updateAt C i e s T) h (updateAtNew C i e s k v T) (fun h' a b => a = b ∧
      (h'.st = c.st) ∧ ∀ s, a = .found s → RelV k v h' c) := by
  obtain ⟨⟨h1, h5, h6⟩, h2, h3, h4⟩ := id hr
  intro p o he
  rcases updateAtNew_ends C he with ⟨e, hk, hv, rfl, rfl | ⟨r, rfl⟩⟩ | ⟨s, rfl, rfl⟩
  · refine ⟨{ h with box := .published }, _, ?_, rfl, h2, by intro s hs; cases hs⟩
    simp only [updateAt, attempt, h6]
    exact ⟨.inl ⟨_, he, rfl⟩, trivial⟩
  · refine ⟨{ h with box := .published }, ?_⟩
    simp only [updateAt, attempt, h6]
    exact ⟨.inr ⟨_, he, rfl⟩, trivial⟩
  · refine ⟨h, _, ?_, rfl, h2, fun _ _ => hr⟩
    simp only [updateAt, attempt, h6]
    exact ⟨.inl ⟨_, he, rfl⟩, trivial⟩

/-- The results of the probe loops correspond: those that end the call may leave the allocation to the map. -/
def RelW (k : K) (h : CFrame K V R f) (w : WOut (Compute K V R)) (x : CState K V R f × WOut (Compute K V R)) : Prop :=
  w = x.2 ∧ h.st = x.1.st ∧ ((∃ i, w = .retry i) → Rel k h x.1)

theorem sim_failure {T : Table} {probe : Probe} {s : EStat K V} {h : CFrame K V R f} {c : CState K V R f} (hr : Rel k h c) :
    Sim (computeFailure T probe s) h (Papaya.computeFailure T probe c s) (fun h' x y => match x, y with
      | .inl es, .inl ces => es = ces.2 ∧ Rel k h' ces.1
      | .inr (.inl pr), .inr (.inl cpr) => pr = cpr.2 ∧ Rel k h' cpr.1
      | .inr (.inr w), .inr (.inr cw) => RelW k h' w cw
      | _, _ => False) := by
  unfold computeFailure Papaya.computeFailure
  cases s with
  | copied e s => exact sim_ret ⟨rfl, hr.2.1, fun _ => hr⟩
  | value e s => exact sim_ret ⟨rfl, hr⟩
  | null =>
    refine sim_bind (sim_next hr) ?_
    rintro h₁ op ⟨c', op'⟩ ⟨rfl, hr'⟩
    cases op with
    | insert v =>
      refine sim_bind (sim_restore hr') ?_
      rintro h₂ _ c₂ hr₂
      exact sim_ret ⟨rfl, hr₂⟩
    | remove => exact sim_panic
    | abort a => exact sim_ret ⟨rfl, hr'.2.1, by rintro ⟨i, hh⟩; cases hh⟩

theorem sim_computeLoop (C : Cfg K) {T : Table} {probe : Probe} {e : Entry K V} {s : Slot K V} {h : CFrame K V R f}
    {c : CState K V R f} (hr : Rel k h c) :
    Sim (computeLoop C T probe e s) h (Papaya.computeLoop C k T probe c e s) (fun h' x y => match x, y with
      | .inl pr, .inl cpr => pr = cpr.2 ∧ Rel k h' cpr.1
      | .inr w, .inr cw => RelW k h' w cw
      | _, _ => False) := by
  unfold computeLoop Papaya.computeLoop
  refine sim_loop (fun h (es : Entry K V × Slot K V) (ces : CState K V R f × Entry K V × Slot K V) => es = ces.2 ∧ Rel k h ces.1)
    ?_ ⟨rfl, hr⟩
  clear hr h c e s
  rintro h ⟨e, s⟩ ⟨c, _, _⟩ ⟨hes, hr⟩
  cases hes
  simp only
  refine sim_bind (sim_next hr) ?_
  rintro h₁ op ⟨c', op'⟩ ⟨rfl, hr'⟩
  cases op with
  | abort a => exact sim_ret ⟨rfl, hr'.2.1, by rintro ⟨i, hh⟩; cases hh⟩
  | insert v =>
    simp only
    refine sim_load hr' fun h₂ hr₂ => ?_
    refine sim_bind (sim_updateAt C hr₂) ?_
    rintro h₃ a _ ⟨rfl, hst, hf⟩
    rcases a with (_ | new) | st
    · exact sim_panic
    · exact sim_ret ⟨rfl, hst, by rintro ⟨i, hh⟩; cases hh⟩
    · refine sim_moveOut (hf _ rfl) fun h₄ hr₄ => ?_
      refine sim_bind (sim_restore hr₄) ?_
      rintro h₅ _ c₅ hr₅
      refine sim_post (sim_failure hr₅) ?_
      rintro h' (_ | _ | _) (_ | _ | _) hh <;> first | exact hh | exact hh.elim
  | remove =>
    simp only
    refine sim_both fun st => ?_
    cases st with
    | replaced _ =>
      refine sim_both fun _ => sim_both fun _ => ?_
      exact sim_ret ⟨rfl, hr'.2.1, by rintro ⟨i, hh⟩; cases hh⟩
    | found st =>
      refine sim_bind (sim_restore hr') ?_
      rintro h₅ _ c₅ hr₅
      refine sim_post (sim_failure hr₅) ?_
      rintro h' (_ | _ | _) (_ | _ | _) hh <;> first | exact hh | exact hh.elim

theorem sim_computeFound (C : Cfg K) {T : Table} {probe : Probe} {e : Entry K V} {s : Slot K V} {h : CFrame K V R f}
    {c : CState K V R f} (hr : Rel k h c) :
    Sim (computeFound C T probe e s) h (Papaya.computeFound C k T probe c e s) (fun h' x y => match x, y with
      | .inl pr, .inl cpr => pr = cpr.2 ∧ Rel k h' cpr.1
      | .inr w, .inr cw => RelW k h' w cw
      | _, _ => False) := by
  unfold computeFound Papaya.computeFound
  refine sim_both fun _ => sim_key hr ?_
  split
  · exact sim_ret ⟨rfl, hr⟩
  · split
    · exact sim_ret ⟨rfl, hr.2.1, fun _ => hr⟩
    · exact sim_computeLoop C hr

theorem sim_computeProbe (C : Cfg K) {T : Table} {h : CFrame K V R f} {c : CState K V R f} (hr : Rel k h c) :
    Sim (computeProbe C (C.h1 k) (C.h2 k) T) h (Papaya.computeProbe C k T c) (RelW k) := by
  unfold computeProbe Papaya.computeProbe
  refine sim_loop (fun h (pr : Probe) (cpr : CState K V R f × Probe) => pr = cpr.2 ∧ Rel k h cpr.1) ?_ ⟨rfl, hr⟩
  clear hr h c
  rintro h probe ⟨c, _⟩ ⟨rfl, hr⟩
  simp only
  split
  · refine sim_both fun m => ?_
    split
    · refine sim_bind (sim_next hr) ?_
      rintro h₁ op ⟨c', op'⟩ ⟨rfl, hr'⟩
      cases op with
      | abort a => exact sim_ret ⟨rfl, hr'.2.1, by rintro ⟨i, hh⟩; cases hh⟩
      | remove => exact sim_panic
      | insert v =>
        simp only
        refine sim_load hr' fun h₂ hr₂ => ?_
        refine sim_bind (sim_insertAt C hr₂) ?_
        rintro h₃ a _ ⟨rfl, hst, hf⟩
        rcases a with e | st
        · refine sim_both fun _ => ?_
          exact sim_ret ⟨rfl, hst, by rintro ⟨i, hh⟩; cases hh⟩
        · cases st with
          | value e s =>
            refine sim_moveOut (hf _ rfl) fun h₄ hr₄ => sim_bind (sim_restore hr₄) ?_
            rintro h₅ _ c₅ hr₅
            exact sim_post (sim_computeFound C hr₅) (by rintro h' (_ | _) (_ | _) hh <;> first | exact hh | exact hh.elim)
          | copied e s =>
            refine sim_moveOut (hf _ rfl) fun h₄ hr₄ => sim_bind (sim_restore hr₄) ?_
            rintro h₅ _ c₅ hr₅
            exact sim_post (sim_computeFound C hr₅) (by rintro h' (_ | _) (_ | _) hh <;> first | exact hh | exact hh.elim)
          | null =>
            refine sim_moveOut (hf _ rfl) fun h₄ hr₄ => sim_bind (sim_restore hr₄) ?_
            rintro h₅ _ c₅ hr₅
            exact sim_ret ⟨rfl, hr₅⟩
    · split
      · refine sim_both fun s => ?_
        cases hp : s.ptr with
        | none => exact sim_ret ⟨rfl, hr⟩
        | some e =>
          exact sim_post (sim_computeFound C hr) (by rintro h' (_ | _) (_ | _) hh <;> first | exact hh | exact hh.elim)
      · exact sim_ret ⟨rfl, hr⟩
  · exact sim_ret ⟨rfl, hr.2.1, fun _ => hr⟩

theorem sim_computeInit (C : Cfg K) {h : CFrame K V R f} {c : CState K V R f} (hr : Rel k h c) :
    Sim (computeInit C) h (Papaya.computeInit C c) (fun h' x y => match x, y with
      | .inl T, .inl cT => T = cT.2 ∧ Rel k h' cT.1
      | .inr a, .inr ca => a = ca.2 ∧ h'.st = ca.1.st
      | _, _ => False) := by
  unfold computeInit Papaya.computeInit
  refine sim_both fun T => ?_
  cases T with
  | some T => exact sim_ret ⟨rfl, hr⟩
  | none =>
    refine sim_bind (sim_next hr) ?_
    rintro h₁ op ⟨c', op'⟩ ⟨rfl, hr'⟩
    cases op with
    | abort a => exact sim_ret ⟨rfl, hr'.2.1⟩
    | remove => exact sim_panic
    | insert v =>
      refine sim_bind (sim_restore hr') ?_
      rintro h₅ _ c₅ hr₅
      refine sim_both fun T => ?_
      exact sim_ret ⟨rfl, hr₅⟩

theorem sim_unwinding {α : Type} {q : Prog K V α} {h : CFrame K V R f} {d : CFrame K V R f → CFrame K V R f} :
    Sim (unwinding (sh q) d) h q (fun h' a b => h' = h ∧ a = b) := by
  intro p o he
  cases o with
  | ok b => exact ⟨h, b, ⟨rfl, .inl ⟨b, he, rfl⟩⟩, rfl, rfl⟩
  | error r => exact ⟨d h, h, ⟨rfl, .inr ⟨r, he, rfl⟩⟩, rfl⟩

theorem sim_computeBody (C : Cfg K) :
    Sim (computeBody C) (CFrame.new f k) (Papaya.compute C k f : Prog K V _)
      (fun h' r x => r = x.out ∧ h'.st.calls = x.calls) := by
  unfold computeBody Papaya.compute
  refine sim_bind (sim_computeInit C (k := k) (c := CState.new f) ⟨⟨rfl, .inl ⟨rfl, rfl⟩⟩, rfl, rfl, rfl⟩) ?_
  rintro h₁ (T | a) (⟨c, T'⟩ | ⟨c, a'⟩) hh
  · obtain ⟨rfl, hr⟩ := hh
    simp only
    refine sim_key hr ?_
    refine sim_loop (fun h (x : Table × Bool) (y : Table × Bool × CState K V R f) => x.1 = y.1 ∧ x.2 = y.2.1 ∧ Rel k h y.2.2)
      ?_ ⟨rfl, rfl, hr⟩
    clear hr c h₁ T
    rintro h ⟨T, help⟩ ⟨_, _, c⟩ ⟨rfl, rfl, hr⟩
    simp only
    refine sim_bind (sim_computeProbe C hr) ?_
    rintro h₁ w ⟨c₁, w'⟩ ⟨rfl, hst, hw⟩
    cases w with
    | done r => exact sim_ret ⟨rfl, by rw [hst]⟩
    | retry copying =>
      have hr₁ := hw ⟨_, rfl⟩
      simp only
      refine sim_both fun n => ?_
      cases n with
      | some n => exact sim_ret ⟨rfl, rfl, hr₁⟩
      | none =>
        refine sim_bind (sim_next hr₁) ?_
        rintro h₂ op ⟨c₂, op'⟩ ⟨rfl, hr₂⟩
        cases op with
        | abort a => exact sim_ret ⟨rfl, by rw [hr₂.2.1]⟩
        | remove => exact sim_panic
        | insert v =>
          refine sim_bind sim_unwinding ?_
          rintro h₃ n _ ⟨rfl, rfl⟩
          refine sim_bind (sim_restore hr₂) ?_
          rintro h₅ _ c₅ hr₅
          exact sim_ret ⟨rfl, rfl, hr₅⟩
  · exact hh.elim
  · exact hh.elim
  · obtain ⟨rfl, hst⟩ := hh
    exact sim_ret ⟨rfl, by rw [hst]⟩

/-- The code of Model/Own.lean has every run of `compute`. -/
theorem sim_compute (C : Cfg K) {p : List (Entry K V)} {o : Except PanicReason (Called (Option (K × V)) (Operation V R) (Compute K V R))}
    (he : (Papaya.compute C k f).Ends p o) :
    ∃ h', match o with
      | .ok x => compute C (CFrame.new f k) p h' (.ok x.out) ∧ h'.st.calls = x.calls
      | .error r => compute C (CFrame.new f k) p h' (.panic r) := by
  have hs := sim_computeBody C p o he
  have ha : (CFrame.new f k).Acc k [] := ⟨⟨rfl, .inl ⟨rfl, rfl⟩⟩, List.Perm.refl _⟩
  cases o with
  | error r =>
    obtain ⟨h₁, h2⟩ := hs
    exact ⟨_, _, .inr (.inl ⟨r, ⟨h₁, h2, rfl⟩, rfl⟩), rfl⟩
  | ok x =>
    obtain ⟨h₁, r, h2, rfl, h3⟩ := hs
    have hf := fine_computeBody C ha _ _ _ h2
    have hw : computeWith C (CFrame.new f k) p h₁.dropState (.ok x.out) := ⟨h₁, h2, rfl⟩
    have hdrop : ∀ h : CFrame K V R f, h.dropEntry.st = h.st := by
      intro h; unfold CFrame.dropEntry; split <;> rfl
    obtain ⟨calls, r⟩ := x
    have plain : ∀ g : Compute K V R → OM K V (CFrame K V R f) (Compute K V R), g r = pure r →
        ∃ h', (scope (computeWith C >>= g) CFrame.dropEntry) (CFrame.new f k) p h' (.ok r) ∧ h'.st.calls = calls := by
      intro g hg
      refine ⟨h₁.dropState.dropEntry, ⟨h₁.dropState, .inl ⟨p, [], _, r, hw, ?_, (List.append_nil _).symm⟩, rfl⟩, ?_⟩
      · rw [hg]; exact ⟨rfl, rfl, rfl⟩
      · rw [hdrop]; exact h3
    have freeing : h₁.Acc k [] → ∀ g : Compute K V R → OM K V (CFrame K V R f) (Compute K V R), (g r = do
        match (← frame).entry with
        | .init => do
          free
          return r
        | .uninit _ => return r) →
        ∃ h', (scope (computeWith C >>= g) CFrame.dropEntry) (CFrame.new f k) p h' (.ok r) ∧ h'.st.calls = calls := by
      rintro ⟨⟨h4, h5⟩, h6⟩ g hg
      rcases h5 with ⟨h5, h7⟩ | ⟨h5, h7⟩
      · refine ⟨h₁.dropState.dropEntry, ⟨h₁.dropState, .inl ⟨p, [], _, r, hw, ?_, (List.append_nil _).symm⟩, rfl⟩, ?_⟩
        · rw [hg]
          refine .inl ⟨[], [], _, _, ⟨rfl, rfl, rfl⟩, ?_, rfl⟩
          simp only [show h₁.dropState.entry = .uninit k from h5]
          exact ⟨rfl, rfl, rfl⟩
        · rw [hdrop]; exact h3
      · let h₂ : CFrame K V R f := { h₁.dropState with box := .freed, deadKeys := h₁.dropState.deadKeys ++ [k] }
        refine ⟨h₂.dropEntry, ⟨h₂, .inl ⟨p, [], _, r, hw, ?_, (List.append_nil _).symm⟩, rfl⟩, ?_⟩
        · rw [hg]
          refine .inl ⟨[], [], _, _, ⟨rfl, rfl, rfl⟩, ?_, rfl⟩
          simp only [show h₁.dropState.entry = .init from h5]
          refine .inl ⟨[], [], _, (), ⟨rfl, rfl, ?_⟩, ⟨?_, rfl, rfl⟩, rfl⟩
          · simp only [show h₁.dropState.box = .mine k none from h7]
          · simp only [show h₁.dropState.box = .mine k none from h7]; rfl
        · rw [hdrop]; exact h3
    cases r with
    | inserted e => exact plain _ rfl
    | updated a b => exact plain _ rfl
    | removed e => exact freeing hf.2 _ rfl
    | aborted a b => exact freeing hf.2 _ rfl

end Own

end Papaya
