import Verif.Proof.Own
import Verif.Spec.Own

/-! # Ownership: nothing is lost or dropped twice by `compute` -/

set_option linter.unusedSectionVars false
set_option linter.unusedVariables false

namespace Papaya

variable {K V : Type}

namespace OM

variable {F α β σ : Type}

/-- Every way in which the code can end satisfies `Q`. -/
def Wp (m : OM K V F α) (h : F) (Q : List (Entry K V) → F → Out α → Prop) : Prop := ∀ p h' o, m h p h' o → Q p h' o

variable {h : F} {Q : List (Entry K V) → F → Out α → Prop}

theorem Wp.mono {m : OM K V F α} {Q' : List (Entry K V) → F → Out α → Prop} (hm : Wp m h Q')
    (hQ : ∀ p h' o, Q' p h' o → Q p h' o) : Wp m h Q := fun p h' o hr => hQ _ _ _ (hm _ _ _ hr)

theorem wp_upd (g : F → F × Out α) : Wp (OM.upd g : OM K V F α) h Q ↔ Q [] (g h).1 (g h).2 := by
  constructor
  · intro hw; exact hw _ _ _ ⟨rfl, rfl, rfl⟩
  · rintro hq p h' o ⟨rfl, rfl, rfl⟩; exact hq

theorem wp_pure (a : α) : Wp (pure a : OM K V F α) h Q ↔ Q [] h (.ok a) := by
  constructor
  · intro hw; exact hw _ _ _ ⟨rfl, rfl, rfl⟩
  · rintro hq p h' o ⟨rfl, rfl, rfl⟩; exact hq

theorem wp_bind (m : OM K V F β) (g : β → OM K V F α)
    (hw : Wp m h fun p h₁ o => match o with
      | .ok a => Wp (g a) h₁ fun q => Q (p ++ q)
      | .panic r => Q p h₁ (.panic r)
      | .fault => Q p h₁ .fault) : Wp (m >>= g) h Q := by
  rintro p h' o (⟨p₁, p₂, h₁, a, h1, h2, rfl⟩ | ⟨r, h1, rfl⟩ | ⟨h1, rfl⟩)
  · exact hw _ _ _ h1 _ _ _ h2
  · exact hw _ _ _ h1
  · exact hw _ _ _ h1

/-- An access to the shared memory that publishes nothing. -/
theorem wp_sh {q : Prog K V α} (hq : q.Quiet) (hok : ∀ a, Q [] h (.ok a)) (hp : ∀ r, Q [] h (.panic r)) : Wp (sh q) h Q := by
  rintro p h' o ⟨rfl, ⟨a, h1, rfl⟩ | ⟨r, h1, rfl⟩⟩
  · rw [hq.ends h1]; exact hok a
  · rw [hq.ends h1]; exact hp r

/-- A single action that publishes nothing. -/
theorem wp_prim {a : Act K V α} (ha : ∀ x, a.pub x = []) (hok : ∀ x, Q [] h (.ok x)) : Wp (sh (Prog.prim a)) h Q := by
  rintro p h' o ⟨rfl, ⟨x, h1, rfl⟩ | ⟨r, h1, rfl⟩⟩
  · rw [(Prog.quiet_prim ha).ends h1]; exact hok x
  · obtain ⟨x, q, _, _, h2⟩ := h1
    cases h2.2

theorem wp_loop {body : σ → OM K V F (σ ⊕ α)} (I : σ → F → Prop)
    (hb : ∀ s h, I s h → Wp (body s) h fun p h' o => match o with
      | .ok (.inl s') => p = [] ∧ I s' h'
      | .ok (.inr b) => Q p h' (.ok b)
      | .panic r => Q p h' (.panic r)
      | .fault => Q p h' .fault) {s : σ} (hs : I s h) : Wp (Loop body s) h Q := by
  intro p h' o hl
  induction hl with
  | more h1 _ ih =>
    obtain ⟨rfl, hi⟩ := hb _ _ hs _ _ _ h1
    exact ih hi
  | done h1 => exact hb _ _ hs _ _ _ h1
  | panic h1 => exact hb _ _ hs _ _ _ h1
  | fault h1 => exact hb _ _ hs _ _ _ h1

theorem wp_scope {m : OM K V F α} {d : F → F} (hm : Wp m h fun p h₁ o => match o with
    | .fault => Q p h₁ .fault
    | o => Q p (d h₁) o) : Wp (scope m d) h Q := by
  intro p h' o hs
  cases o with
  | fault => exact hm _ _ _ hs
  | ok a => obtain ⟨h₁, h1, rfl⟩ := hs; exact hm _ _ _ h1
  | panic r => obtain ⟨h₁, h1, rfl⟩ := hs; exact hm _ _ _ h1

theorem wp_unwinding {m : OM K V F α} {d : F → F} (hm : Wp m h fun p h₁ o => match o with
    | .panic r => Q p (d h₁) (.panic r)
    | o => Q p h₁ o) : Wp (unwinding m d) h Q := by
  intro p h' o hs
  cases o with
  | fault => exact hm _ _ _ hs
  | ok a => exact hm _ _ _ hs
  | panic r => obtain ⟨h₁, h1, rfl⟩ := hs; exact hm _ _ _ h1

end OM

/-! ## The accounts of a call of `compute` -/

theorem madeVals_eq {R : Type} (calls : List (Option (K × V) × Operation V R)) :
    madeVals calls = calls.flatMap fun c => c.2.vals := by
  unfold madeVals
  congr 1

namespace CFrame

variable {R : Type} {f : Closure (Option (K × V)) (Operation V R)}

/-- The values of the cached update. -/
def updVals (fr : CFrame K V R f) : List V := match fr.update with | some (_, op) => op.vals | none => []

/-- The accounts are balanced, with the values `vs` being elsewhere. -/
def Bal (vs : List V) (fr : CFrame K V R f) : Prop :=
  (madeVals fr.st.calls).Perm (vs ++ (fr.insert.toList ++ (fr.updVals ++ fr.deadVals)))

/-- The key is either in the variable or in the allocation, whose value cell is `cell`. -/
def Idle (k : K) (fr : CFrame K V R f) : Prop :=
  fr.deadKeys = [] ∧ ((fr.entry = .uninit k ∧ fr.box = .none) ∨ (fr.entry = .init ∧ fr.box = .mine k none))

/-- The state between two attempts, with the values `vs` in local variables. -/
def Acc (k : K) (vs : List V) (fr : CFrame K V R f) : Prop := fr.Idle k ∧ fr.Bal vs

/-- The state during an attempt to publish `v`. -/
def Loaded (k : K) (v : V) (fr : CFrame K V R f) : Prop :=
  fr.deadKeys = [] ∧ fr.entry = .init ∧ fr.box = .mine k (some v) ∧ fr.Bal [v]

/-- The state after `e` has been published. -/
def Given (k : K) (e : Entry K V) (fr : CFrame K V R f) : Prop :=
  fr.deadKeys = [] ∧ fr.entry = .init ∧ fr.box = .published ∧ e.key = k ∧ fr.Bal [e.val]

end CFrame

namespace Own

open OM

variable {R : Type} {f : Closure (Option (K × V)) (Operation V R)} {k : K}

/-- The state a panic leaves behind. -/
def Bust (k : K) (p : List (Entry K V)) (fr : CFrame K V R f) : Prop :=
  (p = [] ∧ fr.Acc k []) ∨ (∃ e, p = [e] ∧ fr.Given k e)

/-- Ends in a good way: a panic leaves the accounts balanced. -/
def Fine {α : Type} (k : K) (Q : List (Entry K V) → CFrame K V R f → α → Prop) (p : List (Entry K V)) (fr : CFrame K V R f)
    (o : Out α) : Prop :=
  match o with
  | .ok a => Q p fr a
  | .panic _ => Bust k p fr
  | .fault => False

/-- Sequential composition, when the first part publishes nothing. -/
theorem fine_bind {α β : Type} {h : CFrame K V R f} {m : OM K V (CFrame K V R f) β} {g : β → OM K V (CFrame K V R f) α}
    {Q : List (Entry K V) → CFrame K V R f → α → Prop}
    (hm : Wp m h (Fine k fun p h₁ a => p = [] ∧ Wp (g a) h₁ (Fine k Q))) : Wp (m >>= g) h (Fine k Q) := by
  refine wp_bind _ _ (hm.mono ?_)
  intro p h' o ho
  cases o with
  | ok a => obtain ⟨rfl, h2⟩ := ho; exact h2
  | panic r => exact ho
  | fault => exact ho

theorem fine_post {α : Type} {h : CFrame K V R f} {m : OM K V (CFrame K V R f) α}
    {Q Q' : List (Entry K V) → CFrame K V R f → α → Prop} (hm : Wp m h (Fine k Q))
    (hQ : ∀ p h' a, Q p h' a → Q' p h' a) : Wp m h (Fine k Q') := by
  refine hm.mono ?_
  intro p h' o ho
  cases o with
  | ok a => exact hQ _ _ _ ho
  | panic r => exact ho
  | fault => exact ho

theorem fine_sh {α : Type} {h : CFrame K V R f} {q : Prog K V α} (hq : q.Quiet) (ha : h.Acc k [])
    {Q : List (Entry K V) → CFrame K V R f → α → Prop} (hQ : ∀ a, Q [] h a) : Wp (sh q) h (Fine k Q) :=
  wp_sh hq hQ fun _ => .inl ⟨rfl, ha⟩

theorem fine_prim {α : Type} {h : CFrame K V R f} {a : Act K V α} (hq : ∀ x, a.pub x = [])
    {Q : List (Entry K V) → CFrame K V R f → α → Prop} (hQ : ∀ a, Q [] h a) : Wp (sh (Prog.prim a)) h (Fine k Q) :=
  wp_prim hq hQ

theorem fine_invoke {i : Option (K × V)} {h : CFrame K V R f} (ha : h.Acc k []) :
    Wp (invoke i) h (Fine k fun p h' op => p = [] ∧ h'.Acc k op.vals) := by
  unfold invoke
  rw [wp_upd]
  cases hc : f.call h.st.st i with
  | error r => exact .inl ⟨rfl, ha⟩
  | ok x =>
    refine ⟨rfl, ha.1, ?_⟩
    have h2 := ha.2
    simp only [CFrame.Bal, madeVals_eq, List.flatMap_append, List.flatMap_cons, List.flatMap_nil, List.append_nil] at h2 ⊢
    rw [List.nil_append] at h2
    exact (h2.append_right _).trans List.perm_append_comm

theorem fine_next {entry : Option (Entry K V)} {h : CFrame K V R f} (ha : h.Acc k []) :
    Wp (next entry) h (Fine k fun p h' op => p = [] ∧ h'.Acc k op.vals) := by
  unfold next
  refine fine_bind ?_
  unfold frame
  rw [wp_upd]
  refine ⟨rfl, ?_⟩
  cases entry with
  | none =>
    cases hi : h.insert with
    | none => exact fine_invoke ha
    | some v =>
      simp only
      refine fine_bind ?_
      unfold OM.modify
      rw [wp_upd]
      refine ⟨rfl, ?_⟩
      rw [wp_pure]
      refine ⟨rfl, ha.1, ?_⟩
      have h2 := ha.2
      simp only [CFrame.Bal, hi, Operation.vals] at h2 ⊢
      exact h2
  | some e =>
    simp only
    cases hu : h.update with
    | none =>
      simp only
      exact fine_bind (fine_prim (fun _ => rfl) fun _ => ⟨rfl, fine_invoke ha⟩)
    | some x =>
      obtain ⟨id, op⟩ := x
      simp only
      refine fine_bind (fine_prim (fun _ => rfl) fun b => ⟨rfl, ?_⟩)
      have h2 := ha.2
      split
      · refine fine_bind ?_
        unfold OM.modify
        rw [wp_upd]
        refine ⟨rfl, ?_⟩
        rw [wp_pure]
        refine ⟨rfl, ha.1, ?_⟩
        simp only [CFrame.Bal, hu, CFrame.updVals, List.nil_append] at h2 ⊢
        refine h2.trans ?_
        rw [← List.append_assoc, ← List.append_assoc]
        exact (List.perm_append_comm).append_right _
      · refine fine_bind ?_
        unfold OM.modify
        rw [wp_upd]
        refine ⟨rfl, fine_bind (fine_prim (fun _ => rfl) fun _ => ⟨rfl, fine_invoke ⟨ha.1, ?_⟩⟩)⟩
        simp only [CFrame.Bal, CFrame.dropUpdate, hu, CFrame.updVals, List.nil_append] at h2 ⊢
        exact h2.trans ((List.perm_append_comm).append_left _)

theorem fine_restore_none {v : V} {h : CFrame K V R f} (ha : h.Acc k [v]) :
    Wp (restore none (.insert v)) h (Fine k fun p h' _ => p = [] ∧ h'.Acc k []) := by
  unfold restore
  simp only
  refine fine_bind ?_
  unfold OM.modify
  rw [wp_upd]
  refine ⟨rfl, ?_⟩
  rw [wp_upd]
  refine ⟨rfl, ha.1, ?_⟩
  have h2 := ha.2
  simp only [CFrame.Bal, CFrame.dropInsert, CFrame.updVals, List.nil_append, Option.toList_some] at h2 ⊢
  refine h2.trans (List.Perm.append_left _ ?_)
  refine List.perm_append_comm.trans ?_
  rw [List.append_assoc]

theorem perm_rot {α : Type} (a b c d : List α) : (a ++ (b ++ (c ++ d))).Perm (b ++ (a ++ (d ++ c))) := by
  rw [← List.append_assoc, ← List.append_assoc b]
  exact (List.perm_append_comm).append (List.perm_append_comm)

theorem perm_rot' {α : Type} (a b c : List α) : (a ++ (b ++ c)).Perm (c ++ (a ++ b)) := by
  rw [← List.append_assoc]
  exact List.perm_append_comm

theorem fine_restore_some {e : Entry K V} {op : Operation V R} {h : CFrame K V R f} (ha : h.Acc k op.vals) :
    Wp (restore (some e) op) h (Fine k fun p h' _ => p = [] ∧ h'.Acc k []) := by
  unfold restore
  simp only
  refine fine_bind ?_
  unfold OM.modify
  rw [wp_upd]
  refine ⟨rfl, ?_⟩
  rw [wp_upd]
  refine ⟨rfl, ha.1, ?_⟩
  have h2 := ha.2
  simp only [CFrame.Bal, CFrame.dropUpdate, CFrame.updVals, List.nil_append] at h2 ⊢
  exact h2.trans (perm_rot _ _ _ _)

/-- Allocating the entry and writing the value into it. -/
theorem fine_load {α : Type} {v : V} {h : CFrame K V R f} (ha : h.Acc k [v]) {g : Unit → OM K V (CFrame K V R f) α}
    {Q : List (Entry K V) → CFrame K V R f → α → Prop}
    (hg : ∀ h' : CFrame K V R f, h'.Loaded k v → Wp (g ()) h' (Fine k Q)) :
    Wp (init >>= fun _ => write v >>= g) h (Fine k Q) := by
  refine fine_bind ?_
  unfold init OM.modify
  rw [wp_upd]
  refine ⟨rfl, ?_⟩
  refine fine_bind ?_
  unfold write
  rw [wp_upd]
  obtain ⟨⟨h1, h2⟩, h3⟩ := ha
  rcases h2 with ⟨h2, h4⟩ | ⟨h2, h4⟩
  · simp only [h2]
    exact ⟨rfl, hg _ ⟨h1, rfl, rfl, h3⟩⟩
  · simp only [h2, h4]
    exact ⟨rfl, hg _ ⟨h1, rfl, rfl, h3⟩⟩

theorem fine_moveOut {v : V} {h : CFrame K V R f} (hl : h.Loaded k v) :
    Wp moveOut h (Fine k fun p h' w => p = [] ∧ w = v ∧ h'.Acc k [v]) := by
  unfold moveOut
  rw [wp_upd]
  obtain ⟨h1, h2, h3, h4⟩ := hl
  simp only [h3]
  exact ⟨rfl, rfl, ⟨h1, .inr ⟨h2, rfl⟩⟩, h4⟩

variable [DecidableEq K]

theorem fine_key {h : CFrame K V R f} {vs : List V} (ha : h.Acc k vs) : Wp key h (Fine k fun p h' k' => p = [] ∧ h' = h ∧ k' = k) := by
  unfold key
  rw [wp_upd]
  obtain ⟨⟨h1, ⟨h2, h4⟩ | ⟨h2, h4⟩⟩, h3⟩ := ha
  · simp only [h2]; exact ⟨rfl, rfl, rfl⟩
  · simp only [h2, h4]; exact ⟨rfl, rfl, rfl⟩

/-- `insert_at` publishes exactly if it says so, and never panics. -/
theorem insertAt_ends (C : Cfg K) {i m : Nat} {k : K} {v : V} {T : Table} {p : List (Entry K V)}
    {o : Except PanicReason (InsStat K V)} (h : (Papaya.insertAt C i m k v T).Ends p o) :
    (∃ e : Entry K V, e.key = k ∧ e.val = v ∧ p = [e] ∧ o = .ok (.inserted e)) ∨ (∃ s, p = [] ∧ o = .ok (.found s)) := by
  unfold Papaya.insertAt at h
  simp only [Prog.bind_eq, Prog.prim, Prog.bind, Prog.Ends] at h
  obtain ⟨x, q, hm, rfl, h⟩ := h
  cases x with
  | inl e =>
    obtain ⟨_, q, _, rfl, h1, rfl⟩ := h
    subst h1
    exact .inl ⟨e, hm.1, hm.2, rfl, rfl⟩
  | inr found =>
    right
    simp only at h
    cases hp : found.ptr with
    | none =>
      rw [hp] at h
      simp only [Prog.bind, Prog.Ends] at h
      obtain ⟨m', q, _, rfl, h⟩ := h
      split at h
      · obtain ⟨_, q, _, rfl, rfl, rfl⟩ := h; exact ⟨_, rfl, rfl⟩
      · obtain ⟨rfl, rfl⟩ := h; exact ⟨_, rfl, rfl⟩
    | some e =>
      rw [hp] at h
      simp only [Prog.bind, Prog.Ends] at h
      obtain ⟨_, q, _, rfl, m', q', _, rfl, h⟩ := h
      split at h
      · obtain ⟨_, q, _, rfl, rfl, rfl⟩ := h; exact ⟨_, rfl, rfl⟩
      · obtain ⟨rfl, rfl⟩ := h; exact ⟨_, rfl, rfl⟩

/-- `update_at` publishes exactly if it says so or panics. -/
theorem updateAtNew_ends (C : Cfg K) {i : Nat} {e : Entry K V} {s : Slot K V} {k : K} {v : V} {T : Table}
    {p : List (Entry K V)} {o : Except PanicReason (UpdStat K V)} (h : (updateAtNew C i e s k v T).Ends p o) :
    (∃ e : Entry K V, e.key = k ∧ e.val = v ∧ p = [e] ∧ (o = .ok (.replaced (some e)) ∨ ∃ r, o = .error r)) ∨
      (∃ s, p = [] ∧ o = .ok (.found s)) := by
  unfold updateAtNew at h
  simp only [Prog.bind_eq, Prog.prim, Prog.bind, Prog.Ends] at h
  obtain ⟨x, q, hm, rfl, h⟩ := h
  cases x with
  | inl e =>
    rw [Prog.ends_bind] at h
    rcases h with ⟨p₁, p₂, a, h1, ⟨rfl, rfl⟩, rfl⟩ | ⟨r, h1, rfl⟩
    · rw [(quiet_deferRetire C _ _ _).ends h1]
      exact .inl ⟨e, hm.1, hm.2, rfl, .inl rfl⟩
    · rw [(quiet_deferRetire C _ _ _).ends h1]
      exact .inl ⟨e, hm.1, hm.2, rfl, .inr ⟨r, rfl⟩⟩
  | inr found =>
    obtain ⟨rfl, rfl⟩ := h
    exact .inr ⟨_, rfl, rfl⟩

theorem fine_insertAt (C : Cfg K) {i m : Nat} {T : Table} {v : V} {h : CFrame K V R f} (hl : h.Loaded k v) :
    Wp (insertAt C i m T) h (Fine k fun p h' r =>
      match r with
      | .inserted e => p = [e] ∧ h'.Given k e
      | .found _ => p = [] ∧ h'.Loaded k v) := by
  obtain ⟨h1, h2, h3, h4⟩ := id hl
  intro p h' o hr
  simp only [insertAt, attempt, h3] at hr
  obtain ⟨hr, rfl⟩ := hr
  rcases hr with ⟨a, hr, rfl⟩ | ⟨r, hr, rfl⟩
  · rcases insertAt_ends C hr with ⟨e, hk, hv, rfl, h5⟩ | ⟨s, rfl, h5⟩
    · cases h5
      exact ⟨rfl, h1, h2, rfl, hk, by rw [hv]; exact h4⟩
    · cases h5
      exact ⟨rfl, hl⟩
  · rcases insertAt_ends C hr with ⟨e, hk, hv, rfl, h5⟩ | ⟨s, rfl, h5⟩ <;> cases h5

theorem fine_updateAt (C : Cfg K) {i : Nat} {e : Entry K V} {s : Slot K V} {T : Table} {v : V} {h : CFrame K V R f} (hl : h.Loaded k v) :
    Wp (updateAt C i e s T) h (Fine k fun p h' r =>
      match r with
      | .replaced (some e) => p = [e] ∧ h'.Given k e
      | .replaced none => False
      | .found _ => p = [] ∧ h'.Loaded k v) := by
  obtain ⟨h1, h2, h3, h4⟩ := id hl
  intro p h' o hr
  simp only [updateAt, attempt, h3] at hr
  obtain ⟨hr, rfl⟩ := hr
  rcases hr with ⟨a, hr, rfl⟩ | ⟨r, hr, rfl⟩
  · rcases updateAtNew_ends C hr with ⟨e, hk, hv, rfl, h5 | ⟨_, h5⟩⟩ | ⟨s, rfl, h5⟩
    · cases h5
      exact ⟨rfl, h1, h2, rfl, hk, by rw [hv]; exact h4⟩
    · cases h5
    · cases h5
      exact ⟨rfl, hl⟩
  · rcases updateAtNew_ends C hr with ⟨e, hk, hv, rfl, h5 | ⟨_, h5⟩⟩ | ⟨s, rfl, h5⟩
    · cases h5
    · exact .inr ⟨e, rfl, h1, h2, rfl, hk, by rw [hv]; exact h4⟩
    · cases h5

/-- What the probe loop ends with. -/
def Res (k : K) (p : List (Entry K V)) (h : CFrame K V R f) : WOut (Compute K V R) → Prop
  | .done r => p = r.published ∧ match r with
    | .inserted e | .updated _ e => h.Given k e
    | .removed _ | .aborted _ _ => h.Acc k []
  | .retry _ => p = [] ∧ h.Acc k []

theorem fine_failure {T : Table} {probe : Probe} {s : EStat K V} {h : CFrame K V R f} (ha : h.Acc k []) :
    Wp (computeFailure T probe s) h (Fine k fun p h' r =>
      match r with
      | .inl _ => p = [] ∧ h'.Acc k []
      | .inr (.inl _) => p = [] ∧ h'.Acc k []
      | .inr (.inr w) => Res k p h' w) := by
  unfold computeFailure
  cases s with
  | copied e s => simp only; rw [wp_pure]; exact ⟨rfl, ha⟩
  | value e s => simp only; rw [wp_pure]; exact ⟨rfl, ha⟩
  | null =>
    simp only
    refine fine_bind (fine_post (fine_next ha) ?_)
    rintro p h' op ⟨rfl, ha'⟩
    refine ⟨rfl, ?_⟩
    cases op with
    | insert v =>
      simp only
      refine fine_bind (fine_post (fine_restore_none ha') ?_)
      rintro p h' _ ⟨rfl, ha'⟩
      refine ⟨rfl, ?_⟩
      rw [wp_pure]
      exact ⟨rfl, ha'⟩
    | remove =>
      simp only
      unfold OM.panic; rw [wp_upd]
      exact .inl ⟨rfl, ha'⟩
    | abort a =>
      simp only
      rw [wp_pure]
      exact ⟨rfl, ha'⟩

theorem fine_loop {σ α : Type} {body : σ → OM K V (CFrame K V R f) (σ ⊕ α)} {Q : List (Entry K V) → CFrame K V R f → α → Prop}
    (hb : ∀ s h, h.Acc k [] → Wp (body s) h (Fine k fun p h' r => match r with
      | .inl _ => p = [] ∧ h'.Acc k []
      | .inr b => Q p h' b)) {s : σ} {h : CFrame K V R f} (ha : h.Acc k []) : Wp (Loop body s) h (Fine k Q) := by
  refine wp_loop (fun _ h => h.Acc k []) (fun s h hi => (hb s h hi).mono ?_) ha
  intro p h' o ho
  rcases o with (_ | _) | _ | _ <;> exact ho

theorem fine_computeLoop (C : Cfg K) {T : Table} {probe : Probe} {e : Entry K V} {s : Slot K V} {h : CFrame K V R f}
    (ha : h.Acc k []) :
    Wp (computeLoop C T probe e s) h (Fine k fun p h' r =>
      match r with
      | .inl _ => p = [] ∧ h'.Acc k []
      | .inr w => Res k p h' w) := by
  unfold computeLoop
  refine fine_loop ?_ ha
  clear ha h
  rintro ⟨e, s⟩ h ha
  simp only
  refine fine_bind (fine_post (fine_next ha) ?_)
  rintro p h' op ⟨rfl, ha'⟩
  refine ⟨rfl, ?_⟩
  cases op with
  | abort a => simp only; rw [wp_pure]; exact ⟨rfl, ha'⟩
  | insert v =>
    simp only
    refine fine_load ha' fun h1 hl => ?_
    refine wp_bind _ _ ((fine_updateAt C hl).mono ?_)
    intro p h2 o ho
    cases o with
    | fault => exact ho
    | panic r => exact ho
    | ok r =>
      rcases r with (_ | new) | st
      · exact ho.elim
      · obtain ⟨rfl, hg⟩ := ho
        simp only
        rw [wp_pure]
        exact ⟨rfl, hg⟩
      · obtain ⟨rfl, hl⟩ := ho
        simp only [List.nil_append]
        refine fine_bind (fine_post (fine_moveOut hl) ?_)
        rintro p h3 w ⟨rfl, rfl, ha3⟩
        refine ⟨rfl, ?_⟩
        refine fine_bind (fine_post (fine_restore_some (op := .insert w) ha3) ?_)
        rintro p h3 _ ⟨rfl, ha3⟩
        refine ⟨rfl, ?_⟩
        refine fine_post (fine_failure ha3) ?_
        rintro p h' (_ | _ | _) hh <;> exact hh
  | remove =>
    simp only
    refine fine_bind (fine_sh (quiet_updateAtTomb C _ _ _ _) ha' fun st => ⟨rfl, ?_⟩)
    cases st with
    | replaced _ =>
      simp only
      refine fine_bind (fine_prim (fun _ => rfl) fun _ => ⟨rfl, ?_⟩)
      refine fine_bind (fine_prim (fun _ => rfl) fun _ => ⟨rfl, ?_⟩)
      rw [wp_pure]
      exact ⟨rfl, ha'⟩
    | found st =>
      simp only
      refine fine_bind (fine_post (fine_restore_some (op := .remove) ha') ?_)
      rintro p h3 _ ⟨rfl, ha3⟩
      refine ⟨rfl, ?_⟩
      refine fine_post (fine_failure ha3) ?_
      rintro p h' (_ | _ | _) hh <;> exact hh

theorem fine_computeFound (C : Cfg K) {T : Table} {probe : Probe} {e : Entry K V} {s : Slot K V} {h : CFrame K V R f}
    (ha : h.Acc k []) :
    Wp (computeFound C T probe e s) h (Fine k fun p h' r =>
      match r with
      | .inl _ => p = [] ∧ h'.Acc k []
      | .inr w => Res k p h' w) := by
  unfold computeFound
  refine fine_bind (fine_prim (fun _ => rfl) fun _ => ⟨rfl, ?_⟩)
  refine fine_bind (fine_post (fine_key ha) ?_)
  rintro p h' k' ⟨rfl, rfl, rfl⟩
  refine ⟨rfl, ?_⟩
  split
  · rw [wp_pure]; exact ⟨rfl, ha⟩
  · split
    · rw [wp_pure]; exact ⟨rfl, ha⟩
    · exact fine_computeLoop C ha

theorem fine_computeProbe (C : Cfg K) {a b : Nat} {T : Table} {h : CFrame K V R f} (ha : h.Acc k []) :
    Wp (computeProbe C a b T) h (Fine k (Res k)) := by
  unfold computeProbe
  refine fine_loop ?_ ha
  clear ha h
  intro probe h ha
  split
  · refine fine_bind (fine_prim (fun _ => rfl) fun m => ⟨rfl, ?_⟩)
    split
    · refine fine_bind (fine_post (fine_next ha) ?_)
      rintro p h' op ⟨rfl, ha'⟩
      refine ⟨rfl, ?_⟩
      cases op with
      | abort a => simp only; rw [wp_pure]; exact ⟨rfl, ha'⟩
      | remove =>
        simp only
        unfold OM.panic; rw [wp_upd]
        exact .inl ⟨rfl, ha'⟩
      | insert v =>
        simp only
        refine fine_load ha' fun h1 hl => ?_
        refine wp_bind _ _ ((fine_insertAt C hl).mono ?_)
        intro p h2 o ho
        have again : ∀ {α : Type} {Q : List (Entry K V) → CFrame K V R f → α → Prop} {h2 : CFrame K V R f}
            {g : Unit → OM K V (CFrame K V R f) α}, h2.Loaded k v →
            (∀ h3 : CFrame K V R f, h3.Acc k [] → Wp (g ()) h3 (Fine k Q)) →
            Wp (moveOut >>= fun w => restore none (.insert w) >>= g) h2 (Fine k Q) := by
          intro α Q h2 g hl hg
          refine fine_bind (fine_post (fine_moveOut hl) ?_)
          rintro p h3 w ⟨rfl, rfl, ha3⟩
          refine ⟨rfl, ?_⟩
          refine fine_bind (fine_post (fine_restore_none ha3) ?_)
          rintro p h3 _ ⟨rfl, ha3⟩
          exact ⟨rfl, hg _ ha3⟩
        cases o with
        | fault => exact ho
        | panic r => exact ho
        | ok r =>
          rcases r with e | st
          · obtain ⟨rfl, hg⟩ := ho
            simp only
            refine wp_bind _ _ (wp_prim (fun _ => rfl) fun _ => ?_)
            rw [wp_pure]
            exact ⟨rfl, hg⟩
          · obtain ⟨rfl, hl⟩ := ho
            simp only [List.nil_append]
            cases st with
            | value e s =>
              exact again hl fun h3 ha3 => fine_post (fine_computeFound C ha3) (by rintro p h' (_ | _) hh <;> exact hh)
            | copied e s =>
              exact again hl fun h3 ha3 => fine_post (fine_computeFound C ha3) (by rintro p h' (_ | _) hh <;> exact hh)
            | null =>
              refine again hl fun h3 ha3 => ?_
              rw [wp_pure]
              exact ⟨rfl, ha3⟩
    · split
      · refine fine_bind (fine_prim (fun _ => rfl) fun s => ⟨rfl, ?_⟩)
        split
        · rw [wp_pure]; exact ⟨rfl, ha⟩
        · exact fine_post (fine_computeFound C ha) (by rintro p h' (_ | _) hh <;> exact hh)
      · rw [wp_pure]; exact ⟨rfl, ha⟩
  · rw [wp_pure]; exact ⟨rfl, ha⟩

theorem fine_computeInit (C : Cfg K) {h : CFrame K V R f} (ha : h.Acc k []) :
    Wp (computeInit C) h (Fine k fun p h' _ => p = [] ∧ h'.Acc k []) := by
  unfold computeInit
  refine fine_bind (fine_prim (fun _ => rfl) fun r => ⟨rfl, ?_⟩)
  cases r with
  | some T => simp only; rw [wp_pure]; exact ⟨rfl, ha⟩
  | none =>
    simp only
    refine fine_bind (fine_post (fine_next ha) ?_)
    rintro p h' op ⟨rfl, ha'⟩
    refine ⟨rfl, ?_⟩
    cases op with
    | abort a => simp only; rw [wp_pure]; exact ⟨rfl, ha'⟩
    | remove =>
      simp only
      unfold OM.panic; rw [wp_upd]
      exact .inl ⟨rfl, ha'⟩
    | insert v =>
      simp only
      refine fine_bind (fine_post (fine_restore_none ha') ?_)
      rintro p h' _ ⟨rfl, ha'⟩
      refine ⟨rfl, ?_⟩
      refine fine_bind (fine_sh (quiet_initTable C _) ha' fun T => ⟨rfl, ?_⟩)
      rw [wp_pure]
      exact ⟨rfl, ha'⟩

theorem fine_computeBody (C : Cfg K) {h : CFrame K V R f} (ha : h.Acc k []) :
    Wp (computeBody C) h (Fine k fun p h' r => Res k p h' (.done r)) := by
  unfold computeBody
  refine fine_bind (fine_post (fine_computeInit C ha) ?_)
  rintro p h' r ⟨rfl, ha'⟩
  refine ⟨rfl, ?_⟩
  cases r with
  | inr a => simp only; rw [wp_pure]; exact ⟨rfl, ha'⟩
  | inl T =>
    simp only
    refine fine_bind (fine_post (fine_key ha') ?_)
    rintro p h' k' ⟨rfl, rfl, rfl⟩
    refine ⟨rfl, ?_⟩
    refine fine_loop ?_ ha'
    clear ha ha' h h'
    rintro ⟨T, help⟩ h ha
    simp only
    refine wp_bind _ _ ((fine_computeProbe C ha).mono ?_)
    intro p h2 o ho
    cases o with
    | fault => exact ho
    | panic r => exact ho
    | ok r =>
      cases r with
      | done r =>
        simp only
        rw [wp_pure, List.append_nil]
        exact ho
      | retry copying =>
        obtain ⟨rfl, ha2⟩ := ho
        simp only [List.nil_append]
        refine fine_bind (fine_sh (quiet_prepareRetry C _ _ _) ha2 fun n => ⟨rfl, ?_⟩)
        cases n with
        | some n => simp only; rw [wp_pure]; exact ⟨rfl, ha2⟩
        | none =>
          simp only
          refine fine_bind (fine_post (fine_next ha2) ?_)
          rintro p h' op ⟨rfl, ha'⟩
          refine ⟨rfl, ?_⟩
          cases op with
          | abort a => simp only; rw [wp_pure]; exact ⟨rfl, ha'⟩
          | remove =>
            simp only
            unfold OM.panic; rw [wp_upd]
            exact .inl ⟨rfl, ha'⟩
          | insert v =>
            simp only
            refine fine_bind (wp_unwinding (wp_sh (quiet_prepareRetryInsert C _ _ _) ?_ ?_))
            · intro n
              refine ⟨rfl, ?_⟩
              refine fine_bind (fine_post (fine_restore_none ha') ?_)
              rintro p h3 _ ⟨rfl, ha3⟩
              refine ⟨rfl, ?_⟩
              rw [wp_pure]
              exact ⟨rfl, ha3⟩
            · intro r
              refine .inl ⟨rfl, ha'.1, ?_⟩
              have h2 := ha'.2
              simp only [CFrame.Bal, CFrame.dropVal, CFrame.updVals, List.nil_append, Operation.vals] at h2 ⊢
              refine h2.trans (List.perm_append_comm.trans ?_)
              rw [List.append_assoc, List.append_assoc]

theorem bal_dropState {h : CFrame K V R f} {vs : List V} (hb : h.Bal vs) :
    (madeVals h.dropState.st.calls).Perm (vs ++ h.dropState.deadVals) := by
  refine hb.trans (List.Perm.append_left _ ?_)
  simp only [CFrame.dropState, CFrame.dropUpdate, CFrame.dropInsert, CFrame.updVals]
  refine (perm_rot' _ _ _).trans ?_
  rw [List.append_assoc]
  exact List.Perm.refl _

/-- How the accounts of `compute` end. -/
def Closed (k : K) (p : List (Entry K V)) (h : CFrame K V R f) : Out (Compute K V R) → Prop
  | .ok r => p = r.published ∧ (madeVals h.st.calls).Perm (p.map Entry.val ++ h.deadVals) ∧
      [k] = p.map Entry.key ++ h.deadKeys ∧ ∀ k' v, h.box ≠ .mine k' v
  | .panic _ => (madeVals h.st.calls).Perm (p.map Entry.val ++ h.deadVals) ∧
      (([k] = p.map Entry.key ++ h.deadKeys ∧ ∀ k' v, h.box ≠ .mine k' v) ∨ (p = [] ∧ h.deadKeys = [] ∧ h.box = .mine k none))
  | .fault => False

theorem closed_compute (C : Cfg K) {h : CFrame K V R f} (ha : h.Acc k []) : Wp (compute C) h (Closed k) := by
  unfold compute
  refine wp_scope (wp_bind _ _ (wp_scope ((fine_computeBody C ha).mono ?_)))
  intro p h' o ho
  cases o with
  | fault => exact ho
  | panic r =>
    rcases ho with ⟨rfl, ⟨h1, h2⟩, h3⟩ | ⟨e, rfl, h1, h2, h3, h4, h5⟩
    · have hb := bal_dropState h3
      rcases h2 with ⟨h2, h4⟩ | ⟨h2, h4⟩
      · have he : h'.dropState.entry = .uninit k := h2
        simp only [Closed, CFrame.dropEntry, he]
        exact ⟨hb, .inl ⟨by rw [show h'.dropState.deadKeys = [] from h1]; rfl,
          fun k' v hh => by rw [show h'.dropState.box = .none from h4] at hh; cases hh⟩⟩
      · have he : h'.dropState.entry = .init := h2
        simp only [Closed, CFrame.dropEntry, he]
        exact ⟨hb, .inr ⟨trivial, h1, h4⟩⟩
    · have hb := bal_dropState h5
      have he : h'.dropState.entry = .init := h2
      simp only [Closed, CFrame.dropEntry, he]
      exact ⟨hb, .inl ⟨by rw [show h'.dropState.deadKeys = [] from h1, ← h4]; rfl,
          fun k' v hh => by rw [show h'.dropState.box = .published from h3] at hh; cases hh⟩⟩
  | ok r =>
    obtain ⟨rfl, ho⟩ := ho
    have hgiven : ∀ e, h'.Given k e → r.published = [e] → Closed k (r.published ++ []) h'.dropState.dropEntry (.ok r) := by
      rintro e ⟨h1, h2, h3, h4, h5⟩ hp
      have hb := bal_dropState h5
      have he : h'.dropState.entry = .init := h2
      simp only [Closed, CFrame.dropEntry, he, List.append_nil, hp]
      exact ⟨trivial, hb, by rw [show h'.dropState.deadKeys = [] from h1, ← h4]; rfl,
          fun k' v hh => by rw [show h'.dropState.box = .published from h3] at hh; cases hh⟩
    have hfree : h'.Acc k [] → r.published = [] → Wp (K := K) (V := V) (do
        match (← frame).entry with
        | .init => do
          free
          return r
        | .uninit _ => return r) h'.dropState (fun q h₁ o => match o with
          | .fault => Closed k (r.published ++ q) h₁ .fault
          | o => Closed k (r.published ++ q) (CFrame.dropEntry h₁) o) := by
      rintro ⟨⟨h1, h2⟩, h3⟩ hp
      have hb := bal_dropState h3
      refine wp_bind _ _ ?_
      unfold frame
      rw [wp_upd]
      simp only
      rcases h2 with ⟨h2, h4⟩ | ⟨h2, h4⟩
      · have he : h'.dropState.entry = .uninit k := h2
        simp only [he]
        rw [wp_pure]
        simp only [Closed, CFrame.dropEntry, he, hp]
        exact ⟨rfl, hb, by rw [show h'.dropState.deadKeys = [] from h1]; rfl,
          fun k' v hh => by rw [show h'.dropState.box = .none from h4] at hh; cases hh⟩
      · have he : h'.dropState.entry = .init := h2
        have hx : h'.dropState.box = .mine k none := h4
        simp only [he]
        refine wp_bind _ _ ?_
        unfold free
        rw [wp_upd]
        simp only [hx]
        rw [wp_pure]
        simp only [Closed, CFrame.dropEntry, he, hp]
        exact ⟨rfl, hb, by rw [show h'.dropState.deadKeys = [] from h1]; rfl, fun k' v hh => by cases hh⟩
    cases r with
    | inserted e => simp only; rw [wp_pure]; exact hgiven e ho rfl
    | updated o e => simp only; rw [wp_pure]; exact hgiven e ho rfl
    | removed e => exact (hfree ho rfl).mono (by rintro q h₁ (_ | _ | _) hh <;> exact hh)
    | aborted a s => exact (hfree ho rfl).mono (by rintro q h₁ (_ | _ | _) hh <;> exact hh)

end Own

end Papaya
