import Verif.Proof.OwnSim
import Verif.Model.Pool

/-! # Ownership: `insert`, and the runs of the calls of the system -/

set_option linter.unusedSectionVars false
set_option linter.unusedVariables false

namespace Papaya

variable {K V : Type}

namespace Prog

variable {α β σ : Type}

/-- Every complete run satisfies `Q`. -/
def Wp (q : Prog K V α) (Q : List (Entry K V) → Except PanicReason α → Prop) : Prop := ∀ p o, q.Ends p o → Q p o

variable {Q : List (Entry K V) → Except PanicReason α → Prop}

theorem wp_ret {a : α} (h : Q [] (.ok a)) : (pure a : Prog K V α).Wp Q := by
  rintro p o ⟨rfl, rfl⟩; exact h

theorem wp_panic {r : PanicReason} (h : Q [] (.error r)) : (Prog.panic r : Prog K V α).Wp Q := by
  rintro p o ⟨rfl, rfl⟩; exact h

theorem wp_bind {q : Prog K V β} {g : β → Prog K V α} (h : q.Wp fun p o => match o with
    | .ok b => (g b).Wp fun p' o' => Q (p ++ p') o'
    | .error r => Q p (.error r)) : (q >>= g).Wp Q := by
  intro p o he
  rw [bind_eq, ends_bind] at he
  rcases he with ⟨p₁, p₂, b, h1, h2, rfl⟩ | ⟨r, h1, rfl⟩
  · exact h _ _ h1 _ _ h2
  · exact h _ _ h1

theorem wp_quiet {q : Prog K V β} (hq : q.Quiet) {g : β → Prog K V α} (hg : ∀ b, (g b).Wp Q) (hp : ∀ r, Q [] (.error r)) :
    (q >>= g).Wp Q := by
  refine wp_bind fun p o he => ?_
  rw [hq.ends he]
  cases o with
  | ok b => exact hg b
  | error r => exact hp r

theorem wp_loop {body : σ → Prog K V (σ ⊕ α)}
    (hb : ∀ s, (body s).Wp fun p o => match o with
      | .ok (.inl _) => p = []
      | .ok (.inr b) => Q p (.ok b)
      | .error r => Q p (.error r)) {s : σ} : (Prog.loop s body).Wp Q := by
  have key : ∀ {s p o}, LoopEnds (fun s => (body s).Ends) s p o → Q p o := by
    intro s p o hl
    induction hl with
    | more h1 _ ih => rw [show _ = [] from hb _ _ _ h1]; exact ih
    | done h1 => exact hb _ _ _ h1
    | panic h1 => exact hb _ _ _ h1
  rintro p o (⟨p₁, p₂, b, h1, ⟨rfl, rfl⟩, rfl⟩ | ⟨r, h1, rfl⟩)
  · rw [List.append_nil]; exact key h1
  · exact key h1

theorem Wp.mono {q : Prog K V α} {Q' : List (Entry K V) → Except PanicReason α → Prop} (h : q.Wp Q)
    (hQ : ∀ p o, Q p o → Q' p o) : q.Wp Q' := fun p o he => hQ _ _ (h _ _ he)

end Prog

open Prog

variable [DecidableEq K]

/-- The results of `insert_inner` and of its parts. -/
def InsOk (k : K) (v : V) (p : List (Entry K V)) : InsRes K V → Prop
  | .inserted e => p = [e] ∧ e.key = k ∧ e.val = v
  | .replaced _ e => p = [e] ∧ e.key = k ∧ e.val = v
  | .error _ w => p = [] ∧ w = v

/-- A panic. -/
def InsBust (k : K) (v : V) (p : List (Entry K V)) : Prop := p = [] ∨ ∃ e : Entry K V, p = [e] ∧ e.key = k ∧ e.val = v

/-- The probe loop. -/
def InsW (k : K) (v : V) (p : List (Entry K V)) : WOut (InsRes K V) → Prop
  | .done r => InsOk k v p r
  | .retry _ => p = []

variable (C : Cfg K) {k : K} {v : V}

theorem wp_insertSlow {i : Nat} {e : Entry K V} {s : Slot K V} {T : Table} :
    (insertSlow C i e s k v T).Wp fun p o => match o with
      | .ok (.inl (_, new)) => p = [new] ∧ new.key = k ∧ new.val = v
      | .ok (.inr _) => p = []
      | .error _ => InsBust k v p := by
  unfold insertSlow
  refine wp_loop ?_
  rintro ⟨e, s⟩
  refine wp_bind ?_
  intro p o he
  rcases Own.updateAtNew_ends C he with ⟨e, hk, hv, rfl, rfl | ⟨r, rfl⟩⟩ | ⟨st, rfl, rfl⟩
  · exact wp_ret ⟨rfl, hk, hv⟩
  · exact .inr ⟨e, rfl, hk, hv⟩
  · cases st with
    | value e s => exact wp_ret rfl
    | copied e s => exact wp_ret rfl
    | null => exact wp_ret rfl

theorem wp_insertFound {replace : Bool} {T : Table} {probe : Probe} {e : Entry K V} {s : Slot K V} :
    (insertFound C k v replace T probe e s).Wp fun p o => match o with
      | .ok (.inl _) => p = []
      | .ok (.inr w) => InsW k v p w
      | .error _ => InsBust k v p := by
  unfold insertFound
  refine wp_quiet (quiet_prim fun _ => rfl) (fun _ => ?_) (fun _ => .inl rfl)
  split
  · split
    · exact wp_ret rfl
    · split
      · exact wp_ret ⟨rfl, rfl⟩
      · refine wp_bind ((wp_insertSlow C).mono ?_)
        rintro p (r | (⟨o, n⟩ | st)) hh
        · exact hh
        · obtain ⟨rfl, hk, hv⟩ := hh
          exact wp_ret ⟨rfl, hk, hv⟩
        · cases hh
          cases st with
          | value e s => exact wp_ret rfl
          | copied e s => exact wp_ret rfl
          | null => exact wp_ret rfl
  · exact wp_ret rfl

theorem wp_insertProbe {replace : Bool} {T : Table} :
    (insertProbe C k v replace T).Wp fun p o => match o with
      | .ok w => InsW k v p w
      | .error _ => InsBust k v p := by
  unfold insertProbe
  refine wp_loop ?_
  intro probe
  split
  · refine wp_quiet (quiet_prim fun _ => rfl) (fun m => ?_) (fun _ => .inl rfl)
    split
    · refine wp_bind ?_
      intro p o he
      rcases Own.insertAt_ends C he with ⟨e, hk, hv, rfl, rfl⟩ | ⟨st, rfl, rfl⟩
      · exact wp_ret ⟨rfl, hk, hv⟩
      · cases st with
        | value e s => exact (wp_insertFound C).mono (by rintro p (r | (w | w)) hh <;> exact hh)
        | copied e s => exact (wp_insertFound C).mono (by rintro p (r | (w | w)) hh <;> exact hh)
        | null => exact wp_ret rfl
    · split
      · refine wp_quiet (quiet_prim fun _ => rfl) (fun s => ?_) (fun _ => .inl rfl)
        split
        · exact wp_ret rfl
        · exact (wp_insertFound C).mono (by rintro p (r | (w | w)) hh <;> exact hh)
      · exact wp_ret rfl
  · exact wp_ret rfl

theorem wp_insertInner {replace : Bool} :
    (insertInner C k v replace).Wp fun p o => match o with
      | .ok r => InsOk k v p r
      | .error _ => InsBust k v p := by
  unfold insertInner
  refine wp_quiet ?_ (fun T => ?_) (fun _ => .inl rfl)
  · have := @quiet_initTable K V _ C
    quiet
  · refine wp_loop ?_
    rintro ⟨T, help⟩
    refine wp_bind ((wp_insertProbe C).mono ?_)
    rintro p (r | w) hh
    · exact hh
    · cases w with
      | done r => exact wp_ret (by rw [List.append_nil]; exact hh)
      | retry copying =>
        cases hh
        exact wp_quiet (quiet_prepareRetryInsert C _ _ _) (fun n => wp_ret rfl) (fun _ => .inl rfl)

/-- How the accounts of `insert` end. -/
def InsClosed (k : K) (v : V) (p : List (Entry K V)) (h : IFrame K V) : Out (InsRes K V) → Prop
  | .ok r => p = r.published ∧ [v] = p.map Entry.val ++ r.handedBack ∧ [k] = p.map Entry.key ++ h.deadKeys ∧
      ∀ k' v', h.box ≠ .mine k' v'
  | .panic _ => (∃ e, p = [e] ∧ e.key = k ∧ e.val = v ∧ h.deadKeys = [] ∧ h.box = .published) ∨
      (p = [] ∧ h.deadKeys = [] ∧ h.box = .mine k (some v))
  | .fault => False

theorem closed_insert {replace : Bool} : OM.Wp (Own.insert C k v replace) ⟨.none, []⟩ (InsClosed k v) := by
  unfold Own.insert OM.modify
  refine OM.wp_bind _ _ ?_
  rw [OM.wp_upd]
  refine OM.wp_bind _ _ ?_
  intro p h' o hr
  simp only [Own.insertInner] at hr
  obtain ⟨hr, rfl⟩ := hr
  rcases hr with ⟨a, he, rfl⟩ | ⟨r, he, rfl⟩
  · have hk := wp_insertInner C _ _ he
    cases a with
    | inserted e =>
      obtain ⟨rfl, h1, h2⟩ := hk
      simp only
      refine OM.wp_bind _ _ (OM.wp_prim (fun _ => rfl) fun _ => ?_)
      simp only
      rw [OM.wp_pure]
      exact ⟨rfl, by rw [← h2]; rfl, by rw [← h1]; rfl, by intro k' v' hh; cases hh⟩
    | replaced o e =>
      obtain ⟨rfl, h1, h2⟩ := hk
      simp only
      rw [OM.wp_pure]
      exact ⟨rfl, by rw [← h2]; rfl, by rw [← h1]; rfl, by intro k' v' hh; cases hh⟩
    | error cur w =>
      obtain ⟨rfl, rfl⟩ := hk
      simp only
      refine OM.wp_bind _ _ ?_
      unfold Own.unbox
      rw [OM.wp_upd]
      simp only
      rw [OM.wp_pure]
      exact ⟨rfl, rfl, rfl, by intro k' v' hh; cases hh⟩
  · rcases (wp_insertInner C _ _ he : InsBust k v p) with rfl | ⟨e, rfl, h1, h2⟩
    · exact .inr ⟨rfl, rfl, rfl⟩
    · exact .inl ⟨e, rfl, h1, h2, rfl, rfl⟩

/-- The code of Model/Own.lean has every run of `insert`. -/
theorem sim_insert {replace : Bool} : OM.Sim (Own.insert C k v replace) ⟨.none, []⟩ (insert C k v replace) (fun _ a b => a = b) := by
  unfold Own.insert OM.modify insert
  refine OM.sim_upd rfl ?_
  refine OM.sim_bind (S₁ := fun h a b => a = b ∧ ∀ cur w, a = .error cur w → h.box = .mine k (some v) ∧ w = v) ?_ ?_
  · intro p o he
    have hk := wp_insertInner C _ _ he
    cases o with
    | ok r =>
      refine ⟨(match p with | [] => ⟨.mine k (some v), []⟩ | _ :: _ => ⟨.published, []⟩ : IFrame K V), r, ?_, rfl, ?_⟩
      · simp only [Own.insertInner]
        exact ⟨.inl ⟨r, he, rfl⟩, by cases p <;> rfl⟩
      · rintro cur w rfl
        obtain ⟨rfl, rfl⟩ := hk
        exact ⟨rfl, rfl⟩
    | error r =>
      refine ⟨(match p with | [] => ⟨.mine k (some v), []⟩ | _ :: _ => ⟨.published, []⟩ : IFrame K V), ?_⟩
      simp only [Own.insertInner]
      exact ⟨.inr ⟨r, he, rfl⟩, by cases p <;> rfl⟩
  · rintro h a _ ⟨rfl, hh⟩
    cases a with
    | inserted e => exact OM.sim_both fun _ => OM.sim_ret rfl
    | replaced o n => exact OM.sim_ret rfl
    | error cur w =>
      obtain ⟨h1, rfl⟩ := hh _ _ rfl
      refine OM.sim_upd (a := w) ?_ (OM.sim_ret rfl)
      simp only [h1]

theorem Own.acc_new {R : Type} (f : Closure (Option (K × V)) (Operation V R)) (k : K) : (CFrame.new f k).Acc k [] :=
  ⟨⟨rfl, .inl ⟨rfl, rfl⟩⟩, List.Perm.refl _⟩

/-! ## The calls of the system -/

theorem Exec.may {t : Tid} {β : Type} {a : Act K V β} {σ σ' : St K V} {r : β} (h : Exec C t a σ r σ') : a.May r := by
  cases a <;> try trivial
  rcases h with ⟨_, rfl, _⟩ | ⟨_, rfl, _⟩
  · exact ⟨rfl, rfl⟩
  · trivial

theorem ends_unfold {α β σ : Type} {body : σ → Prog K V (σ ⊕ β)} {s : σ} {g : β → Prog K V α} {p : List (Entry K V)}
    {o : Except PanicReason α} (h : (Prog.unfoldIter body s g).Ends p o) : (Prog.iter body s g).Ends p o := by
  rw [Prog.unfoldIter, Prog.ends_bind] at h
  rcases h with ⟨p₁, p₂, (s' | b), h1, h2, rfl⟩ | ⟨r, h1, rfl⟩
  · rcases h2 with ⟨q₁, q₂, b, h2, h3, rfl⟩ | ⟨r, h2, rfl⟩
    · exact .inl ⟨_, _, _, .more h1 h2, h3, by rw [List.append_assoc]⟩
    · exact .inr ⟨r, .more h1 h2, rfl⟩
  · exact .inl ⟨_, _, _, .done h1, h2, rfl⟩
  · exact .inr ⟨r, .panic h1, rfl⟩

theorem act_ends {α β : Type} {a : Act K V β} {g : β → Prog K V α} {q : Prog K V α} {pubs : List (Entry K V)} {x : β}
    (hp : ∀ p o, (Prog.act a g).Ends p o → q.Ends (pubs ++ p) o) (hm : a.May x) :
    ∃ pubs, ∀ p o, (g x).Ends p o → q.Ends (pubs ++ p) o := by
  refine ⟨pubs ++ a.pub x, fun p o h3 => ?_⟩
  rw [List.append_assoc]
  exact hp _ _ ⟨x, p, hm, rfl, h3⟩

/-- Whatever the rest of a running call does completes a run of the whole call. -/
theorem reach_ends {ps : PSt K V} (h : Reach C ps) {t : Tid} {c : Call K V} {q : Prog K V c.Res} (ht : ps.th t = .run c q) :
    ∃ pubs, ∀ p o, q.Ends p o → (c.prog C).Ends (pubs ++ p) o := by
  induction h generalizing t c with
  | init h => rw [h.2.1] at ht; cases ht
  | step h hs ih =>
    have same : ∀ {th : Tid → Th K V} {u : Tid} {x : Th K V}, setTh th u x t = .run c q → (u ≠ t ∧ th t = .run c q) ∨ (u = t ∧ x = .run c q) := by
      intro th u x hx
      unfold setTh at hx
      split at hx
      · rename_i hut; exact .inr ⟨hut.symm, hx⟩
      · rename_i hut; exact .inl ⟨fun hh => hut hh.symm, hx⟩
    cases hs with
    | pin u h1 => rcases same ht with ⟨_, h2⟩ | ⟨_, h2⟩; exacts [ih h2, by cases h2]
    | unpin u h1 => rcases same ht with ⟨_, h2⟩ | ⟨_, h2⟩; exacts [ih h2, by cases h2]
    | abandon u h1 => rcases same ht with ⟨_, h2⟩ | ⟨_, h2⟩; exacts [ih h2, by cases h2]
    | release u h1 => exact ih ht
    | inv u c' h1 hwf =>
      rcases same ht with ⟨_, h2⟩ | ⟨_, h2⟩
      · exact ih h2
      · cases h2; exact ⟨[], fun p o he => he⟩
    | act u h1 he =>
      rcases same ht with ⟨_, h2⟩ | ⟨rfl, h2⟩
      · exact ih h2
      · cases h2
        obtain ⟨pubs, hp⟩ := ih h1
        exact act_ends hp (Exec.may C he)
    | loop u h1 =>
      rcases same ht with ⟨_, h2⟩ | ⟨rfl, h2⟩
      · exact ih h2
      · cases h2
        obtain ⟨pubs, hp⟩ := ih h1
        exact ⟨pubs, fun p o h3 => hp _ _ (ends_unfold h3)⟩
    | ret u h1 => rcases same ht with ⟨_, h2⟩ | ⟨_, h2⟩; exacts [ih h2, by cases h2]
    | panic u h1 => rcases same ht with ⟨_, h2⟩ | ⟨_, h2⟩; exacts [ih h2, by cases h2]
    | freeEntry x => exact ih ht
    | freeTable T => exact ih ht

theorem reach_ret {ps : PSt K V} (h : Reach C ps) {t : Tid} {c : Call K V} {r : c.Res} (ht : ps.th t = .run c (.ret r)) :
    ∃ pubs, (c.prog C).Ends pubs (.ok r) := by
  obtain ⟨pubs, hp⟩ := reach_ends C h ht
  exact ⟨_, hp _ _ ⟨rfl, rfl⟩⟩

theorem reach_panic {ps : PSt K V} (h : Reach C ps) {t : Tid} {c : Call K V} {r : PanicReason}
    (ht : ps.th t = .run c (.panic r)) : ∃ pubs, (c.prog C).Ends pubs (.error r) := by
  obtain ⟨pubs, hp⟩ := reach_ends C h ht
  exact ⟨_, hp _ _ ⟨rfl, rfl⟩⟩

/-- A call made by way of `compute` runs it. -/
theorem computes_ends {c : Call K V} {R : Type} {f : Closure (Option (K × V)) (Operation V R)} (hc : c.Computes R k f)
    {p : List (Entry K V)} {o : Except PanicReason c.Res} (he : (c.prog C).Ends p o) :
    ∃ o', (compute C k f).Ends p o' ∧ ∀ r, o = .ok r → ∃ x, o' = .ok x := by
  have key : ∀ {α β : Type} {q : Prog K V β} {g : β → Prog K V α} {p : List (Entry K V)} {o : Except PanicReason α},
      (∀ b, (g b).Quiet) → (q >>= g).Ends p o → ∃ o', q.Ends p o' ∧ ∀ r, o = .ok r → ∃ x, o' = .ok x := by
    intro α β q g p o hg he
    rw [bind_eq, ends_bind] at he
    rcases he with ⟨p₁, p₂, b, h1, h2, rfl⟩ | ⟨r, h1, rfl⟩
    · rw [(hg b).ends h2, List.append_nil]; exact ⟨_, h1, fun _ _ => ⟨b, rfl⟩⟩
    · exact ⟨_, h1, by intro r hh; cases hh⟩
  cases hc with
  | compute => exact ⟨o, he, fun r h => ⟨r, h⟩⟩
  | tryInsertWith f => exact key (fun b => by quiet) he
  | getOrInsertWith f =>
    obtain ⟨o', h1, h2⟩ := key (q := tryInsertWith C k _) (fun b => by quiet) he
    obtain ⟨o'', h3, h4⟩ := key (fun b => by quiet) h1
    refine ⟨o'', h3, fun r hr => ?_⟩
    obtain ⟨x, hx⟩ := h2 r hr
    exact h4 x hx
  | update f => exact key (fun b => by quiet) he
  | updateOrInsertWith u f => exact key (fun b => by quiet) he
  | updateOrInsert u v => exact key (fun b => by quiet) he

end Papaya
