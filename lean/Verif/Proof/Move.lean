import Verif.Proof.Post
import Verif.Proof.Hist

/-! # One step of one guard, seen by everybody -/

set_option linter.unusedSectionVars false
set_option linter.unusedVariables false

namespace Papaya

variable {K V : Type} [DecidableEq K]

open GSt

variable {C : Cfg K} {t t' : Tid} {S S' S'' : GSt K V}

/-- What several steps of other threads leave alone for thread `t`. -/
structure OwnL (t : Tid) (S S' : GSt K V) : Prop where
  seq : S'.seq t = S.seq t
  invPos : S'.invPos t = S.invPos t
  rInv : S'.rInv t = S.rInv t
  prot : ∀ e, S.Prot t e → S'.Prot t e
  info : ∀ id x, S'.info id = some x → x.op.1 = t → S.info id = some x
  log : S.log <+: S'.log
  evs : ∀ ev, ev ∈ S'.log.drop S.log.length → ev.op.1 = t →
    ∃ id x, S.info id = some x ∧ x.op = ev.op ∧ ¬ S.logged x.entry
  pays : ∃ l, S'.pays = S.pays ++ l ∧ ∀ p ∈ l, p.1 ≠ t

theorem mem_drop_trans {l l' l'' : List (Ev K V)} (h : l <+: l') (h' : l' <+: l'') {ev : Ev K V}
    (hm : ev ∈ l''.drop l.length) : ev ∈ l'.drop l.length ∨ ev ∈ l''.drop l'.length := by
  obtain ⟨a, rfl⟩ := h
  obtain ⟨b, rfl⟩ := h'
  simpa using hm

theorem OwnL.refl (t : Tid) (S : GSt K V) : OwnL t S S :=
  ⟨rfl, rfl, rfl, fun _ h => h, fun _ _ h _ => h, List.prefix_refl _, fun ev h => by simp at h, [], by simp, by simp⟩

theorem OwnL.trans (h : OwnL t S S') (h' : OwnL t S' S'') : OwnL t S S'' where
  seq := h'.seq.trans h.seq
  invPos := h'.invPos.trans h.invPos
  rInv := h'.rInv.trans h.rInv
  prot e hp := h'.prot e (h.prot e hp)
  info id x hx ho := h.info id x (h'.info id x hx ho) ho
  log := h.log.trans h'.log
  evs ev hm ho := by
    rcases mem_drop_trans h.log h'.log hm with g | g
    · exact h.evs ev g ho
    · obtain ⟨id, x, g1, g2, g3⟩ := h'.evs ev g ho
      exact ⟨id, x, h.info id x g1 (by rw [g2]; exact ho), g2, fun hl => g3 (logged_mono h.log hl)⟩
  pays := by
    obtain ⟨l, e1, h1⟩ := h.pays
    obtain ⟨l', e2, h2⟩ := h'.pays
    refine ⟨l ++ l', by rw [e2, e1, List.append_assoc], fun p hp => ?_⟩
    rcases List.mem_append.1 hp with g | g
    · exact h1 p g
    · exact h2 p g

theorem Own.ownL (he : Evo S S') (h : Own t S S') : OwnL t S S' where
  seq := h.seq
  invPos := h.invPos
  rInv := h.rInv
  prot := h.prot
  info := h.info
  log := he.log
  evs ev hm ho := by
    obtain ⟨_, e, x, g1, g2, g3, g4, g5⟩ := h.evs ev hm ho
    exact ⟨e.id, x, g2, g4, by rw [g3]; exact g5⟩
  pays := h.pays

theorem rely_ownL (h : (rg K V C).Rely t S S') : OwnL t S S' := by
  have hr : Relation.ReflTransGen (GSt.RStep C t) S S' := h
  induction hr with
  | refl => exact OwnL.refl t S
  | tail _ h1 ih => exact (ih (by assumption)).trans (h1.2.2.2.ownL h1.2.2.1)

/-- A step of thread `t`. -/
structure Move (C : Cfg K) (t : Tid) (S S' : GSt K V) : Prop where
  inv : S.Inv C
  inv' : S'.Inv C
  evo : Evo S S'
  rely : ∀ t', t' ≠ t → (rg K V C).Rely t' S S'
  own : Own1 t S S'

namespace Move

theorem seq (h : Move C t S S') : S'.seq = S.seq := by
  funext u
  by_cases hu : u = t
  · subst hu; exact h.own.seq
  · exact (rely_ownL (h.rely u hu)).seq

theorem invPos (h : Move C t S S') : S'.invPos = S.invPos := by
  funext u
  by_cases hu : u = t
  · subst hu; exact h.own.invPos
  · exact (rely_ownL (h.rely u hu)).invPos

theorem rInv (h : Move C t S S') : S'.rInv = S.rInv := by
  funext u
  by_cases hu : u = t
  · subst hu; exact h.own.rInv
  · exact (rely_ownL (h.rely u hu)).rInv

theorem prot (h : Move C t S S') {u : Tid} {e : Entry K V} (hp : S.Prot u e) : S'.Prot u e := by
  by_cases hu : u = t
  · subst hu; exact h.own.prot e hp
  · exact (rely_ownL (h.rely u hu)).prot e hp

/-- Whose events may appear. -/
theorem evs (h : Move C t S S') {ev : Ev K V} (hm : ev ∈ S'.log.drop S.log.length) :
    ev.op = (t, S.seq t) ∨ ∃ id x, S.info id = some x ∧ x.op = ev.op ∧ ¬ S.logged x.entry := by
  by_cases hu : ev.op.1 = t
  · rcases h.own.evs ev hm hu with g | ⟨e, x, g1, g2, g3, g4, g5⟩
    · exact .inl g
    · exact .inr ⟨e.id, x, g2, g4, by rw [g3]; exact g5⟩
  · exact .inr ((rely_ownL (h.rely _ hu)).evs ev hm rfl)

/-- Whose entries may appear. -/
theorem info (h : Move C t S S') {id : Nat} {x : EInfo K V} (hx : S'.info id = some x) :
    S.info id = some x ∨ x.op = (t, S.seq t) := by
  by_cases hu : x.op.1 = t
  · exact h.own.info id x hx hu
  · exact .inl ((rely_ownL (h.rely _ hu)).info id x hx rfl)

theorem pays (h : Move C t S S') : ∃ l, S'.pays = S.pays ++ l ∧ ∀ p ∈ l, p.1 = t := by
  obtain ⟨l, hl⟩ := h.own.pays
  refine ⟨l, hl.symm, fun p hp => ?_⟩
  by_contra hu
  obtain ⟨l', e1, h1⟩ := (rely_ownL (h.rely _ hu)).pays
  have : l' = l := List.append_cancel_left (e1.symm.trans hl.symm)
  rw [this] at h1
  exact h1 p hp rfl

theorem pays_mt (h : Move C t S S') (hm : Mt t S S') : S'.pays = S.pays := by
  obtain ⟨l, e1, h1⟩ := h.pays
  obtain ⟨l', e2, h2⟩ := hm.2.pays
  have : l' = l := List.append_cancel_left (e2.symm.trans e1)
  subst this
  cases l' with
  | nil => simpa using e1
  | cons p l => exact absurd (h1 p (by simp)) (h2 p (by simp))

end Move

end Papaya
