import Verif.Proof.Latency
import Verif.Exec.Demo

/-! # C62: in incremental mode a call does a bounded part of a resize -/

set_option linter.unusedSectionVars false
set_option linter.unusedVariables false

namespace Papaya

variable {K V : Type} [DecidableEq K] {C : Cfg K} {ps ps' q : PSt K V} {t : Tid}

theorem seq_grows (h : Step C ps ps') : ps.seq t ≤ ps'.seq t := by
  cases h with
  | inv u c h1 h2 =>
    show ps.seq t ≤ if t = u then ps.seq u + 1 else ps.seq t
    split
    · rename_i h; subst h; omega
    · exact Nat.le_refl _
  | _ => exact Nat.le_refl _

theorem bd_own {b : Nat} (h : ∀ c p, ps.th t = .run c p → Bd b p fun _ _ => True) (hs : OwnStep C t ps ps') :
    (Moving ps t → 1 ≤ b ∧ ∀ c p, ps'.th t = .run c p → Bd (b - 1) p fun _ _ => True) ∧
    (¬ Moving ps t → ∀ c p, ps'.th t = .run c p → Bd b p fun _ _ => True) := by
  cases hs with
  | @act c β a k r σ h1 he =>
    have h2 := h _ _ h1
    have h3 : a.moves ≤ b ∧ Bd (b - a.moves) (k r) fun _ _ => True := ⟨(h2 1).1, fun n => (h2 (n + 1)).2 r⟩
    have h4 : ∀ c' p, setTh ps.th t (.run c (k r)) t = .run c' p → Bd (b - a.moves) p fun _ _ => True := fun c' p hp => by
      rw [show setTh ps.th t (.run c (k r)) t = .run c (k r) from if_pos rfl] at hp
      cases hp; exact h3.2
    constructor
    · rintro ⟨c', T, i, k', h5⟩
      rw [h1] at h5
      cases h5
      exact ⟨h3.1, h4⟩
    · intro hm
      have : a.moves = 0 := by
        cases a <;> first | rfl | exact absurd ⟨_, _, _, _, h1⟩ hm
      rw [this] at h4
      exact h4
  | @loop c β σ body s k h1 =>
    refine ⟨fun ⟨c', T, i, k', h5⟩ => (by rw [h1] at h5; cases h5), fun _ c' p hp => ?_⟩
    have hp : setTh ps.th t (.run c (Prog.unfoldIter body s k)) t = .run c' p := hp
    rw [show setTh ps.th t (.run c (Prog.unfoldIter body s k)) t = _ from if_pos rfl] at hp
    cases hp
    exact fun n => h _ _ h1 (n + 1)
  | ret h1 =>
    refine ⟨fun ⟨c', T, i, k', h5⟩ => (by rw [h1] at h5; cases h5), fun _ c' p hp => ?_⟩
    have hp : setTh ps.th t .idle t = .run c' p := hp
    rw [show setTh ps.th t .idle t = _ from if_pos rfl] at hp
    cases hp
  | panic h1 =>
    refine ⟨fun ⟨c', T, i, k', h5⟩ => (by rw [h1] at h5; cases h5), fun _ c' p hp => ?_⟩
    have hp : setTh ps.th t .idle t = .run c' p := hp
    rw [show setTh ps.th t .idle t = _ from if_pos rfl] at hp
    cases hp

/-- A step of the system that is not one of the guard, and does not begin a call with it. -/
theorem bd_other {b : Nat} (h : ∀ c p, ps.th t = .run c p → Bd b p fun _ _ => True) (hs : Step C ps ps') (hn : ¬ OwnStep C t ps ps')
    (he : ps'.seq t = ps.seq t) : ∀ c p, ps'.th t = .run c p → Bd b p fun _ _ => True := by
  have key : ∀ {u : Tid} {x : Th K V}, (∀ c p, x = .run c p → t ≠ u) →
      ∀ c p, setTh ps.th u x t = .run c p → Bd b p fun _ _ => True := fun {u x} hx c p hp => by
    unfold setTh at hp
    split at hp
    · rename_i htu; exact absurd htu (hx _ _ hp)
    · exact h c p hp
  cases hs with
  | pin u h1 => exact key fun _ _ h => by cases h
  | unpin u h1 => exact key fun _ _ h => by cases h
  | abandon u h1 => exact key fun _ _ h => by cases h
  | release u h1 => exact h
  | ret u h1 => exact key fun _ _ h => by cases h
  | panic u h1 => exact key fun _ _ h => by cases h
  | freeEntry x h1 h2 h3 => exact h
  | freeTable x h1 h2 h3 => exact h
  | loop u h1 => exact key fun _ _ _ htu => by subst htu; exact hn (.loop h1)
  | act u h1 h2 => exact key fun _ _ _ htu => by subst htu; exact hn (.act h1 h2)
  | inv u c h1 h2 =>
    refine key fun _ _ _ htu => ?_
    subst htu
    have he : (if t = t then ps.seq t + 1 else ps.seq t) = ps.seq t := he
    rw [if_pos rfl] at he
    omega

theorem MovesBy.seq_grows {n : Nat} (h : MovesBy C t n ps ps') : ps.seq t ≤ ps'.seq t := by
  induction h with
  | refl => exact Nat.le_refl _
  | move _ _ hs ih => exact ih.trans (Papaya.seq_grows hs.step)
  | other _ hs _ ih => exact ih.trans (Papaya.seq_grows hs)

theorem moves_le {n b : Nat} (h0 : ∀ c p, ps.th t = .run c p → Bd b p fun _ _ => True) (h : MovesBy C t n ps ps') (hs : ps'.seq t = ps.seq t) :
    n ≤ b ∧ ∀ c p, ps'.th t = .run c p → Bd (b - n) p fun _ _ => True := by
  induction h with
  | refl => exact ⟨Nat.zero_le _, h0⟩
  | move h1 hm ho ih =>
    have h2 := h1.seq_grows
    have h3 := Papaya.seq_grows (t := t) ho.step
    obtain ⟨h4, h5⟩ := ih h0 (by omega)
    obtain ⟨h6, h7⟩ := (bd_own h5 ho).1 hm
    exact ⟨by omega, by rw [Nat.sub_add_eq]; exact h7⟩
  | @other n' ps q ps' h1 hs' hn ih =>
    have h2 := h1.seq_grows
    have h3 := Papaya.seq_grows (t := t) hs'
    obtain ⟨h4, h5⟩ := ih h0 (by omega)
    refine ⟨h4, ?_⟩
    by_cases ho : OwnStep C t q ps'
    · exact (bd_own h5 ho).2 fun hm => hn ⟨hm, ho⟩
    · exact bd_other h5 hs' ho (by omega)

/-- C62: in incremental mode with chunk size `chunk`, a call that has just begun moves, in any execution, up to its end, at most `bound` slots:
`chunk` for `insert`, `try_insert`, `get_or_insert`, `remove`, `remove_if`, and none for the reading operations and for `compute`, `update`, … -/
theorem C62_bounded_help {chunk bound n : Nat} {c : Call K V} (hc : C.mode = .incremental chunk) (hb : c.moveBound chunk = some bound)
    (h0 : ps.th t = .run c (c.prog C)) (h : MovesBy C t n ps ps') (hs : ps'.seq t = ps.seq t) : n ≤ bound :=
  (moves_le (fun c' p hp => by rw [h0] at hp; cases hp; exact bd_call hc hb) h hs).1

/-! The bound is reached. -/

variable [DecidableEq V]

def movingB (ps : PSt K V) (t : Tid) : Bool :=
  match ps.th t with
  | .run _ (.act a _) => decide (a.moves = 1)
  | _ => false

theorem movingB_iff : movingB ps t = true ↔ Moving ps t := by
  unfold movingB
  constructor
  · intro h
    split at h
    · rename_i c β a k h1
      cases a <;> first | exact absurd h Bool.false_ne_true | exact ⟨_, _, _, _, h1⟩
    · cases h
  · rintro ⟨c, T, i, k, h⟩
    rw [h]; rfl

/-- `i` steps of the guard, counting. -/
def goCount (C : Cfg K) (t : Tid) : Nat → Nat × PSt K V → Option (Nat × PSt K V)
  | 0, x => some x
  | i + 1, x => (stepFn C t x.2).bind fun q => goCount C t i (if movingB x.2 t then x.1 + 1 else x.1, q)

theorem stepFn_ownStep (h : stepFn C t ps = some ps') : OwnStep C t ps ps' := by
  unfold stepFn at h
  split at h
  · rename_i c β a k hth
    rw [Option.map_eq_some_iff] at h
    obtain ⟨⟨r, σ⟩, h1, h2⟩ := h
    cases h2
    exact .act hth (execFn_sound h1)
  · rename_i hth; cases h; exact .loop hth
  · rename_i hth; cases h; exact .ret hth
  · rename_i hth; cases h; exact .panic hth
  · cases h

theorem goCount_sound {i n m : Nat} (h : goCount C t i (n, q) = some (m, ps')) (h0 : MovesBy C t n ps q) : MovesBy C t m ps ps' := by
  induction i generalizing n q with
  | zero => cases h; exact h0
  | succ i ih =>
    obtain ⟨q', h1, h2⟩ := Option.bind_eq_some_iff.1 h
    refine ih h2 ?_
    split
    · rename_i hm
      exact .move h0 (movingB_iff.1 hm) (stepFn_ownStep h1)
    · rename_i hm
      exact .other h0 (stepFn_ownStep h1).step fun hh => hm (movingB_iff.2 hh.1)

def restsB (ps : PSt K V) (t : Tid) : Bool :=
  match ps.th t with
  | .idle => true
  | _ => false

theorem restsB_iff (h : restsB ps t = true) : ps.th t = .idle := by
  unfold restsB at h
  split at h
  · assumption
  · cases h

/-- The state right after a call. -/
def PSt.called (C : Cfg K) (ps : PSt K V) (t : Tid) (c : Call K V) : PSt K V :=
  { ps with
    th := setTh ps.th t (.run c (c.prog C))
    seq := fun u => if u = t then ps.seq t + 1 else ps.seq u
    hist := ps.hist ++ [.inv (t, ps.seq t + 1) c] }

/-- In a map with chunks of 2 slots and a full table, `insert` moves 2 slots (and leaves the other 6). -/
example : ∃ (ps ps' : PSt Nat Nat) (c : Call Nat Nat), Reach cfgI ps ∧ cfgI.mode = .incremental 2 ∧ c.moveBound 2 = some 2 ∧
    ps.th 0 = .run c (c.prog cfgI) ∧ MovesBy cfgI 0 2 ps ps' ∧ ps'.seq 0 = ps.seq 0 ∧ ps'.th 0 = .idle ∧ ps'.mem.copied 1 = 2 := by
  have h : ((runMap cfgI (fill 8)).any fun ps => restsB ps 0 && (goCount cfgI 0 82 (0, ps.called cfgI 0 (.insert 8 80))).any fun x =>
      decide (x.1 = 2) && decide (x.2.seq 0 = ps.seq 0 + 1) && restsB x.2 0 && decide (x.2.mem.copied 1 = 2)) = true := by decide +kernel
  obtain ⟨ps, h1, h2⟩ := (Option.any_eq_true _ _).1 h
  rw [Bool.and_eq_true] at h2
  obtain ⟨⟨n, ps'⟩, h3, h4⟩ := (Option.any_eq_true _ _).1 h2.2
  simp only [Bool.and_eq_true, decide_eq_true_eq] at h4
  obtain ⟨⟨⟨rfl, h5⟩, h6⟩, h7⟩ := h4
  refine ⟨ps.called cfgI 0 (.insert 8 80), ps', .insert 8 80, .step (runMap_reach h1) (.inv 0 _ (restsB_iff h2.1) trivial), rfl, rfl,
    show setTh ps.th 0 _ 0 = _ from if_pos rfl,
    goCount_sound h3 .refl, h5, restsB_iff h6, h7⟩

end Papaya
