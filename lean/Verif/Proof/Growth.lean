import Verif.Proof.FrozenCalls
import Verif.Props.LockFree
import Verif.Spec.Growth

/-! # Executions with a bounded number of tables: the memory changes finitely often -/

set_option linter.unusedSectionVars false
set_option linter.unusedVariables false

namespace Papaya

variable {K V : Type} [DecidableEq K] {C : Cfg K} {D : Box} {ps ps' : PSt K V} {t : Tid}

/-! ## Bounds -/

def InBox (D : Box) (σ : St K V) : Prop := σ.nTabs ≤ D.N ∧ ∀ T, T < σ.nTabs → σ.cap T ≤ D.B

theorem InBox.back (hr : Reach C ps) (hs : Step C ps ps') (h : InBox D ps'.mem) : InBox D ps.mem := by
  have h1 := steps_tabs hr (.single hs)
  refine ⟨Nat.le_trans h1.1 h.1, fun T hT => ?_⟩
  rw [← h1.2.1 T hT]
  exact h.2 T (Nat.lt_of_lt_of_le hT h1.1)

theorem InBox.fok (hr : Reach C ps) (h : InBox D ps.mem) : FOk C D ps.mem := by
  obtain ⟨S, hS, hI⟩ := hr.good
  rw [← hS] at h ⊢
  refine ⟨h.2, fun T i hc => ?_, fun hi T => hI.s.incab hi T, fun r n h1 h2 h3 => ?_⟩
  · obtain ⟨h1, h2⟩ := hI.p.p5 T i hc
    have := hI.s.next T (by omega)
    rw [if_pos h2] at this
    show S.next T ≠ none
    rw [this]
    exact Option.some_ne_none _
  · have h4 := hI.s.next r (hI.s.some r h1).1
    have h5 := (hI.s.prom n h3).1
    have h6 : S.rt = r := by show S.root.getD 0 = r; rw [show S.root = some r from h1]; rfl
    rw [show S.next r = some n from h2] at h4
    split at h4
    · cases h4; omega
    · cases h4

theorem InBox.handle (hr : Reach C ps) (h : InBox D ps.mem) {T : Nat} (hT : T < ps.mem.nTabs) : (ps.mem.handle T).In D := by
  have h1 := h.2 T hT
  have h2 := h.1
  have h3 : 1 ≤ ps.mem.cap T := by
    obtain ⟨S, hS, g⟩ := hr.good
    have := (g.s.cap T (by rw [← hS] at hT; exact hT)).2.1
    rw [← hS]
    show 1 ≤ S.cap T
    omega
  refine ⟨by show T < D.N; omega, ?_⟩
  show ps.mem.cap T - 1 + 1 ≤ D.B
  omega

theorem sees {c : Call K V} {β : Type} {a : Act K V β} {k : β → Prog K V c.Res} {r : β} {σ : St K V} (hr : Reach C ps)
    (ht : ps.th t = .run c (.act a k)) (he : Exec C t a ps.mem r σ) (h : InBox D σ) : Sees D a r := by
  have hs : Step C ps { ps with mem := σ, th := setTh ps.th t (.run c (k r)) } := .act t ht he
  have hr' := hr.step hs
  have h0 : InBox D ps.mem := h.back hr hs
  have hsafe := C21_memory_safe hr ht
  obtain ⟨h1, h2⟩ := reach_tabs hr
  cases a <;> try trivial
  case loadRoot =>
    obtain ⟨rfl, _⟩ := he
    intro T hT
    obtain ⟨x, hx, rfl⟩ := Option.map_eq_some_iff.1 hT
    exact h0.handle hr (h1 x hx)
  case casRootInit cap =>
    cases hroot : ps.mem.root <;> simp only [Exec, hroot] at he
    · obtain ⟨he, rfl⟩ := he
      refine InBox.handle (ps := { ps with mem := σ, th := setTh ps.th t (.run c (k (σ.handle ps.mem.nTabs))) }) hr' h ?_
      show ps.mem.nTabs < σ.nTabs
      rw [he]
      exact Nat.lt_succ_self _
    · obtain ⟨rfl, rfl⟩ := he
      exact h0.handle hr (h1 _ hroot)
  case loadNext U =>
    obtain ⟨rfl, _⟩ := he
    intro T hT
    obtain ⟨x, hx, rfl⟩ := Option.map_eq_some_iff.1 hT
    have h3 := h2 U hsafe.1
    rw [hx] at h3
    split at h3
    · rename_i h4
      cases h3
      exact ⟨h0.handle hr h4, Nat.lt_succ_self U⟩
    · cases h3
  case storeNext U cap =>
    obtain ⟨he, rfl⟩ := he
    refine ⟨InBox.handle (ps := { ps with mem := σ, th := setTh ps.th t (.run c (k (σ.handle ps.mem.nTabs))) }) hr' h ?_, hsafe.1⟩
    show ps.mem.nTabs < σ.nTabs
    rw [he]
    exact Nat.lt_succ_self _

/-! ## The programs -/

/-- Every operation is a good program; every call publishes at most one entry. -/
def GInv (C : Cfg K) (D : Box) (ps : PSt K V) : Prop := ∃ w : Tid → Nat, ∃ U : Finset Tid,
  (∀ t c p, ps.th t = .run c p → t ∈ U ∧ Gd C D (w t) p fun _ _ => True) ∧ ps.mem.nIds + ∑ t ∈ U, w t ≤ ps.calls

theorem init_ids {σ : St K V} (h : initSt C = some σ) : σ.nIds = 0 := by
  unfold initSt at h
  dsimp only at h
  split at h
  · cases h; rfl
  · cases hn : entriesFor C.capacity with
    | none => rw [hn] at h; cases h
    | some n => rw [hn] at h; cases h; rfl

theorem calls_app {l : List (HEv K V)} {e : HEv K V} (h : e.isInv = false) : ((l ++ [e]).filter HEv.isInv).length = (l.filter HEv.isInv).length := by
  rw [List.filter_append, List.filter_cons_of_neg (by rw [h]; exact Bool.false_ne_true)]
  simp

theorem setTh_run {th : Tid → Th K V} {x : Th K V} {u : Tid} {c : Call K V} {p : Prog K V c.Res} (h : setTh th t x u = .run c p) :
    (u = t ∧ x = .run c p) ∨ (u ≠ t ∧ th u = .run c p) := by
  unfold setTh at h
  split at h
  · exact .inl ⟨‹_›, h⟩
  · exact .inr ⟨‹_›, h⟩

theorem ids_exec {β : Type} {a : Act K V β} {r : β} {σ σ' : St K V} (w : Nat) (he : Exec C t a σ r σ') (hp : a.publishes → 1 ≤ w) :
    σ'.nIds + a.left w r ≤ σ.nIds + w := by
  cases a
  case casNew =>
    rcases he with ⟨_, rfl, rfl⟩ | ⟨_, rfl, rfl⟩
    · have := hp trivial
      show σ.nIds + 1 + (w - 1) ≤ _
      omega
    · exact Nat.le_refl _
  case casRootInit cap =>
    cases hroot : σ.root <;> simp only [Exec, hroot] at he
    · obtain ⟨rfl, _⟩ := he; exact Nat.le_refl _
    · obtain ⟨rfl, _⟩ := he; exact Nat.le_refl _
  case tryLock => rcases he with ⟨_, _, rfl⟩ | ⟨_, _, rfl⟩ <;> exact Nat.le_refl _
  case lockWait => rcases he with ⟨_, _, rfl⟩ | ⟨_, _, rfl⟩ <;> exact Nat.le_refl _
  case cas => rcases he with ⟨_, _, rfl⟩ | ⟨_, _, rfl⟩ <;> exact Nat.le_refl _
  case casRoot => rcases he with ⟨_, _, rfl⟩ | ⟨_, _, rfl⟩ <;> exact Nat.le_refl _
  case storeNext => obtain ⟨rfl, _⟩ := he; exact Nat.le_refl _
  all_goals first
    | (obtain ⟨_, rfl⟩ := he; exact Nat.le_refl _)
    | (cases he; exact Nat.le_refl _)

theorem ginv_step (hc : C.Copies) (hr : Reach C ps) (hs : Step C ps ps') (hD : InBox D ps'.mem) (h : GInv C D ps) : GInv C D ps' := by
  obtain ⟨w, U, h1, h2⟩ := h
  cases hs with
  | pin t ht =>
    refine ⟨w, U, fun u c p hu => ?_, h2⟩
    rcases setTh_run hu with ⟨rfl, h⟩ | ⟨_, h⟩
    · cases h
    · exact h1 u c p h
  | unpin t ht =>
    refine ⟨w, U, fun u c p hu => ?_, h2⟩
    rcases setTh_run hu with ⟨rfl, h⟩ | ⟨_, h⟩
    · cases h
    · exact h1 u c p h
  | abandon t ht =>
    refine ⟨w, U, fun u c p hu => ?_, h2⟩
    rcases setTh_run hu with ⟨rfl, h⟩ | ⟨_, h⟩
    · cases h
    · exact h1 u c p h
  | release t ht => exact ⟨w, U, h1, h2⟩
  | freeEntry x => exact ⟨w, U, h1, h2⟩
  | freeTable x => exact ⟨w, U, h1, h2⟩
  | inv t c ht hwf =>
    refine ⟨fun u => if u = t then 1 else w u, Insert.insert t U, fun u c' p hu => ?_, ?_⟩
    · rcases setTh_run hu with ⟨rfl, h⟩ | ⟨hne, h⟩
      · cases h
        refine ⟨Finset.mem_insert_self _ _, ?_⟩
        dsimp only
        rw [if_pos rfl]
        exact g_call c hc
      · obtain ⟨h3, h4⟩ := h1 u c' p h
        refine ⟨Finset.mem_insert_of_mem h3, ?_⟩
        dsimp only
        rw [if_neg hne]
        exact h4
    · show ps.mem.nIds + _ ≤ ((ps.hist ++ [_]).filter HEv.isInv).length
      have h3 : ((ps.hist ++ [HEv.inv (t, ps.seq t + 1) c]).filter HEv.isInv).length = ps.calls + 1 := by
        rw [List.filter_append, List.length_append]
        rfl
      have h4 : ∑ u ∈ Insert.insert t U, (if u = t then 1 else w u) ≤ (∑ u ∈ U, w u) + 1 := by
        by_cases hU : t ∈ U
        · rw [Finset.insert_eq_of_mem hU]
          have := sum_upd (f := w) (v := 1) hU
          omega
        · rw [Finset.sum_insert hU, if_pos rfl]
          have : ∑ u ∈ U, (if u = t then 1 else w u) = ∑ u ∈ U, w u :=
            Finset.sum_congr rfl fun u hu => if_neg (by rintro rfl; exact hU hu)
          omega
      rw [h3]
      dsimp only
      omega
  | @act t c β a k r σ ht he =>
    obtain ⟨hU, hg⟩ := h1 t c _ ht
    have hsees := sees hr ht he hD
    have hpub : a.publishes → 1 ≤ w t := (hg 1).2.2.1
    refine ⟨fun u => if u = t then a.left (w t) r else w u, U, fun u c' p hu => ?_, ?_⟩
    · rcases setTh_run hu with ⟨rfl, h⟩ | ⟨hne, h⟩
      · cases h
        dsimp only
        rw [if_pos rfl]
        exact ⟨hU, fun n => (hg (n + 1)).2.2.2 r hsees⟩
      · dsimp only
        rw [if_neg hne]
        exact h1 u c' p h
    · have h3 := sum_upd (f := w) (v := a.left (w t) r) hU
      have h4 := ids_exec (w t) he hpub
      show σ.nIds + ∑ u ∈ U, (if u = t then a.left (w t) r else w u) ≤ ps.calls
      omega
  | @loop t c β σ body s k ht =>
    refine ⟨w, U, fun u c' p hu => ?_, h2⟩
    rcases setTh_run hu with ⟨rfl, h⟩ | ⟨_, h⟩
    · cases h
      obtain ⟨hU, hg⟩ := h1 _ _ _ ht
      exact ⟨hU, fun n => (hg (n + 1)).2⟩
    · exact h1 u c' p h
  | ret t ht =>
    refine ⟨w, U, fun u c p hu => ?_, ?_⟩
    · rcases setTh_run hu with ⟨rfl, h⟩ | ⟨_, h⟩
      · cases h
      · exact h1 u c p h
    · show ps.mem.nIds + _ ≤ ((ps.hist ++ [_]).filter HEv.isInv).length
      rw [calls_app rfl]
      exact h2
  | panic t ht =>
    refine ⟨w, U, fun u c p hu => ?_, ?_⟩
    · rcases setTh_run hu with ⟨rfl, h⟩ | ⟨_, h⟩
      · cases h
      · exact h1 u c p h
    · show ps.mem.nIds + _ ≤ ((ps.hist ++ [_]).filter HEv.isInv).length
      rw [calls_app rfl]
      exact h2

theorem Reach.ginv (hc : C.Copies) (h : Reach C ps) (hD : InBox D ps.mem) : GInv C D ps := by
  induction h with
  | init h =>
    obtain ⟨h1, h2, _, _, h3⟩ := h
    refine ⟨fun _ => 0, ∅, fun t c p ht => ?_, ?_⟩
    · rw [h2] at ht; cases ht
    · rw [init_ids h1]
      simp
  | step h hs ih => exact ginv_step hc h hs hD (ih (hD.back h hs))

theorem Reach.gd (hc : C.Copies) (h : Reach C ps) (hD : InBox D ps.mem) {c : Call K V} {p : Prog K V c.Res} (ht : ps.th t = .run c p) :
    ∃ w, Gd C D w p fun _ _ => True := by
  obtain ⟨w, U, h1, _⟩ := h.ginv hc hD
  exact ⟨_, (h1 t c p ht).2⟩

/-! ## The potential -/

/-- How far a slot has come: null, a pointer, empty for good, being copied, copied. -/
def Slot.rank (s : Slot K V) : Nat :=
  if s.copying then if s.copied then 4 else 3
  else if s.ptr.isSome then 1
  else if s.copied || s.borrowed then 2 else 0

theorem Slot.rank_le (s : Slot K V) : s.rank ≤ 4 := by
  unfold Slot.rank
  split <;> (split <;> try split) <;> omega

theorem rank_null : (Slot.null : Slot K V).rank = 0 := rfl
theorem rank_tomb : (Slot.tombstone : Slot K V).rank = 2 := rfl

theorem rank_some {s : Slot K V} (h : s.ptr ≠ none) : 1 ≤ s.rank := by
  obtain ⟨p, a, b, c⟩ := s
  cases p with
  | none => exact absurd rfl h
  | some e => cases a <;> cases b <;> simp [Slot.rank]

theorem rank_live {s : Slot K V} (h : s.ptr ≠ none) (hc : s.copying = false) : s.rank = 1 := by
  obtain ⟨p, a, b, c⟩ := s
  cases hc
  cases p with
  | none => exact absurd rfl h
  | some e => rfl

theorem rank_copying {s : Slot K V} (h : s.copying = false) : s.rank < { s with copying := true }.rank := by
  obtain ⟨p, a, b, c⟩ := s
  cases h
  cases p <;> cases b <;> cases c <;> simp [Slot.rank]

theorem rank_copied {s : Slot K V} (h : ¬ (s.copying = true ∧ s.copied = true)) : s.rank < 4 := by
  obtain ⟨p, a, b, c⟩ := s
  cases p <;> cases a <;> cases b <;> cases c <;> simp [Slot.rank] at h ⊢

/-- What a step that allocates nothing does. -/
structure Moves (σ σ' : St K V) : Prop where
  slot : ∀ T i, σ'.slot T i = σ.slot T i ∨ (T < σ.nTabs ∧ i < σ.cap T ∧ (σ.slot T i).rank < (σ'.slot T i).rank)
  next : σ'.next = σ.next
  cap : σ'.cap = σ.cap

theorem Moves.refl (σ : St K V) : Moves σ σ := ⟨fun _ _ => .inl rfl, rfl, rfl⟩

theorem Moves.set {σ : St K V} {T i : Nat} {s : Slot K V} (h : s = σ.slot T i ∨ (T < σ.nTabs ∧ i < σ.cap T ∧ (σ.slot T i).rank < s.rank)) :
    Moves σ (σ.setSlot T i s) := by
  refine ⟨fun T' i' => ?_, rfl, rfl⟩
  show (if T' = T ∧ i' = i then s else σ.slot T' i') = _ ∨ (_ ∧ _ ∧ _ < (if T' = T ∧ i' = i then s else σ.slot T' i').rank)
  split
  · rename_i h'
    obtain ⟨rfl, rfl⟩ := h'
    exact h
  · exact .inl rfl

theorem moves_act {c : Call K V} {β : Type} {a : Act K V β} {k : β → Prog K V c.Res} {r : β} {σ : St K V} (hr : Reach C ps)
    (ht : ps.th t = .run c (.act a k)) (he : Exec C t a ps.mem r σ) (hsh : a.Shaped) (hn : σ.nTabs = ps.mem.nTabs)
    (hi : σ.nIds = ps.mem.nIds) : Moves ps.mem σ := by
  have hsafe := C21_memory_safe hr ht
  have hs : Step C ps { ps with mem := σ, th := setTh ps.th t (.run c (k r)) } := .act t ht he
  cases a
  case casRootInit cap =>
    cases hroot : ps.mem.root <;> simp only [Exec, hroot] at he
    · obtain ⟨rfl, _⟩ := he
      exact absurd hn (Nat.succ_ne_self _)
    · obtain ⟨rfl, _⟩ := he; exact .refl _
  case storeNext U cap =>
    obtain ⟨rfl, _⟩ := he
    exact absurd hn (Nat.succ_ne_self _)
  case tryLock => rcases he with ⟨_, _, rfl⟩ | ⟨_, _, rfl⟩ <;> exact ⟨fun _ _ => .inl rfl, rfl, rfl⟩
  case lockWait => rcases he with ⟨_, _, rfl⟩ | ⟨_, _, rfl⟩ <;> exact ⟨fun _ _ => .inl rfl, rfl, rfl⟩
  case casRoot => rcases he with ⟨_, _, rfl⟩ | ⟨_, _, rfl⟩ <;> exact ⟨fun _ _ => .inl rfl, rfl, rfl⟩
  case cas wk T i e n =>
    rcases he with ⟨h1, _, rfl⟩ | ⟨_, _, rfl⟩
    · refine .set (.inr ⟨hsafe.1.1, hsafe.2.1, ?_⟩)
      rw [h1]
      rcases hsh with ⟨rfl, h2⟩ | ⟨h2, h3, rfl⟩
      · have := rank_some h2
        rw [rank_null]
        omega
      · rw [rank_live h2 h3, rank_tomb]
        omega
    · exact .refl _
  case casNew wk T i e kk v =>
    rcases he with ⟨h1, _, rfl⟩ | ⟨_, _, rfl⟩
    · exact absurd hi (Nat.succ_ne_self _)
    · exact .refl _
  case fetchOrCopying T i =>
    obtain ⟨rfl, rfl⟩ := he
    refine .set ?_
    cases hc : (ps.mem.slot T i).copying with
    | true =>
      left
      generalize ps.mem.slot T i = s at hc
      obtain ⟨p, a, b, c⟩ := s
      cases hc
      rfl
    | false => exact .inr ⟨hsafe.1.1, hsafe.2, rank_copying hc⟩
  case storeSlot T i s =>
    obtain ⟨S, g, hS, _⟩ := hr.pinv 2
    obtain ⟨S', g', hS', hev, _⟩ := pinvG_step hS hs
    cases he
    refine .set ?_
    by_cases hc : (ps.mem.slot T i).copying = true ∧ (ps.mem.slot T i).copied = true
    · left
      have h1 := hev.frozen T i (by show (S.slot T i).copying = true; rw [show S.slot = ps.mem.slot by rw [← hS.1]]; exact hc.1)
      have h2 : S'.slot T i = s := by
        rw [show S'.slot = (ps.mem.setSlot T i s).slot from congrArg St.slot hS'.1]
        show (if T = T ∧ i = i then s else _) = s
        rw [if_pos ⟨rfl, rfl⟩]
      rw [h2, show S.slot = ps.mem.slot by rw [← hS.1]] at h1
      generalize ps.mem.slot T i = x at hc h1
      obtain ⟨p, a, b, c⟩ := x
      obtain ⟨p', a', b', c'⟩ := s
      obtain ⟨h3, _, h4⟩ := h1
      obtain ⟨_, h5, h6⟩ := hsh
      obtain ⟨h7, h8⟩ := hc
      dsimp only at h3 h4 h5 h6 h7 h8
      rw [h3, h4, h5, h6, h7, h8]
    · refine .inr ⟨hsafe.1.1, hsafe.2, ?_⟩
      have h1 := rank_copied hc
      have h2 : s.rank = 4 := by
        obtain ⟨p, a, b, c⟩ := s
        obtain ⟨_, h5, h6⟩ := hsh
        dsimp only at h5 h6
        rw [h5, h6]
        rfl
      omega
  all_goals first
    | (obtain ⟨_, rfl⟩ := he; exact ⟨fun _ _ => .inl rfl, rfl, rfl⟩)
    | (cases he; exact ⟨fun _ _ => .inl rfl, rfl, rfl⟩)

theorem moves_step (hc : C.Copies) (hr : Reach C ps) (hs : Step C ps ps') (hD : InBox D ps'.mem) (hn : ps'.mem.nTabs = ps.mem.nTabs)
    (hi : ps'.mem.nIds = ps.mem.nIds) : Moves ps.mem ps'.mem := by
  have h0 := hD.back hr hs
  cases hs with
  | act t ht he =>
    obtain ⟨w, hg⟩ := hr.gd hc h0 ht
    exact moves_act hr ht he (hg 1).2.1 hn hi
  | _ => exact ⟨fun _ _ => .inl rfl, rfl, rfl⟩

def phiT (D : Box) (σ : St K V) (T : Nat) : Nat :=
  ∑ i ∈ Finset.range D.B, (σ.slot T i).rank + min (σ.claim T) D.B + if σ.status T = .pending then 0 else 1

def phiR (σ : St K V) : Nat :=
  match σ.root with
  | none => 0
  | some r => r + 1

def phi (D : Box) (σ : St K V) : Nat := ∑ T ∈ Finset.range D.N, phiT D σ T + phiR σ

/-- The memory as far as it matters. -/
structure Same (D : Box) (σ σ' : St K V) : Prop where
  root : σ'.root = σ.root
  nTabs : σ'.nTabs = σ.nTabs
  nIds : σ'.nIds = σ.nIds
  cap : σ'.cap = σ.cap
  next : σ'.next = σ.next
  slot : ∀ T i, σ'.slot T i = σ.slot T i
  status : ∀ T, σ'.status T = σ.status T
  claim : ∀ T, min (σ'.claim T) D.B = min (σ.claim T) D.B

theorem Same.refl (σ : St K V) : Same D σ σ := ⟨rfl, rfl, rfl, rfl, rfl, fun _ _ => rfl, fun _ => rfl, fun _ => rfl⟩

theorem Same.trans {σ σ' σ'' : St K V} (h : Same D σ σ') (h' : Same D σ' σ'') : Same D σ σ'' :=
  ⟨h'.root.trans h.root, h'.nTabs.trans h.nTabs, h'.nIds.trans h.nIds, h'.cap.trans h.cap, h'.next.trans h.next,
    fun T i => (h'.slot T i).trans (h.slot T i), fun T => (h'.status T).trans (h.status T), fun T => (h'.claim T).trans (h.claim T)⟩

theorem phi_le (hr : Reach C ps) (hD : InBox D ps.mem) : phi D ps.mem ≤ D.N * (D.B * 4 + D.B + 1) + (D.N + 1) := by
  refine Nat.add_le_add ?_ ?_
  · have : ∀ T ∈ Finset.range D.N, phiT D ps.mem T ≤ D.B * 4 + D.B + 1 := fun T _ => by
      refine Nat.add_le_add (Nat.add_le_add ?_ (Nat.min_le_right _ _)) (by split <;> omega)
      have := Finset.sum_le_card_nsmul (Finset.range D.B) (fun i => (ps.mem.slot T i).rank) 4 fun i _ => Slot.rank_le _
      rw [Finset.card_range] at this
      exact this
    have := Finset.sum_le_card_nsmul _ _ _ this
    rw [Finset.card_range] at this
    exact this
  · unfold phiR
    cases h : ps.mem.root with
    | none => exact Nat.zero_le _
    | some r =>
      have h1 := (reach_tabs hr).1 r h
      have h2 := hD.1
      show r + 1 ≤ D.N + 1
      omega

theorem phi_step (hc : C.Copies) (hr : Reach C ps) (hs : Step C ps ps') (hD : InBox D ps'.mem) (hn : ps'.mem.nTabs = ps.mem.nTabs)
    (hi : ps'.mem.nIds = ps.mem.nIds) : phi D ps.mem ≤ phi D ps'.mem ∧ (phi D ps.mem = phi D ps'.mem → Same D ps.mem ps'.mem) := by
  have hm := moves_step hc hr hs hD hn hi
  have h0 := hD.back hr hs
  obtain ⟨S, g, hS, _⟩ := hr.pinv 2
  obtain ⟨S', g', hS', hev, _⟩ := pinvG_step hS hs
  rw [← hS.1, ← hS'.1] at hm hn hi ⊢
  rw [← hS.1] at h0
  have e1 : ∀ T i, (S.slot T i).rank ≤ (S'.slot T i).rank ∧ ((S.slot T i).rank = (S'.slot T i).rank → S'.slot T i = S.slot T i) := fun T i => by
    rcases hm.slot T i with h | ⟨_, _, h⟩
    · have h : S'.slot T i = S.slot T i := h
      rw [h]
      exact ⟨Nat.le_refl _, fun _ => rfl⟩
    · exact ⟨Nat.le_of_lt h, fun h' => absurd h' (Nat.ne_of_lt h)⟩
  have e2 : ∀ T, S.status T ≠ .pending → S'.status T = S.status T := fun T h => by
    cases hst : S.status T with
    | pending => exact absurd hst h
    | aborted => exact hev.aborted T hst
    | promoted => exact hev.prom T hst
  have e3 : ∀ T, (if S.status T = .pending then 0 else 1) ≤ (if S'.status T = .pending then 0 else 1) ∧
      ((if S.status T = .pending then 0 else 1) = (if S'.status T = .pending then 0 else 1) → S'.status T = S.status T) := fun T => by
    by_cases h : S.status T = .pending
    · rw [if_pos h]
      refine ⟨Nat.zero_le _, fun h' => ?_⟩
      split at h'
      · rw [h]; assumption
      · omega
    · rw [e2 T h]
      exact ⟨Nat.le_refl _, fun _ => rfl⟩
  have e4 : ∀ T, min (S.claim T) D.B ≤ min (S'.claim T) D.B := fun T => by have := hev.claim T; omega
  have e5 : ∀ T, ∑ i ∈ Finset.range D.B, (S.slot T i).rank ≤ ∑ i ∈ Finset.range D.B, (S'.slot T i).rank := fun T =>
    Finset.sum_le_sum fun i _ => (e1 T i).1
  have e6 : ∀ T ∈ Finset.range D.N, phiT D S.toSt T ≤ phiT D S'.toSt T := fun T _ =>
    Nat.add_le_add (Nat.add_le_add (e5 T) (e4 T)) (e3 T).1
  have e7 := Finset.sum_le_sum e6
  have e8 : phiR S.toSt ≤ phiR S'.toSt ∧ (phiR S.toSt = phiR S'.toSt → S'.root = S.root) := by
    unfold phiR
    cases h : S.root with
    | none =>
      refine ⟨Nat.zero_le _, fun h' => ?_⟩
      cases h2 : S'.root with
      | none => rfl
      | some r => rw [h2] at h'; dsimp only at h'; omega
    | some r =>
      obtain ⟨r', h1, h2⟩ := hev.root r h
      rw [h1]
      dsimp only
      exact ⟨by omega, fun h => by rw [show r' = r by omega]⟩
  refine ⟨Nat.add_le_add e7 e8.1, fun h => ?_⟩
  have h1 : ∑ T ∈ Finset.range D.N, phiT D S.toSt T = ∑ T ∈ Finset.range D.N, phiT D S'.toSt T := by
    have h2 := e8.1
    unfold phi at h
    omega
  have h2 : phiR S.toSt = phiR S'.toSt := by
    unfold phi at h
    omega
  have h3 := (Finset.sum_eq_sum_iff_of_le e6).1 h1
  have h4 : ∀ T, T < D.N → (∑ i ∈ Finset.range D.B, (S.slot T i).rank = ∑ i ∈ Finset.range D.B, (S'.slot T i).rank) ∧
      min (S.claim T) D.B = min (S'.claim T) D.B ∧ S'.status T = S.status T := fun T hT => by
    have h5 := h3 T (Finset.mem_range.2 hT)
    have h6 := e5 T
    have h7 := e4 T
    have h8 := e3 T
    unfold phiT at h5
    have h9 : (if S.status T = .pending then 0 else 1) = (if S'.status T = .pending then 0 else 1) := by
      have := h8.1
      generalize (if S.status T = .pending then 0 else 1) = x at h5 this ⊢
      generalize (if S'.status T = .pending then 0 else 1) = y at h5 this ⊢
      omega
    refine ⟨by omega, by omega, h8.2 h9⟩
  have hout := hS.2.1.s.out
  have hout' := hS'.2.1.s.out
  have hN : ∀ T, D.N ≤ T → S.nTabs ≤ T ∧ S'.nTabs ≤ T := fun T hT => by
    have h5 : S.nTabs ≤ D.N := h0.1
    have h6 : S'.nTabs = S.nTabs := hn
    omega
  refine ⟨e8.2 h2, hn, hi, hm.cap, hm.next, fun T i => ?_, fun T => ?_, fun T => ?_⟩
  · rcases hm.slot T i with h5 | ⟨h5, h6, h7⟩
    · exact h5
    · have h8 : T < D.N := Nat.lt_of_lt_of_le h5 h0.1
      have h9 : i < D.B := Nat.lt_of_lt_of_le h6 (h0.2 T h5)
      exact (e1 T i).2 ((Finset.sum_eq_sum_iff_of_le fun i _ => (e1 T i).1).1 (h4 T h8).1 i (Finset.mem_range.2 h9))
  · by_cases hT : T < D.N
    · exact (h4 T hT).2.2
    · obtain ⟨h5, h6⟩ := hN T (by omega)
      exact (hout' T h6).2.2.2.2.2.1.trans (hout T h5).2.2.2.2.2.1.symm
  · by_cases hT : T < D.N
    · exact (h4 T hT).2.1.symm
    · obtain ⟨h5, h6⟩ := hN T (by omega)
      show min (S'.claim T) D.B = min (S.claim T) D.B
      rw [(hout' T h6).2.2.2.1, (hout T h5).2.2.2.1]

end Papaya
