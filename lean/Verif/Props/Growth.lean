import Verif.Proof.Growth

/-! # C60: operations run forever only if tables are allocated forever -/

set_option linter.unusedSectionVars false
set_option linter.unusedVariables false

namespace Papaya

variable {K V : Type} [DecidableEq K] {C : Cfg K} {D : Box} {ps ps' q : PSt K V} {t : Tid} {run : Nat → PSt K V}

/-! ## One step while the memory is frozen -/

theorem Same.handle {σ σ' : St K V} (h : Same D σ σ') : σ'.handle = σ.handle := by
  funext T
  unfold St.handle
  rw [h.cap]

theorem seesF {β : Type} {a : Act K V β} {r : β} {σ : St K V} (he : Exec C t a q.mem r ps'.mem) (h : Same D σ q.mem) (h' : Same D q.mem ps'.mem)
    (hns : ∀ T i s, a.expects = some (T, i, s) → q.mem.slot T i = s → ps'.mem.slot T i = s → False) : SeesF D σ a r := by
  have hs := h.slot
  cases a
  case loadRoot => rw [show r = q.mem.root.map q.mem.handle from he.1, h.root, h.handle]; rfl
  case peekRoot => exact he.1.trans h.root
  case loadNext U => rw [show r = (q.mem.next U).map q.mem.handle from he.1, h.next, h.handle]; rfl
  case storeNext U cap =>
    have h1 := h'.nTabs
    rw [he.1] at h1
    exact absurd h1 (Nat.succ_ne_self _)
  case loadSlot U i => exact he.1.trans (hs U i)
  case cas wk U i e n =>
    rcases he with ⟨h1, rfl, h2⟩ | ⟨_, rfl, h2⟩
    · have h3 := h'.slot U i
      rw [h2] at h3
      have h3 : (if U = U ∧ i = i then n else _) = q.mem.slot U i := h3
      rw [if_pos ⟨rfl, rfl⟩] at h3
      exact .inr ⟨rfl, by rw [h3, h1]⟩
    · refine .inl ⟨by rw [hs], fun h3 => hns U i e rfl (by rw [hs, h3]) (by rw [h2, hs, h3])⟩
  case casNew wk U i e k v =>
    rcases he with ⟨h1, rfl, h2⟩ | ⟨_, rfl, h2⟩
    · have h3 := h'.nIds
      rw [h2] at h3
      exact absurd h3 (Nat.succ_ne_self _)
    · exact ⟨by rw [hs], fun h3 => hns U i e rfl (by rw [hs, h3]) (by rw [h2, hs, h3])⟩
  case loadStatus U => exact he.1.trans (h.status U)
  case parkStatus U =>
    have h1 : q.mem.status U ≠ .pending := he.1
    rw [h.status U] at h1
    exact h1
  case loadClaim U => rw [show r = q.mem.claim U from he.1]; exact h.claim U
  case addClaim U n src =>
    obtain ⟨rfl, h2⟩ := he
    refine ⟨h.claim U, fun hn => ?_⟩
    have h3 := h'.claim U
    rw [h2] at h3
    have h3 : min (if U = U then q.mem.claim U + n else _) D.B = _ := h3
    rw [if_pos rfl] at h3
    omega
  case casRoot U N =>
    rcases he with ⟨h1, rfl, h2⟩ | ⟨h1, rfl, _⟩
    · have h3 := h'.root
      rw [h2, h1] at h3
      cases h3
      exact .inl ⟨rfl, rfl⟩
    · rw [h.root] at h1
      exact .inr ⟨rfl, h1⟩
  case sameTable x y => exact he.1
  all_goals trivial

/-! ## Sequences -/

theorem settles {f : Nat → Nat} {n M : Nat} (h : ∀ i, n ≤ i → f i ≤ f (i + 1)) (hM : ∀ i, n ≤ i → f i ≤ M) :
    ∃ m, n ≤ m ∧ ∀ i, m ≤ i → f i = f m := by
  generalize hd : M - f n = d
  induction d using Nat.strong_induction_on generalizing n with
  | _ d ih =>
    by_cases hc : ∀ i, n ≤ i → f i = f n
    · exact ⟨n, Nat.le_refl _, hc⟩
    · have hmono : ∀ i, n ≤ i → f n ≤ f i := fun i hi => Nat.le_induction (Nat.le_refl _) (fun j hj ih => Nat.le_trans ih (h j hj)) i hi
      simp only [not_forall] at hc
      obtain ⟨j, hj, hne⟩ := hc
      have h1 := hmono j hj
      have h2 := hM j hj
      obtain ⟨m, h3, h4⟩ := ih (M - f j) (by omega) (fun i hi => h i (by omega)) (fun i hi => hM i (by omega)) rfl
      exact ⟨m, by omega, h4⟩

theorem Endless.reach_at (hr : Endless C run) (i : Nat) : Reach C (run i) := by
  induction i with
  | zero => exact hr.reach
  | succ i ih => exact ih.step (hr.step i)

theorem step_ids (hs : Step C ps ps') : ps.mem.nIds ≤ ps'.mem.nIds := by
  cases hs with
  | @act t c β a k r σ ht he =>
    show _ ≤ σ.nIds
    cases a
    case casNew => rcases he with ⟨_, rfl, rfl⟩ | ⟨_, rfl, rfl⟩
                   · exact Nat.le_succ _
                   · exact Nat.le_refl _
    case casRootInit cap =>
      cases hroot : ps.mem.root <;> simp only [Exec, hroot] at he
      · obtain ⟨rfl, _⟩ := he; exact Nat.le_refl _
      · obtain ⟨rfl, _⟩ := he; exact Nat.le_refl _
    case tryLock => rcases he with ⟨_, _, rfl⟩ | ⟨_, _, rfl⟩ <;> exact Nat.le_refl _
    case lockWait => rcases he with ⟨_, _, rfl⟩ | ⟨_, _, rfl⟩ <;> exact Nat.le_refl _
    case cas => rcases he with ⟨_, _, rfl⟩ | ⟨_, _, rfl⟩ <;> exact Nat.le_refl _
    case casRoot => rcases he with ⟨_, _, rfl⟩ | ⟨_, _, rfl⟩ <;> exact Nat.le_refl _
    case storeNext => obtain ⟨rfl, _⟩ := he; exact Nat.le_refl _
    all_goals first
      | (obtain ⟨_, rfl⟩ := he; exact Nat.le_refl _)
      | (cases he; exact Nat.le_refl _)
  | _ => exact Nat.le_refl _

theorem step_calls (hs : Step C ps ps') : ps.calls ≤ ps'.calls := by
  have : ∀ e, ps.calls ≤ ((ps.hist ++ [e]).filter HEv.isInv).length := fun e => by
    rw [List.filter_append, List.length_append]
    exact Nat.le_add_right _ _
  cases hs with
  | inv t c => exact this _
  | ret t h => exact this _
  | panic t h => exact this _
  | _ => exact Nat.le_refl _

/-- From some moment on the memory does not change any more, as far as it matters. -/
theorem Endless.freezes (hr : Endless C run) (hc : C.Copies) {N : Nat} (hN : ∀ i, (run i).mem.nTabs ≤ N) (hI : FewEntries run) :
    ∃ D n, ∀ i, n ≤ i → InBox D (run i).mem ∧ Same D (run n).mem (run i).mem := by
  obtain ⟨M, hM⟩ := hI
  obtain ⟨n1, _, h1⟩ := settles (f := fun i => (run i).mem.nTabs) (n := 0) (M := N)
    (fun i _ => (steps_tabs (hr.reach_at i) (.single (hr.step i))).1) fun i _ => hN i
  obtain ⟨n2, h12, h2⟩ := settles (f := fun i => (run i).mem.nIds) (n := n1) (M := M) (fun i _ => step_ids (hr.step i)) fun i _ => hM i
  let D : Box := ⟨N, ∑ T ∈ Finset.range (run n2).mem.nTabs, (run n2).mem.cap T⟩
  have hD : ∀ i, n2 ≤ i → InBox D (run i).mem := by
    intro i hi
    induction i, hi using Nat.le_induction with
    | base =>
      refine ⟨hN n2, fun T hT => ?_⟩
      exact Finset.single_le_sum (f := fun T => (run n2).mem.cap T) (fun _ _ => Nat.zero_le _) (Finset.mem_range.2 hT)
    | succ i hi ih =>
      refine ⟨hN _, fun T hT => ?_⟩
      have h3 : (run (i + 1)).mem.nTabs = (run i).mem.nTabs := (h1 (i + 1) (by omega)).trans (h1 i (by omega)).symm
      have h4 : T < (run i).mem.nTabs := by rw [← h3]; exact hT
      rw [(steps_tabs (hr.reach_at i) (.single (hr.step i))).2.1 T h4]
      exact ih.2 T h4
  have hphi : ∀ i, n2 ≤ i → phi D (run i).mem ≤ phi D (run (i + 1)).mem ∧
      (phi D (run i).mem = phi D (run (i + 1)).mem → Same D (run i).mem (run (i + 1)).mem) := fun i hi =>
    phi_step hc (hr.reach_at i) (hr.step i) (hD (i + 1) (by omega)) ((h1 (i + 1) (by omega)).trans (h1 i (by omega)).symm)
      ((h2 (i + 1) (by omega)).trans (h2 i (by omega)).symm)
  obtain ⟨n3, h23, h3⟩ := settles (f := fun i => phi D (run i).mem) (n := n2) (fun i hi => (hphi i hi).1)
    fun i hi => phi_le (hr.reach_at i) (hD i hi)
  refine ⟨D, n3, fun i hi => ⟨hD i (by omega), ?_⟩⟩
  induction i, hi using Nat.le_induction with
  | base => exact .refl _
  | succ i hi ih => exact ih.trans ((hphi i (by omega)).2 ((h3 i hi).trans (h3 (i + 1) (by omega)).symm))

/-! ## One operation -/

/-- What a step does to an operation that is running. -/
theorem step_running {c : Call K V} {p : Prog K V c.Res} (hs : Step C ps ps') (ht : ps.th t = .run c p) :
    OwnStep C t ps ps' ∨ ps'.th t = .run c p ∨ ps'.th t = .gone := by
  have hset : ∀ u x, u ≠ t → setTh ps.th u x t = .run c p := fun u x hu => by
    unfold setTh
    rw [if_neg (Ne.symm hu)]
    exact ht
  cases hs with
  | pin u hu => exact .inr (.inl (hset u _ (by rintro rfl; rw [ht] at hu; cases hu)))
  | unpin u hu => exact .inr (.inl (hset u _ (by rintro rfl; rw [ht] at hu; cases hu)))
  | inv u c hu hwf => exact .inr (.inl (hset u _ (by rintro rfl; rw [ht] at hu; cases hu)))
  | abandon u hu =>
    by_cases h : u = t
    · subst h; exact .inr (.inr setTh_at)
    · exact .inr (.inl (hset u _ h))
  | release u hu => exact .inr (.inl ht)
  | act u hu he =>
    by_cases h : u = t
    · subst h; exact .inl (.act hu he)
    · exact .inr (.inl (hset u _ h))
  | loop u hu =>
    by_cases h : u = t
    · subst h; exact .inl (.loop hu)
    · exact .inr (.inl (hset u _ h))
  | ret u hu =>
    by_cases h : u = t
    · subst h; exact .inl (.ret hu)
    · exact .inr (.inl (hset u _ h))
  | panic u hu =>
    by_cases h : u = t
    · subst h; exact .inl (.panic hu)
    · exact .inr (.inl (hset u _ h))
  | freeEntry x => exact .inr (.inl ht)
  | freeTable x => exact .inr (.inl ht)

/-- A guard that is not executing an operation, and does not call one. -/
theorem step_resting (hs : Step C ps ps') (ht : ¬ Running ps t) : ¬ Running ps' t ∨ ps'.calls = ps.calls + 1 ∧ ps'.seq t = ps.seq t + 1 := by
  have hrun : ∀ u c p x, ps.th u = .run c p → ¬ ∃ c p, setTh ps.th u x t = .run c p := fun u c p x hu => by
    rintro ⟨c', p', h⟩
    rcases setTh_run h with ⟨rfl, _⟩ | ⟨_, h⟩
    · exact ht ⟨c, p, hu⟩
    · exact ht ⟨c', p', h⟩
  have hset : ∀ u x, (∀ c p, x ≠ .run c p) → ¬ ∃ c p, setTh ps.th u x t = .run c p := fun u x hx => by
    rintro ⟨c', p', h⟩
    rcases setTh_run h with ⟨rfl, h2⟩ | ⟨_, h⟩
    · exact hx _ _ h2
    · exact ht ⟨c', p', h⟩
  cases hs with
  | pin u hu => exact .inl (hset _ _ fun _ _ h => by cases h)
  | unpin u hu => exact .inl (hset _ _ fun _ _ h => by cases h)
  | inv u c hu hwf =>
    by_cases h : u = t
    · subst h
      refine .inr ⟨?_, if_pos rfl⟩
      show ((ps.hist ++ [_]).filter HEv.isInv).length = _
      rw [List.filter_append, List.length_append]
      rfl
    · left
      rintro ⟨c', p', h'⟩
      rcases setTh_run h' with ⟨h2, _⟩ | ⟨_, h2⟩
      · exact h h2.symm
      · exact ht ⟨c', p', h2⟩
  | abandon u hu => exact .inl (hrun _ _ _ _ hu)
  | release u hu => exact .inl ht
  | act u hu he => exact .inl (hrun _ _ _ _ hu)
  | loop u hu => exact .inl (hrun _ _ _ _ hu)
  | ret u hu => exact .inl (hrun _ _ _ _ hu)
  | panic u hu => exact .inl (hrun _ _ _ _ hu)
  | freeEntry x => exact .inl ht
  | freeTable x => exact .inl ht

theorem own_running (h : OwnStep C t ps ps') : Running ps t := by
  cases h with
  | act h he => exact ⟨_, _, h⟩
  | loop h => exact ⟨_, _, h⟩
  | ret h => exact ⟨_, _, h⟩
  | panic h => exact ⟨_, _, h⟩

/-- Guard `t` executes no step of its current operation from some moment on: it makes another call, or no more steps at all. -/
def Stops (C : Cfg K) (run : Nat → PSt K V) (t : Tid) (n : Nat) : Prop :=
  ∃ m, n ≤ m ∧ ((∀ i, m ≤ i → ¬ Steps.By C run i t) ∨ ((run m).seq t ≠ (run n).seq t ∧ (run n).calls < (run m).calls))

theorem step_seq_le (hs : Step C ps ps') : ps.seq t ≤ ps'.seq t := by
  cases hs with
  | inv u c hu hwf =>
    show _ ≤ if t = u then _ else _
    split
    · rename_i h; subst h; omega
    · exact Nat.le_refl _
  | _ => exact Nat.le_refl _

theorem Endless.mono (hr : Endless C run) {i j : Nat} (h : i ≤ j) : (run i).seq t ≤ (run j).seq t ∧ (run i).calls ≤ (run j).calls := by
  induction j, h using Nat.le_induction with
  | base => exact ⟨Nat.le_refl _, Nat.le_refl _⟩
  | succ j hj ih =>
    have h1 := step_seq_le (t := t) (hr.step j)
    have h2 := step_calls (hr.step j)
    omega

/-- If the guard rests, it stops, or makes a call. -/
theorem Endless.rests (hr : Endless C run) {n : Nat} (ht : ¬ Running (run n) t) : Stops C run t n := by
  by_cases h : ∀ i, n ≤ i → ¬ Running (run i) t
  · exact ⟨n, Nat.le_refl _, .inl fun i hi ho => h i hi (own_running ho)⟩
  · simp only [not_forall, not_not] at h
    obtain ⟨j, hj, hrun⟩ := h
    by_contra hc
    have : ∀ i, n ≤ i → ¬ Running (run i) t := by
      intro i hi
      induction i, hi using Nat.le_induction with
      | base => exact ht
      | succ i hi ih =>
        rcases step_resting (hr.step i) ih with h1 | ⟨h1, h2⟩
        · exact h1
        · refine absurd ⟨i + 1, by omega, .inr ?_⟩ hc
          have := hr.mono (t := t) hi
          omega
    exact this j hj hrun

theorem Stops.later {n m : Nat} (hr : Endless C run) (hnm : n ≤ m) (h : Stops C run t m) : Stops C run t n := by
  obtain ⟨k, hk, h⟩ := h
  refine ⟨k, by omega, h.imp id fun h => ?_⟩
  have h1 := hr.mono (t := t) hnm
  have h2 := hr.mono (t := t) hk
  omega

theorem Endless.stops (hr : Endless C run) {n0 : Nat} {σ : St K V} (hsame : ∀ i, n0 ≤ i → InBox D (run i).mem ∧ Same D σ (run i).mem)
    (hsp : ∀ i, n0 ≤ i → Steps.By C run i t → ¬ FailsSpuriously t (run i) (run (i + 1))) {α : Type} {p : Prog K V α} {Q : α → Prop}
    (hp : FE D σ p Q) : ∀ (c : Call K V) (e : α = c.Res) (p' : Prog K V c.Res), HEq p p' → ∀ i, n0 ≤ i → (run i).th t = .run c p' →
      Stops C run t i := by
  have hnext : ∀ {c : Call K V} {p : Prog K V c.Res} {i}, n0 ≤ i → (run i).th t = .run c p →
      (∀ j, i ≤ j → (run j).th t = .run c p → Steps.By C run j t → Stops C run t (j + 1)) → Stops C run t i := by
    intro c p i hi ht hk
    by_cases h : ∃ j, i ≤ j ∧ (run j).th t = .run c p ∧ Steps.By C run j t
    · obtain ⟨j, h1, h2, h3⟩ := h
      exact (hk j h1 h2 h3).later hr (by omega)
    · by_cases h' : ∀ j, i ≤ j → (run j).th t = .run c p
      · exact ⟨i, Nat.le_refl _, .inl fun j hj ho => h ⟨j, hj, h' j hj, ho⟩⟩
      · have h2 : ∃ j, i ≤ j ∧ (run j).th t = .gone := by
          by_contra hg
          refine h' fun j hj => ?_
          induction j, hj using Nat.le_induction with
          | base => exact ht
          | succ j hj ih =>
            rcases step_running (hr.step j) ih with h1 | h1 | h1
            · exact absurd ⟨j, hj, ih, h1⟩ h
            · exact h1
            · exact absurd ⟨j + 1, by omega, h1⟩ hg
        obtain ⟨j, hj, hg⟩ := h2
        exact (hr.rests (n := j) (by rintro ⟨c, p, h⟩; rw [hg] at h; cases h)).later hr hj
  have hidle : ∀ {j}, (run (j + 1)).th t = .idle → Stops C run t (j + 1) := by
    intro j hx
    exact hr.rests (by rintro ⟨c, p, h⟩; rw [hx] at h; cases h)
  induction hp with
  | ret h =>
    intro c e p' hpp i hi ht
    subst e
    cases hpp
    refine hnext hi ht fun j hj hj' ho => hidle ?_
    generalize hq : run (j + 1) = q at ho ⊢
    unfold Steps.By at ho
    rw [hq] at ho
    cases ho with
    | ret h => exact setTh_at
    | panic h => exact setTh_at
    | act h he => rw [hj'] at h; cases h
    | loop h => rw [hj'] at h; cases h
  | panic =>
    intro c e p' hpp i hi ht
    subst e
    cases hpp
    refine hnext hi ht fun j hj hj' ho => hidle ?_
    unfold Steps.By at ho
    generalize run (j + 1) = q at ho ⊢
    cases ho with
    | ret h => exact setTh_at
    | panic h => exact setTh_at
    | act h he => rw [hj'] at h; cases h
    | loop h => rw [hj'] at h; cases h
  | @act β a k Q h ih =>
    intro c e p' hpp i hi ht
    subst e
    cases hpp
    refine hnext hi ht fun j hj hj' ho => ?_
    have hsp' := hsp j (by omega) ho
    have hs0 := (hsame j (by omega)).2
    have hs1 := hsame (j + 1) (by omega)
    have hs2 : Same D (run j).mem (run (j + 1)).mem :=
      ⟨hs1.2.root.trans hs0.root.symm, hs1.2.nTabs.trans hs0.nTabs.symm, hs1.2.nIds.trans hs0.nIds.symm, hs1.2.cap.trans hs0.cap.symm,
        hs1.2.next.trans hs0.next.symm, fun T i => (hs1.2.slot T i).trans (hs0.slot T i).symm, fun T => (hs1.2.status T).trans (hs0.status T).symm,
        fun T => (hs1.2.claim T).trans (hs0.claim T).symm⟩
    have hkey : ∃ r, Exec C t a (run j).mem r (run (j + 1)).mem ∧ (run (j + 1)).th t = .run c (k r) := by
      unfold Steps.By at ho
      generalize run (j + 1) = q at ho ⊢
      cases ho with
      | ret h => rw [hj'] at h; cases h
      | panic h => rw [hj'] at h; cases h
      | act h he => rw [hj'] at h; cases h; exact ⟨_, he, setTh_at⟩
      | loop h => rw [hj'] at h; cases h
    obtain ⟨r, he, hth⟩ := hkey
    exact ih r (sees (hr.reach_at j) hj' he hs1.1)
      (seesF he hs0 hs2 fun T i s g1 g2 g3 => hsp' ⟨T, i, s, by rw [hj']; exact g1, g2, g3⟩) c rfl _ HEq.rfl (j + 1) (by omega) hth
  | @iter β s body x k Q h ih =>
    intro c e p' hpp i hi ht
    subst e
    cases hpp
    refine hnext hi ht fun j hj hj' ho => ih c rfl _ HEq.rfl (j + 1) (by omega) ?_
    unfold Steps.By at ho
    generalize run (j + 1) = q at ho ⊢
    cases ho with
    | ret h => rw [hj'] at h; cases h
    | panic h => rw [hj'] at h; cases h
    | act h he => rw [hj'] at h; cases h
    | loop h => rw [hj'] at h; cases h; exact setTh_at

theorem Cfg.copies_of (h : C.mode ≠ .incremental 0) : C.Copies := h

/-! ## Theorems -/

/-- **C60** An operation that runs forever, executing steps again and again, is overtaken forever: again and again a table is allocated,
or an entry is published by other operations, or compare-exchanges fail spuriously. (`Incremental(0)` is excluded: helpers copy nothing.) -/
theorem C60_overtaken (hm : C.mode ≠ .incremental 0) (hr : Endless C run) (ht : RunsForever C run t) (hs : FewSpurious C run)
    (he : FewEntries run) : TablesForever run := by
  by_contra hT
  unfold TablesForever at hT
  simp only [not_forall, not_exists, Nat.not_le] at hT
  obtain ⟨N, hN⟩ := hT
  have hc := Cfg.copies_of hm
  obtain ⟨D, n1, h1⟩ := hr.freezes hc (fun i => Nat.le_of_lt (hN i)) he
  obtain ⟨n2, h2⟩ := hs
  obtain ⟨⟨n3, h3⟩, h4⟩ := ht
  let n := max n1 (max n2 n3)
  have hn : n1 ≤ n ∧ n2 ≤ n ∧ n3 ≤ n := by omega
  obtain ⟨⟨c, p, hp⟩, hseq⟩ := h3 n hn.2.2
  obtain ⟨w, hg⟩ := (hr.reach_at n).gd hc (h1 n hn.1).1 hp
  have hfe := hg.fe ((h1 n hn.1).1.fok (hr.reach_at n))
  obtain ⟨m, hm, h5⟩ := hr.stops (n0 := n) (σ := (run n).mem) (t := t)
    (fun i hi => ⟨(h1 i (by omega)).1, by
      have g0 := (h1 n hn.1).2
      have g1 := (h1 i (by omega)).2
      exact ⟨g1.root.trans g0.root.symm, g1.nTabs.trans g0.nTabs.symm, g1.nIds.trans g0.nIds.symm, g1.cap.trans g0.cap.symm,
        g1.next.trans g0.next.symm, fun T i => (g1.slot T i).trans (g0.slot T i).symm, fun T => (g1.status T).trans (g0.status T).symm,
        fun T => (g1.claim T).trans (g0.claim T).symm⟩⟩)
    (fun i hi => h2 i t (by omega)) hfe c rfl p HEq.rfl n (Nat.le_refl _) hp
  rcases h5 with h5 | ⟨h5, _⟩
  · obtain ⟨i, hi, h6⟩ := h4 m
    exact h5 i hi h6
  · have h6 := (h3 m (by omega)).2
    rw [h6, hseq] at h5
    exact h5 rfl

/-- **C60** Every call publishes at most one entry. -/
theorem C60_published (hm : C.mode ≠ .incremental 0) (h : Reach C ps) : ps.mem.nIds ≤ ps.calls := by
  obtain ⟨w, U, _, h1⟩ := h.ginv (D := ⟨ps.mem.nTabs, ∑ T ∈ Finset.range ps.mem.nTabs, ps.mem.cap T⟩) (Cfg.copies_of hm)
    ⟨Nat.le_refl _, fun T hT => Finset.single_le_sum (f := fun T => ps.mem.cap T) (fun _ _ => Nat.zero_le _) (Finset.mem_range.2 hT)⟩
  omega

/-- **C60** If finitely many operations are called, they execute steps forever only if the map allocates tables forever (or compare-exchanges
fail spuriously again and again). -/
theorem C60_tables_forever (hm : C.mode ≠ .incremental 0) (hr : Endless C run) (hc : FewCalls run) (hs : FewSpurious C run)
    (ht : StepsForever C run) : TablesForever run := by
  by_contra hT
  unfold TablesForever at hT
  simp only [not_forall, not_exists, Nat.not_le] at hT
  obtain ⟨N, hN⟩ := hT
  have hcop := Cfg.copies_of hm
  obtain ⟨M, hM⟩ := hc
  obtain ⟨D, n1, h1⟩ := hr.freezes hcop (fun i => Nat.le_of_lt (hN i)) ⟨M, fun i => Nat.le_trans (C60_published hm (hr.reach_at i)) (hM i)⟩
  obtain ⟨n2, h2⟩ := hs
  obtain ⟨n3, _, h3⟩ := settles (f := fun i => (run i).calls) (n := 0) (fun i _ => step_calls (hr.step i)) fun i _ => hM i
  let n := max n1 (max n2 n3)
  have hn : n1 ≤ n ∧ n2 ≤ n ∧ n3 ≤ n := by omega
  have hcalls : ∀ i, n ≤ i → (run i).calls = (run n).calls := fun i hi => (h3 i (by omega)).trans (h3 n hn.2.2).symm
  obtain ⟨w, U, hU, _⟩ := (hr.reach_at n).ginv hcop (h1 n hn.1).1
  have hrest : ∀ t, ¬ Running (run n) t → ∀ i, n ≤ i → ¬ Running (run i) t := by
    intro t ht i hi
    induction i, hi using Nat.le_induction with
    | base => exact ht
    | succ i hi ih =>
      rcases step_resting (hr.step i) ih with h4 | ⟨h4, _⟩
      · exact h4
      · have h5 := hcalls i hi
        have h6 := hcalls (i + 1) (by omega)
        omega
  have hstop : ∀ t, ∃ m, ∀ i, m ≤ i → ¬ Steps.By C run i t := by
    intro t
    by_cases hrun : Running (run n) t
    · obtain ⟨c, p, hp⟩ := hrun
      have hfe := (hU t c p hp).2.fe ((h1 n hn.1).1.fok (hr.reach_at n))
      obtain ⟨m, hm, h5⟩ := hr.stops (n0 := n) (σ := (run n).mem) (t := t)
        (fun i hi => ⟨(h1 i (by omega)).1, by
          have g0 := (h1 n hn.1).2
          have g1 := (h1 i (by omega)).2
          exact ⟨g1.root.trans g0.root.symm, g1.nTabs.trans g0.nTabs.symm, g1.nIds.trans g0.nIds.symm, g1.cap.trans g0.cap.symm,
            g1.next.trans g0.next.symm, fun T i => (g1.slot T i).trans (g0.slot T i).symm, fun T => (g1.status T).trans (g0.status T).symm,
            fun T => (g1.claim T).trans (g0.claim T).symm⟩⟩)
        (fun i hi => h2 i t (by omega)) hfe c rfl p HEq.rfl n (Nat.le_refl _) hp
      rcases h5 with h5 | ⟨_, h5⟩
      · exact ⟨m, h5⟩
      · have := hcalls m hm
        omega
    · exact ⟨n, fun i hi ho => hrest t hrun i hi (own_running ho)⟩
  choose m hm' using hstop
  obtain ⟨i, hi, t, ho⟩ := ht (max n (U.sup m))
  by_cases hrun : Running (run n) t
  · obtain ⟨c, p, hp⟩ := hrun
    have := Finset.le_sup (f := m) (hU t c p hp).1
    exact hm' t i (by omega) ho
  · exact hrest t hrun i (by omega) (own_running ho)

/-- **C60** Total correctness: if finitely many operations are called, the map does not allocate tables forever, no operation is abandoned, no
allocation panics, and as long as some operation can go on one of them does so, then all of them end. Which one goes on does not matter:
in particular, the operations need no fair scheduling. -/
theorem C60_all_end (hm : C.mode ≠ .incremental 0) (hr : Endless C run) (hc : FewCalls run) (hs : FewSpurious C run) (hb : Busy C run)
    (hT : ¬ TablesForever run) (h1 : ∀ i, NoneAbandoned (run i))
    (h2 : ∀ i o c w, HEv.panic o c w ∈ (run i).hist → ¬ AllocPanic w) : ∃ n, ∀ i, n ≤ i → ∀ t, ¬ Running (run i) t := by
  by_contra hne
  simp only [not_exists, not_forall, not_not] at hne
  have hst : ¬ StepsForever C run := fun h => hT (C60_tables_forever hm hr hc hs h)
  unfold StepsForever at hst
  simp only [not_forall] at hst
  obtain ⟨n1, hst⟩ := hst
  obtain ⟨M, hM⟩ := hc
  obtain ⟨n3, _, h3⟩ := settles (f := fun i => (run i).calls) (n := 0) (fun i _ => step_calls (hr.step i)) fun i _ => hM i
  let n := max n1 n3
  have hn : n1 ≤ n ∧ n3 ≤ n := by omega
  have hrest : ∀ t i j, n ≤ i → i ≤ j → ¬ Running (run i) t → ¬ Running (run j) t := by
    intro t i j hi hj ht
    induction j, hj using Nat.le_induction with
    | base => exact ht
    | succ j hj ih =>
      rcases step_resting (hr.step j) ih with h4 | ⟨h4, _⟩
      · exact h4
      · have h5 := h3 j (by omega)
        have h6 := h3 (j + 1) (by omega)
        omega
  obtain ⟨i, hi, h4⟩ := hb n fun i hi => by
    obtain ⟨j, hj, t, ht⟩ := hne i
    have h4 : Running (run i) t := by
      by_contra h5
      exact hrest t i j hi hj h5 ht
    obtain ⟨u, _, h6⟩ := C54_no_deadlock (hr.reach_at i) (h1 i) (h2 i) ⟨t, h4⟩
    exact ⟨u, h6⟩
  exact hst ⟨i, by omega, h4⟩

end Papaya
