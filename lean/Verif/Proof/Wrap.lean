import Verif.Proof.Claim

/-! # The claim counter is bounded -/

set_option linter.unusedSectionVars false
set_option linter.unusedVariables false

namespace Papaya

variable {K V : Type} [DecidableEq K] {C : Cfg K} {n m : Nat} {ps ps' : PSt K V}

theorem NatReach.reach (h : NatReach C n m ps) : Reach C ps := by
  induction h with
  | init h _ => exact .init h
  | step _ hs _ ih => exact .step ih hs

theorem NatReach.small (h : NatReach C n m ps) : Small n m ps := by
  cases h with
  | init _ h => exact h
  | step _ _ h => exact h

/-- The thread is about to claim a chunk of a copy into `T`. -/
def PSt.Claims (ps : PSt K V) (t : Tid) (T : Nat) : Prop :=
  ∃ (c : Call K V) (q : Nat) (src : Table) (k : Nat → Prog K V c.Res), ps.th t = .run c (.act (.addClaim T q src) k)

/-- The counter, and what the threads are about to add to it. -/
structure ClaimInv (C : Cfg K) (n m : Nat) (ps : PSt K V) : Prop where
  arm : ∀ t c p, ps.th t = .run c p → ∃ f, ArmF C f p
  bound : ∀ T (s : Finset Tid), (∀ t ∈ s, ps.Claims t T) → ps.mem.claim T + s.card * C.maxChunk ≤ (m - 1) + n * C.maxChunk

theorem Small.card (h : Small n m ps) {s : Finset Tid} (hs : ∀ t ∈ s, ∃ c p, ps.th t = .run c p) : s.card ≤ n := by
  obtain ⟨⟨l, h1, h2⟩, _⟩ := h
  have : s ⊆ l.toFinset := fun t ht => by
    obtain ⟨c, p, hp⟩ := hs t ht
    exact List.mem_toFinset.2 (h2 t c p hp)
  exact (Finset.card_le_card this).trans ((List.toFinset_card_le l).trans h1)

/-- The state changes the counters only by claiming, and the statuses of other threads not at all. -/
theorem ClaimInv.quiet {t : Tid} (h : ClaimInv C n m ps) (hm : ∀ T, ps'.mem.claim T = ps.mem.claim T)
    (hth : ∀ u, u ≠ t → ps'.th u = ps.th u) (ht : ∀ c p, ps'.th t = .run c p → Arm C p) : ClaimInv C n m ps' := by
  refine ⟨fun u c p hu => ?_, fun T s hs => ?_⟩
  · by_cases hut : u = t
    · subst hut; exact ⟨none, ht c p hu⟩
    · rw [hth u hut] at hu; exact h.arm u c p hu
  · rw [hm]
    refine h.bound T s fun u hu => ?_
    by_cases hut : u = t
    · subst hut
      obtain ⟨c, q, src, k, h1⟩ := hs u hu
      obtain ⟨_, x, h2, _⟩ := (ht c _ h1 1).1
      cases h2
    · obtain ⟨c, q, src, k, h1⟩ := hs u hu
      rw [hth u hut] at h1
      exact ⟨c, q, src, k, h1⟩

theorem claimInv_step (h : ClaimInv C n m ps) (hr : Reach C ps) (hs : Step C ps ps') (hm : Small n m ps') : ClaimInv C n m ps' := by
  have hr' : Reach C ps' := .step hr hs
  cases hs with
  | pin t h1 =>
      refine h.quiet (t := t) (fun _ => rfl) (fun u hu => if_neg hu) fun c p hp => ?_
      dsimp only at hp; rw [show setTh ps.th t .idle t = .idle from if_pos rfl] at hp; cases hp
  | unpin t h1 =>
      refine h.quiet (t := t) (fun _ => rfl) (fun u hu => if_neg hu) fun c p hp => ?_
      dsimp only at hp; rw [show setTh ps.th t .out t = .out from if_pos rfl] at hp; cases hp
  | abandon t h1 =>
      refine h.quiet (t := t) (fun _ => rfl) (fun u hu => if_neg hu) fun c p hp => ?_
      dsimp only at hp; rw [show setTh ps.th t .gone t = .gone from if_pos rfl] at hp; cases hp
  | release t h1 =>
      refine h.quiet (t := t) (fun _ => rfl) (fun u hu => rfl) fun c p hp => ?_
      rw [h1] at hp; cases hp
  | inv t c h1 hwf =>
      refine h.quiet (t := t) (fun _ => rfl) (fun u hu => if_neg hu) fun c' p hp => ?_
      dsimp only at hp; rw [show setTh ps.th t (.run c (c.prog C)) t = _ from if_pos rfl] at hp; cases hp; exact arm_call
  | ret t h1 =>
      refine h.quiet (t := t) (fun _ => rfl) (fun u hu => if_neg hu) fun c p hp => ?_
      dsimp only at hp; rw [show setTh ps.th t .idle t = .idle from if_pos rfl] at hp; cases hp
  | panic t h1 =>
      refine h.quiet (t := t) (fun _ => rfl) (fun u hu => if_neg hu) fun c p hp => ?_
      dsimp only at hp; rw [show setTh ps.th t .idle t = .idle from if_pos rfl] at hp; cases hp
  | freeEntry x h1 h2 h3 => exact ⟨h.arm, h.bound⟩
  | freeTable x h1 h2 h3 => exact ⟨h.arm, h.bound⟩
  | @loop t c β σ body s k h1 =>
      refine h.quiet (t := t) (fun _ => rfl) (fun u hu => if_neg hu) fun c' p hp => ?_
      dsimp only at hp; rw [show setTh ps.th t (.run c (Prog.unfoldIter body s k)) t = _ from if_pos rfl] at hp; cases hp
      obtain ⟨f, h2⟩ := h.arm t _ _ h1
      exact fun i => h2 (i + 1)
  | @act t c β a k r σ h1 he =>
    obtain ⟨f, hf⟩ := h.arm t _ _ h1
    have hk : ArmF C (a.arms r) (k r) := fun i => (hf (i + 1)).2 r
    obtain ⟨S, g, hS, _⟩ := hr.pinv 1
    have hI := hS.2.1
    have he' : Exec C t a S.toSt r σ := by rw [hS.1]; exact he
    have hth : ∀ u, u ≠ t → setTh ps.th t (.run c (k r)) u = ps.th u := fun u hu => if_neg hu
    have htt : setTh ps.th t (.run c (k r)) t = .run c (k r) := if_pos rfl
    refine ⟨fun u c' p hu => ?_, fun T s hs => ?_⟩
    · by_cases hut : u = t
      · subst hut
        dsimp only at hu; rw [show setTh ps.th u (.run c (k r)) u = _ from if_pos rfl] at hu; cases hu
        exact ⟨_, hk⟩
      · exact h.arm u c' p (by rw [← hth u hut]; exact hu)
    by_cases hac : a.isAddClaim = true
    · -- a chunk is claimed
      cases a <;> try cases hac
      rename_i T' q src
      have hσ : σ.claim = fun U => if U = T' then ps.mem.claim T' + q else ps.mem.claim U := congrArg St.claim he.2
      have hts : t ∉ s := fun ht => by
        obtain ⟨c', q', src', k', h2⟩ := hs t ht
        dsimp only at h2; rw [htt] at h2
        obtain ⟨rfl, h2⟩ := Th.run.inj h2
        rw [eq_of_heq h2] at hk
        obtain ⟨_, x, h3, _⟩ := (hk 1).1
        cases h3
      have hold : ∀ u ∈ s, ps.Claims u T := fun u hu => by
        obtain ⟨c', q', src', k', h2⟩ := hs u hu
        dsimp only at h2
        exact ⟨c', q', src', k', by rw [← hth u (fun e => hts (e ▸ hu))]; exact h2⟩
      show σ.claim T + _ ≤ _
      rw [hσ]
      dsimp only
      split
      · rename_i hT
        subst hT
        have hq : q ≤ C.maxChunk := by rw [(hf 1).1.1]; exact C.chunk_le _
        have := h.bound T (Insert.insert t s) fun u hu => by
          rcases Finset.mem_insert.1 hu with rfl | hu
          · exact ⟨c, q, src, k, h1⟩
          · exact hold u hu
        rw [Finset.card_insert_of_notMem hts, Nat.add_mul] at this
        omega
      · exact h.bound T s hold
    · have hcl : σ.claim T = ps.mem.claim T := by
        rw [claim_exec hI he' (by simpa using hac) T, hS.1]
      show σ.claim T + _ ≤ _
      rw [hcl]
      by_cases hts : t ∈ s
      · -- the thread just looked at the counter
        obtain ⟨c', q, src, k', h2⟩ := hs t hts
        have h2' := h2
        dsimp only at h2; rw [htt] at h2
        obtain ⟨rfl, h2⟩ := Th.run.inj h2
        have h2 := eq_of_heq h2
        rw [h2] at hk
        obtain ⟨_, x, h3, hx⟩ := (hk 1).1
        cases a <;> try cases h3
        have hxc : x = ps.mem.claim T := he.1
        obtain ⟨S', g', hS', _⟩ := hr'.pinv 2
        obtain ⟨_, hcp, hl⟩ := Reach.okAct hS' h2'
        have hsr : src.id < S'.nTabs := hcp.1.trans hcp.2.1
        have h5 : src.len ≤ m := by
          rw [hl, hS'.1]
          refine hm.2 _ ?_
          rw [hS'.1] at hsr; exact hsr
        have hcard := hm.card (s := s) fun u hu => by
          obtain ⟨c', q', src', k', h2⟩ := hs u hu
          exact ⟨c', _, h2⟩
        have := Nat.mul_le_mul_right C.maxChunk hcard
        omega
      · refine h.bound T s fun u hu => ?_
        obtain ⟨c', q', src', k', h2⟩ := hs u hu
        dsimp only at h2
        exact ⟨c', q', src', k', by rw [← hth u (fun e => hts (e ▸ hu))]; exact h2⟩

theorem NatReach.claimInv (h : NatReach C n m ps) : ClaimInv C n m ps := by
  induction h with
  | @init ps h hs =>
    refine ⟨fun t c p ht => ?_, fun T s hs => ?_⟩
    · rw [h.2.1] at ht; cases ht
    · have : s = ∅ := by
        refine Finset.eq_empty_of_forall_notMem fun t ht => ?_
        obtain ⟨c, q, src, k, h1⟩ := hs t ht
        rw [h.2.1] at h1; cases h1
      subst this
      have h0 : ps.mem.claim T = 0 := by
        have := h.1
        unfold initSt at this
        dsimp only at this
        split at this
        · rw [← Option.some.inj this]
        · obtain ⟨x, _, h3⟩ := Option.map_eq_some_iff.1 this
          rw [← h3]
          simp [St.allocTable]
      rw [h0]; simp
  | step h hs hm ih => exact claimInv_step ih h.reach hs hm

end Papaya
