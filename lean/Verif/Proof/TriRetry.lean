import Verif.Proof.TriWrite

/-! # Triples: retrying in the next table -/

set_option linter.unusedSectionVars false
set_option linter.unusedVariables false

namespace Papaya

variable {K V : Type} [DecidableEq K]

open GSt

variable {C : Cfg K} {t : Tid} {Ap : PanicReason → GSt K V → Prop} {S S' : GSt K V} {k : K}

/-- Why a writer leaves table `T`: no slot left for `k`, or its slot is being copied. -/
def RetryOk (C : Cfg K) (k : K) (T : Table) (copying : Option Nat) (S : GSt K V) : Prop :=
  match copying with
  | none => S.over C T.id k
  | some i => i < T.len ∧ S.md T.id i ≠ EMPTY ∧ ∃ e : Entry K V, e.key = k ∧ Frozen T.id i e S

instance {T : Table} {copying : Option Nat} : Inert C t (RetryOk (V := V) C k T copying) := by
  unfold RetryOk; cases copying <;> infer_instance

theorem PCtx.rootAcc {T : Table} (hi : C.inc = false) (h : PCtx C t k T S) : RootAcc t T S := by
  refine ⟨h.1, ?_, h.2.2.1⟩
  rcases h.2.2.2 with h1 | ⟨h1, _⟩
  · exact h1
  · rw [hi] at h1; cases h1

theorem PCtx.full {T : Table} (h : PCtx C t k T S) : Full C T.id S := fun hi => .inl (h.rootAcc hi).2.1.2.1

theorem tri_waitPassed {T : Table} {i : Nat} :
    Tri (V := V) C t Ap (Mt t) (fun S => PCtx C t k T S ∧ RetryOk C k T (some i) S) (waitCopied C i T)
      (fun _ S => S.passed C T.id k) := by
  refine Tri.pre (P := fun S => ∃ e : Entry K V, e.key = k ∧ i < T.len ∧ Acc t T S ∧ Frozen T.id i e S ∧ S.md T.id i ≠ EMPTY) ?_ ?_
  · refine Tri.ex fun e => ?_
    refine Tri.extract (φ := e.key = k ∧ i < T.len) (fun S _ h => ⟨h.1, h.2.1⟩) ?_
    rintro ⟨rfl, hi⟩
    exact (tri_waitCopied hi).pre fun S _ h => h.2.2
  · rintro S _ ⟨h1, h2, h3, e, h4, h5⟩
    exact ⟨e, h4, h2, h1.1, h5, h3⟩

theorem tri_prepareRetryInsert [hA : SysA C Ap] {T : Table} {copying : Option Nat} {help : Bool} :
    Tri (V := V) C t Ap (Mt t) (fun S => PCtx C t k T S ∧ RetryOk C k T copying S) (prepareRetryInsert C copying help T)
      (fun n S => PCtx C t k n S) := by
  unfold prepareRetryInsert
  refine Tri.bind (fun N S => (Acc t N S ∧ N.id = T.id + 1) ∧ (PCtx C t k T S ∧ RetryOk C k T copying S))
    (Tri.pre ((tri_getOrAllocNext (by simp)).mt.frame _) fun S _ h => ⟨⟨h.1.1, h.1.full⟩, h⟩) ?_
  intro N
  have hlt : ∀ {N : Table} {S : GSt K V}, Acc t N S ∧ N.id = T.id + 1 → T.id + 1 < S.nTabs := fun h => by
    rw [← h.2]; exact h.1.2.1
  cases hm : C.mode with
  | blocking =>
    simp only
    exact tri_helpCopyAll.conseq (fun S _ h => ⟨h.2.1.rootAcc (inc_of_blocking hm), hlt h.1⟩) (fun n S _ h => h.pctx)
  | incremental chunk =>
    have hi := inc_of_incremental hm
    simp only
    refine Tri.bind (fun N S => (Acc t N S ∧ N.id = T.id + 1) ∧ (PCtx C t k T S ∧ RetryOk C k T copying S)) ?_ ?_
    · refine Tri.ite (fun _ => ?_) (fun _ => Tri.ret fun S _ h => h)
      exact Tri.pre ((tri_helpCopyOne hi).frame (fun S => PCtx C t k T S ∧ RetryOk C k T copying S))
        fun S _ h => ⟨⟨h.2.1.1, hlt h.1⟩, h.2⟩
    intro N
    have hnext : ∀ S : GSt K V, S.Inv C → (Acc t N S ∧ N.id = T.id + 1) → PCtx C t k T S → S.passed C T.id k →
        PCtx C t k N S := by
      intro S h h1 h2 h3
      refine ⟨h1.1, ?_⟩
      rw [h1.2]
      exact AtTable.next h hi h2.2 h3 (hlt h1)
    cases copying with
    | none => exact Tri.ret fun S h hp => hnext S h hp.1 hp.2.1 (.inl hp.2.2)
    | some i =>
      refine Tri.bind _ (Tri.pre (tri_waitPassed.frame (fun S => (Acc t N S ∧ N.id = T.id + 1) ∧ PCtx C t k T S))
        fun S _ h => ⟨h.2, h.1, h.2.1⟩) ?_
      intro _
      exact Tri.ret fun S h hp => hnext S h hp.2.1 hp.2.2 hp.1

theorem tri_prepareRetry [hA : SysA C Ap] {T : Table} {copying : Option Nat} {help : Bool} :
    Tri (V := V) C t Ap (Mt t) (fun S => PCtx C t k T S ∧ RetryOk C k T copying S) (prepareRetry C copying help T)
      (fun r S => match r with
        | some n => PCtx C t k n S
        | none => (PCtx C t k T S ∧ S.over C T.id k) ∧ SeenIn t k none S) := by
  unfold prepareRetry
  have hsome : ∀ {S : GSt K V} {i : Nat}, S.Inv C → RetryOk C k T (some i) S → T.id + 1 < S.nTabs := by
    rintro S i h ⟨_, _, e, _, h2⟩
    exact (h.p.p5 _ _ h2.2).2
  cases hm : C.mode with
  | blocking =>
    have hi := inc_of_blocking hm
    simp only
    cases copying with
    | none => exact Tri.ret fun S h hp => ⟨hp, absent_over h hp.1.2 hp.2 (.inl hi)⟩
    | some i =>
      refine Tri.bind _ (Tri.pre tri_helpCopyAll fun S h hp => ⟨hp.1.rootAcc hi, hsome h hp.2⟩) ?_
      exact fun n => Tri.ret fun S _ h => h.pctx
  | incremental chunk =>
    have hi := inc_of_incremental hm
    simp only
    refine Tri.bind (fun r S => (PCtx C t k T S ∧ RetryOk C k T copying S) ∧
      (∀ N, r = some N → Acc t N S ∧ N.id = T.id + 1) ∧ (r = none → SeenIn t k none S ∧ S.over C T.id k)) ?_ ?_
    · refine Tri.mt (tri_loadNext (fun S _ h => h.1.1) _ ?_ ?_)
      · intro S N h hp h1 h2
        exact ⟨hp, by rintro _ ⟨⟩; exact ⟨h1, h2⟩, by simp⟩
      · intro S h hp h1
        refine ⟨hp, by simp, fun _ => ?_⟩
        cases copying with
        | none => exact ⟨absent_over h hp.1.2 hp.2 (.inr h1), hp.2⟩
        | some i => have := hsome h hp.2; omega
    rintro (_ | N)
    · exact Tri.ret fun S _ h => ⟨⟨h.1.1, (h.2.2 rfl).2⟩, (h.2.2 rfl).1⟩
    simp only
    have hnext : ∀ S : GSt K V, S.Inv C → (Acc t N S ∧ N.id = T.id + 1) → PCtx C t k T S → S.passed C T.id k →
        PCtx C t k N S := by
      intro S h h1 h2 h3
      refine ⟨h1.1, ?_⟩
      rw [h1.2]
      exact AtTable.next h hi h2.2 h3 (by rw [← h1.2]; exact h1.1.2.1)
    have hcont : Tri (V := V) C t Ap (Mt t)
        (fun S => (Acc t N S ∧ N.id = T.id + 1) ∧ (PCtx C t k T S ∧ RetryOk C k T copying S))
        (match copying with
          | some i => do
            waitCopied C i T
            return some N
          | none => return some N)
        (fun r S => match r with
        | some n => PCtx C t k n S
        | none => (PCtx C t k T S ∧ S.over C T.id k) ∧ SeenIn t k none S) := by
      cases copying with
      | none => exact Tri.ret fun S h hp => hnext S h hp.1 hp.2.1 (.inl hp.2.2)
      | some i =>
        refine Tri.bind _ (Tri.pre (tri_waitPassed.frame (fun S => (Acc t N S ∧ N.id = T.id + 1) ∧ PCtx C t k T S))
          fun S _ h => ⟨h.2, h.1, h.2.1⟩) ?_
        intro _
        exact Tri.ret fun S h hp => hnext S h hp.2.1 hp.2.2 hp.1
    refine Tri.pre (P := fun S => (Acc t N S ∧ N.id = T.id + 1) ∧ (PCtx C t k T S ∧ RetryOk C k T copying S)) ?_
        (fun S _ h => ⟨h.2.1 N rfl, h.1⟩)
    refine Tri.ite (fun _ => ?_) (fun _ => ?_)
    · refine Tri.bind _ (Tri.pre ((tri_helpCopyOne hi (T := T)).frame
        (fun S => (Acc t N S ∧ N.id = T.id + 1) ∧ PCtx C t k T S ∧ RetryOk C k T copying S))
        fun S _ h => ⟨⟨h.2.1.1, by rw [← h.1.2]; exact h.1.1.2.1⟩, h⟩) ?_
      exact fun _ => hcont.pre fun S _ h => h.2
    · exact hcont

end Papaya
