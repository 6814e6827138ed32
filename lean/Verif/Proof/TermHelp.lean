import Verif.Proof.TermCopy

/-! # Termination: helping without waiting, retrying, retiring -/

set_option linter.unusedSectionVars false
set_option linter.unusedVariables false

namespace Papaya

variable {K V : Type} [DecidableEq K] {C : Cfg K} {t : Tid} {sp : Bool} {ks : K → Prop} {kk : Option K} {X : Option (Nat × Nat)}

open GSt

theorem tt_helpCopyIncremental {chunk : Nat} {σ0 : St K V} :
    Tt C t sp (fun σ => Hp σ0 σ ∧ W ks kk σ) (helpCopyIncremental C chunk false) (fun _ σ => Hp σ0 σ ∧ W ks kk σ) := by
  unfold helpCopyIncremental
  refine Tt.read (fun σ => σ.root.map σ.handle) (fun _ => rfl) fun r => ?_
  cases r with
  | none => exact Tt.ret fun σ _ h => h.1
  | some T =>
    refine Tt.weaken (P := fun σ => (Hp σ0 σ ∧ W ks kk σ) ∧ TOk T σ) ?_ ?_
    rotate_left
    · rintro σ hg ⟨h1, h2⟩
      obtain ⟨x, hx, hx2⟩ := Option.map_eq_some_iff.1 h2.symm
      exact ⟨h1, hx2 ▸ tok_handle (hg.root hx)⟩
    refine Tt.read (fun σ => (σ.next T.id).map σ.handle) (fun _ => rfl) fun r => ?_
    cases r with
    | none => exact Tt.ret fun σ _ h => h.1.1
    | some N =>
      refine Tt.weaken (P := fun σ => (Hp σ0 σ ∧ W ks kk σ) ∧ TOk N σ) ?_ ?_
      rotate_left
      · rintro σ hg ⟨⟨h1, h3⟩, h2⟩
        refine ⟨h1, ?_⟩
        have h2 : some N = _ := h2
        rw [handle_next hg h3] at h2
        split at h2
        · rename_i hlt
          cases h2
          exact tok_handle hlt
        · cases h2
      refine Tt.bind (fun _ σ => Hp σ0 σ ∧ W ks kk σ) ?_ fun _ => Tt.ret fun σ _ h => h
      have hprom : ∀ c, Tt C t sp (fun σ => (Hp σ0 σ ∧ W ks kk σ) ∧ TOk N σ) (tryPromote T N c) fun _ σ => (Hp σ0 σ ∧ W ks kk σ) ∧ TOk N σ := by
        intro c
        refine Tt.pre fun σ1 hg1 h1 => tt_tryPromote.post fun b σ hg h => ?_
        exact ⟨⟨h1.1.1.trans h.1.toHp, h.1.w h1.1.2⟩, h.1.tok h1.2⟩
      refine Tt.loop1 (Tt.bind (fun _ σ => (Hp σ0 σ ∧ W ks kk σ) ∧ TOk N σ) (hprom 0) fun b => ?_)
      refine Tt.ite (fun _ => Tt.ret fun σ _ h => h.1) fun _ => ?_
      refine Tt.bind (fun out σ => (Hp σ0 σ ∧ W ks kk σ) ∧ ∀ n, out ≠ .retry n) ?_ fun out => ?_
      · refine Tt.loop1 ?_
        refine Tt.read (fun σ => σ.claim N.id) (fun _ => rfl) fun cl => ?_
        refine Tt.ite (fun _ => Tt.ret fun σ _ h => ⟨h.1.1, fun n h => by cases h⟩) fun _ => ?_
        refine Tt.stepA (fun _ σ => (Hp σ0 σ ∧ W ks kk σ) ∧ TOk N σ) ?_ fun start => ?_
        · rintro σ r σ' hg ⟨⟨⟨h1, h2⟩, h3⟩, _⟩ hg' he
          obtain ⟨rfl, rfl⟩ := he.exec
          exact ⟨⟨⟨h1.n, h1.cap, h1.cpd⟩, h2.same rfl h2.l⟩, h3⟩
        · refine Tt.bind (fun _ σ => (Hp σ0 σ ∧ W ks kk σ) ∧ TOk N σ) ?_ fun copied => ?_
          · refine Tt.pre fun σ1 hg1 h1 => ?_
            refine ((tt_copyChunkIncremental (ks := ks) (kk := kk) h1.2).weaken (P' := fun σ => σ = σ1) ?_).post ?_
            · rintro σ hg rfl
              exact ⟨Hc.refl _, h1.1.2⟩
            · rintro n σ hg ⟨⟨h2, h3⟩, _⟩
              exact ⟨⟨h1.1.1.trans h2.toHp, h3⟩, h2.tok h1.2⟩
          · refine Tt.bind (fun _ σ => (Hp σ0 σ ∧ W ks kk σ) ∧ TOk N σ) (hprom _) fun p => ?_
            refine Tt.ite (fun _ => Tt.ret fun σ _ h => ⟨h.1, fun n h => by cases h⟩) fun hp => (hp (.inr rfl)).elim
      · cases out with
        | retry n => exact Tt.absurd' fun σ _ h => h.2 n rfl
        | done n => exact Tt.ret fun σ _ h => h.1
        | brk =>
          refine Tt.ite (fun h => by cases h) fun _ => Tt.ret fun σ _ h => h.1

/-- The table after `T`. -/
def IsNext (T N : Table) (σ : St K V) : Prop := N.id = T.id + 1 ∧ TOk N σ

theorem Hp.isNext {T N : Table} {σ0 σ : St K V} (h : Hp σ0 σ) (hN : IsNext T N σ0) : IsNext T N σ := ⟨hN.1, h.tok hN.2⟩

theorem isNext_load {T N : Table} {σ : St K V} (hg : GoodSt C σ) (hT : TOk T σ) (h : some N = (σ.next T.id).map σ.handle) : IsNext T N σ := by
  rw [handle_next hg hT] at h
  split at h
  · rename_i hlt
    cases h
    exact ⟨rfl, tok_handle hlt⟩
  · cases h

theorem tt_helpCopy (hi : C.inc = true) {T : Table} {σ0 : St K V} (hT : TOk T σ0) :
    Tt C t sp (fun σ => Hp σ0 σ ∧ W ks kk σ) (helpCopy C false T) (fun N σ => (Hp σ0 σ ∧ W ks kk σ) ∧ IsNext T N σ) := by
  unfold helpCopy
  cases hm : C.mode with
  | blocking => simp [Cfg.inc, hm] at hi
  | incremental chunk =>
    simp only
    refine Tt.bind _ tt_helpCopyIncremental fun r => ?_
    refine Tt.ite (fun h => by cases h) fun _ => ?_
    refine Tt.read (fun σ => (σ.next T.id).map σ.handle) (fun _ => rfl) fun r => ?_
    cases r with
    | none => exact Tt.panic
    | some N => exact Tt.ret fun σ hg h => ⟨h.1, isNext_load hg (h.1.1.tok hT) h.2⟩

theorem tt_waitCopied {T : Table} {i : Nat} {P : St K V → Prop} (h : ∀ σ, P σ → Cpd T.id i σ) :
    Tt C t sp P (waitCopied C i T) (fun _ => P) := by
  unfold waitCopied
  refine Tt.bind (fun _ => P) ?_ fun seen => Tt.ite (fun _ => Tt.ret fun σ _ h => h) fun _ => ?_
  · refine Tt.loop1 ?_
    refine Tt.ite (fun _ => ?_) fun _ => Tt.ret fun σ _ h => h
    refine Tt.read (fun σ => σ.slot T.id i) (fun _ => rfl) fun s => ?_
    refine Tt.ite (fun _ => Tt.ret fun σ _ h => h.1) fun hs => Tt.absurd' fun σ _ hp => hs ?_
    rw [hp.2]
    exact (h σ hp.1).2
  · refine Tt.act (fun σ _ hp => ⟨(), σ, ⟨(h σ hp).2, rfl⟩, trivial⟩) fun σ r σ' hg hp he => ?_
    have := he.exec.2
    subst this; exact hp

/-- The slot the operation has to wait for, if any, has been copied. -/
def CpdO (T : Table) (copying : Option Nat) (σ : St K V) : Prop := ∀ i, copying = some i → Cpd T.id i σ

theorem Hp.cpdO {T : Table} {c : Option Nat} {σ0 σ : St K V} (h : Hp σ0 σ) (hc : CpdO T c σ0) : CpdO T c σ :=
  fun i hi => h.cpd _ _ (hc i hi)

theorem tt_prepareRetryInsert (hi : C.inc = true) {T : Table} {c : Option Nat} {help : Bool} {σ0 : St K V} (hT : TOk T σ0) (hw : W ks kk σ0)
    (hc : CpdO T c σ0) :
    Tt C t sp (fun σ => σ = σ0) (prepareRetryInsert C c help T) (fun N σ => W ks kk σ ∧ IsNext T N σ ∧
      (help = false → AP T σ0 N σ)) := by
  unfold prepareRetryInsert
  cases hm : C.mode with
  | blocking => simp [Cfg.inc, hm] at hi
  | incremental chunk =>
    simp only
    refine Tt.bind _ (tt_getOrAllocNext hT hw.l) fun N => ?_
    refine Tt.bind (fun N σ => (Hp σ0 σ ∧ W ks kk σ) ∧ IsNext T N σ ∧ (help = false → AP T σ0 N σ)) ?_ fun N => ?_
    · refine Tt.ite (fun hh => ?_) fun hh => Tt.ret fun σ _ h => ⟨⟨h.hp, h.w hw⟩, ⟨h.id, h.tok⟩, fun _ => h⟩
      refine ((tt_helpCopy hi hT).weaken fun σ _ h => ⟨h.hp, h.w hw⟩).post fun N σ _ h => ⟨h.1, h.2, fun h => ?_⟩
      rw [hh] at h; cases h
    · cases c with
      | none => exact Tt.ret fun σ _ h => ⟨h.1.2, h.2⟩
      | some i =>
        refine Tt.bind _ (tt_waitCopied fun σ h => h.1.1.cpdO hc i rfl) fun _ => Tt.ret fun σ _ h => ⟨h.1.2, h.2⟩

theorem tt_prepareRetry (hi : C.inc = true) {T : Table} {c : Option Nat} {help : Bool} {σ0 : St K V} (hT : TOk T σ0) (hw : W ks kk σ0)
    (hc : CpdO T c σ0) :
    Tt C t sp (fun σ => σ = σ0) (prepareRetry C c help T) (fun r σ => W ks kk σ ∧ (help = false → σ = σ0) ∧ Hp σ0 σ ∧
      (r = none → σ = σ0) ∧ ∀ N, r = some N → IsNext T N σ) := by
  unfold prepareRetry
  cases hm : C.mode with
  | blocking => simp [Cfg.inc, hm] at hi
  | incremental chunk =>
    simp only
    refine Tt.read (fun σ => (σ.next T.id).map σ.handle) (fun _ => rfl) fun r => ?_
    cases r with
    | none =>
      refine Tt.ret ?_
      rintro σ hg ⟨rfl, _⟩
      exact ⟨hw, fun _ => rfl, Hp.refl _, fun _ => rfl, fun N h => by cases h⟩
    | some N =>
      simp only
      have hend : Tt C t sp (fun σ => (Hp σ0 σ ∧ W ks kk σ) ∧ (help = false → σ = σ0) ∧ IsNext T N σ) (match c with
          | some i => do
            waitCopied C i T
            return some N
          | none => return some N) (fun r σ => W ks kk σ ∧ (help = false → σ = σ0) ∧ Hp σ0 σ ∧
            (r = none → σ = σ0) ∧ ∀ N, r = some N → IsNext T N σ) := by
        cases c with
        | none => exact Tt.ret fun σ _ h => ⟨h.1.2, h.2.1, h.1.1, fun h => (by cases h), fun N' hN => by cases hN; exact h.2.2⟩
        | some i =>
          refine Tt.bind _ (tt_waitCopied fun σ h => h.1.1.cpdO hc i rfl) fun _ =>
            Tt.ret fun σ _ h => ⟨h.1.2, h.2.1, h.1.1, fun h => (by cases h), fun N' hN => by cases hN; exact h.2.2⟩
      refine Tt.pre ?_
      rintro σ hg ⟨h, hn⟩
      subst h
      have hn := isNext_load hg hT hn
      refine Tt.ite (fun hh => ?_) fun hh => ?_
      · refine Tt.bind _ ((tt_helpCopy (ks := ks) (kk := kk) hi hT).weaken (P' := fun τ => τ = σ) fun τ _ h => ?_) fun _ => hend.weaken fun τ _ h => ?_
        · rw [h]; exact ⟨Hp.refl _, hw⟩
        · exact ⟨h.1, fun h => (by rw [hh] at h; cases h), h.1.1.isNext hn⟩
      · refine Tt.bind (fun _ τ => τ = σ) (Tt.ret fun τ _ h => h) fun _ => hend.weaken fun τ _ h => ?_
        rw [h]; exact ⟨⟨Hp.refl _, hw⟩, fun _ => rfl, hn⟩

/-! ## Retiring an entry -/

theorem tt_deferRetire (hi : C.inc = true) {T : Table} {e : Entry K V} {s : Slot K V} :
    Tt C t sp (fun σ => W ks kk σ ∧ TOk T σ) (deferRetire C e s T) (fun _ σ => W ks kk σ) := by
  have hret : ∀ P : St K V → Prop, (∀ σ, P σ → W ks kk σ) → Tt C t sp P (A.retire e) (fun _ σ => W ks kk σ) := by
    intro P hP
    refine Tt.lastA ?_
    rintro σ r σ' hg h1 hg' he
    have he : σ' = _ := he.exec
    subst he
    exact (hP σ h1).same rfl (hP σ h1).l
  unfold deferRetire
  cases hm : C.mode with
  | blocking => simp [Cfg.inc, hm] at hi
  | incremental chunk =>
    simp only
    refine Tt.ite (fun _ => hret _ fun σ h => h.1) fun _ => ?_
    refine Tt.read (fun σ => σ.root.map σ.handle) (fun _ => rfl) fun r => ?_
    cases r with
    | none => exact Tt.panic
    | some R =>
      simp only
      refine Tt.weaken (P := fun σ => W ks kk σ ∧ TOk T σ ∧ TOk R σ) ?_ ?_
      rotate_left
      · rintro σ hg ⟨h1, h2⟩
        obtain ⟨x, hx, hx2⟩ := Option.map_eq_some_iff.1 h2.symm
        exact ⟨h1.1, h1.2, hx2 ▸ tok_handle (hg.root hx)⟩
      refine Tt.bind (fun _ σ => W ks kk σ ∧ TOk T σ ∧ TOk R σ) ?_ fun found => ?_
      · refine (Tt.loop (fun n σ => (W ks kk σ ∧ TOk T σ ∧ TOk R σ) ∧ ∀ N, n = some N → TOk N σ)
          (fun (n : Option Table) σ => match n with
            | none => 0
            | some N => σ.nTabs + 1 - N.id) ?_).weaken fun σ _ h => ⟨h, fun N hN => by cases hN; exact h.2.1⟩
        rintro (_ | N) m
        · exact Tt.ret fun σ _ h => h.1.1
        · simp only
          refine Tt.sameTable (fun _ => Tt.ret fun σ _ h => h.1.1) fun _ => ?_
          refine Tt.read (fun σ => (σ.next N.id).map σ.handle) (fun _ => rfl) fun r => Tt.ret ?_
          rintro σ hg ⟨⟨⟨h1, h2⟩, rfl⟩, h3⟩
          have hN := h2 N rfl
          have hN1 := hN.1
          refine ⟨⟨h1, fun N' hN' => ?_⟩, ?_⟩
          · subst hN'
            exact (isNext_load hg hN h3).2
          · cases r with
            | none => show 0 < σ.nTabs + 1 - N.id; omega
            | some N' =>
              have := (isNext_load hg hN h3).1
              show σ.nTabs + 1 - N'.id < σ.nTabs + 1 - N.id
              omega
      · refine Tt.ite (fun _ => hret _ fun σ h => h.1) fun _ => ?_
        refine (Tt.loop (fun (n : Table) σ => W ks kk σ ∧ TOk n σ) (fun (n : Table) σ => σ.nTabs - n.id) ?_).weaken fun σ _ h => ⟨h.1, h.2.2⟩
        intro prev m
        refine Tt.read (fun σ => (σ.next prev.id).map σ.handle) (fun _ => rfl) fun r => ?_
        cases r with
        | none => exact Tt.panic
        | some N =>
          simp only
          refine Tt.sameTable (fun _ => ?_) fun _ => Tt.ret ?_
          · refine Tt.stepA (fun _ σ => W ks kk σ) ?_ fun _ => Tt.ret fun σ _ h => h
            rintro σ r σ' hg ⟨⟨⟨h1, h2⟩, h4⟩, h3⟩ hg' he
            have he : σ' = _ := he.exec
            subst he
            exact h1.same rfl h1.l
          · rintro σ hg ⟨⟨⟨h1, h2⟩, rfl⟩, h3⟩
            have := isNext_load hg h2 h3
            refine ⟨⟨h1, this.2⟩, ?_⟩
            show σ.nTabs - N.id < σ.nTabs - prev.id
            have := this.1
            have := h2.1
            omega

end Papaya
