import Verif.Proof.TermBase

/-! # Termination: helping to resize -/

set_option linter.unusedSectionVars false
set_option linter.unusedVariables false

namespace Papaya

variable {K V : Type} [DecidableEq K] {C : Cfg K} {t : Tid} {sp : Bool} {ks : K → Prop} {kk : Option K} {X : Option (Nat × Nat)}

open GSt

/-- What copying entries keeps. -/
structure Hc (σ0 σ : St K V) : Prop extends Hp σ0 σ where
  root : σ.root = σ0.root
  claim : σ.claim = σ0.claim
  copied : σ.copied = σ0.copied
  status : ∀ T, T < σ0.nTabs → σ.status T = σ0.status T

theorem Hc.refl (σ : St K V) : Hc σ σ := ⟨Hp.refl σ, rfl, rfl, rfl, fun _ _ => rfl⟩

theorem Hc.trans {σ σ' σ'' : St K V} (h : Hc σ σ') (h' : Hc σ' σ'') : Hc σ σ'' :=
  ⟨h.toHp.trans h'.toHp, h'.root.trans h.root, h'.claim.trans h.claim, h'.copied.trans h.copied,
    fun T hT => (h'.status T (Nat.lt_of_lt_of_le hT h.n)).trans (h.status T hT)⟩

theorem AP.hc {T N : Table} {σ0 σ : St K V} (h : AP T σ0 N σ) : Hc σ0 σ := ⟨h.hp, h.root, h.claim, h.copied, h.status⟩

theorem Hc.setMd (σ : St K V) (T i m : Nat) : Hc σ (σ.setMd T i m) := ⟨⟨Nat.le_refl _, fun _ _ => rfl, fun _ _ h => h⟩, rfl, rfl, rfl, fun _ _ => rfl⟩

theorem Hc.setSlot (σ : St K V) (T i : Nat) (s : Slot K V) (h : Cpd T i σ → s.ptr ≠ none ∧ s.copied = true) : Hc σ (σ.setSlot T i s) := by
  refine ⟨⟨Nat.le_refl _, fun _ _ => rfl, fun T' i' hc => ?_⟩, rfl, rfl, rfl, fun _ _ => rfl⟩
  show (if T' = T ∧ i' = i then s else σ.slot T' i').ptr ≠ none ∧ (if T' = T ∧ i' = i then s else σ.slot T' i').copied = true
  split
  · rename_i hh; obtain ⟨rfl, rfl⟩ := hh; exact h hc
  · exact hc

theorem WX.md {σ : St K V} (h : WX ks kk X σ) (T i m : Nat) : WX ks kk X (σ.setMd T i m) := h.same rfl h.l

theorem Cpd.nn {T i : Nat} {σ : St K V} (h : Cpd T i σ) : σ.slot T i ≠ Slot.null := fun hn => h.1 (by rw [hn]; rfl)

theorem FreshT.md {T : Table} {σ : St K V} {i m : Nat} (h : FreshT T (σ.setMd T.id i m)) (hs : σ.slot T.id i ≠ Slot.null) : False :=
  hs (h i).1

/-! ## Copying an entry -/

theorem tt_insertCopy {e : Entry K V} {s : Slot K V} {T : Table} {σ0 : St K V} (hs : SlOk ks kk s) :
    Tt C t sp (fun σ => Hc σ0 σ ∧ WX ks kk X σ ∧ TOk T σ) (insertCopy C e s true T) (fun _ σ => Hc σ0 σ ∧ WX ks kk X σ) := by
  unfold insertCopy
  refine Tt.read (fun _ => ()) (fun _ => rfl) fun _ => ?_
  refine (Tt.loop (fun T σ => Hc σ0 σ ∧ WX ks kk X σ ∧ TOk T σ) mu ?_).weaken fun _ _ h => h.1
  intro T m
  refine Tt.bind (fun r σ => (Hc σ0 σ ∧ WX ks kk X σ ∧ TOk T σ) ∧ (r = none → m = 2 * (σ.nTabs - T.id))) ?_ ?_
  · refine (Tt.loopN (fun (probe : Probe) σ => (Hc σ0 σ ∧ WX ks kk X σ ∧ TOk T σ) ∧ (m = 2 * (σ.nTabs - T.id) ∨ FreshT T σ) ∧
      (FreshT T σ → probe.len = 0)) (fun probe => T.limit + 1 - probe.len) ?_).weaken ?_
    rotate_left
    · rintro σ _ ⟨h1, h2⟩
      exact ⟨h1, h2 ▸ mu_or T σ, fun _ => rfl⟩
    intro probe
    have hdec : probe.len ≤ T.limit → T.limit + 1 - (probe.next T.mask).len < T.limit + 1 - probe.len := by
      intro h
      show T.limit + 1 - (probe.len + 1) < T.limit + 1 - probe.len
      omega
    refine Tt.ite (fun hlim => ?_) fun hlim => Tt.ret ?_
    rotate_left
    · rintro σ hg ⟨h1, h2, h3⟩
      refine ⟨h1, fun _ => h2.resolve_right fun hf => hlim ?_⟩
      rw [h3 hf]; exact Nat.zero_le _
    refine Tt.read (fun σ => σ.md T.id probe.i) (fun _ => rfl) fun m' => ?_
    refine Tt.ite (fun hm => ?_) fun hm => Tt.ret ?_
    rotate_left
    · rintro σ hg ⟨⟨h1, h2, h3⟩, h4⟩
      have hf : ¬ FreshT T σ := fun hf => hm (h4.trans (hf probe.i).2)
      exact ⟨⟨h1, h2, fun hf' => absurd hf' hf⟩, hdec hlim⟩
    refine Tt.stepA (fun r σ => (Hc σ0 σ ∧ WX ks kk X σ ∧ TOk T σ) ∧
      (r ≠ none → σ.slot T.id probe.i ≠ Slot.null ∧ (m = 2 * (σ.nTabs - T.id) ∨ FreshT T σ))) ?_ fun r => ?_
    · rintro σ r σ' hg ⟨⟨⟨h1, h2, h3⟩, h4, h5⟩, rfl⟩ hg' he
      rcases he.exec with ⟨g1, rfl, rfl⟩ | ⟨g1, rfl, rfl⟩
      · exact ⟨⟨h1.trans (Hc.setSlot _ _ _ _ fun hc => absurd g1 hc.nn), h2.set hs, h3⟩, fun h => absurd rfl h⟩
      · refine ⟨⟨h1, h2, h3⟩, fun _ => ⟨g1.resolve_right (by simp), h4⟩⟩
    · cases r with
      | none =>
        refine Tt.stepA (fun _ σ => (Hc σ0 σ ∧ WX ks kk X σ ∧ TOk T σ)) ?_ fun _ => Tt.ret fun σ _ h => ⟨h, fun h => by cases h⟩
        rintro σ r σ' hg ⟨⟨h1, h2, h3⟩, _⟩ hg' he
        have he : σ' = _ := he.exec
        subst he
        exact ⟨h1.trans (Hc.setMd _ _ _ _), h2.md _ _ _, h3⟩
      | some found =>
        refine Tt.bind (fun _ σ => (Hc σ0 σ ∧ WX ks kk X σ ∧ TOk T σ) ∧ σ.slot T.id probe.i ≠ Slot.null ∧
          (m = 2 * (σ.nTabs - T.id) ∨ FreshT T σ)) ?_ fun m2 => ?_
        · cases found.ptr with
          | none => exact Tt.ret fun σ _ h => ⟨h.1, h.2 (by simp)⟩
          | some e' =>
            refine Tt.read (fun _ => ()) (fun _ => rfl) fun _ => ?_
            exact Tt.ret fun σ _ h => ⟨h.1.1, h.1.2 (by simp)⟩
        · refine Tt.read (fun σ => σ.md T.id probe.i) (fun _ => rfl) fun m3 => ?_
          refine Tt.ite (fun hm => ?_) fun hm => Tt.ret ?_
          · refine Tt.stepA (fun _ σ => (Hc σ0 σ ∧ WX ks kk X σ ∧ TOk T σ) ∧ (m = 2 * (σ.nTabs - T.id)) ∧ ¬ FreshT T σ) ?_ fun _ => Tt.ret ?_
            · rintro σ r σ' hg ⟨⟨⟨h1, h2, h3⟩, h4, h5⟩, _⟩ hg' he
              have he : σ' = _ := he.exec
              subst he
              have hnf : ¬ FreshT T σ := fun hf => h4 (hf probe.i).1
              exact ⟨⟨h1.trans (Hc.setMd _ _ _ _), h2.md _ _ _, h3⟩, h5.resolve_right hnf, fun hf => h4 (hf probe.i).1⟩
            · rintro σ hg ⟨h1, h2, h3⟩
              exact ⟨⟨h1, .inl h2, fun h => absurd h h3⟩, hdec hlim⟩
          · rintro σ hg ⟨⟨h1, h4, h5⟩, _⟩
            have hnf : ¬ FreshT T σ := fun hf => h4 (hf probe.i).1
            exact ⟨⟨h1, h5, fun h => absurd h hnf⟩, hdec hlim⟩
  · intro r
    cases r with
    | some i => exact Tt.ret fun σ _ h => ⟨h.1.1, h.1.2.1⟩
    | none =>
      simp only [if_pos]
      refine Tt.pre fun σ1 hg1 h1 => ?_
      refine Tt.bind _ (tt_getOrAllocNext h1.1.2.2 h1.1.2.1.l) fun N => Tt.ret fun σ hg h => ?_
      refine ⟨⟨h1.1.1.trans h.hc, h.w h1.1.2.1, h.tok⟩, ?_⟩
      show mu N σ < m
      rw [h1.2 (by first | rfl | trivial)]
      exact h.mu hg1 h1.1.2.2

/-- Started from a fixed state. -/
theorem Tt.from {α : Type} {P : St K V → Prop} {p : Prog K V α} {Q : α → St K V → Prop} (σ0 : St K V) (h : Tt C t sp P p Q)
    (h1 : P σ0) : Tt C t sp (fun σ => σ = σ0) p Q := h.weaken fun σ _ hs => hs ▸ h1

theorem tt_copyAtIncremental {T N : Table} {i : Nat} {σ0 : St K V} :
    Tt C t sp (fun σ => Hc σ0 σ ∧ W ks kk σ ∧ TOk N σ) (copyAtIncremental C i T N) (fun _ σ => Hc σ0 σ ∧ W ks kk σ) := by
  unfold copyAtIncremental
  refine Tt.stepA (fun s σ => (Hc σ0 σ ∧ WX ks kk (some (T.id, i)) σ ∧ TOk N σ) ∧ SlOk ks kk s ∧ (s.ptr = none → W ks kk σ)) ?_ fun s => ?_
  · rintro σ r σ' hg ⟨h1, h2, h3⟩ hg' he
    obtain ⟨rfl, rfl⟩ := he.exec
    have hsl : SlOk ks kk (σ.slot T.id i) := fun e he => ⟨h2.c _ _ e (by simp) he, fun x hx hk => h2.k x hx _ _ e he hk⟩
    have hk : ∀ x, kk = some x → ∀ T' i' e, ((σ.setSlot T.id i { σ.slot T.id i with copying := true }).slot T' i').ptr = some e →
        e.key = x → ((σ.setSlot T.id i { σ.slot T.id i with copying := true }).slot T' i').copied = true := by
      intro x hx T' i' e hp hk
      have hp : (if T' = T.id ∧ i' = i then { σ.slot T.id i with copying := true } else σ.slot T' i').ptr = some e := hp
      show (if T' = T.id ∧ i' = i then { σ.slot T.id i with copying := true } else σ.slot T' i').copied = true
      split at hp
      · rename_i hh; rw [if_pos hh]; exact h2.k x hx _ _ e hp hk
      · rename_i hh; rw [if_neg hh]; exact h2.k x hx _ _ e hp hk
    have hc : ∀ T' i' e, (T', i') ≠ (T.id, i) → ((σ.setSlot T.id i { σ.slot T.id i with copying := true }).slot T' i').ptr = some e → ks e.key →
        ((σ.setSlot T.id i { σ.slot T.id i with copying := true }).slot T' i').copying = true →
        ((σ.setSlot T.id i { σ.slot T.id i with copying := true }).slot T' i').copied = true := by
      intro T' i' e hx
      have hx : ¬ (T' = T.id ∧ i' = i) := fun h => hx (by rw [h.1, h.2])
      show (if T' = T.id ∧ i' = i then { σ.slot T.id i with copying := true } else σ.slot T' i').ptr = some e → ks e.key →
        (if T' = T.id ∧ i' = i then { σ.slot T.id i with copying := true } else σ.slot T' i').copying = true →
        (if T' = T.id ∧ i' = i then { σ.slot T.id i with copying := true } else σ.slot T' i').copied = true
      rw [if_neg hx]
      exact h2.c T' i' e (by simp)
    refine ⟨⟨h1.trans (Hc.setSlot _ _ _ _ fun hc => hc), ⟨fun T' i' e hx => hc T' i' e (fun h => hx (by rw [h])), hk, h2.l⟩, h3⟩, hsl,
      fun hn => ⟨fun T' i' e _ hp => ?_, hk, h2.l⟩⟩
    refine hc T' i' e (fun h => ?_) hp
    cases h
    have hp : (if T.id = T.id ∧ i = i then { σ.slot T.id i with copying := true } else σ.slot T.id i).ptr = some e := hp
    rw [if_pos ⟨rfl, rfl⟩] at hp
    have hp : (σ.slot T.id i).ptr = some e := hp
    rw [hn] at hp; cases hp
  · cases hs : s.ptr with
    | none =>
      simp only
      refine Tt.ite (fun _ => Tt.ret fun σ _ h => ⟨h.1.1, h.2.2 (by first | rfl | exact hs | trivial)⟩) fun _ => Tt.lastA ?_
      rintro σ r σ' hg ⟨⟨h1, h2, h3⟩, _, h4⟩ hg' he
      have he : σ' = _ := he.exec
      subst he
      exact ⟨h1.trans (Hc.setMd _ _ _ _), (h4 (by first | rfl | exact hs | trivial)).md _ _ _⟩
    | some e =>
      simp only
      refine Tt.extract (φ := SlOk ks kk s) (fun _ _ h => h.2.1) fun hsl => ?_
      refine Tt.bind (fun _ σ => Hc σ0 σ ∧ WX ks kk (some (T.id, i)) σ) ((tt_insertCopy fun e' he' => ?_).weaken fun σ _ h => h.1) ?_
      · exact hsl e' (hs.trans he')
      · rintro (_ | ⟨N', j⟩)
        · exact Tt.panic
        · refine Tt.stepA (fun _ σ => Hc σ0 σ ∧ W ks kk σ) ?_ fun _ => Tt.lastA ?_
          rotate_left
          · rintro σ r σ' hg h hg' he
            rw [he.exec.2]; exact h
          rintro σ r σ' hg ⟨h1, h2⟩ hg' he
          have he : σ' = _ := he.exec
          subst he
          refine ⟨h1.trans (Hc.setSlot _ _ _ _ fun hc => ⟨by simp, rfl⟩), ?_⟩
          refine ⟨fun T' i' e' hx hp hq hcg => ?_, fun x hx T' i' e' hp hk => ?_, h2.l⟩
          · show (if T' = T.id ∧ i' = i then _ else σ.slot T' i').copied = true
            split
            · rfl
            · rename_i hh
              have hp : (if T' = T.id ∧ i' = i then _ else σ.slot T' i').ptr = some e' := hp
              have hcg : (if T' = T.id ∧ i' = i then _ else σ.slot T' i').copying = true := hcg
              rw [if_neg hh] at hp hcg
              exact h2.c T' i' e' (fun h => hh (by cases h; exact ⟨rfl, rfl⟩)) hp hq hcg
          · show (if T' = T.id ∧ i' = i then _ else σ.slot T' i').copied = true
            split
            · rfl
            · rename_i hh
              have hp : (if T' = T.id ∧ i' = i then _ else σ.slot T' i').ptr = some e' := hp
              rw [if_neg hh] at hp
              exact h2.k x hx T' i' e' hp hk

theorem tt_copyChunkIncremental {T N : Table} {start chunk : Nat} {σ0 : St K V} (hN : TOk N σ0) :
    Tt C t sp (fun σ => Hc σ0 σ ∧ W ks kk σ) (copyChunkIncremental C T N start chunk)
      (fun n σ => (Hc σ0 σ ∧ W ks kk σ) ∧ n = min chunk (T.len - start)) := by
  unfold copyChunkIncremental
  refine (Tt.loopN (fun j σ => (Hc σ0 σ ∧ W ks kk σ) ∧ j ≤ chunk ∧ j ≤ T.len - start) (fun j => chunk - j) ?_).weaken
    fun _ _ h => ⟨h, Nat.zero_le _, Nat.zero_le _⟩
  intro j
  refine Tt.ite (fun hj => ?_) fun hj => Tt.ret fun σ _ h => ⟨h.1, by omega⟩
  refine Tt.ite (fun hl => ?_) fun hl => Tt.ret fun σ _ h => ⟨h.1, by omega⟩
  refine Tt.bind (fun _ σ => Hc σ0 σ ∧ W ks kk σ) (tt_copyAtIncremental.weaken fun σ _ h => ⟨h.1.1, h.1.2, h.1.1.tok hN⟩) fun _ => Tt.ret ?_
  intro σ _ h
  exact ⟨⟨h, by omega, by omega⟩, by show chunk - (j + 1) < chunk - j; omega⟩

/-! ## Promotion -/

/-- What promotion keeps. -/
structure Hr (σ0 σ : St K V) : Prop extends Hp σ0 σ where
  n' : σ.nTabs = σ0.nTabs
  slot : σ.slot = σ0.slot
  md : σ.md = σ0.md
  claim : σ.claim = σ0.claim
  lock : σ.lock = σ0.lock

theorem Hr.w {σ0 σ : St K V} (h : Hr σ0 σ) (hw : WX ks kk X σ0) : WX ks kk X σ := hw.same h.slot (h.lock ▸ hw.l)

/-- The counter after adding `c`: everything has been copied iff `full`. -/
theorem tt_tryPromote {T N : Table} {c : Nat} {σ0 : St K V} :
    Tt C t sp (fun σ => σ = σ0) (tryPromote T N c) (fun b σ => Hr σ0 σ ∧
      (σ.copied = fun T' => if T' = N.id then σ0.copied T' + c else σ0.copied T') ∧
      (b = false → σ.root = σ0.root ∧ σ.status = σ0.status ∧ ¬ (σ0.copied N.id + c = T.len ∧ σ0.root = some T.id)) ∧
      (b = true → σ0.root = some T.id ∧ σ.root = some N.id ∧ σ.status N.id = .promoted)) := by
  unfold tryPromote
  refine Tt.bind (fun n σ => n = σ0.copied N.id + c ∧
    σ = { σ0 with copied := fun T' => if T' = N.id then σ0.copied T' + c else σ0.copied T' }) ?_ fun n => ?_
  · refine Tt.ite (fun hc => ?_) fun hc => ?_
    · refine Tt.stepA (fun r σ => r = σ0.copied N.id ∧
        σ = { σ0 with copied := fun T' => if T' = N.id then σ0.copied T' + c else σ0.copied T' }) ?_ fun r => Tt.ret ?_
      · rintro σ r σ' hg rfl hg' he
        refine ⟨he.exec.1, he.exec.2.trans ?_⟩
        congr 1
        funext T'
        split
        · rename_i h; rw [h]
        · rfl
      · rintro σ _ ⟨h1, h2⟩
        exact ⟨by rw [h1], h2⟩
    · refine Tt.lastA ?_
      rintro σ r σ' hg rfl hg' he
      have h0 : c = 0 := by omega
      refine ⟨by rw [he.exec.1, h0]; rfl, he.exec.2.trans ?_⟩
      have : (fun T' => if T' = N.id then σ.copied T' + c else σ.copied T') = σ.copied := by
        funext T'
        rw [h0, Nat.add_zero, ite_self]
      rw [this]
  · refine Tt.extract (φ := n = σ0.copied N.id + c) (fun _ _ h => h.1) ?_
    rintro rfl
    refine Tt.ite (fun hn => ?_) fun hn => Tt.ret ?_
    rotate_left
    · rintro σ _ ⟨_, rfl⟩
      exact ⟨⟨⟨Nat.le_refl _, fun _ _ => rfl, fun _ _ h => h⟩, rfl, rfl, rfl, rfl, rfl⟩, rfl, fun _ => ⟨rfl, rfl, fun h => hn h.1⟩,
        fun h => by cases h⟩
    refine Tt.read (fun σ => σ.root) (fun _ => rfl) fun root => ?_
    have hF : ∀ r : Option Nat, r ≠ some T.id → ∀ σ : St K V, GoodSt C σ → ((σ0.copied N.id + c = σ0.copied N.id + c ∧
        σ = { σ0 with copied := fun T' => if T' = N.id then σ0.copied T' + c else σ0.copied T' }) ∧ r = σ.root) →
        Hr σ0 σ ∧ (σ.copied = fun T' => if T' = N.id then σ0.copied T' + c else σ0.copied T') ∧
        (false = false → σ.root = σ0.root ∧ σ.status = σ0.status ∧ ¬ (σ0.copied N.id + c = T.len ∧ σ0.root = some T.id)) ∧
        (false = true → σ0.root = some T.id ∧ σ.root = some N.id ∧ σ.status N.id = .promoted) := by
      rintro r hr σ _ ⟨⟨_, rfl⟩, rfl⟩
      refine ⟨⟨⟨Nat.le_refl _, fun _ _ => rfl, fun _ _ h => h⟩, rfl, rfl, rfl, rfl, rfl⟩, rfl, fun _ => ⟨rfl, rfl, fun h => hr ?_⟩,
        fun h => by cases h⟩
      exact h.2
    cases root with
    | none => exact Tt.ret (hF none (by simp))
    | some R =>
    simp only
    refine Tt.sameTable (fun hr => ?_) fun hr => Tt.ret fun σ hg h => hF (some R) (fun h => hr (Option.some.inj h).symm) σ hg ⟨⟨rfl, h.1.2⟩, h.2⟩
    refine Tt.stepA (fun b σ => b = true ∧ σ0.root = some T.id ∧ σ = { σ0 with
      copied := fun T' => if T' = N.id then σ0.copied T' + c else σ0.copied T', root := some N.id }) ?_ fun b => ?_
    · rintro σ r σ' hg ⟨⟨_, rfl⟩, hroot⟩ hg' he
      have h0 : σ0.root = some T.id := by
        have hroot : some R = σ0.root := hroot
        rw [← hroot, hr]
      rcases he.exec with ⟨h1, h2, h3⟩ | ⟨h1, h2, h3⟩
      · exact ⟨h2, h0, h3⟩
      · exact absurd h0 h1
    · refine Tt.ite (fun hb => ?_) fun hb => Tt.absurd' fun σ _ h => hb h.1
      refine Tt.stepA (fun _ σ => σ0.root = some T.id ∧ σ = { σ0 with
        copied := fun T' => if T' = N.id then σ0.copied T' + c else σ0.copied T', root := some N.id,
        status := fun T' => if T' = N.id then .promoted else σ0.status T' }) ?_ fun _ => ?_
      · rintro σ r σ' hg ⟨_, h0, rfl⟩ hg' he
        exact ⟨h0, he.exec⟩
      · refine Tt.store _ (fun σ => rfl) (Tt.stepA (fun _ σ => Hr σ0 σ ∧
          (σ.copied = fun T' => if T' = N.id then σ0.copied T' + c else σ0.copied T') ∧
          (true = false → σ.root = σ0.root ∧ σ.status = σ0.status ∧ ¬ (σ0.copied N.id + c = T.len ∧ σ0.root = some T.id)) ∧
          (true = true → σ0.root = some T.id ∧ σ.root = some N.id ∧ σ.status N.id = .promoted)) ?_ fun _ => Tt.ret fun σ _ h => h)
        rintro σ' r σ'' hg' ⟨σ, _, ⟨h0, rfl⟩, rfl⟩ hg'' he
        rw [he.exec.2]
        refine ⟨⟨⟨Nat.le_refl _, fun _ _ => rfl, fun _ _ h => h⟩, rfl, rfl, rfl, rfl, rfl⟩, rfl, (fun h => by cases h), fun _ => ⟨h0, rfl, ?_⟩⟩
        exact if_pos rfl

end Papaya
