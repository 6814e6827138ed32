import Verif.Model.Addr
import Verif.Props.Shared

/-! # Reusing addresses makes no difference -/

set_option linter.unusedSectionVars false
set_option linter.unusedVariables false

namespace Papaya

variable {K V : Type} [DecidableEq K]

open GSt

variable {C : Cfg K} {gd : Tid → Tid} {ss : SSt K V} {t : Tid}

/-- A compare-and-swap never sees the expected allocation with another key or value. -/
def Act.Coherent (σ : St K V) : {β : Type} → Act K V β → Prop
  | _, .cas _ T i exp _ => ∀ e e', exp.ptr = some e → (σ.slot T i).ptr = some e' → e.id = e'.id → e = e'
  | _, .casNew _ T i exp _ _ => ∀ e e', exp.ptr = some e → (σ.slot T i).ptr = some e' → e.id = e'.id → e = e'
  | _, _ => True

theorem okAct_coherent {S : GSt K V} {β : Type} {a : Act K V β} (hi : S.Inv C) (h : S.okAct a) : a.Coherent S.toSt := by
  have key : ∀ {T i : Nat} {e e' : Entry K V}, S.EntIs e → S.kslot T i e' → e.id = e'.id → e = e' := by
    intro T i e e' h1 h2 h3
    obtain ⟨_, x, g1, g2⟩ := h1
    obtain ⟨x', g3, g4⟩ := hi.p.p3 _ _ _ h2
    rw [h3, g3] at g1
    cases g1
    rw [← g2, ← g4]
  cases a with
  | cas _ T i exp new => exact fun e e' h1 h2 => key (h.2.2.1 e h1) h2
  | casNew _ T i exp k v => exact fun e e' h1 h2 => key (h.2.1 e h1) h2
  | _ => trivial

theorem coherent (h : SReach C gd ss) {c : Call K V} {β : Type} {a : Act K V β} {k : β → Prog K V c.Res}
    (ht : ss.th t = .run c (.act a k)) : a.Coherent ss.mem := by
  obtain ⟨ps, h1, h2⟩ := h.sim
  have h3 := h2.th t
  rw [ht] at h3
  obtain ⟨S, g, ⟨g1, g2, g3, g4, g5, g6⟩, _⟩ := h1.pinv 1
  have h7 := g4 t
  rw [h3.run_inv] at h7
  have h8 := okAct_coherent g2 (h7 S g2 ((rg K V C).refl t S)).1
  rw [g1, ← h2.mem.mem] at h8
  cases a <;> exact h8

/-- Different live allocations have different addresses. -/
def InjLive (n : Nat) (freed : Nat → Bool) (ad : Nat → Nat) : Prop :=
  ∀ x y, x < n → y < n → freed x = false → freed y = false → ad x = ad y → x = y

theorem InjLive.mono {n : Nat} {f f' : Nat → Bool} {ad : Nat → Nat} (h : InjLive n f ad) (hf : ∀ x, f' x = false → f x = false) :
    InjLive n f' ad := fun x y h1 h2 h3 h4 => h x y h1 h2 (hf x h3) (hf y h4)

theorem InjLive.placed {n n' : Nat} {f f' : Nat → Bool} {ad ad' : Nat → Nat} (h : InjLive n f ad)
    (hp : AllocOk n n' f' ad ad') (hf : f' = f) : InjLive n' f' ad' := by
  subst hf
  intro x y h1 h2 h3 h4 h5
  by_contra hne
  by_cases hx : x < n
  · by_cases hy : y < n
    · rw [hp.1 x hx, hp.1 y hy] at h5
      exact hne (h x y hx hy h3 h4 h5)
    · exact hp.2 y (Nat.le_of_not_lt hy) h2 x h1 hne h3 h5
  · exact hp.2 x (Nat.le_of_not_lt hx) h1 y h2 (Ne.symm hne) h4 h5.symm

/-- Comparing the words is comparing the slots. -/
theorem word_eq {σ : St K V} {ad : Nat → Nat} {s s' : Slot K V} (hi : InjLive σ.nIds σ.freed ad)
    (h1 : ∀ e, s'.ptr = some e → σ.EntryAlive e) (h2 : ∀ e, s.ptr = some e → σ.EntryAlive e)
    (h3 : ∀ e e', s'.ptr = some e → s.ptr = some e' → e.id = e'.id → e = e') : s.word ad = s'.word ad ↔ s = s' := by
  refine ⟨fun h => ?_, fun h => by rw [h]⟩
  obtain ⟨p, a, b, c⟩ := s
  obtain ⟨p', a', b', c'⟩ := s'
  simp only [Slot.word, Prod.mk.injEq] at h h1 h2 h3 ⊢
  obtain ⟨g1, rfl, rfl, rfl⟩ := h
  cases p with
  | none =>
    cases p' with
    | none => rfl
    | some e' => cases g1
  | some e =>
    cases p' with
    | none => cases g1
    | some e' =>
      have hid : e.id = e'.id := hi _ _ (h2 e rfl).1 (h1 e' rfl).1 (h2 e rfl).2 (h1 e' rfl).2 (Option.some.inj g1)
      rw [h3 e' e rfl rfl hid.symm]

theorem execAd_exec {ad tad : Nat → Nat} {β : Type} {a : Act K V β} {σ σ' : St K V} {r : β}
    (hi : InjLive σ.nIds σ.freed ad) (hT : InjLive σ.nTabs σ.tabFreed tad) (hs : a.Safe σ) (hc : a.Coherent σ) :
    ExecAd C t ad tad a σ r σ' ↔ Exec C t a σ r σ' := by
  cases a with
  | cas w T i exp new => simp only [ExecAd, Exec, Ne, word_eq hi hs.2.2.1 hs.2.2.2 hc]
  | casNew w T i exp k v => simp only [ExecAd, Exec, Ne, word_eq hi hs.2.2.1 hs.2.2.2 hc]
  | casRoot T N =>
    have : σ.root.map tad = some (tad T) ↔ σ.root = some T := by
      refine ⟨fun h => ?_, fun h => by rw [h]; rfl⟩
      cases hr : σ.root with
      | none => rw [hr] at h; cases h
      | some r =>
        rw [hr] at h
        have := hs.2 r hr
        rw [hT r T this.1 hs.1.1 this.2 hs.1.2 (Option.some.inj h)]
    simp only [ExecAd, Exec, Ne, this]
  | sameTable T T' =>
    have : tad T = tad T' ↔ T = T' := ⟨hT T T' hs.1.1 hs.2.1 hs.1.2 hs.2.2, fun h => by rw [h]⟩
    simp only [ExecAd, Exec, this]
  | sameEntry x y =>
    have : ad x = ad y ↔ x = y := ⟨hi x y hs.1.1 hs.2.1 hs.1.2 hs.2.2, fun h => by rw [h]⟩
    simp only [ExecAd, Exec, this]
  | _ => exact Iff.rfl

/-- No operation frees anything by itself. -/
theorem exec_freed {β : Type} {a : Act K V β} {σ σ' : St K V} {r : β} (he : Exec C t a σ r σ') :
    σ'.freed = σ.freed ∧ σ'.tabFreed = σ.tabFreed := by
  cases a with
  | casRootInit cap =>
    simp only [Exec] at he
    split at he
    · rw [he.1]; exact ⟨rfl, rfl⟩
    · rw [he.1]; exact ⟨rfl, rfl⟩
  | storeNext P cap => rw [he.1]; exact ⟨rfl, rfl⟩
  | tryLock T => rcases he with ⟨_, _, h5⟩ | ⟨_, _, h5⟩ <;> (rw [h5]; exact ⟨rfl, rfl⟩)
  | lockWait T => rcases he with ⟨_, _, h5⟩ | ⟨_, _, h5⟩ <;> (rw [h5]; exact ⟨rfl, rfl⟩)
  | cas w T i e n => rcases he with ⟨_, _, h5⟩ | ⟨_, _, h5⟩ <;> (rw [h5]; exact ⟨rfl, rfl⟩)
  | casNew w T i e k v => rcases he with ⟨_, _, h5⟩ | ⟨_, _, h5⟩ <;> (rw [h5]; exact ⟨rfl, rfl⟩)
  | casRoot T N => rcases he with ⟨_, _, h5⟩ | ⟨_, _, h5⟩ <;> (rw [h5]; exact ⟨rfl, rfl⟩)
  | unlock T => rw [show σ' = _ from he]; exact ⟨rfl, rfl⟩
  | poison T => rw [show σ' = _ from he]; exact ⟨rfl, rfl⟩
  | storeMd T i m => rw [show σ' = _ from he]; exact ⟨rfl, rfl⟩
  | storeSlot T i s => rw [show σ' = _ from he]; exact ⟨rfl, rfl⟩
  | storeStatus T s => rw [show σ' = _ from he]; exact ⟨rfl, rfl⟩
  | deref e => rw [show σ' = _ from he]; exact ⟨rfl, rfl⟩
  | retire e => rw [show σ' = _ from he]; exact ⟨rfl, rfl⟩
  | retireTable P => rw [show σ' = _ from he]; exact ⟨rfl, rfl⟩
  | pushDeferred P e' => rw [show σ' = _ from he]; exact ⟨rfl, rfl⟩
  | addCount d => rw [show σ' = _ from he]; exact ⟨rfl, rfl⟩
  | _ => rw [he.2]; exact ⟨rfl, rfl⟩

theorem initSt_nIds {σ : St K V} (h : initSt C = some σ) : σ.nIds = 0 ∧ σ.nTabs ≤ 1 := by
  unfold initSt at h
  split at h
  · cases h; exact ⟨rfl, Nat.zero_le _⟩
  · obtain ⟨n, _, rfl⟩ := Option.map_eq_some_iff.1 h
    exact ⟨rfl, Nat.le_refl _⟩

/-- The addresses of live memory differ, and the execution is one in which pointers are compared by identity. -/
theorem AReach.sim {as : ASt K V} (h : AReach C gd as) :
    SReach C gd as.ss ∧ InjLive as.ss.mem.nIds as.ss.mem.freed as.ad ∧ InjLive as.ss.mem.nTabs as.ss.mem.tabFreed as.tad := by
  induction h with
  | init h =>
    obtain ⟨h1, h2⟩ := initSt_nIds h.1
    exact ⟨.init h, fun x y hx => by omega, fun x y hx hy _ _ _ => by omega⟩
  | step h0 hs ih =>
    clear h0
    obtain ⟨ih, hi, hT⟩ := ih
    cases hs with
    | pin g h => exact ⟨.step ih (.pin g h), hi, hT⟩
    | unpin g h => exact ⟨.step ih (.unpin g h), hi, hT⟩
    | abandon t h => exact ⟨.step ih (.abandon t h), hi, hT⟩
    | inv t c h hg hwf => exact ⟨.step ih (.inv t c h hg hwf), hi, hT⟩
    | act t h he hx hTp =>
      have he' := (execAd_exec hi hT (C50_memory_safe ih h) (coherent ih h)).1 he
      exact ⟨.step ih (.act t h he'), hi.placed hx (exec_freed he').1, hT.placed hTp (exec_freed he').2⟩
    | loop t h => exact ⟨.step ih (.loop t h), hi, hT⟩
    | ret t h => exact ⟨.step ih (.ret t h), hi, hT⟩
    | panic t h => exact ⟨.step ih (.panic t h), hi, hT⟩
    | freeEntry x h1 h2 h3 =>
      refine ⟨.step ih (.freeEntry x h1 h2 h3), hi.mono fun y hy => ?_, hT⟩
      simp only [St.freeEntry] at hy
      split at hy
      · cases hy
      · exact hy
    | freeTable T h1 h2 h3 =>
      refine ⟨.step ih (.freeTable T h1 h2 h3), hi.mono fun y hy => ?_, hT.mono fun y hy => ?_⟩
      · simp only [St.freeTable, Bool.or_eq_false_iff] at hy
        exact hy.2
      · simp only [St.freeTable] at hy
        split at hy
        · cases hy
        · exact hy

end Papaya
