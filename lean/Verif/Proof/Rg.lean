import Verif.Proof.ActAlloc
import Mathlib.Logic.Relation

/-! # The rely–guarantee instance for the map -/

set_option linter.unusedSectionVars false
set_option linter.unusedVariables false

namespace Papaya

variable {K V : Type} [DecidableEq K]

namespace GSt

/-- Table `T` is allocated. -/
def TabOk (S : GSt K V) (T : Nat) : Prop := T < S.nTabs ∧ S.tabFreed T = false

/-- Entry `x` is allocated. -/
def EntOk (S : GSt K V) (x : Nat) : Prop := x < S.nIds ∧ S.freed x = false

/-- Entry `e` is allocated, with this key and value. -/
def EntIs (S : GSt K V) (e : Entry K V) : Prop := S.EntOk e.id ∧ ∃ x, S.info e.id = some x ∧ x.entry = e

/-- Memory safety of an action: it only accesses allocated memory inside the bounds of the table, and
only retires what has not been retired yet and can no longer be reached from the root table. -/
def okAct (S : GSt K V) : {β : Type} → Act K V β → Prop
  | _, .loadRoot => True
  | _, .peekRoot => True
  | _, .casRootInit _ => True
  | _, .loadNext T => S.TabOk T
  | _, .tryLock T => S.TabOk T
  | _, .lockWait T => S.TabOk T
  | _, .unlock T => S.TabOk T
  | _, .poison T => S.TabOk T
  | _, .storeNext T _ => S.TabOk T
  | _, .loadMd T i => S.TabOk T ∧ i < S.cap T
  | _, .storeMd T i _ => S.TabOk T ∧ i < S.cap T
  | _, .loadSlot T i => S.TabOk T ∧ i < S.cap T
  | _, .cas _ T i exp new => (S.TabOk T ∧ i < S.cap T) ∧ new.copying = false ∧ (∀ e, exp.ptr = some e → S.EntIs e) ∧
      ∀ e, S.kslot T i e → S.EntOk e.id
  | _, .casNew _ T i exp _ _ => (S.TabOk T ∧ i < S.cap T) ∧ (∀ e, exp.ptr = some e → S.EntIs e) ∧
      ∀ e, S.kslot T i e → S.EntOk e.id
  | _, .fetchOrCopying T i => S.TabOk T ∧ i < S.cap T
  | _, .storeSlot T i s => (S.TabOk T ∧ i < S.cap T) ∧ s.copied = true
  | _, .loadStatus T => S.TabOk T
  | _, .parkStatus T => S.TabOk T ∧ ∃ s, S.CopyPair s T ∧ S.cap s ≤ S.claim T
  | _, .parkSlot T i => (S.TabOk T ∧ i < S.cap T) ∧ ∃ e, S.kslot T i e ∧ S.copying T i
  | _, .unparkStatus T => S.TabOk T ∧ S.wasRoot T
  | _, .unparkSlot T i => S.TabOk T ∧ i < S.cap T
  | _, .storeStatus T s => S.TabOk T ∧ (s = .aborted → ¬ S.wasRoot T)
  | _, .loadClaim T => S.TabOk T
  | _, .addClaim T _ src => S.TabOk T ∧ S.CopyPair src.id T ∧ src.len = S.cap src.id
  | _, .loadCopied T => S.TabOk T
  | _, .addCopied T _ src => S.TabOk T ∧ S.CopyPair src.id T ∧ src.len = S.cap src.id
  | _, .casRoot T N => S.TabOk T ∧ (∀ r, S.root = some r → S.TabOk r) ∧
      (S.root = some T → T < N ∧ ∀ P, T < P → P < N → S.aborted P)
  | _, .sameTable T T' => S.TabOk T ∧ S.TabOk T'
  | _, .sameEntry x y => S.EntOk x ∧ S.EntOk y
  | _, .deref e => e.id < S.nIds ∧ S.freed e.id = false
  | _, .retire e => S.freed e.id = false ∧ S.retired e.id = false ∧ (∀ P, ∀ e' ∈ S.deferred P, e'.id ≠ e.id) ∧
      ∀ T i, S.kslot T i e → T < S.rt
  | _, .retireTable T => S.TabOk T ∧ S.tabRetired T = false ∧ T < S.rt ∧ S.wasRoot T
  | _, .pushDeferred T e => S.TabOk T ∧ S.freed e.id = false ∧ S.retired e.id = false ∧
      (∀ P, ∀ e' ∈ S.deferred P, e'.id ≠ e.id) ∧ ∀ T' i, S.kslot T' i e → T' ≤ T
  | _, .loadShard _ => True
  | _, .addCount _ => True

/-- One step of another thread. -/
def RStep (C : Cfg K) (t : Tid) (S S' : GSt K V) : Prop := S.Inv C ∧ S'.Inv C ∧ Evo S S' ∧ Own t S S'

end GSt

open GSt

/-- The instance of the logic. -/
@[reducible] def rg (K V : Type) [DecidableEq K] (C : Cfg K) : RG K V where
  G := GSt K V
  phys := GSt.toSt
  Inv S := S.Inv C
  Rely t := Relation.ReflTransGen (GSt.RStep C t)
  Ok _ a S := S.okAct a
  refl _ _ := .refl
  trans _ _ _ _ h h' := h.trans h'

/-- Assertions of thread `t` that neither the other threads nor its own helping can invalidate. -/
class Inert (C : Cfg K) (t : Tid) (P : GSt K V → Prop) : Prop where
  inert : ∀ S S', S.Inv C → S'.Inv C → Evo S S' → Own0 t S S' → P S → P S'

/-- The guarantee of helping. -/
def Mt (t : Tid) (S S' : GSt K V) : Prop := Evo S S' ∧ Own0 t S S'

theorem Stable.of_step {C : Cfg K} {t : Tid} {P : GSt K V → Prop}
    (h : ∀ S S', S.Inv C → S'.Inv C → Evo S S' → Own t S S' → P S → P S') : Stable (rg K V C) t P := by
  constructor
  intro S S' h1 h2 hr hp
  clear h1 h2
  replace hr : Relation.ReflTransGen (GSt.RStep C t) S S' := hr
  induction hr with
  | refl => exact hp
  | tail _ h1 ih => exact h _ _ h1.1 h1.2.1 h1.2.2.1 h1.2.2.2 ih

instance Inert.stable {C : Cfg K} {t : Tid} {P : GSt K V → Prop} [hP : Inert C t P] : Stable (rg K V C) t P :=
  Stable.of_step fun S S' h1 h2 h3 h4 h5 => hP.inert S S' h1 h2 h3 h4.own0 h5

namespace Inert
variable {C : Cfg K} {t : Tid}

instance and {P Q : GSt K V → Prop} [hp : Inert C t P] [hq : Inert C t Q] : Inert C t fun S => P S ∧ Q S :=
  ⟨fun S S' h1 h2 h3 h4 h => ⟨hp.inert S S' h1 h2 h3 h4 h.1, hq.inert S S' h1 h2 h3 h4 h.2⟩⟩

instance or {P Q : GSt K V → Prop} [hp : Inert C t P] [hq : Inert C t Q] : Inert C t fun S => P S ∨ Q S :=
  ⟨fun S S' h1 h2 h3 h4 h => h.imp (hp.inert S S' h1 h2 h3 h4) (hq.inert S S' h1 h2 h3 h4)⟩

instance ex {ι : Sort _} {P : ι → GSt K V → Prop} [hp : ∀ i, Inert C t (P i)] : Inert C t fun S => ∃ i, P i S :=
  ⟨fun S S' h1 h2 h3 h4 ⟨i, h⟩ => ⟨i, (hp i).inert S S' h1 h2 h3 h4 h⟩⟩

instance all {ι : Sort _} {P : ι → GSt K V → Prop} [hp : ∀ i, Inert C t (P i)] : Inert C t fun S => ∀ i, P i S :=
  ⟨fun S S' h1 h2 h3 h4 h i => (hp i).inert S S' h1 h2 h3 h4 (h i)⟩

instance const {φ : Prop} : Inert (V := V) C t fun _ => φ := ⟨fun _ _ _ _ _ _ h => h⟩

instance imp {φ : Prop} {P : GSt K V → Prop} [hp : Inert C t P] : Inert C t fun S => φ → P S :=
  ⟨fun S S' h1 h2 h3 h4 h hφ => hp.inert S S' h1 h2 h3 h4 (h hφ)⟩

end Inert

theorem Evo.refl (S : GSt K V) : Evo S S :=
  Evo.quiet rfl rfl rfl rfl rfl (fun _ h => h) (fun _ h => h) rfl rfl rfl rfl (fun _ _ => rfl)
    (fun _ => Nat.le_refl _) (fun _ _ _ h => h) (fun _ _ h => h) (fun _ => Nat.le_refl _) (fun _ h => h)

theorem Own.refl (t : Tid) (S : GSt K V) : Own t S S :=
  Own.quiet rfl rfl rfl rfl rfl (fun _ _ _ => rfl) (fun _ _ _ => rfl) (fun _ h => h) (fun _ h => h) rfl rfl rfl
    ⟨[], by simp, by simp⟩ (fun _ _ _ => Iff.rfl) (fun _ => Iff.rfl) (fun _ h => h)

theorem Mt.refl (t : Tid) (S : GSt K V) : Mt t S S := ⟨Evo.refl S, (Own.refl t S).own0⟩

/-- What a thread keeps of its own while it helps with a step that is not part of copying or retiring. -/
structure OwnQ (t : Tid) (S S' : GSt K V) : Prop extends Own0 t S S' where
  cs : ∀ N j, (S.cs N j).owner = some t → S'.cs N j = S.cs N j
  tok : ∀ id U b, S.tok id = .owned t U b → S'.tok id = .owned t U b
  tabTok : ∀ T, S.tabTok T = some t ↔ S'.tabTok T = some t

theorem Own.ownQ {t : Tid} {S S' : GSt K V} (h : Own t S S') : OwnQ t S S' :=
  ⟨h.own0, h.cs, h.tok, h.tabTok⟩

theorem Own0.ownQ {t : Tid} {S S' : GSt K V} (h : Own0 t S S') (h1 : S'.cs = S.cs) (h2 : S'.tok = S.tok)
    (h3 : S'.tabTok = S.tabTok) : OwnQ t S S' :=
  ⟨h, fun _ _ _ => by rw [h1], fun _ _ _ h => by rw [h2]; exact h, fun _ => by rw [h3]⟩

def Mq (t : Tid) (S S' : GSt K V) : Prop := Evo S S' ∧ OwnQ t S S'

theorem Mq.mt {t : Tid} {S S' : GSt K V} (h : Mq t S S') : Mt t S S' := ⟨h.1, h.2.toOwn0⟩
theorem Mq.refl (t : Tid) (S : GSt K V) : Mq t S S := ⟨Evo.refl S, (Own.refl t S).ownQ⟩

/-- Assertions preserved by the other threads and by steps in `Mq`. -/
class Kept (C : Cfg K) (t : Tid) (P : GSt K V → Prop) : Prop where
  kept : ∀ S S', S.Inv C → S'.Inv C → Evo S S' → OwnQ t S S' → P S → P S'

instance Inert.kept {C : Cfg K} {t : Tid} {P : GSt K V → Prop} [hP : Inert C t P] : Kept C t P :=
  ⟨fun S S' h1 h2 h3 h4 h5 => hP.inert S S' h1 h2 h3 h4.toOwn0 h5⟩

instance Kept.stable {C : Cfg K} {t : Tid} {P : GSt K V → Prop} [hP : Kept C t P] : Stable (rg K V C) t P :=
  Stable.of_step fun S S' h1 h2 h3 h4 h5 => hP.kept S S' h1 h2 h3 h4.ownQ h5

namespace Kept
variable {C : Cfg K} {t : Tid}

instance and {P Q : GSt K V → Prop} [hp : Kept C t P] [hq : Kept C t Q] : Kept C t fun S => P S ∧ Q S :=
  ⟨fun S S' h1 h2 h3 h4 h => ⟨hp.kept S S' h1 h2 h3 h4 h.1, hq.kept S S' h1 h2 h3 h4 h.2⟩⟩

instance or {P Q : GSt K V → Prop} [hp : Kept C t P] [hq : Kept C t Q] : Kept C t fun S => P S ∨ Q S :=
  ⟨fun S S' h1 h2 h3 h4 h => h.imp (hp.kept S S' h1 h2 h3 h4) (hq.kept S S' h1 h2 h3 h4)⟩

instance ex {ι : Sort _} {P : ι → GSt K V → Prop} [hp : ∀ i, Kept C t (P i)] : Kept C t fun S => ∃ i, P i S :=
  ⟨fun S S' h1 h2 h3 h4 ⟨i, h⟩ => ⟨i, (hp i).kept S S' h1 h2 h3 h4 h⟩⟩

instance all {ι : Sort _} {P : ι → GSt K V → Prop} [hp : ∀ i, Kept C t (P i)] : Kept C t fun S => ∀ i, P i S :=
  ⟨fun S S' h1 h2 h3 h4 h i => (hp i).kept S S' h1 h2 h3 h4 (h i)⟩

instance imp {φ : Prop} {P : GSt K V → Prop} [hp : Kept C t P] : Kept C t fun S => φ → P S :=
  ⟨fun S S' h1 h2 h3 h4 h hφ => hp.kept S S' h1 h2 h3 h4 (h hφ)⟩

end Kept

/-- Triples of the map. -/
abbrev Tri (C : Cfg K) (t : Tid) (A : PanicReason → GSt K V → Prop) (Gd : GSt K V → GSt K V → Prop) {α : Type}
    (P : GSt K V → Prop) (p : Prog K V α) (Q : α → GSt K V → Prop) : Prop :=
  Hoare C (rg K V C) t A Gd P p Q

variable {C : Cfg K} {t : Tid} {A : PanicReason → GSt K V → Prop} {Gd : GSt K V → GSt K V → Prop}

namespace Tri

variable {α β γ : Type} {P P' : GSt K V → Prop} {Q Q' : α → GSt K V → Prop}

theorem act {a : Act K V β} {Q : β → GSt K V → Prop} [hst : Stable (rg K V C) t P]
    (hok : ∀ S, S.Inv C → P S → S.okAct a)
    (h : ∀ S r σ'', S.Inv C → P S → Exec C t a S.toSt r σ'' → ∃ S'' : GSt K V, S''.toSt = σ'' ∧ S''.Inv C ∧
      Evo S S'' ∧ (∀ t', t' ≠ t → Own t' S S'') ∧ Gd S S'' ∧ Q r S'') :
    Tri C t A Gd P (.prim a) Q := by
  refine Hoare.prim (hst := hst) (L := rg K V C) hok ?_
  intro S r σ'' hi hp he
  obtain ⟨S'', h1, h2, h3, h4, h5, h6⟩ := h S r σ'' hi hp he
  exact ⟨S'', h1, h2, fun t' ht => .single ⟨hi, h2, h3, h4 t' ht⟩, h5, h6⟩

theorem load {a : Act K V β} (Q : β → GSt K V → Prop) [hst : Stable (rg K V C) t P]
    (hg : ∀ S, Gd S S)
    (hok : ∀ S, S.Inv C → P S → S.okAct a)
    (hl : ∀ σ r σ'', Exec C t a σ r σ'' → σ'' = σ)
    (h : ∀ S r, S.Inv C → P S → Exec C t a S.toSt r S.toSt → Q r S) :
    Tri C t A Gd P (.prim a) Q :=
  Hoare.load (L := rg K V C) Q hok hg hl h

theorem bind {p : Prog K V α} {f : α → Prog K V β} (R : α → GSt K V → Prop) {Q : β → GSt K V → Prop}
    (h : Tri C t A Gd P p R) (hf : ∀ x, Tri C t A Gd (R x) (f x) Q) : Tri C t A Gd P (p >>= f) Q :=
  Hoare.bind (L := rg K V C) R h hf

theorem ret {x : α} (h : ∀ S, S.Inv C → P S → Q x S) : Tri C t A Gd P (pure x) Q :=
  Hoare.ret (L := rg K V C) h

theorem panic {r : PanicReason} (h : ∀ S, S.Inv C → P S → A r S) : Tri C t A Gd P (.panic r) Q :=
  Hoare.panic (L := rg K V C) h

theorem ite {c : Prop} [Decidable c] {p q : Prog K V α} (h1 : c → Tri C t A Gd P p Q)
    (h2 : ¬ c → Tri C t A Gd P q Q) : Tri C t A Gd P (if c then p else q) Q := by
  split
  · exact h1 ‹_›
  · exact h2 ‹_›

theorem loop {σ : Type} {body : σ → Prog K V (σ ⊕ β)} (I : σ → GSt K V → Prop) {s : σ} {Q : β → GSt K V → Prop}
    (h : ∀ s, Tri C t A Gd (I s) (body s) (Sum.elim I Q)) : Tri C t A Gd (I s) (Prog.loop s body) Q :=
  Hoare.loop (L := rg K V C) I h

theorem conseq {p : Prog K V α} (h : Tri C t A Gd P p Q) (hP : ∀ S, S.Inv C → P' S → P S)
    (hQ : ∀ x S, S.Inv C → Q x S → Q' x S) : Tri C t A Gd P' p Q' :=
  Hoare.conseq (L := rg K V C) h hP hQ

theorem pre {p : Prog K V α} (h : Tri C t A Gd P p Q) (hP : ∀ S, S.Inv C → P' S → P S) : Tri C t A Gd P' p Q :=
  h.conseq hP fun _ _ _ h => h

theorem post {p : Prog K V α} (h : Tri C t A Gd P p Q) (hQ : ∀ x S, S.Inv C → Q x S → Q' x S) :
    Tri C t A Gd P p Q' :=
  h.conseq (fun _ _ h => h) hQ

/-- Framing an inert assertion around helping code. -/
theorem frame {p : Prog K V α} (F : GSt K V → Prop) [hF : Inert C t F] (h : Tri C t A (Mt t) P p Q) :
    Tri C t A (Mt t) (fun S => P S ∧ F S) p (fun x S => Q x S ∧ F S) :=
  Hoare.frame (L := rg K V C) (hst := Inert.stable) h
    fun S S' h1 h2 h3 h4 => hF.inert S S' h1 h2 h3.1 h3.2 h4

/-- Framing an inert assertion; it also holds if the program panics. -/
theorem frameP {p : Prog K V α} (F : GSt K V → Prop) [hF : Inert C t F] (h : Tri C t A (Mt t) P p Q) :
    Tri C t (fun r S => A r S ∧ F S) (Mt t) (fun S => P S ∧ F S) p (fun x S => Q x S ∧ F S) :=
  Hoare.frameP (L := rg K V C) (hst := Inert.stable) h
    fun S S' h1 h2 h3 h4 => hF.inert S S' h1 h2 h3.1 h3.2 h4

theorem panics {A' : PanicReason → GSt K V → Prop} {p : Prog K V α} (h : Tri C t A Gd P p Q)
    (hA : ∀ r S, S.Inv C → A r S → A' r S) : Tri C t A' Gd P p Q := Hoare.panics (L := rg K V C) h hA

/-- Framing a kept assertion. -/
theorem frameQ {p : Prog K V α} (F : GSt K V → Prop) [hF : Kept C t F] (h : Tri C t A (Mq t) P p Q) :
    Tri C t A (Mq t) (fun S => P S ∧ F S) p (fun x S => Q x S ∧ F S) :=
  Hoare.frame (L := rg K V C) (hst := Kept.stable) h
    fun S S' h1 h2 h3 h4 => hF.kept S S' h1 h2 h3.1 h3.2 h4

theorem mt {p : Prog K V α} (h : Tri C t A (Mq t) P p Q) : Tri C t A (Mt t) P p Q :=
  Hoare.guar (L := rg K V C) h fun _ _ h => h.mt

theorem ex {ι : Type} {P : ι → GSt K V → Prop} {p : Prog K V α} (h : ∀ i, Tri C t A Gd (P i) p Q) :
    Tri C t A Gd (fun S => ∃ i, P i S) p Q := Hoare.exists (L := rg K V C) h

theorem extract {φ : Prop} {p : Prog K V α} (hφ : ∀ S, S.Inv C → P S → φ) (h : φ → Tri C t A Gd P p Q) :
    Tri C t A Gd P p Q := Hoare.extract (L := rg K V C) hφ h

theorem false {p : Prog K V α} (h : ∀ S, S.Inv C → ¬ P S) : Tri C t A Gd P p Q :=
  Hoare.false (L := rg K V C) h

theorem or {p : Prog K V α} (h : Tri C t A Gd P p Q) (h' : Tri C t A Gd P' p Q) :
    Tri C t A Gd (fun S => P S ∨ P' S) p Q := Hoare.or (L := rg K V C) h h'

theorem guar {Gd' : GSt K V → GSt K V → Prop} {p : Prog K V α} (h : Tri C t A Gd P p Q)
    (hg : ∀ S S', Gd S S' → Gd' S S') : Tri C t A Gd' P p Q := Hoare.guar (L := rg K V C) h hg

end Tri

end Papaya
