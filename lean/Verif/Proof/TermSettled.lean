import Verif.Proof.TermOps

/-! # Termination of operations on a table that is not being resized (both modes) -/

set_option linter.unusedSectionVars false
set_option linter.unusedVariables false

namespace Papaya

variable {K V : Type} [DecidableEq K] {C : Cfg K} {t : Tid} {sp : Bool} {k : K}

open GSt

/-- `T` is the root, and the last table. -/
structure Zs (T : Table) (σ : St K V) : Prop where
  tok : TOk T σ
  root : σ.root = some T.id
  n : σ.nTabs = T.id + 1

theorem Zs.keep {T : Table} {σ σ' : St K V} (h : Zs T σ) (h1 : σ'.nTabs = σ.nTabs) (h2 : σ'.cap = σ.cap) (h3 : σ'.root = σ.root) :
    Zs T σ' := by
  refine ⟨⟨by rw [h1]; exact h.tok.1, ?_⟩, by rw [h3]; exact h.root, by rw [h1]; exact h.n⟩
  have := h.tok.2
  unfold St.handle at this ⊢
  rw [h2]
  exact this

theorem Zs.ncopy {T : Table} {σ : St K V} (h : Zs T σ) (hg : GoodSt C σ) (i : Nat) : (σ.slot T.id i).copying = false := by
  obtain ⟨S, rfl, g⟩ := hg
  cases hc : (S.slot T.id i).copying with
  | false => rfl
  | true =>
    have := (g.p.p5 T.id i hc).2
    have := h.n
    omega

theorem Zs.next {T : Table} {σ : St K V} (h : Zs T σ) (hg : GoodSt C σ) : σ.next T.id = none := by
  rw [hg.next h.tok.1, if_neg]
  have := h.n
  omega

/-- Step `n` of the probe sequence of `k` in table `T`: the slot is free, or has the key `k`. -/
def RoomAt (C : Cfg K) (k : K) (T : Table) (n : Nat) (σ : St K V) : Prop :=
  n ≤ T.limit ∧ (σ.slot T.id (Probe.after (C.h1 k) T.mask n).i = Slot.null ∨
    ∃ e, (σ.slot T.id (Probe.after (C.h1 k) T.mask n).i).ptr = some e ∧ e.key = k)

theorem RoomAt.keep {T : Table} {n : Nat} {σ σ' : St K V} (h : RoomAt C k T n σ) (h1 : σ'.slot = σ.slot) : RoomAt C k T n σ' := by
  unfold RoomAt
  rw [h1]
  exact h

/-- Settled, and (optionally) there is room. -/
structure Zr (C : Cfg K) (k : K) (T : Table) (rm : Option Nat) (σ : St K V) : Prop where
  z : Zs T σ
  room : ∀ n, rm = some n → RoomAt C k T n σ

/-! ## Retiring -/

theorem tt_retireZ {T : Table} {e : Entry K V} {s : Slot K V} : Tt C t sp (Zs T) (deferRetire C e s T) (fun _ => Zs T) := by
  have hret : ∀ P : St K V → Prop, (∀ σ, P σ → Zs T σ) → Tt C t sp P (A.retire e) (fun _ σ => Zs T σ) := by
    intro P hP
    refine Tt.lastA ?_
    rintro σ r σ' hg h1 hg' he
    have he : σ' = _ := he.exec
    subst he
    exact (hP σ h1).keep rfl rfl rfl
  unfold deferRetire
  cases hm : C.mode with
  | blocking => exact hret _ fun σ h => h
  | incremental chunk =>
    simp only
    refine Tt.ite (fun _ => hret _ fun σ h => h) fun _ => ?_
    refine tt_root (fun R => ?_) Tt.panic
    simp only
    refine Tt.extract (φ := R.id = T.id) (fun σ _ h => ?_) fun hR => ?_
    · have := h.1.root
      rw [h.2.2] at this
      exact Option.some.inj this
    refine Tt.bind (fun b σ => Zs T σ ∧ b = true) ?_ fun found => ?_
    · refine Tt.loop1 ?_
      simp only
      exact Tt.sameTable (fun _ => Tt.ret fun σ _ h => ⟨h.1, rfl⟩) fun h => absurd hR.symm h
    · refine Tt.extract (φ := found = true) (fun σ _ h => h.2) ?_
      rintro rfl
      rw [if_pos rfl]
      exact hret _ fun σ h => h.1

/-! ## Deleting all entries -/

theorem tt_deleteLoop {f : Closure (K × V) Bool} {T : Table} {i : Nat} {st : f.Tr} {s : Slot K V} :
    Tt C t sp (fun σ => Zs T σ ∧ σ.slot T.id i = s) (deleteLoop C f T i st s) (fun r σ => Zs T σ ∧ r.2 = false) := by
  unfold deleteLoop
  refine Tt.loop1 ?_
  cases hs : s.ptr with
  | none => simp only [hs]; exact Tt.ret fun σ _ h => ⟨h.1, rfl⟩
  | some e =>
    simp only [hs]
    refine Tt.extract (φ := s.copying = false) (fun σ hg h => h.2 ▸ h.1.ncopy hg i) fun hc => ?_
    rw [hc, if_neg (by simp)]
    refine Tt.read (fun _ => ()) (fun _ => rfl) fun _ => ?_
    refine Tt.bind _ tt_invoke fun x => ?_
    obtain ⟨st, keep⟩ := x
    refine Tt.ite (fun _ => Tt.ret fun σ _ h => ⟨h.1.1, rfl⟩) fun _ => ?_
    refine Tt.stepA (fun r σ => Zs T σ ∧ r = none) ?_ fun r => ?_
    · rintro σ r σ' hg h hg' he
      rcases he.exec with ⟨g1, rfl, rfl⟩ | ⟨g1, rfl, rfl⟩
      · exact ⟨h.1.1.keep rfl rfl rfl, rfl⟩
      · exact absurd h.1.2 (g1.resolve_right (by simp))
    · cases r with
      | some s => exact Tt.absurd' fun σ _ h => by cases h.2
      | none =>
        simp only
        refine Tt.stepA (fun _ => Zs T) ?_ fun _ => ?_
        · rintro σ r σ' hg h hg' he
          have he : σ' = _ := he.exec
          subst he
          exact h.1.keep rfl rfl rfl
        refine Tt.stepA (fun _ => Zs T) ?_ fun _ => ?_
        · rintro σ r σ' hg h hg' he
          have he : σ' = _ := he.exec
          subst he
          exact h.keep rfl rfl rfl
        exact Tt.bind _ tt_retireZ fun _ => Tt.ret fun σ _ h => ⟨h, rfl⟩

theorem tt_clearPass {T : Table} : Tt C t sp (Zs T) (clearPass (V := V) C T) (fun r σ => Zs T σ ∧ r = false) := by
  unfold clearPass
  refine (Tt.loopN (fun (x : Nat × Bool) σ => Zs T σ ∧ x.2 = false) (fun x => T.len - x.1) ?_).weaken fun σ _ h => ⟨h, rfl⟩
  rintro ⟨i, c⟩
  refine Tt.ite (fun hi => ?_) fun _ => Tt.ret fun σ _ h => h
  refine Tt.read (fun σ => σ.slot T.id i) (fun _ => rfl) fun s => ?_
  refine Tt.extract (φ := c = false) (fun σ _ h => h.1.2) ?_
  rintro rfl
  refine Tt.bind _ (tt_deleteLoop.weaken fun σ _ h => ⟨h.1.1, h.2.symm⟩) fun x => ?_
  obtain ⟨st, b⟩ := x
  refine Tt.ret fun σ _ h => ⟨⟨h.1, h.2⟩, ?_⟩
  show T.len - (i + 1) < T.len - i
  omega

theorem tt_retainPass {f : Closure (K × V) Bool} {st : f.Tr} {T : Table} :
    Tt C t sp (Zs T) (retainPass C f st T) (fun r σ => Zs T σ ∧ r.2 = false) := by
  unfold retainPass
  refine (Tt.loopN (s := (0, st, false)) (fun (x : Nat × f.Tr × Bool) σ => Zs T σ ∧ x.2.2 = false) (fun x => T.len - x.1) ?_).weaken
    fun σ _ h => ⟨h, rfl⟩
  rintro ⟨i, st, c⟩
  refine Tt.ite (fun hi => ?_) fun _ => Tt.ret fun σ _ h => h
  have hdec : T.len - (i + 1) < T.len - i := by omega
  refine Tt.read (fun σ => σ.md T.id i) (fun _ => rfl) fun m => ?_
  refine Tt.ite (fun _ => Tt.ret fun σ _ h => ⟨h.1, hdec⟩) fun _ => ?_
  refine Tt.read (fun σ => σ.slot T.id i) (fun _ => rfl) fun s => ?_
  refine Tt.extract (φ := c = false) (fun σ _ h => h.1.1.2) ?_
  rintro rfl
  refine Tt.bind _ (tt_deleteLoop.weaken fun σ _ h => ⟨h.1.1.1, h.2.symm⟩) fun x => ?_
  obtain ⟨st, b⟩ := x
  exact Tt.ret fun σ _ h => ⟨⟨h.1, h.2⟩, hdec⟩

theorem tt_linearizeZ {T : Table} : Tt C t sp (Zs T) (linearize (V := V) C T) (fun r σ => Zs T σ ∧ r = T) := by
  unfold linearize
  refine Tt.ite (fun _ => ?_) fun _ => Tt.ret fun σ _ h => ⟨h, rfl⟩
  refine Tt.loop1 ?_
  refine Tt.read (fun σ => (σ.next T.id).map σ.handle) (fun _ => rfl) fun r => ?_
  refine Tt.extract (φ := r = none) (fun σ hg h => ?_) ?_
  · rw [h.2, h.1.next hg]; rfl
  · rintro rfl
    exact Tt.ret fun σ _ h => ⟨h.1, rfl⟩

/-- The root, if any, is the last table. -/
def Settled (σ : St K V) : Prop := ∀ r, σ.root = some r → σ.next r = none

theorem Settled.zs {T : Table} {σ : St K V} (hg : GoodSt C σ) (h : Settled σ) (hT : TOk T σ) (hr : σ.root = some T.id) : Zs T σ := by
  refine ⟨hT, hr, ?_⟩
  have h1 := hg.next hT.1
  rw [h _ hr] at h1
  have := hT.1
  split at h1
  · cases h1
  · omega

theorem tt_rootZ {α : Type} {f : Option Table → Prog K V α} {Q : α → St K V → Prop}
    (h1 : ∀ T, Tt C t sp (Zs T) (f (some T)) Q) (h2 : Tt C t sp (fun σ => σ.root = none) (f none) Q) :
    Tt C t sp Settled (A.loadRoot >>= f) Q :=
  tt_root (fun T => (h1 T).weaken fun σ hg h => h.1.zs hg h.2.1 h.2.2) (h2.weaken fun σ _ h => h.2)

theorem tt_clearZ : Tt C t sp Settled (clear (V := V) C) (fun _ _ => True) := by
  unfold clear
  refine tt_rootZ (fun T => ?_) (Tt.ret fun _ _ _ => trivial)
  refine Tt.loop1 (Tt.bind _ tt_linearizeZ fun T' => ?_)
  refine Tt.extract (φ := T' = T) (fun _ _ h => h.2) ?_
  rintro rfl
  refine Tt.bind _ (tt_clearPass.weaken fun σ _ h => h.1) fun b => ?_
  refine Tt.extract (φ := b = false) (fun _ _ h => h.2) ?_
  rintro rfl
  exact Tt.ret fun _ _ _ => trivial

theorem tt_retainZ {f : Closure (K × V) Bool} : Tt C t sp Settled (retain C f) (fun _ _ => True) := by
  unfold retain
  refine tt_rootZ (fun T => ?_) (Tt.ret fun _ _ _ => trivial)
  refine Tt.loop1 (Tt.bind _ tt_linearizeZ fun T' => ?_)
  refine Tt.extract (φ := T' = T) (fun _ _ h => h.2) ?_
  rintro rfl
  refine Tt.bind _ (tt_retainPass.weaken fun σ _ h => h.1) fun x => ?_
  obtain ⟨st, b⟩ := x
  refine Tt.extract (φ := b = false) (fun _ _ h => h.2) ?_
  rintro rfl
  exact Tt.ret fun _ _ _ => trivial

theorem tt_iterZ {lim : Option Nat} : Tt C t sp Settled (iterUpTo (V := V) C lim) (fun _ _ => True) := by
  unfold iterUpTo
  refine tt_rootZ (fun T => ?_) (Tt.ret fun _ _ _ => trivial)
  refine Tt.bind (fun _ _ => True) (tt_linearizeZ.post fun _ _ _ _ => trivial) fun T' => ?_
  refine Tt.loopN (s := (0, [])) (fun (_ : Nat × List (Entry K V)) _ => True) (fun x => T'.len - x.1) ?_
  rintro ⟨i, acc⟩
  refine Tt.ite (fun _ => Tt.ret fun σ _ h => h) fun _ => ?_
  refine Tt.ite (fun hi => ?_) fun _ => Tt.ret fun σ _ h => h
  have hdec : T'.len - (i + 1) < T'.len - i := by omega
  refine Tt.read (fun σ => σ.md T'.id i) (fun _ => rfl) fun m => ?_
  refine Tt.ite (fun _ => Tt.ret fun σ _ h => ⟨trivial, hdec⟩) fun _ => ?_
  refine Tt.read (fun σ => σ.slot T'.id i) (fun _ => rfl) fun s => ?_
  cases s.ptr with
  | none => exact Tt.ret fun σ _ h => ⟨trivial, hdec⟩
  | some e =>
    simp only
    refine Tt.read (fun _ => ()) (fun _ => rfl) fun _ => ?_
    exact Tt.ret fun σ _ h => ⟨trivial, hdec⟩

/-! ## Operations on one key -/

variable {rm : Option Nat}

theorem Zr.md {T : Table} {σ : St K V} (h : Zr C k T rm σ) {i m : Nat} : Zr C k T rm (σ.setMd T.id i m) :=
  ⟨h.z.keep rfl rfl rfl, fun n hn => (h.room n hn).keep rfl⟩

/-- Probing the slot of step `probe.len`; if there is room, it has not been passed. -/
def Za (C : Cfg K) (k : K) (T : Table) (rm : Option Nat) (probe : Probe) (σ : St K V) : Prop :=
  Zr C k T rm σ ∧ probe = Probe.after (C.h1 k) T.mask probe.len ∧ ∀ n, rm = some n → probe.len ≤ n

theorem Za.start {T : Table} {σ : St K V} (h : Zr C k T rm σ) : Za C k T rm (Probe.start (C.h1 k) T.mask) σ :=
  ⟨h, rfl, fun n _ => Nat.zero_le _⟩

/-- The slot neither is free nor has key `k`. -/
def Passed (k : K) (T : Table) (i : Nat) (σ : St K V) : Prop :=
  σ.slot T.id i ≠ Slot.null ∧ ∀ e, (σ.slot T.id i).ptr = some e → e.key ≠ k

theorem Za.next {T : Table} {σ : St K V} {probe : Probe} (h : Za C k T rm probe σ) (hp : Passed k T probe.i σ) :
    Za C k T rm (probe.next T.mask) σ := by
  refine ⟨h.1, ?_, fun n hn => ?_⟩
  · show probe.next T.mask = (Probe.after (C.h1 k) T.mask probe.len).next T.mask
    rw [← h.2.1]
  · have h1 := h.2.2 n hn
    show probe.len + 1 ≤ n
    by_contra hc
    have hl : probe.len = n := by omega
    obtain ⟨_, h2⟩ := h.1.room n hn
    rw [← hl, ← h.2.1] at h2
    rcases h2 with h2 | ⟨e, h2, h3⟩
    · exact hp.1 h2
    · exact hp.2 e h2 h3

theorem Passed.of_md {T : Table} {σ : St K V} {i : Nat} (hg : GoodSt C σ) (h1 : σ.md T.id i ≠ EMPTY) (h2 : σ.md T.id i ≠ C.h2 k) :
    Passed k T i σ := by
  obtain ⟨S, rfl, g⟩ := hg
  refine ⟨fun h => h1 (g.p.p1 _ _ h), fun e he hk => ?_⟩
  rcases g.p.p2 _ _ e he with h | h
  · exact h1 h
  · exact h2 (hk ▸ h)

theorem Passed.of_none {T : Table} {σ : St K V} {i : Nat} (hg : GoodSt C σ) (h1 : σ.md T.id i ≠ EMPTY) (h2 : (σ.slot T.id i).ptr = none) :
    Passed k T i σ := by
  obtain ⟨S, rfl, g⟩ := hg
  refine ⟨fun h => h1 (g.p.p1 _ _ h), fun e he => ?_⟩
  rw [h2] at he
  cases he

theorem Passed.of_key {T : Table} {σ : St K V} {i : Nat} {e : Entry K V} (h1 : (σ.slot T.id i).ptr = some e) (h2 : e.key ≠ k) :
    Passed k T i σ := by
  refine ⟨fun h => ?_, fun e' he => ?_⟩
  · rw [h] at h1; cases h1
  · rw [h1] at he; cases he; exact h2

theorem Passed.md {T : Table} {σ : St K V} {i j m : Nat} (h : Passed k T i σ) : Passed k T i (σ.setMd T.id j m) := h

theorem tt_insertAtZ {T : Table} {probe : Probe} {x : Nat} {v : V} :
    Tt C t sp (Za C k T rm probe) (insertAt C probe.i x k v T) (fun r σ => match r with
      | .inserted _ => True
      | .found (.value e s) => Za C k T rm probe σ ∧ σ.slot T.id probe.i = s ∧ s.ptr = some e
      | .found (.copied e s) => False
      | .found .null => Za C k T rm probe σ ∧ Passed k T probe.i σ) := by
  unfold insertAt
  refine Tt.stepA (fun r σ => match r with
    | .inl _ => True
    | .inr s => Za C k T rm probe σ ∧ σ.slot T.id probe.i = s ∧ s ≠ Slot.null) ?_ fun r => ?_
  · rintro σ r σ' hg h hg' he
    rcases he.exec with ⟨g1, rfl, rfl⟩ | ⟨g1, rfl, rfl⟩
    · trivial
    · exact ⟨h, rfl, g1.resolve_right (by simp)⟩
  · cases r with
    | inl e =>
      exact Tt.stepA (fun _ _ => True) (fun _ _ _ _ _ _ _ => trivial) fun _ => Tt.ret fun _ _ _ => trivial
    | inr s =>
      simp only
      cases hs : s.ptr with
      | some e =>
        simp only
        refine Tt.read (fun _ => ()) (fun _ => rfl) fun _ => ?_
        refine Tt.read (fun σ => σ.md T.id probe.i) (fun _ => rfl) fun m' => ?_
        refine Tt.ite (fun _ => ?_) fun _ => Tt.ret fun σ _ h => ⟨h.1.1.1, h.1.1.2.1, by first | rfl | exact hs⟩
        refine Tt.stepA (fun _ σ => Za C k T rm probe σ ∧ σ.slot T.id probe.i = s) ?_ fun _ => Tt.ret fun σ _ h => ⟨h.1, h.2, by first | rfl | exact hs⟩
        rintro σ r σ' hg ⟨⟨h1, _⟩, _⟩ hg' he
        have he : σ' = _ := he.exec
        subst he
        exact ⟨⟨h1.1.1.md, h1.1.2⟩, h1.2.1⟩
      | none =>
        simp only
        have hps : ∀ σ : St K V, σ.slot T.id probe.i = s → s ≠ Slot.null → Passed k T probe.i σ := by
          rintro σ rfl hn
          exact ⟨hn, fun e he => by rw [hs] at he; cases he⟩
        refine Tt.read (fun σ => σ.md T.id probe.i) (fun _ => rfl) fun m' => ?_
        refine Tt.ite (fun _ => ?_) fun _ => Tt.ret fun σ _ h => ⟨h.1.1, hps σ h.1.2.1 h.1.2.2⟩
        refine Tt.stepA (fun _ σ => Za C k T rm probe σ ∧ Passed k T probe.i σ) ?_ fun _ => Tt.ret fun σ _ h => h
        rintro σ r σ' hg ⟨h1, _⟩ hg' he
        have he : σ' = _ := he.exec
        subst he
        exact ⟨⟨h1.1.1.md, h1.1.2⟩, (hps σ h1.2.1 h1.2.2).md⟩

/-- The slot has value `s`, with key `k`. -/
def Upz (T : Table) (i : Nat) (k : K) (e : Entry K V) (s : Slot K V) (σ : St K V) : Prop :=
  Zs T σ ∧ σ.slot T.id i = s ∧ s.ptr = some e ∧ e.key = k

theorem tt_updateAtNewZ {T : Table} {i : Nat} {e : Entry K V} {s : Slot K V} {v : V} :
    Tt C t false (Upz T i k e s) (updateAtNew C i e s k v T) (fun r _ => ∃ new, r = .replaced (some new)) := by
  unfold updateAtNew
  refine Tt.stepA (fun r σ => Zs T σ ∧ ∃ new, r = .inl new) ?_ fun r => ?_
  · rintro σ r σ' hg h hg' he
    rcases he.exec with ⟨g1, rfl, rfl⟩ | ⟨g1, rfl, rfl⟩
    · exact ⟨h.1.keep rfl rfl rfl, _, rfl⟩
    · exact absurd h.2.1 (he.nsp rfl ⟨_, rfl⟩)
  · cases r with
    | inr s => exact Tt.absurd' fun σ _ h => by obtain ⟨_, _, h⟩ := h; cases h
    | inl new => exact Tt.bind _ (tt_retireZ.weaken fun σ _ h => h.1) fun _ => Tt.ret fun σ _ h => ⟨new, rfl⟩

theorem tt_updateAtTombZ {T : Table} {i : Nat} {e : Entry K V} {s : Slot K V} :
    Tt C t false (Upz T i k e s) (updateAtTomb C i e s T) (fun r _ => r = .replaced none) := by
  unfold updateAtTomb
  refine Tt.stepA (fun r σ => Zs T σ ∧ r = none) ?_ fun r => ?_
  · rintro σ r σ' hg h hg' he
    rcases he.exec with ⟨g1, rfl, rfl⟩ | ⟨g1, rfl, rfl⟩
    · exact ⟨h.1.keep rfl rfl rfl, rfl⟩
    · exact absurd h.2.1 (he.nsp rfl (by simp))
  · cases r with
    | some s => exact Tt.absurd' fun σ _ h => by cases h.2
    | none => exact Tt.bind _ (tt_retireZ.weaken fun σ _ h => h.1) fun _ => Tt.ret fun σ _ h => rfl

theorem tt_insertSlowZ {T : Table} {i : Nat} {e : Entry K V} {s : Slot K V} {v : V} :
    Tt C t false (Upz T i k e s) (insertSlow C i e s k v T) (fun r _ => ∃ x, r = .inl x) := by
  unfold insertSlow
  refine Tt.loop1 (Tt.bind _ tt_updateAtNewZ fun r => ?_)
  refine Tt.extract (fun _ _ h => h) ?_
  rintro ⟨new, rfl⟩
  exact Tt.ret fun σ _ h => ⟨_, rfl⟩

theorem tt_insertFoundZ {T : Table} {probe : Probe} {e : Entry K V} {s : Slot K V} {v : V} {rep : Bool} :
    Tt C t false (fun σ => Za C k T rm probe σ ∧ σ.slot T.id probe.i = s ∧ s.ptr = some e) (insertFound C k v rep T probe e s)
      (fun r σ => match r with
        | .inl p => p = probe.next T.mask ∧ Za C k T rm p σ
        | .inr r => ∃ x, r = .done x) := by
  unfold insertFound
  refine Tt.read (fun _ => ()) (fun _ => rfl) fun _ => ?_
  refine Tt.ite (fun hk => ?_) fun hk => Tt.ret ?_
  rotate_left
  · rintro σ hg ⟨⟨h1, rfl, h2⟩, _⟩
    exact ⟨rfl, h1.next (.of_key h2 hk)⟩
  refine Tt.extract (φ := s.copying = false) (fun σ hg h => h.1.2.1 ▸ h.1.1.1.z.ncopy hg _) fun hc => ?_
  rw [hc, if_neg (by simp)]
  refine Tt.ite (fun _ => Tt.ret fun σ _ h => ⟨_, rfl⟩) fun _ => ?_
  refine Tt.bind _ (tt_insertSlowZ.weaken fun σ _ h => ?_) fun r => ?_
  · exact ⟨h.1.1.1.z, h.1.2.1, h.1.2.2, hk⟩
  · refine Tt.extract (fun _ _ h => h) ?_
    rintro ⟨⟨old, new⟩, rfl⟩
    exact Tt.ret fun σ _ h => ⟨_, rfl⟩

/-- How probing the table ends. -/
def Wz {R : Type} (C : Cfg K) (k : K) (T : Table) (rm : Option Nat) (r : WOut R) (σ : St K V) : Prop :=
  match r with
  | .done _ => True
  | .retry c => c = none ∧ Zr C k T rm σ ∧ rm = none

theorem Za.limit {T : Table} {σ : St K V} {probe : Probe} (h : Za C k T rm probe σ) (hl : ¬ probe.len ≤ T.limit) : rm = none := by
  cases hr : rm with
  | none => rfl
  | some n =>
    have := h.2.2 n hr
    have := (h.1.room n hr).1
    omega

theorem tt_insertProbeZ {T : Table} {v : V} {rep : Bool} :
    Tt C t false (Zr C k T rm) (insertProbe C k v rep T) (Wz C k T rm) := by
  unfold insertProbe
  refine (Tt.loopN (fun (probe : Probe) σ => Za C k T rm probe σ) (fun probe => T.limit + 1 - probe.len) ?_).weaken fun σ _ h => Za.start h
  intro probe
  refine Tt.ite (fun hlim => ?_) fun hlim => Tt.ret fun σ hg h => ⟨rfl, h.1, h.limit hlim⟩
  have hfound : ∀ e s, Tt C t false (fun σ => Za C k T rm probe σ ∧ σ.slot T.id probe.i = s ∧ s.ptr = some e) (insertFound C k v rep T probe e s)
      (fun x σ => match x with
      | .inl s' => Za C k T rm s' σ ∧ T.limit + 1 - s'.len < T.limit + 1 - probe.len
      | .inr b => Wz C k T rm b σ) := by
    intro e s
    refine tt_insertFoundZ.post fun r σ _ h => ?_
    cases r with
    | inl p =>
      obtain ⟨rfl, h⟩ := h
      exact ⟨h, probe_dec hlim⟩
    | inr r => obtain ⟨x, rfl⟩ := h; trivial
  have hnext : ∀ P : St K V → Prop, (∀ σ, GoodSt C σ → P σ → Za C k T rm probe σ ∧ Passed k T probe.i σ) → Tt C t false P (pure (Sum.inl (probe.next T.mask)))
      (fun (x : Probe ⊕ WOut (InsRes K V)) σ => match x with
      | .inl s' => Za C k T rm s' σ ∧ T.limit + 1 - s'.len < T.limit + 1 - probe.len
      | .inr b => Wz C k T rm b σ) := by
    intro P hP
    exact Tt.ret fun σ hg h => ⟨(hP σ hg h).1.next (hP σ hg h).2, probe_dec hlim⟩
  refine Tt.read (fun σ => σ.md T.id probe.i) (fun _ => rfl) fun m' => ?_
  refine Tt.ite (fun hm => ?_) fun hm => ?_
  · refine Tt.bind _ (tt_insertAtZ.weaken fun σ _ h => h.1) fun r => ?_
    rcases r with e | ⟨_ | ⟨e, s⟩ | ⟨e, s⟩⟩
    · exact Tt.ret fun σ _ h => trivial
    · exact (hnext _ fun σ _ h => h).post fun x σ _ h => by cases x <;> exact h
    · exact Tt.absurd' fun σ _ h => h
    · exact (hfound e s).post fun x σ _ h => by cases x <;> exact h
  · refine Tt.ite (fun hm2 => ?_) fun hm2 => ?_
    rotate_left
    · refine Tt.post (hnext _ ?_) fun x σ _ h => by cases x <;> exact h
      exact fun σ hg h => ⟨h.1, .of_md hg (h.2 ▸ hm) (h.2 ▸ hm2)⟩
    refine Tt.read (fun σ => σ.slot T.id probe.i) (fun _ => rfl) fun s => ?_
    cases hs : s.ptr with
    | none =>
      refine Tt.post (hnext _ ?_) fun x σ _ h => by cases x <;> exact h
      exact fun σ hg h => ⟨h.1.1, .of_none hg (h.1.2 ▸ hm) (h.2 ▸ hs)⟩
    | some e =>
      refine Tt.post ((hfound e s).weaken ?_) fun x σ _ h => by cases x <;> exact h
      exact fun σ _ h => ⟨h.1.1, h.2.symm, by first | rfl | exact hs⟩

/-- The key has room in the root. -/
def Roomy (C : Cfg K) (k : K) (σ : St K V) : Prop :=
  Settled σ ∧ ∀ r, σ.root = some r → ∃ n, RoomAt C k (σ.handle r) n σ

theorem Roomy.zr {T : Table} {σ : St K V} (hg : GoodSt C σ) (h : Roomy C k σ) (hT : TOk T σ) (hr : σ.root = some T.id) :
    ∃ n, Zr C k T (some n) σ := by
  obtain ⟨n, hn⟩ := h.2 _ hr
  rw [← hT.2] at hn
  exact ⟨n, h.1.zs hg hT hr, fun m hm => by cases hm; exact hn⟩

/-- The first table has room. -/
theorem tt_initTableZ {cp : Option Nat} : Tt C t sp (fun σ : St K V => σ.root = none) (initTable C cp) (fun T σ => ∃ n, Zr C k T (some n) σ) := by
  unfold initTable
  refine Tt.ite (fun _ => Tt.ite (fun _ => ?_) fun _ => Tt.panic) fun _ => Tt.panic
  refine Tt.lastA ?_
  rintro σ r σ' hg h hg' he
  have he := he.exec
  simp only [Exec, h] at he
  obtain ⟨h1, h2⟩ := he
  have hn := hg.noRoot h
  subst h1 h2
  refine ⟨0, ⟨⟨Nat.lt_succ_self _, rfl⟩, rfl, rfl⟩, fun n hn => ?_⟩
  cases hn
  exact ⟨Nat.zero_le _, .inl (if_pos rfl)⟩

theorem tt_insertInnerZ {v : V} {rep : Bool} : Tt C t false (Roomy C k) (insertInner C k v rep) (fun _ _ => True) := by
  unfold insertInner
  refine Tt.bind (fun T σ => ∃ n, Zr C k T (some n) σ) ?_ fun T => ?_
  · exact tt_root (fun T => Tt.ret fun σ hg h => h.1.zr hg h.2.1 h.2.2) (tt_initTableZ.weaken fun σ _ h => h.2)
  · refine Tt.loop1 (s := (T, true)) ?_
    intro σ hg h
    obtain ⟨n, h⟩ := h
    revert σ
    intro σ hg h
    refine Tt.bind _ (tt_insertProbeZ (rm := some n)) (fun r => ?_) σ hg h
    cases r with
    | done r => exact Tt.ret fun σ _ h => trivial
    | retry c => exact Tt.absurd' fun σ _ h => by cases h.2.2

theorem tt_insertZ {v : V} {rep : Bool} : Tt C t false (Roomy C k) (insert C k v rep) (fun _ _ => True) := by
  unfold insert
  refine Tt.bind _ tt_insertInnerZ fun r => ?_
  cases r with
  | inserted e => exact Tt.stepA (fun _ _ => True) (fun _ _ _ _ _ _ _ => trivial) fun _ => Tt.ret fun _ _ _ => trivial
  | replaced a b => exact Tt.ret fun _ _ _ => trivial
  | error a b => exact Tt.ret fun _ _ _ => trivial

/-! ## remove -/

theorem tt_removeLoopZ {f : Closure (K × V) Bool} {st : f.Tr} {T : Table} {i : Nat} {e : Entry K V}
    {s : Slot K V} : Tt C t false (Upz T i k e s) (removeLoop C f T i st e s) (fun r _ => ∃ st x, r = (st, .done x)) := by
  unfold removeLoop
  refine Tt.loop1 ?_
  refine Tt.read (fun _ => ()) (fun _ => rfl) fun _ => ?_
  refine Tt.bind _ tt_invoke fun x => ?_
  obtain ⟨st, b⟩ := x
  refine Tt.ite (fun _ => Tt.ret fun σ _ h => ⟨_, _, rfl⟩) fun _ => ?_
  refine Tt.bind _ (tt_updateAtTombZ.weaken fun σ _ h => h.1) fun r => ?_
  refine Tt.extract (fun _ _ h => h) ?_
  rintro rfl
  refine Tt.stepA (fun _ _ => True) (fun _ _ _ _ _ _ _ => trivial) fun _ => ?_
  refine Tt.stepA (fun _ _ => True) (fun _ _ _ _ _ _ _ => trivial) fun _ => Tt.ret fun σ _ h => ⟨_, _, rfl⟩

theorem tt_removeProbeZ {f : Closure (K × V) Bool} {st : f.Tr} {T : Table} :
    Tt C t false (Zs T) (removeProbe C k f st T) (fun r σ => Wz C k T none r.2 σ) := by
  unfold removeProbe
  refine Tt.loopN (fun (_ : Probe) => Zs T) (fun probe => T.limit + 1 - probe.len) fun probe => ?_
  refine Tt.ite (fun hlim => ?_) fun hlim => Tt.ret fun σ _ h => ⟨rfl, ⟨h, fun n hn => by cases hn⟩, rfl⟩
  refine Tt.read (fun σ => σ.md T.id probe.i) (fun _ => rfl) fun m' => ?_
  refine Tt.ite (fun _ => Tt.ret fun σ _ h => trivial) fun _ => ?_
  refine Tt.ite (fun _ => Tt.ret fun σ _ h => ⟨h.1, probe_dec hlim⟩) fun _ => ?_
  refine Tt.read (fun σ => σ.slot T.id probe.i) (fun _ => rfl) fun s => ?_
  cases hs : s.ptr with
  | none => exact Tt.ret fun σ _ h => ⟨h.1.1, probe_dec hlim⟩
  | some e =>
    simp only
    refine Tt.read (fun _ => ()) (fun _ => rfl) fun _ => ?_
    refine Tt.ite (fun _ => Tt.ret fun σ _ h => ⟨h.1.1.1, probe_dec hlim⟩) fun hk => ?_
    refine Tt.extract (φ := s.copying = false) (fun σ hg h => h.1.2 ▸ h.1.1.1.ncopy hg _) fun hc => ?_
    rw [hc, if_neg (by simp)]
    refine Tt.bind _ ((tt_removeLoopZ (k := k)).weaken fun σ _ h => ?_) fun r => ?_
    · exact ⟨h.1.1.1, h.1.2.symm, hs, by simpa using hk⟩
    · refine Tt.extract (fun _ _ h => h) ?_
      rintro ⟨st, x, rfl⟩
      exact Tt.ret fun σ _ h => trivial

theorem tt_prepareRetryZ (hb : C.inc = false) {T : Table} {help : Bool} {P : St K V → Prop} :
    Tt C t sp P (prepareRetry C none help T) (fun r σ => P σ ∧ r = none) := by
  unfold prepareRetry
  cases hm : C.mode with
  | blocking => exact Tt.ret fun σ _ h => ⟨h, rfl⟩
  | incremental c => simp [Cfg.inc, hm] at hb

theorem tt_removeIfZ (hb : C.inc = false) {f : Closure (K × V) Bool} : Tt C t false Settled (removeIf C k f) (fun _ _ => True) := by
  unfold removeIf
  refine tt_rootZ (fun T => ?_) (Tt.ret fun _ _ _ => trivial)
  refine Tt.loop1 (s := (T, true, f.start)) ?_
  refine Tt.bind _ tt_removeProbeZ fun r => ?_
  obtain ⟨st, r⟩ := r
  cases r with
  | done r => exact Tt.ret fun σ _ h => trivial
  | retry c =>
    refine Tt.extract (φ := c = none) (fun σ _ h => h.1) ?_
    rintro rfl
    refine Tt.bind _ (tt_prepareRetryZ hb) fun N => ?_
    refine Tt.extract (φ := N = none) (fun σ _ h => h.2) ?_
    rintro rfl
    exact Tt.ret fun σ _ h => trivial

theorem tt_removeZ (hb : C.inc = false) : Tt C t false Settled (remove (V := V) C k) (fun _ _ => True) := by
  unfold remove
  refine Tt.bind _ (tt_removeIfZ hb) fun r => ?_
  split
  · exact Tt.ret fun _ _ _ => trivial
  · exact Tt.ret fun _ _ _ => trivial
  · exact Tt.panic

/-! ## compute -/

section

variable {R : Type} {f : Closure (Option (K × V)) (Operation V R)}

/-- The closure never asks for an insertion where there is no entry. -/
def NoIns (f : Closure (Option (K × V)) (Operation V R)) : Prop := ∀ s s' v, f.call s none ≠ .ok (s', .insert v)

/-- No new entry will be inserted, or there is room for it. -/
def Ok (f : Closure (Option (K × V)) (Operation V R)) (rm : Option Nat) (c : CState K V R f) : Prop :=
  rm = none → NoIns f ∧ c.insert = none

theorem tt_nextNone {c : CState K V R f} (hc : Ok f rm c) {P : St K V → Prop} : Tt C t sp P (c.next none)
    (fun x σ => P σ ∧ (rm = none → Ok f rm x.1 ∧ ∀ v, x.2 ≠ .insert v)) := by
  unfold CState.next
  simp only
  split
  · rename_i v hv
    exact Tt.ret fun σ _ h => ⟨h, fun hr => by rw [(hc hr).2] at hv; cases hv⟩
  · rename_i hv
    unfold Closure.invoke
    cases hcall : f.call c.st.st none with
    | error r => exact Tt.panic
    | ok x =>
      obtain ⟨st, o⟩ := x
      simp only
      refine Tt.ret fun σ _ h => ⟨h, fun hr => ⟨fun _ => ⟨(hc hr).1, hv⟩, fun v ho => ?_⟩⟩
      have ho : o = .insert v := ho
      subst ho
      exact (hc hr).1 _ _ v hcall

theorem tt_computeLoopZ {T : Table} {probe : Probe} {c : CState K V R f} {e : Entry K V}
    {s : Slot K V} : Tt C t false (Upz T probe.i k e s) (computeLoop C k T probe c e s) (fun r _ => ∃ c x, r = .inr (c, .done x)) := by
  unfold computeLoop
  refine Tt.loop1 ?_
  refine Tt.bind _ tt_next fun x => ?_
  obtain ⟨c, op⟩ := x
  cases op with
  | abort a => exact Tt.ret fun σ _ h => ⟨_, _, rfl⟩
  | insert v =>
    refine Tt.bind _ tt_updateAtNewZ fun r => ?_
    refine Tt.extract (fun _ _ h => h) ?_
    rintro ⟨new, rfl⟩
    exact Tt.ret fun σ _ h => ⟨_, _, rfl⟩
  | remove =>
    refine Tt.bind _ tt_updateAtTombZ fun r => ?_
    refine Tt.extract (fun _ _ h => h) ?_
    rintro rfl
    refine Tt.stepA (fun _ _ => True) (fun _ _ _ _ _ _ _ => trivial) fun _ => ?_
    refine Tt.stepA (fun _ _ => True) (fun _ _ _ _ _ _ _ => trivial) fun _ => Tt.ret fun σ _ h => ⟨_, _, rfl⟩

theorem tt_computeFoundZ {T : Table} {probe : Probe} {c : CState K V R f} {e : Entry K V} {s : Slot K V} :
    Tt C t false (fun σ => Za C k T rm probe σ ∧ σ.slot T.id probe.i = s ∧ s.ptr = some e)
      (computeFound C k T probe c e s) (fun r σ => match r with
        | .inl p => p = (c, probe.next T.mask) ∧ Za C k T rm p.2 σ
        | .inr r => ∃ x, r.2 = .done x) := by
  unfold computeFound
  refine Tt.read (fun _ => ()) (fun _ => rfl) fun _ => ?_
  refine Tt.ite (fun hk => Tt.ret ?_) fun hk => ?_
  · rintro σ hg ⟨⟨h1, rfl, h2⟩, _⟩
    exact ⟨rfl, h1.next (.of_key h2 hk)⟩
  refine Tt.extract (φ := s.copying = false) (fun σ hg h => h.1.2.1 ▸ h.1.1.1.z.ncopy hg _) fun hc => ?_
  rw [hc, if_neg (by simp)]
  refine (tt_computeLoopZ.weaken fun σ _ h => ?_).post ?_
  · exact ⟨h.1.1.1.z, h.1.2.1, h.1.2.2, by simpa using hk⟩
  · rintro r σ _ ⟨c, x, rfl⟩
    exact ⟨x, rfl⟩

/-- Outcome of probing. -/
def Cz (C : Cfg K) (k : K) (T : Table) (rm : Option Nat) (r : CState K V R f × WOut (Compute K V R)) (σ : St K V) : Prop :=
  Wz C k T rm r.2 σ ∧ ((∀ x, r.2 ≠ .done x) → Ok f rm r.1)

theorem tt_computeProbeZ {T : Table} {c : CState K V R f} (hc : Ok f rm c) :
    Tt C t false (Zr C k T rm) (computeProbe C k T c) (Cz C k T rm) := by
  unfold computeProbe
  refine (Tt.loopN (s := (c, Probe.start (C.h1 k) T.mask)) (fun (x : CState K V R f × Probe) σ => Za C k T rm x.2 σ ∧ Ok f rm x.1)
    (fun x => T.limit + 1 - x.2.len) ?_).weaken fun σ _ h => ⟨Za.start h, hc⟩
  clear hc
  rintro ⟨c, probe⟩
  refine Tt.extract (φ := Ok f rm c) (fun σ _ h => h.2) fun hc => ?_
  refine Tt.ite (fun hlim => ?_) fun hlim => Tt.ret fun σ hg h => ⟨⟨rfl, h.1.1, h.1.limit hlim⟩, fun _ => hc⟩
  have hfound : ∀ c, Ok f rm c → ∀ e s, Tt C t false (fun σ => Za C k T rm probe σ ∧ σ.slot T.id probe.i = s ∧ s.ptr = some e) (computeFound C k T probe c e s)
      (fun (x : (CState K V R f × Probe) ⊕ _) σ => match x with
      | .inl s' => (Za C k T rm s'.2 σ ∧ Ok f rm s'.1) ∧ T.limit + 1 - s'.2.len < T.limit + 1 - probe.len
      | .inr b => Cz C k T rm b σ) := by
    intro c hc e s
    refine tt_computeFoundZ.post fun r σ _ h => ?_
    cases r with
    | inl p =>
      obtain ⟨rfl, h⟩ := h
      exact ⟨⟨h, hc⟩, probe_dec hlim⟩
    | inr r =>
      obtain ⟨x, h⟩ := h
      refine ⟨?_, fun h' => absurd h (h' x)⟩
      rw [h]
      trivial
  have hnext : ∀ c, Ok f rm c → ∀ P : St K V → Prop, (∀ σ, GoodSt C σ → P σ → Za C k T rm probe σ ∧ Passed k T probe.i σ) →
      Tt C t false P (pure (Sum.inl (c, probe.next T.mask)))
      (fun (x : (CState K V R f × Probe) ⊕ (CState K V R f × WOut (Compute K V R))) σ => match x with
      | .inl s' => (Za C k T rm s'.2 σ ∧ Ok f rm s'.1) ∧ T.limit + 1 - s'.2.len < T.limit + 1 - probe.len
      | .inr b => Cz C k T rm b σ) := by
    intro c hc P hP
    exact Tt.ret fun σ hg h => ⟨⟨(hP σ hg h).1.next (hP σ hg h).2, hc⟩, probe_dec hlim⟩
  have hdone : ∀ {c : CState K V R f} {x} {σ : St K V}, Cz C k T rm (c, WOut.done x) σ := fun {c x σ} => ⟨trivial, fun h => absurd rfl (h x)⟩
  refine Tt.read (fun σ => σ.md T.id probe.i) (fun _ => rfl) fun m' => ?_
  refine Tt.ite (fun hm => ?_) fun hm => ?_
  · refine Tt.bind _ (tt_nextNone hc) fun x => ?_
    obtain ⟨c, op⟩ := x
    cases op with
    | remove => exact Tt.panic
    | abort a => exact Tt.ret fun σ _ h => hdone
    | insert v =>
      refine Tt.extract (φ := rm ≠ none) (fun σ _ h hr => (h.2 hr).2 v rfl) fun hr => ?_
      have hok : ∀ c : CState K V R f, Ok f rm c := fun c h => absurd h hr
      refine Tt.bind _ (tt_insertAtZ.weaken fun σ _ h => h.1.1.1) fun r => ?_
      rcases r with e | ⟨_ | ⟨e, s⟩ | ⟨e, s⟩⟩
      · exact Tt.stepA (fun _ _ => True) (fun _ _ _ _ _ _ _ => trivial) fun _ => Tt.ret fun σ _ h => hdone
      · exact Tt.bind _ tt_restore fun c => (hnext c (hok c) _ fun σ _ h => h).post fun x σ _ h => by cases x <;> exact h
      · exact Tt.absurd' fun σ _ h => h
      · exact Tt.bind _ tt_restore fun c => (hfound c (hok c) e s).post fun x σ _ h => by cases x <;> exact h
  · refine Tt.ite (fun hm2 => ?_) fun hm2 => ?_
    rotate_left
    · refine Tt.post (hnext c hc _ ?_) fun x σ _ h => by cases x <;> exact h
      exact fun σ hg h => ⟨h.1.1, .of_md hg (h.2 ▸ hm) (h.2 ▸ hm2)⟩
    refine Tt.read (fun σ => σ.slot T.id probe.i) (fun _ => rfl) fun s => ?_
    cases hs : s.ptr with
    | none =>
      refine Tt.post (hnext c hc _ ?_) fun x σ _ h => by cases x <;> exact h
      exact fun σ hg h => ⟨h.1.1.1, .of_none hg (h.1.2 ▸ hm) (h.2 ▸ hs)⟩
    | some e =>
      refine Tt.post ((hfound c hc e s).weaken ?_) fun x σ _ h => by cases x <;> exact h
      exact fun σ _ h => ⟨h.1.1.1, h.2.symm, by first | rfl | exact hs⟩

/-- After the first table has been found or allocated. -/
theorem tt_computeMain (hb : C.inc = false) {T : Table} {c : CState K V R f} (hc : Ok f rm c) :
    Tt C t false (Zr C k T rm)
      (Prog.loop (T, false, c) fun (T, help, c) => do
        match ← computeProbe C k T c with
        | (c, .done r) => return Sum.inr ⟨c.st.calls, r⟩
        | (c, .retry copying) => do
          match ← prepareRetry C copying help T with
          | some next => return Sum.inl (next, false, c)
          | none => do
            let (c, op) ← c.next none
            match op with
            | .insert v => do
              let next ← prepareRetryInsert C none help T
              let c ← c.restore none (.insert v)
              return Sum.inl (next, false, c)
            | .abort a => return Sum.inr (⟨c.st.calls, .aborted a none⟩ : Called (Option (K × V)) (Operation V R) (Compute K V R))
            | .remove => .panic .removeNone) (fun _ _ => True) := by
  refine Tt.loop1 (s := (T, false, c)) ?_
  refine Tt.bind _ (tt_computeProbeZ hc) fun r => ?_
  obtain ⟨c, r⟩ := r
  cases r with
  | done r => exact Tt.ret fun σ _ h => trivial
  | retry cp =>
    refine Tt.extract (φ := (cp = none ∧ rm = none) ∧ Ok f rm c) (fun σ _ h => ⟨⟨h.1.1, h.1.2.2⟩, h.2 fun x hx => by cases hx⟩) ?_
    rintro ⟨⟨rfl, rfl⟩, hc⟩
    refine Tt.bind _ (tt_prepareRetryZ hb) fun N => ?_
    refine Tt.extract (φ := N = none) (fun σ _ h => h.2) ?_
    rintro rfl
    simp only
    refine Tt.bind _ (tt_nextNone hc) fun x => ?_
    obtain ⟨c, op⟩ := x
    cases op with
    | remove => exact Tt.panic
    | abort a => exact Tt.ret fun σ _ h => trivial
    | insert v => exact Tt.absurd' fun σ _ h => (h.2 rfl).2 v rfl

theorem tt_computeZ (hb : C.inc = false) : Tt C t false (fun σ => Roomy C k σ ∨ (Settled σ ∧ NoIns f)) (compute C k f) (fun _ _ => True) := by
  unfold compute
  refine Tt.bind (fun r σ => match r with
    | .inl (c, T) => ∃ rm, Zr C k T rm σ ∧ Ok f rm c
    | .inr _ => True) ?_ fun x => ?_
  · unfold computeInit
    refine tt_root (fun T => Tt.ret ?_) ?_
    · rintro σ hg ⟨h1 | h1, h2, h3⟩
      · obtain ⟨n, hn⟩ := h1.zr hg h2 h3
        exact ⟨some n, hn, fun h => by cases h⟩
      · exact ⟨none, ⟨h1.1.zs hg h2 h3, fun n hn => by cases hn⟩, fun _ => ⟨h1.2, rfl⟩⟩
    · refine Tt.bind _ tt_next fun x => ?_
      obtain ⟨c, op⟩ := x
      cases op with
      | insert v =>
        refine Tt.bind _ tt_restore fun c => ?_
        refine Tt.bind _ ((tt_initTableZ (k := k)).weaken fun σ _ h => h.2) fun T => Tt.ret fun σ _ h => ?_
        obtain ⟨n, h⟩ := h
        exact ⟨some n, h, fun h => by cases h⟩
      | remove => exact Tt.panic
      | abort a => exact Tt.ret fun σ _ h => trivial
  · rcases x with ⟨c, T⟩ | ⟨c, a⟩
    rotate_left
    · exact Tt.ret fun σ _ h => trivial
    rintro σ hg ⟨rm, h, hc⟩
    exact tt_computeMain hb hc σ hg h

end

/-! ## reserve -/

theorem tt_lenV (P : St K V → Prop) : Tt C t sp P (len C) fun n σ => P σ ∧ n = (((List.range (C.shards + 1)).map σ.shard).sum).toNat := by
  unfold len
  refine Tt.bind (fun (s : Int) σ => P σ ∧ s = ((List.range (C.shards + 1)).map σ.shard).sum) ?_ fun s => Tt.ret fun σ _ h => ⟨h.1, by rw [h.2]⟩
  refine (Tt.loopN (fun (x : Nat × Int) σ => P σ ∧ x.1 ≤ C.shards + 1 ∧ x.2 = ((List.range x.1).map σ.shard).sum) (fun s => C.shards + 1 - s.1) ?_).weaken
    fun σ _ h => ⟨h, Nat.zero_le _, rfl⟩
  rintro ⟨j, acc⟩
  refine Tt.ite (fun hj => ?_) (fun hj => Tt.ret fun σ _ h => ?_)
  · refine Tt.read (fun σ => σ.shard j) (fun _ => rfl) fun r => Tt.ret ?_
    rintro σ _ ⟨⟨h1, h2, h3⟩, rfl⟩
    refine ⟨⟨h1, ?_, ?_⟩, ?_⟩
    · show j + 1 ≤ _; omega
    · show acc + _ = _
      rw [List.range_succ, List.map_append, List.sum_append]
      have h3 : acc = _ := h3
      rw [h3]; simp
    · show C.shards + 1 - (j + 1) < C.shards + 1 - j
      omega
  · have h1 := h.2.1
    have : j = C.shards + 1 := by have h1 : j ≤ C.shards + 1 := h1; omega
    subst this
    exact ⟨h.1, h.2.2⟩

/-- The reservation needs no new table. -/
def Enough (C : Cfg K) (a : Nat) (σ : St K V) : Prop :=
  ∀ c, entriesFor ((((List.range (C.shards + 1)).map σ.shard).sum).toNat + a) = some c → ∀ r, σ.root = some r → c ≤ σ.cap r

theorem tt_reserveMain {T : Table} {a : Nat} : Tt C t sp (fun σ => TOk T σ ∧ σ.root = some T.id ∧ Enough C a σ)
      (Prog.loop T fun T => do
        let n ← len C
        if n + a < 2 ^ 64 then
          match entriesFor (n + a) with
          | none => .panic .capacityOverflow
          | some capacity => do
            if T.len ≥ capacity then
              return Sum.inr ()
            else
              let _ ← getOrAllocNext C (some capacity) T
              let next ← helpCopy (V := V) C true T
              return Sum.inl next
        else
          .panic .capacityOverflow) (fun _ _ => True) := by
  refine Tt.loop1 ?_
  refine Tt.bind _ (tt_lenV _) fun n => ?_
  refine Tt.ite (fun _ => ?_) fun _ => Tt.panic
  split
  · exact Tt.panic
  · rename_i c hc
    refine Tt.ite (fun _ => Tt.ret fun _ _ _ => trivial) fun hl => Tt.absurd' ?_
    rintro σ hg ⟨⟨h1, h2, h3⟩, rfl⟩
    have := h3 c hc _ h2
    have h4 : T.len = σ.cap T.id := by
      rw [h1.2]
      have := hg.cap8 h1.1
      show (σ.cap T.id - 1) + 1 = σ.cap T.id
      omega
    omega

theorem tt_reserveZ {a : Nat} : Tt C t sp (fun σ => Enough C a σ ∧ (σ.root = none → ((List.range (C.shards + 1)).map σ.shard).sum = 0))
    (reserve (V := V) C a) (fun _ _ => True) := by
  unfold reserve
  refine Tt.bind (fun T σ => TOk T σ ∧ σ.root = some T.id ∧ Enough C a σ) ?_ fun T => tt_reserveMain
  refine tt_root (fun T => Tt.ret fun σ hg h => ⟨h.2.1, h.2.2, h.1.1⟩) ?_
  simp only
  split
  · rename_i n hn
    unfold initTable
    refine Tt.ite (fun _ => Tt.ite (fun _ => ?_) fun _ => Tt.panic) fun _ => Tt.panic
    refine Tt.lastA ?_
    rintro σ r σ' hg ⟨h0, h⟩ hg' he
    have he := he.exec
    simp only [Exec, h] at he
    obtain ⟨h1, h2⟩ := he
    subst h1 h2
    refine ⟨⟨Nat.lt_succ_self _, rfl⟩, rfl, fun c hc r hr => ?_⟩
    have hs : ((List.range (C.shards + 1)).map σ.shard).sum = 0 := h0.2 h
    have hc : entriesFor ((((List.range (C.shards + 1)).map σ.shard).sum).toNat + a) = some c := hc
    rw [hs] at hc
    simp only [Int.toNat_zero, Nat.zero_add] at hc
    rw [hn] at hc
    have hr : some σ.nTabs = some r := hr
    cases hc
    cases hr
    show _ ≤ if σ.nTabs = σ.nTabs then _ else _
    rw [if_pos rfl]
    exact Nat.le_max_left _ _
  · exact Tt.panic

end Papaya
