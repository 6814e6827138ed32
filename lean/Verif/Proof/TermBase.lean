import Verif.Proof.Term

/-! # Termination: states, tables, allocation, copying one entry -/

set_option linter.unusedSectionVars false
set_option linter.unusedVariables false

namespace Papaya

variable {K V : Type} [DecidableEq K] {C : Cfg K} {t : Tid} {sp : Bool}

open GSt

/-! ## Rules -/

/-- The action has to wait. -/
def Act.blocked (σ : St K V) : {β : Type} → Act K V β → Prop
  | _, .lockWait T => ∃ u, σ.lock T = .held u
  | _, .parkStatus T => σ.status T = .pending
  | _, .parkSlot T i => (σ.slot T i).copied = false
  | _, _ => False

theorem can_exec {β : Type} {a : Act K V β} {σ : St K V} (h : ¬ a.blocked σ) : ∃ r σ', Exec C t a σ r σ' ∧ NoSpurious σ a r := by
  cases a with
  | lockWait T =>
    cases hl : σ.lock T with
    | free => exact ⟨true, _, .inl ⟨hl, rfl, rfl⟩, trivial⟩
    | held u => exact (h ⟨u, hl⟩).elim
    | poisoned => exact ⟨false, _, .inr ⟨hl, rfl, rfl⟩, trivial⟩
  | tryLock T =>
    by_cases hl : σ.lock T = .free
    · exact ⟨true, _, .inl ⟨hl, rfl, rfl⟩, trivial⟩
    · exact ⟨false, _, .inr ⟨hl, rfl, rfl⟩, trivial⟩
  | casRootInit cap =>
    cases hr : σ.root with
    | none => exact ⟨_, _, by simp only [Exec, hr]; exact ⟨rfl, rfl⟩, trivial⟩
    | some T => exact ⟨_, _, by simp only [Exec, hr]; exact ⟨rfl, rfl⟩, trivial⟩
  | cas w T i x y =>
    by_cases hl : σ.slot T i = x
    · exact ⟨none, _, .inl ⟨hl, rfl, rfl⟩, fun h => absurd rfl h⟩
    · exact ⟨some _, _, .inr ⟨.inl hl, rfl, rfl⟩, fun _ => hl⟩
  | casNew w T i x k v =>
    by_cases hl : σ.slot T i = x
    · exact ⟨.inl _, _, .inl ⟨hl, rfl, rfl⟩, fun ⟨_, h⟩ => by cases h⟩
    · exact ⟨.inr _, _, .inr ⟨.inl hl, rfl, rfl⟩, fun _ => hl⟩
  | casRoot T N =>
    by_cases hl : σ.root = some T
    · exact ⟨true, _, .inl ⟨hl, rfl, rfl⟩, trivial⟩
    · exact ⟨false, _, .inr ⟨hl, rfl, rfl⟩, trivial⟩
  | unlock T => exact ⟨(), _, rfl, trivial⟩
  | parkStatus T => exact ⟨(), _, ⟨h, rfl⟩, trivial⟩
  | parkSlot T i => exact ⟨(), _, ⟨by simpa [Act.blocked] using h, rfl⟩, trivial⟩
  | poison T => exact ⟨(), _, rfl, trivial⟩
  | storeMd T i m => exact ⟨(), _, rfl, trivial⟩
  | storeSlot T i s => exact ⟨(), _, rfl, trivial⟩
  | storeStatus T s => exact ⟨(), _, rfl, trivial⟩
  | retire e => exact ⟨(), _, rfl, trivial⟩
  | retireTable e => exact ⟨(), _, rfl, trivial⟩
  | pushDeferred T e => exact ⟨(), _, rfl, trivial⟩
  | addCount d => exact ⟨(), _, rfl, trivial⟩
  | deref e => exact ⟨(), _, rfl, trivial⟩
  | _ => exact ⟨_, _, ⟨rfl, rfl⟩, trivial⟩

variable {α β : Type} {P : St K V → Prop}

theorem Tt.stepA {a : Act K V β} {f : β → Prog K V α} {Q : α → St K V → Prop} (R : β → St K V → Prop)
    (h2 : ∀ σ r σ', GoodSt C σ → P σ → GoodSt C σ' → ExecA C t sp a σ r σ' → R r σ')
    (h : ∀ r, Tt C t sp (R r) (f r) Q)
    (hb : ∀ σ, GoodSt C σ → P σ → ¬ a.blocked σ := by exact fun _ _ _ => id) : Tt C t sp P (.prim a >>= f) Q :=
  Tt.bind R (Tt.act (fun σ hg hp => can_exec (hb σ hg hp)) fun σ r σ' hg hp he => h2 σ r σ' hg hp he.good he) h

theorem Tt.lastA {a : Act K V β} {Q : β → St K V → Prop}
    (h2 : ∀ σ r σ', GoodSt C σ → P σ → GoodSt C σ' → ExecA C t sp a σ r σ' → Q r σ')
    (hb : ∀ σ, GoodSt C σ → P σ → ¬ a.blocked σ := by exact fun _ _ _ => id) : Tt C t sp P (.prim a) Q :=
  Tt.act (fun σ hg hp => can_exec (hb σ hg hp)) fun σ r σ' hg hp he => h2 σ r σ' hg hp he.good he

/-- Only the hypothesis changes. -/
theorem Tt.weaken {P' : St K V → Prop} {p : Prog K V α} {Q : α → St K V → Prop} (h : Tt C t sp P p Q)
    (hP : ∀ σ, GoodSt C σ → P' σ → P σ) : Tt C t sp P' p Q := h.conseq hP fun _ _ _ h => h

theorem Tt.post {p : Prog K V α} {R Q : α → St K V → Prop} (h : Tt C t sp P p R)
    (hQ : ∀ x σ, GoodSt C σ → R x σ → Q x σ) : Tt C t sp P p Q := h.conseq (fun _ _ h => h) hQ

/-- A fact that does not depend on the state. -/
theorem Tt.extract {φ : Prop} {p : Prog K V α} {Q : α → St K V → Prop} (h1 : ∀ σ, GoodSt C σ → P σ → φ)
    (h : φ → Tt C t sp P p Q) : Tt C t sp P p Q := fun σ hg hp => h (h1 σ hg hp) σ hg hp

/-! ## Good states -/

namespace GoodSt

variable {σ : St K V}

theorem next (h : GoodSt C σ) {T : Nat} (hT : T < σ.nTabs) : σ.next T = if T + 1 < σ.nTabs then some (T + 1) else none := by
  obtain ⟨S, rfl, h⟩ := h
  exact h.s.next T hT

theorem out (h : GoodSt C σ) {T : Nat} (hT : σ.nTabs ≤ T) : (∀ i, σ.slot T i = Slot.null) ∧ (∀ i, σ.md T i = EMPTY) ∧
    σ.claim T = 0 ∧ σ.copied T = 0 ∧ σ.status T = .pending ∧ σ.lock T = .free := by
  obtain ⟨S, rfl, h⟩ := h
  obtain ⟨h1, h2, _, h3, h4, h5, h6, _⟩ := h.s.out T hT
  exact ⟨h1, h2, h3, h4, h5, h6⟩

theorem root (h : GoodSt C σ) {r : Nat} (hr : σ.root = some r) : r < σ.nTabs := by
  obtain ⟨S, rfl, h⟩ := h
  exact (h.s.some r hr).1

theorem noRoot (h : GoodSt C σ) (hr : σ.root = none) : σ.nTabs = 0 := by
  obtain ⟨S, rfl, h⟩ := h
  exact (h.s.none hr).1

theorem cap8 (h : GoodSt C σ) {T : Nat} (hT : T < σ.nTabs) : 8 ≤ σ.cap T := by
  obtain ⟨S, rfl, h⟩ := h
  exact (h.s.cap T hT).2.1

theorem copying (h : GoodSt C σ) {T i : Nat} {e : Entry K V} (hp : (σ.slot T i).ptr = some e) (hc : (σ.slot T i).copied = true) :
    (σ.slot T i).copying = true := by
  obtain ⟨S, rfl, h⟩ := h
  exact (h.p.p7 T i e hp hc).2

end GoodSt

/-- `T` is a handle of a published table. -/
def TOk (T : Table) (σ : St K V) : Prop := T.id < σ.nTabs ∧ T = σ.handle T.id

/-- The slot has been copied. -/
def Cpd (T i : Nat) (σ : St K V) : Prop := (σ.slot T i).ptr ≠ none ∧ (σ.slot T i).copied = true

/-- What helping keeps. -/
structure Hp (σ0 σ : St K V) : Prop where
  n : σ0.nTabs ≤ σ.nTabs
  cap : ∀ T, T < σ0.nTabs → σ.cap T = σ0.cap T
  cpd : ∀ T i, Cpd T i σ0 → Cpd T i σ

theorem Hp.refl (σ : St K V) : Hp σ σ := ⟨Nat.le_refl _, fun _ _ => rfl, fun _ _ h => h⟩

theorem Hp.trans {σ σ' σ'' : St K V} (h : Hp σ σ') (h' : Hp σ' σ'') : Hp σ σ'' :=
  ⟨Nat.le_trans h.n h'.n, fun T hT => (h'.cap T (Nat.lt_of_lt_of_le hT h.n)).trans (h.cap T hT),
    fun T i hc => h'.cpd T i (h.cpd T i hc)⟩

theorem Hp.tok {T : Table} {σ0 σ : St K V} (h : Hp σ0 σ) (hT : TOk T σ0) : TOk T σ := by
  refine ⟨Nat.lt_of_lt_of_le hT.1 h.n, ?_⟩
  rw [hT.2]
  show σ0.handle T.id = σ.handle T.id
  unfold St.handle
  rw [h.cap _ hT.1]

/-- The copies of entries whose keys are in `ks` are complete (except for slot `X`), the slots of `kk` have been copied, no lock is held. -/
structure WX (ks : K → Prop) (kk : Option K) (X : Option (Nat × Nat)) (σ : St K V) : Prop where
  c : ∀ T i e, X ≠ some (T, i) → (σ.slot T i).ptr = some e → ks e.key → (σ.slot T i).copying = true → (σ.slot T i).copied = true
  k : ∀ x, kk = some x → ∀ T i e, (σ.slot T i).ptr = some e → e.key = x → (σ.slot T i).copied = true
  l : ∀ T u, σ.lock T ≠ .held u

abbrev W (ks : K → Prop) (kk : Option K) (σ : St K V) : Prop := WX ks kk none σ

variable {ks : K → Prop} {kk : Option K} {X : Option (Nat × Nat)}

theorem WX.same {σ σ' : St K V} (h : WX ks kk X σ) (h1 : σ'.slot = σ.slot) (h2 : ∀ T u, σ'.lock T ≠ .held u) : WX ks kk X σ' :=
  ⟨fun T i e hx hp => by rw [h1] at hp ⊢; exact h.c T i e hx hp, fun x hx T i e hp => by rw [h1] at hp ⊢; exact h.k x hx T i e hp, h2⟩

/-- This value may be written. -/
def SlOk (ks : K → Prop) (kk : Option K) (s : Slot K V) : Prop :=
  ∀ e, s.ptr = some e → (ks e.key → s.copying = true → s.copied = true) ∧ (∀ x, kk = some x → e.key = x → s.copied = true)

theorem WX.set {σ : St K V} (h : WX ks kk X σ) {T i : Nat} {s : Slot K V} (hs : SlOk ks kk s) : WX ks kk X (σ.setSlot T i s) := by
  refine ⟨fun T' i' e hx hp hq hc => ?_, fun x hx T' i' e hp hk => ?_, h.l⟩
  · have hp : (if T' = T ∧ i' = i then s else σ.slot T' i').ptr = some e := hp
    have hc : (if T' = T ∧ i' = i then s else σ.slot T' i').copying = true := hc
    show (if T' = T ∧ i' = i then s else σ.slot T' i').copied = true
    split at hp
    · rename_i hh; rw [if_pos hh] at hc ⊢; exact (hs e hp).1 hq hc
    · rename_i hh; rw [if_neg hh] at hc ⊢; exact h.c T' i' e hx hp hq hc
  · have hp : (if T' = T ∧ i' = i then s else σ.slot T' i').ptr = some e := hp
    show (if T' = T ∧ i' = i then s else σ.slot T' i').copied = true
    split at hp
    · rename_i hh; rw [if_pos hh]; exact (hs e hp).2 x hx hk
    · rename_i hh; rw [if_neg hh]; exact h.k x hx T' i' e hp hk

theorem handle_next {σ : St K V} (hg : GoodSt C σ) {T : Table} (hT : TOk T σ) :
    (σ.next T.id).map σ.handle = if T.id + 1 < σ.nTabs then some (σ.handle (T.id + 1)) else none := by
  rw [hg.next hT.1]
  split <;> rfl

theorem tok_handle {σ : St K V} {T : Nat} (h : T < σ.nTabs) : TOk (σ.handle T) σ := ⟨h, rfl⟩

/-! ## len -/

theorem tt_len (P : St K V → Prop) : Tt C t sp P (len C) fun _ => P := by
  unfold len
  refine Tt.bind (fun _ => P) ?_ fun s => Tt.ret fun σ _ h => h
  refine Tt.loopN (fun _ => P) (fun s => C.shards + 1 - s.1) ?_
  rintro ⟨j, acc⟩
  refine Tt.ite (fun hj => ?_) (fun hj => Tt.ret fun σ _ h => h)
  refine Tt.read (fun σ => σ.shard j) (fun _ => rfl) fun r => Tt.ret fun σ _ h => ⟨h.1, ?_⟩
  show C.shards + 1 - (j + 1) < C.shards + 1 - j
  omega

/-! ## Allocating a table -/

/-- `N` is the table after `T`; nothing changed, or `N` was allocated. -/
structure AP (T : Table) (σ0 : St K V) (N : Table) (σ : St K V) : Prop where
  slot : σ.slot = σ0.slot
  md : σ.md = σ0.md
  root : σ.root = σ0.root
  claim : σ.claim = σ0.claim
  copied : σ.copied = σ0.copied
  status : ∀ T, T < σ0.nTabs → σ.status T = σ0.status T
  lock : ∀ T u, σ.lock T ≠ .held u
  id : N.id = T.id + 1
  tok : TOk N σ
  n : (T.id + 1 < σ0.nTabs ∧ σ.nTabs = σ0.nTabs) ∨ (T.id + 1 = σ0.nTabs ∧ σ.nTabs = σ0.nTabs + 1)
  cap : ∀ T, T < σ0.nTabs → σ.cap T = σ0.cap T

theorem AP.hp {T N : Table} {σ0 σ : St K V} (h : AP T σ0 N σ) : Hp σ0 σ :=
  ⟨by rcases h.n with h | h <;> omega, h.cap, fun T i hc => by unfold Cpd; rw [h.slot]; exact hc⟩

theorem AP.w {T N : Table} {σ0 σ : St K V} (h : AP T σ0 N σ) (hw : WX ks kk X σ0) : WX ks kk X σ := hw.same h.slot h.lock

theorem tt_allocNextLocked {T : Table} {cp : Option Nat} {σ0 : St K V} (hg0 : GoodSt C σ0) (hT : TOk T σ0)
    (hl : ∀ T u, σ0.lock T ≠ .held u) :
    Tt C t sp (fun σ => σ = { σ0 with lock := fun T' => if T' = T.id then .held t else σ0.lock T' }) (allocNextLocked C cp T)
      (AP T σ0) := by
  have hunl : ∀ T' u, (if T' = T.id then Lock.free else if T' = T.id then .held t else σ0.lock T') ≠ .held u := by
    intro T' u
    split
    · exact fun h => by cases h
    · exact hl T' u
  unfold allocNextLocked
  refine Tt.read (fun σ => (σ.next T.id).map σ.handle) (fun _ => rfl) fun r => ?_
  refine Tt.extract (φ := r = if T.id + 1 < σ0.nTabs then some (σ0.handle (T.id + 1)) else none) ?_ ?_
  · rintro σ hg ⟨rfl, rfl⟩
    exact handle_next hg0 hT
  · rintro rfl
    by_cases hn : T.id + 1 < σ0.nTabs
    · rw [if_pos hn]
      refine Tt.stepA (fun _ σ => AP T σ0 (σ0.handle (T.id + 1)) σ) ?_ fun _ => Tt.ret fun σ _ h => h
      rintro σ r σ' hg ⟨rfl, _⟩ hg' he
      have he := he.exec
      rw [show σ' = _ from he]
      exact ⟨rfl, rfl, rfl, rfl, rfl, fun _ _ => rfl, hunl, rfl, tok_handle hn, .inl ⟨hn, rfl⟩, fun _ _ => rfl⟩
    · rw [if_neg hn]
      have hn' : T.id + 1 = σ0.nTabs := by have := hT.1; omega
      refine Tt.bind _ (tt_len _) fun active => ?_
      refine Tt.ite (fun _ => ?_) fun _ => ?_
      · refine Tt.ite (fun _ => ?_) fun _ => ?_
        · refine Tt.ite (fun _ => ?_) fun _ => ?_
          · generalize hm : max (cp.getD (nextCapacity C.initialCapacity T.len active)) 8 = m
            refine Tt.stepA (fun N σ' => σ' = { ({ σ0 with lock := fun T' => if T' = T.id then .held t else σ0.lock T' } : St K V).allocTable m .pending with
                next := fun T' => if T' = T.id then some σ0.nTabs else if T' = σ0.nTabs then none else σ0.next T' } ∧
                N = σ'.handle σ0.nTabs) ?_ fun N => ?_
            · rintro σ r σ' hg ⟨rfl, _⟩ hg' he
              exact ⟨he.exec.1, he.exec.2⟩
            · refine Tt.stepA (fun _ σ => AP T σ0 N σ) ?_ fun _ => Tt.ret fun σ _ h => h
              rintro σ r σ' hg ⟨h1, h2⟩ hg' he
              have he : σ' = { σ with lock := fun T' => if T' = T.id then .free else σ.lock T' } := he.exec
              have hout := hg0.out (Nat.le_refl _)
              have hne : ∀ T', T' < σ0.nTabs → T' ≠ σ0.nTabs := fun T' h => by omega
              subst he h1 h2
              refine ⟨?_, ?_, rfl, ?_, ?_, ?_, ?_, hn'.symm, ⟨Nat.lt_succ_self _, rfl⟩, .inr ⟨hn', rfl⟩, ?_⟩
              · funext T' i
                show (if T' = σ0.nTabs then Slot.null else σ0.slot T' i) = _
                split
                · rename_i h; rw [h, hout.1 i]
                · rfl
              · funext T' i
                show (if T' = σ0.nTabs then EMPTY else σ0.md T' i) = _
                split
                · rename_i h; rw [h, hout.2.1 i]
                · rfl
              · funext T'
                show (if T' = σ0.nTabs then 0 else σ0.claim T') = _
                split
                · rename_i h; rw [h, hout.2.2.1]
                · rfl
              · funext T'
                show (if T' = σ0.nTabs then 0 else σ0.copied T') = _
                split
                · rename_i h; rw [h, hout.2.2.2.1]
                · rfl
              · intro T' hT'
                exact if_neg (hne T' hT')
              · intro T' u
                show (if T' = T.id then Lock.free else if T' = σ0.nTabs then .free else if T' = T.id then .held t else σ0.lock T') ≠ _
                split
                · exact fun h => by cases h
                · split
                  · exact fun h => by cases h
                  · exact hl T' u
              · intro T' hT'
                exact if_neg (hne T' hT')
          · exact Tt.stepA (fun _ _ => True) (fun _ _ _ _ _ _ _ => trivial) fun _ => Tt.panic
        · exact Tt.stepA (fun _ _ => True) (fun _ _ _ _ _ _ _ => trivial) fun _ => Tt.panic
      · exact Tt.stepA (fun _ _ => True) (fun _ _ _ _ _ _ _ => trivial) fun _ => Tt.panic

theorem tt_getOrAllocNext {T : Table} {cp : Option Nat} {σ0 : St K V} (hT : TOk T σ0)
    (hl : ∀ T u, σ0.lock T ≠ .held u) : Tt C t sp (fun σ => σ = σ0) (getOrAllocNext C cp T) (AP T σ0) := by
  refine Tt.pre fun σ hg0 h => ?_
  subst h
  unfold getOrAllocNext
  refine Tt.read (fun σ => (σ.next T.id).map σ.handle) (fun _ => rfl) fun r => ?_
  refine Tt.extract (φ := r = if T.id + 1 < σ.nTabs then some (σ.handle (T.id + 1)) else none) ?_ ?_
  · rintro σ hg ⟨rfl, rfl⟩
    exact handle_next hg0 hT
  · rintro rfl
    by_cases hn : T.id + 1 < σ.nTabs
    · rw [if_pos hn]
      refine Tt.ret ?_
      rintro σ hg ⟨rfl, _⟩
      exact ⟨rfl, rfl, rfl, rfl, rfl, fun _ _ => rfl, hl, rfl, tok_handle hn, .inl ⟨hn, rfl⟩, fun _ _ => rfl⟩
    · rw [if_neg hn]
      refine Tt.stepA (fun b τ => (b = true → τ = { σ with lock := fun T' => if T' = T.id then .held t else σ.lock T' }) ∧
        (b = false → τ = σ)) ?_ fun b => ?_
      · rintro τ r τ' hg ⟨rfl, _⟩ hg' he
        rcases he.exec with ⟨_, rfl, h⟩ | ⟨_, rfl, h⟩
        · exact ⟨fun _ => h, fun h => by cases h⟩
        · exact ⟨fun h => (by cases h), fun _ => h⟩
      · refine Tt.ite (fun hb => ?_) fun hb => ?_
        · exact (tt_allocNextLocked hg0 hT hl).weaken fun τ _ h => h.1 hb
        · refine Tt.bind (fun r τ => τ = σ ∧ r = none) ?_ fun r => ?_
          · refine (Tt.loopN (fun _ τ => τ = σ) (fun s => C.spinAlloc + 1 - s) ?_).weaken (P := fun τ => τ = σ)
              fun τ _ h => h.2 (by simpa using hb)
            intro s
            refine Tt.ite (fun hs => ?_) fun hs => Tt.ret fun τ _ h => ⟨h, rfl⟩
            refine Tt.read (fun σ => (σ.next T.id).map σ.handle) (fun _ => rfl) fun r => ?_
            refine Tt.extract (φ := r = none) ?_ ?_
            · rintro τ hg ⟨rfl, rfl⟩
              rw [handle_next hg0 hT, if_neg hn]
            · rintro rfl
              refine Tt.ret fun τ _ h => ⟨h.1, ?_⟩
              show C.spinAlloc + 1 - (s + 1) < C.spinAlloc + 1 - s
              omega
          · refine Tt.extract (φ := r = none) (fun _ _ h => h.2) ?_
            rintro rfl
            refine Tt.stepA (fun b τ => b = true → τ = { σ with lock := fun T' => if T' = T.id then .held t else σ.lock T' }) ?_
              (fun b => ?_) (fun τ _ h hb => ?_)
            · rintro τ r τ' hg ⟨rfl, _⟩ hg' he
              rcases he.exec with ⟨_, rfl, h⟩ | ⟨_, rfl, h⟩
              · exact fun _ => h
              · exact fun h => by cases h
            · refine Tt.ite (fun hb => ?_) fun hb => Tt.panic
              exact (tt_allocNextLocked hg0 hT hl).weaken fun τ _ h => h hb
            · obtain ⟨u, hu⟩ := hb
              rw [h.1] at hu
              exact hl _ _ hu

/-! ## The measure -/

/-- The table is empty. -/
def FreshT (T : Table) (σ : St K V) : Prop := ∀ i, σ.slot T.id i = Slot.null ∧ σ.md T.id i = EMPTY

open Classical in
/-- Tables left to be probed. -/
noncomputable def mu (T : Table) (σ : St K V) : Nat := 2 * (σ.nTabs - T.id) - if FreshT T σ then 1 else 0

theorem mu_le (T : Table) (σ : St K V) : mu T σ ≤ 2 * (σ.nTabs - T.id) := Nat.sub_le _ _

theorem mu_or (T : Table) (σ : St K V) : mu T σ = 2 * (σ.nTabs - T.id) ∨ FreshT T σ := by
  unfold mu
  by_cases h : FreshT T σ
  · exact .inr h
  · rw [if_neg h]; exact .inl (by omega)

theorem AP.mu {T N : Table} {σ0 σ : St K V} (h : AP T σ0 N σ) (hg : GoodSt C σ0) (hT : TOk T σ0) :
    mu N σ < 2 * (σ0.nTabs - T.id) := by
  have h1 := hT.1
  rcases h.n with ⟨h2, h3⟩ | ⟨h2, h3⟩
  · have := mu_le N σ
    rw [h3, h.id] at this
    omega
  · have hf : FreshT N σ := by
      intro i
      rw [h.slot, h.md, h.id, h2]
      have := hg.out (Nat.le_refl σ0.nTabs)
      exact ⟨this.1 i, this.2.1 i⟩
    unfold Papaya.mu
    rw [if_pos hf, h3, h.id, h2]
    omega

end Papaya
