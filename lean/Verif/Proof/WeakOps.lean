import Verif.Proof.Observe
import Verif.Spec.Weak

/-! # The programs only use what they have learnt -/

set_option linter.unusedSectionVars false
set_option linter.unusedVariables false

namespace Papaya

variable {K V : Type}

/-- What is known: initialised allocations, and the keys of the slots that have one. -/
structure Kn (K V : Type) where
  view : View K V
  key : Nat → Nat → Option K

/-- A value of slot `(T, i)`. -/
def Kn.SlotIn (F : Kn K V) (T i : Nat) (s : Slot K V) : Prop :=
  ∀ e, s.ptr = some e → F.view.ent e ∧ F.key T i = some e.key

/-- A slot keeps its key. -/
def Act.KeyOk (D : K → V → Prop) (F : Kn K V) : {β : Type} → Act K V β → Prop
  | _, .cas _ T i exp new => (new.ptr = none ∧ new ≠ Slot.null) ∨ (exp = Slot.null ∧ new.ptr ≠ none)
  | _, .casNew _ T i exp k v => (exp = Slot.null ∨ F.key T i = some k) ∧ D k v
  | _, .storeSlot T i s => ∃ e, s.ptr = some e ∧ F.key T i = some e.key
  | _, _ => True

/-- What the actions do and yield. -/
def knSys (D : K → V → Prop) (F : Kn K V) : ObsSys K V where
  ok := fun a => a.Visible F.view ∧ a.KeyOk D F
  res := fun a r => match a, r with
    | .loadRoot, r => ∀ T, r = some T → F.view.tab T
    | .casRootInit _, r => F.view.tab r
    | .loadNext _, r => ∀ T, r = some T → F.view.tab T
    | .storeNext _ _, r => F.view.tab r
    | .loadSlot T i, r => F.SlotIn T i r
    | .cas _ T i _ _, r => ∀ s, r = some s → F.SlotIn T i s
    | .casNew _ T i _ k v, r => match r with
      | .inl e => F.view.ent e ∧ e.key = k ∧ e.val = v ∧ F.key T i = some k
      | .inr s => F.SlotIn T i s
    | .fetchOrCopying T i, r => F.SlotIn T i r
    | _, _ => True
  pan := fun r => r ≠ .unreachableCode

variable [DecidableEq K] {D : K → V → Prop} {F : Kn K V} {C : Cfg K}

local notation "KN" => Obs' (knSys D F)

open Obs'

namespace Wk

theorem np {r : PanicReason} (h : r ≠ .unreachableCode := by decide) : (knSys D F).pan r := h

abbrev tb (F : Kn K V) (T : Table) : Prop := F.view.tab T

theorem start_lt {h : Nat} {T : Table} : (Probe.start h T.mask).i < T.len :=
  Nat.lt_succ_of_le Nat.and_le_right

theorem next_lt {p : Probe} {T : Table} : (p.next T.mask).i < T.len :=
  Nat.lt_succ_of_le Nat.and_le_right

theorem hasTab {T : Table} (h : tb F T) : F.view.HasTab T.id := ⟨T, h, rfl⟩
theorem hasIx {T : Table} {i : Nat} (h : tb F T) (hi : i < T.len) : F.view.HasIx T.id i := ⟨T, h, rfl, hi⟩

theorem kn_len : KN (len C) (fun _ => True) := by
  unfold len
  refine bind (fun _ => True) ?_ fun _ _ => ret trivial
  refine loop (fun _ => True) trivial ?_
  rintro ⟨j, acc⟩ _
  exact ite (fun _ => step ⟨trivial, trivial⟩ fun _ _ => ret trivial) fun _ => ret trivial

theorem kn_initTable {c : Option Nat} : KN (initTable C c) (tb F) := by
  unfold initTable
  exact ite (fun _ => ite (fun _ => act ⟨trivial, trivial⟩ fun _ h => h) fun _ => panic np) fun _ => panic np

theorem kn_allocNextLocked {T : Table} (hT : tb F T) {c : Option Nat} : KN (allocNextLocked C c T) (tb F) := by
  unfold allocNextLocked
  refine step ⟨hasTab hT, trivial⟩ fun r hr => ?_
  have hr : ∀ T, r = some T → tb F T := hr
  cases r with
  | some N => exact step ⟨hasTab hT, trivial⟩ fun _ _ => ret (hr N rfl)
  | none =>
    refine bind _ kn_len fun m _ => ?_
    dsimp only
    refine ite (fun _ => ite (fun _ => ite (fun _ => ?_) fun _ => ?_) fun _ => ?_) fun _ => ?_
    · exact step ⟨hasTab hT, trivial⟩ fun N hN => step ⟨hasTab hT, trivial⟩ fun _ _ => ret hN
    all_goals exact step ⟨hasTab hT, trivial⟩ fun _ _ => panic np

theorem kn_getOrAllocNext {T : Table} (hT : tb F T) {c : Option Nat} : KN (getOrAllocNext C c T) (tb F) := by
  unfold getOrAllocNext
  refine step ⟨hasTab hT, trivial⟩ fun r hr => ?_
  have hr : ∀ T, r = some T → tb F T := hr
  cases r with
  | some N => exact ret (hr N rfl)
  | none =>
    refine step ⟨hasTab hT, trivial⟩ fun b _ => ?_
    refine ite (fun _ => kn_allocNextLocked hT) fun _ => ?_
    refine bind (fun x => ∀ N, x = some N → tb F N) ?_ fun x hx => ?_
    · refine loop (fun _ => True) trivial fun sp _ => ?_
      refine ite (fun _ => ?_) fun _ => ret fun N h => by cases h
      refine step ⟨hasTab hT, trivial⟩ fun r hr => ?_
      cases r with
      | some N => exact ret hr
      | none => exact ret trivial
    · cases x with
      | some N => exact ret (hx N rfl)
      | none =>
        refine step ⟨hasTab hT, trivial⟩ fun b _ => ?_
        exact ite (fun _ => kn_allocNextLocked hT) fun _ => panic np

theorem kn_tryPromote {T N : Table} (hT : tb F T) (hN : tb F N) {c : Nat} : KN (tryPromote T N c) (fun _ => True) := by
  unfold tryPromote
  refine bind (fun _ => True) (ite (fun _ => step ⟨hasTab hN, trivial⟩ fun _ _ => ret trivial) fun _ =>
    act ⟨hasTab hN, trivial⟩ fun _ _ => trivial) fun x _ => ?_
  refine ite (fun _ => ?_) fun _ => ret trivial
  refine step ⟨trivial, trivial⟩ fun r _ => ?_
  cases r with
  | none => exact ret trivial
  | some R =>
  refine step ⟨trivial, trivial⟩ fun b _ => ?_
  refine ite (fun _ => ?_) fun _ => ret trivial
  refine step ⟨⟨hasTab hT, hasTab hN⟩, trivial⟩ fun b _ => ?_
  refine ite (fun _ => ?_) fun _ => step ⟨hasTab hN, trivial⟩ fun _ _ => ret trivial
  exact step ⟨hasTab hN, trivial⟩ fun _ _ => step ⟨hasTab hT, trivial⟩ fun _ _ => step ⟨hasTab hN, trivial⟩ fun _ _ => ret trivial

theorem kn_insertCopy {e : Entry K V} {s : Slot K V} (he : F.view.ent e) (hs : s.ptr = some e) {b : Bool} {T : Table}
    (hT : tb F T) : KN (insertCopy C e s b T) (fun _ => True) := by
  unfold insertCopy
  refine step ⟨he, trivial⟩ fun _ _ => loop (tb F) hT fun T hT => ?_
  refine bind (fun _ => True) ?_ fun out _ => ?_
  · refine loop (fun p => p.i < T.len) start_lt fun probe hp => ?_
    refine ite (fun _ => ?_) fun _ => ret trivial
    refine step ⟨hasIx hT hp, trivial⟩ fun m _ => ?_
    refine ite (fun _ => ?_) fun _ => ret next_lt
    refine step ⟨⟨hasIx hT hp, fun e' he' => by rw [hs] at he'; cases he'; exact he⟩, .inr ⟨rfl, by rw [hs]; simp⟩⟩ fun r hr => ?_
    have hr : ∀ s, r = some s → F.SlotIn T.id probe.i s := hr
    cases r with
    | none => exact step ⟨hasIx hT hp, trivial⟩ fun _ _ => ret trivial
    | some found =>
      refine bind (fun _ => True) ?_ fun m _ => ?_
      · cases hf : found.ptr with
        | none => exact ret trivial
        | some e' => exact step ⟨(hr _ rfl e' hf).1, trivial⟩ fun _ _ => ret trivial
      · refine step ⟨hasIx hT hp, trivial⟩ fun _ _ => ?_
        exact ite (fun _ => step ⟨hasIx hT hp, trivial⟩ fun _ _ => ret next_lt) fun _ => ret next_lt
  · cases out with
    | some i => exact ret trivial
    | none => exact ite (fun h => bind _ (kn_getOrAllocNext hT) fun N hN => ret hN) fun _ => ret trivial

theorem kn_copyAtBlocking {i : Nat} {T N : Table} (hT : tb F T) (hi : i < T.len) (hN : tb F N) :
    KN (copyAtBlocking C i T N) (fun _ => True) := by
  unfold copyAtBlocking
  refine step ⟨hasIx hT hi, trivial⟩ fun s hs => ?_
  have hs : F.SlotIn T.id i s := hs
  cases h : s.ptr with
  | none => exact ite (fun _ => ret trivial) fun _ => step ⟨hasIx hT hi, trivial⟩ fun _ _ => ret trivial
  | some e => exact bind _ (kn_insertCopy (hs e h).1 rfl hN) fun r _ => ret trivial

theorem kn_copyAtIncremental {i : Nat} {T N : Table} (hT : tb F T) (hi : i < T.len) (hN : tb F N) :
    KN (copyAtIncremental C i T N) (fun _ => True) := by
  unfold copyAtIncremental
  refine step ⟨hasIx hT hi, trivial⟩ fun s hs => ?_
  have hs : F.SlotIn T.id i s := hs
  cases h : s.ptr with
  | none => exact ite (fun _ => ret trivial) fun _ => act ⟨hasIx hT hi, trivial⟩ fun _ _ => trivial
  | some e =>
    refine bind _ (kn_insertCopy (hs e h).1 rfl hN) fun r _ => ?_
    cases r with
    | none => exact panic np
    | some x => exact step ⟨⟨hasIx hT hi, fun e' he' => by cases he'; exact (hs e h).1⟩, e, rfl, (hs e h).2⟩ fun _ _ => act ⟨hasIx hT hi, trivial⟩ fun _ _ => trivial

theorem kn_copyChunkBlocking {T N : Table} (hT : tb F T) (hN : tb F N) {a c : Nat} :
    KN (copyChunkBlocking C T N a c) (fun _ => True) := by
  unfold copyChunkBlocking
  refine loop (fun _ => True) trivial fun j _ => ?_
  refine ite (fun _ => ite (fun h => ?_) fun _ => ret trivial) fun _ => ret trivial
  exact bind _ (kn_copyAtBlocking hT h hN) fun b _ => ite (fun _ => ret trivial) fun _ => ret trivial

theorem kn_copyChunkIncremental {T N : Table} (hT : tb F T) (hN : tb F N) {a c : Nat} :
    KN (copyChunkIncremental C T N a c) (fun _ => True) := by
  unfold copyChunkIncremental
  refine loop (fun _ => True) trivial fun j _ => ?_
  refine ite (fun _ => ite (fun h => ?_) fun _ => ret trivial) fun _ => ret trivial
  exact bind _ (kn_copyAtIncremental hT h hN) fun b _ => ret trivial

theorem kn_helpCopyBlocking {T : Table} (hT : tb F T) : KN (helpCopyBlocking C T) (tb F) := by
  unfold helpCopyBlocking
  refine step ⟨hasTab hT, trivial⟩ fun r hr => ?_
  have hr : ∀ T, r = some T → tb F T := hr
  cases r with
  | none => exact panic np
  | some N =>
    refine loop (tb F) (hr N rfl) fun N hN => ?_
    refine bind (tb F) ?_ fun N hN => ?_
    · refine loop (tb F) hN fun N hN => ?_
      refine step ⟨hasTab hN, trivial⟩ fun st _ => ite (fun _ => ?_) fun _ => ret hN
      exact bind _ (kn_getOrAllocNext hN) fun N' hN' => ret hN'
    · refine bind _ (kn_tryPromote hT hN) fun b _ => ite (fun _ => ret hN) fun _ => ?_
      dsimp only
      refine bind (fun out => match out with | .brk => True | .retry N' => tb F N' | .done N' => tb F N') ?_ fun out ho => ?_
      · refine loop (fun _ => True) trivial fun _ _ => ?_
        refine step ⟨hasTab hN, trivial⟩ fun cl _ => ite (fun _ => ret trivial) fun _ => ?_
        refine step ⟨hasTab hN, trivial⟩ fun start _ => bind _ (kn_copyChunkBlocking hT hN) fun r _ => ?_
        cases r with
        | none => exact step ⟨hasTab hN, trivial⟩ fun _ _ => bind _ (kn_getOrAllocNext hN) fun N' hN' => step ⟨hasTab hT, trivial⟩ fun _ _ => ret hN'
        | some c =>
          refine bind _ (kn_tryPromote hT hN) fun b _ => ite (fun _ => ret hN) fun _ => ?_
          exact step ⟨hasTab hN, trivial⟩ fun _ _ => ite (fun _ => ret hN) fun _ => ret trivial
      · cases out with
        | done N' => exact ret ho
        | retry N' => exact ret ho
        | brk =>
          refine bind (fun _ => True) ?_ fun ok _ => ite (fun _ => ret hN) fun _ => ret hN
          refine loop (fun _ => True) trivial fun _ _ => step ⟨hasTab hN, trivial⟩ fun st _ => ?_
          cases st with
          | pending => exact ite (fun _ => ret trivial) fun _ => step ⟨hasTab hN, trivial⟩ fun _ _ => ret trivial
          | promoted => exact ret trivial
          | aborted => exact ret trivial

theorem kn_helpCopyIncremental {ch : Nat} {blk : Bool} :
    KN (helpCopyIncremental C ch blk) (fun r => ∀ T, r = some T → tb F T) := by
  unfold helpCopyIncremental
  refine step ⟨trivial, trivial⟩ fun r hr => ?_
  have hr : ∀ T, r = some T → tb F T := hr
  cases r with
  | none => exact ret hr
  | some T =>
  have hT := hr T rfl
  refine step ⟨hasTab hT, trivial⟩ fun r hr => ?_
  have hr : ∀ T, r = some T → tb F T := hr
  cases r with
  | none => exact ret fun _ h => by cases h; exact hT
  | some N =>
  have hN := hr N rfl
  refine bind (tb F) ?_ fun R hR => ret fun _ h => by cases h; exact hR
  refine loop (fun _ => True) trivial fun _ _ => ?_
  refine bind _ (kn_tryPromote hT hN) fun b _ => ite (fun _ => ret hN) fun _ => ?_
  refine bind (fun out => match out with | .brk => True | .retry N' => tb F N' | .done N' => tb F N') ?_ fun out ho => ?_
  · refine loop (fun _ => True) trivial fun _ _ => ?_
    refine step ⟨hasTab hN, trivial⟩ fun cl _ => ite (fun _ => ret trivial) fun _ => ?_
    refine step ⟨hasTab hN, trivial⟩ fun start _ => bind _ (kn_copyChunkIncremental hT hN) fun r _ => ?_
    exact bind _ (kn_tryPromote hT hN) fun b _ => ite (fun _ => ret hN) fun _ => ret trivial
  · cases out with
    | done N' => exact ret ho
    | retry N' => exact ret trivial
    | brk =>
      refine ite (fun _ => ?_) fun _ => ret hN
      refine bind (fun _ => True) ?_ fun _ _ => ret hN
      refine loop (fun _ => True) trivial fun _ _ => step ⟨hasTab hN, trivial⟩ fun st _ => ?_
      cases st with
      | pending => exact ite (fun _ => ret trivial) fun _ => step ⟨hasTab hN, trivial⟩ fun _ _ => ret trivial
      | promoted => exact ret trivial
      | aborted => exact ite (fun _ => ret trivial) fun _ => step ⟨hasTab hN, trivial⟩ fun _ _ => ret trivial

theorem kn_helpCopy {T : Table} (hT : tb F T) {all : Bool} : KN (helpCopy C all T) (tb F) := by
  unfold helpCopy
  cases C.mode with
  | blocking => exact kn_helpCopyBlocking hT
  | incremental ch =>
    refine bind _ kn_helpCopyIncremental fun r hr => ite (fun _ => ?_) fun _ => ?_
    · cases r with
      | none => exact panic np
      | some N => exact ret (hr N rfl)
    · refine step ⟨hasTab hT, trivial⟩ fun r hr => ?_
      cases r with
      | none => exact panic np
      | some N => exact ret (hr N rfl)

theorem kn_linearize {T : Table} (hT : tb F T) : KN (linearize C T) (tb F) := by
  unfold linearize
  refine ite (fun _ => ?_) fun _ => ret hT
  refine loop (tb F) hT fun T hT => step ⟨hasTab hT, trivial⟩ fun r hr => ?_
  cases r with
  | none => exact ret hT
  | some N => exact bind _ (kn_helpCopy hT) fun N hN => ret hN

theorem kn_waitCopied {T : Table} {i : Nat} (hT : tb F T) (hi : i < T.len) : KN (waitCopied C i T) (fun _ => True) := by
  unfold waitCopied
  refine bind (fun _ => True) ?_ fun seen _ => ite (fun _ => ret trivial) fun _ => act ⟨hasIx hT hi, trivial⟩ fun _ _ => trivial
  refine loop (fun _ => True) trivial fun _ _ => ite (fun _ => ?_) fun _ => ret trivial
  refine step ⟨hasIx hT hi, trivial⟩ fun s _ => ?_
  exact ite (fun _ => ret trivial) fun _ => ret trivial

theorem kn_deferRetire {T : Table} {e : Entry K V} {s : Slot K V} (hT : tb F T) (he : F.view.ent e) :
    KN (deferRetire C e s T) (fun _ => True) := by
  unfold deferRetire
  cases C.mode with
  | blocking => exact act ⟨he, trivial⟩ fun _ _ => trivial
  | incremental ch =>
    refine ite (fun _ => act ⟨he, trivial⟩ fun _ _ => trivial) fun _ => ?_
    refine step ⟨trivial, trivial⟩ fun r hr => ?_
    have hr : ∀ T, r = some T → tb F T := hr
    cases r with
    | none => exact panic np
    | some R =>
    refine bind (fun _ => True) ?_ fun b _ => ite (fun _ => act ⟨he, trivial⟩ fun _ _ => trivial) fun _ => ?_
    · refine loop (fun r => ∀ T, r = some T → tb F T) (fun _ h => by cases h; exact hT) fun r hr => ?_
      cases r with
      | none => exact ret trivial
      | some n =>
        refine step ⟨trivial, trivial⟩ fun b _ => ite (fun _ => ret trivial) fun _ => ?_
        exact step ⟨hasTab (hr n rfl), trivial⟩ fun r hr => ret hr
    · refine loop (tb F) (hr R rfl) fun P hP => step ⟨hasTab hP, trivial⟩ fun r hr => ?_
      cases r with
      | none => exact panic np
      | some N =>
        refine step ⟨trivial, trivial⟩ fun b _ => ite (fun _ => ?_) fun _ => ret (hr N rfl)
        exact step ⟨⟨hasTab hP, he⟩, trivial⟩ fun _ _ => ret trivial

/-! ## get -/

/-- A reference to a known entry of key `k`. -/
def EntK (F : Kn K V) (k : K) (e : Entry K V) : Prop := F.view.ent e ∧ e.key = k

theorem kn_getProbe {k : K} {T : Table} (hT : tb F T) :
    KN (getProbe (V := V) C k T) (fun x => ∀ e, x = .found e → EntK F k e) := by
  unfold getProbe
  refine loop (fun p => p.i < T.len) start_lt fun probe hp => ?_
  refine ite (fun _ => ?_) fun _ => ret fun e h => by cases h
  refine step ⟨hasIx hT hp, trivial⟩ fun m _ => ite (fun _ => ?_) fun _ => ite (fun _ => ret fun e h => by cases h) fun _ => ret next_lt
  refine step ⟨hasIx hT hp, trivial⟩ fun s hs => ?_
  have hs : F.SlotIn T.id probe.i s := hs
  cases h : s.ptr with
  | none => exact ret next_lt
  | some e =>
    refine step ⟨(hs e h).1, trivial⟩ fun _ _ => ?_
    refine ite (fun hk => ite (fun _ => ret fun e h => by cases h) fun _ => ret fun e' h' => ?_) fun _ =>
      ite (fun _ => ret fun e h => by cases h) fun _ => ret next_lt
    cases h'
    exact ⟨(hs e h).1, hk⟩

theorem kn_get {k : K} : KN (get (V := V) C k) (fun x => ∀ e, x = some e → EntK F k e) := by
  unfold get
  refine step ⟨trivial, trivial⟩ fun r hr => ?_
  have hr : ∀ T, r = some T → tb F T := hr
  cases r with
  | none => exact ret fun _ h => by cases h
  | some T =>
  refine loop (tb F) (hr T rfl) fun T hT => bind _ (kn_getProbe hT) fun x hx => ?_
  cases x with
  | found e => exact ret fun _ h => by cases h; exact hx e rfl
  | absent => exact ret fun _ h => by cases h
  | nextTable =>
    refine ite (fun _ => ?_) fun _ => ret fun _ h => by cases h
    refine step ⟨hasTab hT, trivial⟩ fun r hr => ?_
    cases r with
    | none => exact ret fun _ h => by cases h
    | some N => exact ret (hr N rfl)

/-! ## Writing -/

/-- What was found in slot `(T, i)`. -/
def StIn (F : Kn K V) (T i : Nat) : EStat K V → Prop
  | .null => True
  | .copied e s | .value e s => F.view.ent e ∧ F.key T i = some e.key ∧ s.ptr = some e

theorem stIn_from {T i : Nat} {s : Slot K V} (h : F.SlotIn T i s) : StIn F T i (EStat.from s) := by
  unfold EStat.from
  cases hs : s.ptr with
  | none => trivial
  | some e =>
    have := h e hs
    dsimp only
    split <;> exact ⟨this.1, this.2, hs⟩

theorem kn_insertAt {i m : Nat} {k : K} {v : V} {T : Table} (hT : tb F T) (hi : i < T.len) (hD : D k v) :
    KN (insertAt C i m k v T) (fun x => match x with
      | .inserted e => EntK F k e ∧ e.val = v
      | .found st => StIn F T.id i st) := by
  unfold insertAt
  refine step ⟨hasIx hT hi, .inl rfl, hD⟩ fun r hr => ?_
  cases r with
  | inl e =>
    obtain ⟨h1, h2, h3, h4⟩ : F.view.ent e ∧ e.key = k ∧ e.val = v ∧ F.key T.id i = some k := hr
    exact step ⟨hasIx hT hi, trivial⟩ fun _ _ => ret ⟨⟨h1, h2⟩, h3⟩
  | inr s =>
    have hs : F.SlotIn T.id i s := hr
    dsimp only
    cases h : s.ptr with
    | none =>
      exact step ⟨hasIx hT hi, trivial⟩ fun _ _ => ite (fun _ => step ⟨hasIx hT hi, trivial⟩ fun _ _ => ret trivial) fun _ => ret trivial
    | some e =>
      have := hs e h
      refine step ⟨this.1, trivial⟩ fun _ _ => step ⟨hasIx hT hi, trivial⟩ fun _ _ => ?_
      exact ite (fun _ => step ⟨hasIx hT hi, trivial⟩ fun _ _ => ret ⟨this.1, this.2, h⟩) fun _ => ret ⟨this.1, this.2, h⟩

theorem kn_updateAtNew {i : Nat} {e : Entry K V} {cur : Slot K V} {k : K} {v : V} {T : Table} (hT : tb F T) (hi : i < T.len)
    (he : F.view.ent e) (hk : F.key T.id i = some k) (hD : D k v) :
    KN (updateAtNew C i e cur k v T) (fun x => match x with
      | .replaced new => ∃ e', new = some e' ∧ EntK F k e' ∧ e'.val = v
      | .found st => StIn F T.id i st) := by
  unfold updateAtNew
  refine step ⟨hasIx hT hi, .inr hk, hD⟩ fun r hr => ?_
  cases r with
  | inl new =>
    obtain ⟨h1, h2, h3, h4⟩ : F.view.ent new ∧ new.key = k ∧ new.val = v ∧ F.key T.id i = some k := hr
    exact bind _ (kn_deferRetire hT he) fun _ _ => ret ⟨new, rfl, ⟨h1, h2⟩, h3⟩
  | inr s => exact ret (stIn_from hr)

theorem kn_updateAtTomb {i : Nat} {e : Entry K V} {cur : Slot K V} {T : Table} (hT : tb F T) (hi : i < T.len)
    (he : F.view.ent e) :
    KN (updateAtTomb C i e cur T) (fun x => match x with
      | .replaced _ => True
      | .found st => StIn F T.id i st) := by
  unfold updateAtTomb
  refine step ⟨⟨hasIx hT hi, fun _ h => by cases h⟩, .inl ⟨rfl, by simp [Slot.tombstone, Slot.null]⟩⟩ fun r hr => ?_
  cases r with
  | none => exact bind _ (kn_deferRetire hT he) fun _ _ => ret trivial
  | some s => exact ret (stIn_from (hr s rfl))

theorem kn_prepareRetryInsert {T : Table} (hT : tb F T) {b : Bool} {c : Option Nat} (hc : ∀ i, c = some i → i < T.len) :
    KN (prepareRetryInsert C c b T) (tb F) := by
  unfold prepareRetryInsert
  refine bind _ (kn_getOrAllocNext hT) fun N hN => ?_
  cases C.mode with
  | blocking => exact kn_helpCopy hT
  | incremental ch =>
    refine bind (tb F) (ite (fun _ => kn_helpCopy hT) fun _ => ret hN) fun N hN => ?_
    cases c with
    | none => exact ret hN
    | some i => exact bind _ (kn_waitCopied hT (hc i rfl)) fun _ _ => ret hN

theorem kn_prepareRetry {T : Table} (hT : tb F T) {b : Bool} {c : Option Nat} (hc : ∀ i, c = some i → i < T.len) :
    KN (prepareRetry C c b T) (fun r => ∀ N, r = some N → tb F N) := by
  unfold prepareRetry
  cases C.mode with
  | blocking =>
    cases c with
    | none => exact ret fun _ h => by cases h
    | some i => exact bind _ (kn_helpCopy hT) fun N hN => ret fun _ h => by cases h; exact hN
  | incremental ch =>
    refine step ⟨hasTab hT, trivial⟩ fun r hr => ?_
    have hr : ∀ T, r = some T → tb F T := hr
    cases r with
    | none => exact ret fun _ h => by cases h
    | some N =>
    cases b with
    | false =>
      cases c with
      | none => exact ret hr
      | some i => exact bind (fun _ => True) (ret' trivial) fun _ _ => bind _ (kn_waitCopied hT (hc i rfl)) fun _ _ => ret hr
    | true =>
      refine bind _ (kn_helpCopy hT) fun _ _ => ?_
      cases c with
      | none => exact ret hr
      | some i => exact bind _ (kn_waitCopied hT (hc i rfl)) fun _ _ => ret hr

/-- How the probe loop of a writer ends. -/
def WOk {R : Type} (T : Table) (Q : R → Prop) : WOut R → Prop
  | .done r => Q r
  | .retry c => ∀ i, c = some i → i < T.len

/-- Results of `insert`. -/
def InsOk (F : Kn K V) (k : K) (b : Bool) : InsRes K V → Prop
  | .inserted e => EntK F k e
  | .replaced old new => (EntK F k old ∧ EntK F k new) ∧ b = true
  | .error cur _ => EntK F k cur ∧ b = false

theorem kn_insertSlow {i : Nat} {e : Entry K V} {cur : Slot K V} {k : K} {v : V} {T : Table} (hT : tb F T) (hi : i < T.len)
    (he : EntK F k e) (hk : F.key T.id i = some k) (hD : D k v) :
    KN (insertSlow C i e cur k v T) (fun x => match x with
      | .inl (old, new) => EntK F k old ∧ EntK F k new
      | .inr st => StIn F T.id i st) := by
  unfold insertSlow
  refine loop (fun x : Entry K V × Slot K V => EntK F k x.1) he ?_
  rintro ⟨e, cur⟩ he
  refine bind _ (kn_updateAtNew hT hi he.1 hk hD) fun x hx => ?_
  cases x with
  | replaced new =>
    obtain ⟨e', rfl, h1, _⟩ := hx
    exact ret ⟨he, h1⟩
  | found st =>
    cases st with
    | null => exact ret trivial
    | copied e s => exact ret hx
    | value e s =>
      obtain ⟨h1, h2, _⟩ := hx
      exact ret ⟨h1, Option.some.inj (h2.symm.trans hk)⟩

theorem kn_insertFound {k : K} {v : V} {b : Bool} {T : Table} {probe : Probe} {e : Entry K V} {s : Slot K V}
    (hT : tb F T) (hp : probe.i < T.len) (he : F.view.ent e) (hk : F.key T.id probe.i = some e.key) (hD : D k v) :
    KN (insertFound C k v b T probe e s) (fun x => Sum.elim (fun p : Probe => p.i < T.len) (WOk T (InsOk F k b)) x) := by
  unfold insertFound
  refine step ⟨he, trivial⟩ fun _ _ => ite (fun hek => ?_) fun _ => ret next_lt
  refine ite (fun _ => ret fun i h => by cases h; exact hp) fun _ => ite (fun hb => ret ⟨⟨he, hek⟩, hb⟩) fun hb => ?_
  refine bind _ (kn_insertSlow hT hp ⟨he, hek⟩ (hek ▸ hk) hD) fun x hx => ?_
  rcases x with ⟨old, new⟩ | st
  · exact ret ⟨hx, by simpa using hb⟩
  · cases st with
    | null => exact ret next_lt
    | copied e s => exact ret fun i h => by cases h; exact hp
    | value e s => exact ret hp

theorem kn_insertProbe {k : K} {v : V} {b : Bool} {T : Table} (hT : tb F T) (hD : D k v) :
    KN (insertProbe C k v b T) (WOk T (InsOk F k b)) := by
  unfold insertProbe
  refine loop (fun p => p.i < T.len) start_lt fun probe hp => ?_
  refine ite (fun _ => ?_) fun _ => ret fun i h => by cases h
  refine step ⟨hasIx hT hp, trivial⟩ fun m _ => ite (fun _ => ?_) fun _ => ite (fun _ => ?_) fun _ => ret next_lt
  · refine bind _ (kn_insertAt hT hp hD) fun x hx => ?_
    cases x with
    | inserted e => exact ret hx.1
    | found st =>
      cases st with
      | null => exact ret next_lt
      | copied e s => exact kn_insertFound hT hp hx.1 hx.2.1 hD
      | value e s => exact kn_insertFound hT hp hx.1 hx.2.1 hD
  · refine step ⟨hasIx hT hp, trivial⟩ fun s hs => ?_
    have hs : F.SlotIn T.id probe.i s := hs
    cases h : s.ptr with
    | none => exact ret next_lt
    | some e => exact kn_insertFound hT hp (hs e h).1 (hs e h).2 hD

theorem kn_insert {k : K} {v : V} {b : Bool} (hD : D k v) : KN (insert C k v b) (InsOk F k b) := by
  unfold insert
  refine bind (InsOk F k b) ?_ fun r hr => ?_
  · unfold insertInner
    refine bind (tb F) ?_ fun T hT => ?_
    · refine step ⟨trivial, trivial⟩ fun r hr => ?_
      cases r with
      | none => exact kn_initTable
      | some T => exact ret (hr T rfl)
    · refine loop (fun x : Table × Bool => tb F x.1) hT ?_
      rintro ⟨T, help⟩ hT
      refine bind _ (kn_insertProbe hT hD) fun x hx => ?_
      cases x with
      | done r => exact ret hx
      | retry c => exact bind _ (kn_prepareRetryInsert hT hx) fun N hN => ret hN
  · cases r with
    | inserted e => exact step ⟨trivial, trivial⟩ fun _ _ => ret hr
    | replaced old new => exact ret hr
    | error cur v => exact ret hr

/-! ## Removing -/

theorem kn_invoke {I O : Type} {f : Closure I O} (hf : f.WF) {s : f.Tr} {i : I} :
    KN (f.invoke s i) (fun x => ∃ st', f.call s.st i = .ok (st', x.2) ∧ x.1 = ⟨st', s.calls ++ [(i, x.2)]⟩) := by
  unfold Closure.invoke
  cases h : f.call s.st i with
  | ok x => exact ret ⟨_, rfl, rfl⟩
  | error r => rw [hf _ _ _ h]; exact panic np

/-- Results of `remove_if`. -/
def RemOk (F : Kn K V) (k : K) (B : Bool → Prop) : RemRes K V → Prop
  | .absent => True
  | .removed e => EntK F k e
  | .kept e => EntK F k e ∧ B false

/-- The answers of the closure are among `B`. -/
abbrev Ans (f : Closure (K × V) Bool) (B : Bool → Prop) : Prop := ∀ s i s' b, f.call s i = .ok (s', b) → B b

theorem kn_removeLoop {f : Closure (K × V) Bool} (hf : f.WF) {B : Bool → Prop} (hB : Ans f B) {T : Table} {i : Nat}
    (hT : tb F T) (hi : i < T.len) {st : f.Tr} {k : K} {e : Entry K V} {s : Slot K V} (he : EntK F k e)
    (hk : F.key T.id i = some k) : KN (removeLoop C f T i st e s) (fun x => WOk T (RemOk F k B) x.2) := by
  unfold removeLoop
  refine loop (fun x : f.Tr × Entry K V × Slot K V => EntK F k x.2.1) he ?_
  rintro ⟨st, e, s⟩ he
  refine step ⟨he.1, trivial⟩ fun _ _ => bind _ (kn_invoke hf) ?_
  rintro ⟨st, b⟩ ⟨st', h1, _⟩
  refine ite (fun hb => ret ⟨he, ?_⟩) fun _ => ?_
  · have := hB _ _ _ _ h1
    exact hb ▸ this
  refine bind _ (kn_updateAtTomb hT hi he.1) fun x hx => ?_
  cases x with
  | replaced new => exact step ⟨hasIx hT hi, trivial⟩ fun _ _ => step ⟨trivial, trivial⟩ fun _ _ => ret he
  | found st =>
    cases st with
    | null => exact ret trivial
    | copied e s => exact ret fun i' h => by cases h; exact hi
    | value e s => exact ret ⟨hx.1, Option.some.inj (hx.2.1.symm.trans hk)⟩

theorem kn_removeProbe {f : Closure (K × V) Bool} (hf : f.WF) {B : Bool → Prop} (hB : Ans f B) {T : Table}
    (hT : tb F T) {st : f.Tr} {k : K} : KN (removeProbe C k f st T) (fun x => WOk T (RemOk F k B) x.2) := by
  unfold removeProbe
  refine loop (fun p => p.i < T.len) start_lt fun probe hp => ?_
  refine ite (fun _ => ?_) fun _ => ret fun i h => by cases h
  refine step ⟨hasIx hT hp, trivial⟩ fun m _ => ite (fun _ => ret trivial) fun _ => ite (fun _ => ret next_lt) fun _ => ?_
  refine step ⟨hasIx hT hp, trivial⟩ fun s hs => ?_
  have hs : F.SlotIn T.id probe.i s := hs
  cases h : s.ptr with
  | none => exact ret next_lt
  | some e =>
    have := hs e h
    refine step ⟨this.1, trivial⟩ fun _ _ => ite (fun _ => ret next_lt) fun hk => ite (fun _ => ret fun i h => by cases h; exact hp) fun _ => ?_
    have hk : e.key = k := not_not.1 hk
    exact bind _ (kn_removeLoop hf hB hT hp ⟨this.1, hk⟩ (hk ▸ this.2)) fun x hx => ret hx

theorem kn_removeIf {f : Closure (K × V) Bool} (hf : f.WF) {B : Bool → Prop} (hB : Ans f B) {k : K} :
    KN (removeIf C k f) (fun x => RemOk F k B x.out) := by
  unfold removeIf
  refine step ⟨trivial, trivial⟩ fun r hr => ?_
  have hr : ∀ T, r = some T → tb F T := hr
  cases r with
  | none => exact ret trivial
  | some T =>
  refine loop (fun x : Table × Bool × f.Tr => tb F x.1) (hr T rfl) ?_
  rintro ⟨T, help, st⟩ hT
  refine bind _ (kn_removeProbe hf hB hT) ?_
  rintro ⟨st, x⟩ hx
  cases x with
  | done r => exact ret hx
  | retry c =>
    refine bind _ (kn_prepareRetry hT hx) fun r hr => ?_
    cases r with
    | none => exact ret trivial
    | some N => exact ret (hr N rfl)

theorem kn_remove {k : K} : KN (remove (V := V) C k) (fun x => ∀ e, x = some e → EntK F k e) := by
  unfold remove
  refine bind _ (kn_removeIf (B := fun b => b = true) (fun s i r h => by cases h) fun s i s' b h => by cases h; rfl) fun x hx => ?_
  cases h : x.out with
  | absent => exact ret fun _ h => by cases h
  | removed e => rw [h] at hx; exact ret fun _ h => by cases h; exact hx
  | kept e => rw [h] at hx; cases hx.2

/-! ## Bulk operations -/

theorem kn_reserve {n : Nat} : KN (reserve (V := V) C n) (fun _ => True) := by
  unfold reserve
  refine bind (tb F) ?_ fun T hT => ?_
  · refine step ⟨trivial, trivial⟩ fun r hr => ?_
    cases r with
    | some T => exact ret (hr T rfl)
    | none =>
      dsimp only
      cases entriesFor n with
      | none => exact panic np
      | some c => exact kn_initTable
  · refine loop (tb F) hT fun T hT => bind _ kn_len fun m _ => ite (fun _ => ?_) fun _ => panic np
    cases entriesFor (m + n) with
    | none => exact panic np
    | some c =>
      refine ite (fun _ => ret trivial) fun _ => ?_
      exact bind _ (kn_getOrAllocNext hT) fun _ _ => bind _ (kn_helpCopy hT) fun N hN => ret hN

theorem kn_deleteLoop {f : Closure (K × V) Bool} (hf : f.WF) {T : Table} {i : Nat} (hT : tb F T) (hi : i < T.len) {st : f.Tr}
    {s : Slot K V} (hs : F.SlotIn T.id i s) : KN (deleteLoop C f T i st s) (fun _ => True) := by
  unfold deleteLoop
  refine loop (fun x : f.Tr × Slot K V => F.SlotIn T.id i x.2) hs ?_
  rintro ⟨st, s⟩ hs
  have hs : F.SlotIn T.id i s := hs
  dsimp only
  cases h : s.ptr with
  | none => exact ret trivial
  | some e =>
    refine ite (fun _ => ret trivial) fun _ => ?_
    have he := hs e h
    refine step ⟨he.1, trivial⟩ fun _ _ => bind _ (kn_invoke hf) ?_
    rintro ⟨st, b⟩ _
    refine ite (fun _ => ret trivial) fun _ => ?_
    refine step ⟨⟨hasIx hT hi, fun _ h => by cases h⟩, .inl ⟨rfl, by simp [Slot.tombstone, Slot.null]⟩⟩ fun r hr => ?_
    cases r with
    | none => exact step ⟨hasIx hT hi, trivial⟩ fun _ _ => step ⟨trivial, trivial⟩ fun _ _ => bind _ (kn_deferRetire hT he.1) fun _ _ => ret trivial
    | some found => exact ret (hr found rfl)

theorem kn_clear : KN (clear (V := V) C) (fun _ => True) := by
  unfold clear
  refine step ⟨trivial, trivial⟩ fun r hr => ?_
  have hr : ∀ T, r = some T → tb F T := hr
  cases r with
  | none => exact ret trivial
  | some T =>
  refine loop (tb F) (hr T rfl) fun T hT => bind _ (kn_linearize hT) fun T hT => bind (fun _ => True) ?_ fun b _ =>
    ite (fun _ => bind _ (kn_helpCopy hT) fun N hN => ret hN) fun _ => ret trivial
  unfold clearPass
  refine loop (fun _ => True) trivial ?_
  rintro ⟨i, b⟩ _
  refine ite (fun hi => ?_) fun _ => ret trivial
  refine step ⟨hasIx hT hi, trivial⟩ fun s hs => bind _ (kn_deleteLoop (fun s i r h => by cases h) hT hi hs) fun x _ => ret trivial

theorem kn_retain {f : Closure (K × V) Bool} (hf : f.WF) : KN (retain C f) (fun _ => True) := by
  unfold retain
  refine step ⟨trivial, trivial⟩ fun r hr => ?_
  have hr : ∀ T, r = some T → tb F T := hr
  cases r with
  | none => exact ret trivial
  | some T =>
  refine loop (fun x : Table × f.Tr => tb F x.1) (hr T rfl) ?_
  rintro ⟨T, st⟩ hT
  refine bind _ (kn_linearize hT) fun T hT => bind (fun _ => True) ?_ fun b _ =>
    ite (fun _ => bind _ (kn_helpCopy hT) fun N hN => ret hN) fun _ => ret trivial
  unfold retainPass
  refine loop (fun _ => True) trivial ?_
  rintro ⟨i, st, b⟩ _
  refine ite (fun hi => ?_) fun _ => ret trivial
  refine step ⟨hasIx hT hi, trivial⟩ fun m _ => ite (fun _ => ret trivial) fun _ => ?_
  exact step ⟨hasIx hT hi, trivial⟩ fun s hs => bind _ (kn_deleteLoop hf hT hi hs) fun x _ => ret trivial

theorem kn_iterUpTo {lim : Option Nat} : KN (iterUpTo (V := V) C lim) (fun l => ∀ e ∈ l, F.view.ent e) := by
  unfold iterUpTo
  refine step ⟨trivial, trivial⟩ fun r hr => ?_
  have hr : ∀ T, r = some T → tb F T := hr
  cases r with
  | none => exact ret fun _ h => by cases h
  | some T =>
  refine bind _ (kn_linearize (hr T rfl)) fun T hT => ?_
  refine loop (fun x : Nat × List (Entry K V) => ∀ e ∈ x.2, F.view.ent e) (fun _ h => by cases h) ?_
  rintro ⟨i, acc⟩ ha
  refine ite (fun _ => ret ha) fun _ => ?_
  refine ite (fun hi => ?_) fun _ => ret ha
  refine step ⟨hasIx hT hi, trivial⟩ fun m _ => ite (fun _ => ret ha) fun _ => ?_
  refine step ⟨hasIx hT hi, trivial⟩ fun s hs => ?_
  have hs : F.SlotIn T.id i s := hs
  cases h : s.ptr with
  | none => exact ret ha
  | some e =>
    refine step ⟨(hs e h).1, trivial⟩ fun _ _ => ret fun x hx => ?_
    rcases List.mem_append.1 hx with hx | hx
    · exact ha x hx
    · rw [List.mem_singleton.1 hx]; exact (hs e h).1

end Wk

end Papaya
