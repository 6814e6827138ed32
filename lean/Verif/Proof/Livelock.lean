import Verif.Proof.Observe
import Verif.Model.Ops

/-! # An insertion that never ends, blocking mode

As long as every table has `n` slots, the counters add up to a number for which the capacity chosen for the next table is `n`
again, and no slot accepts the key `kx`, `insert kx` goes on forever. -/

set_option linter.unusedSectionVars false
set_option linter.unusedVariables false

namespace Papaya

variable {K V : Type} [DecidableEq K]

/-- A table handle with `n` slots. -/
def GoodT (n : Nat) (T : Table) : Prop := T.mask = n - 1 ∧ T.limit = limit n

/-- No entry of key `kx`. -/
def Other (kx : K) (s : Slot K V) : Prop := ∀ e, s.ptr = some e → e.key ≠ kx

/-- What the actions of `insert kx` do and observe. -/
def llSys (n : Nat) (kx : K) (sh : Nat → Int) : ObsSys K V where
  ok := fun a => match a with
    | .storeNext _ c => c = n
    | .addCount _ => False
    | .poison _ => False
    | .casRootInit _ => False
    | .cas _ _ _ _ new => Other kx new
    | .casNew _ _ _ exp k _ => exp = Slot.null ∧ k = kx
    | .storeSlot _ _ s => Other kx s
    | _ => True
  res := fun a r => match a, r with
    | .loadRoot, r => ∃ T, r = some T ∧ GoodT n T
    | .loadNext _, r => ∀ T, r = some T → GoodT n T
    | .storeNext _ _, r => GoodT n r
    | .loadShard j, r => r = sh j
    | .loadSlot _ _, r => Other kx r
    | .fetchOrCopying _ _, r => Other kx r
    | .cas _ _ _ _ _, r => ∀ s, r = some s → Other kx s
    | .casNew _ _ _ _ _ _, r => ∃ s, r = .inr s ∧ Other kx s
    | .lockWait _, r => r = true
    | _, _ => True

variable {C : Cfg K} {n : Nat} {kx : K} {sh : Nat → Int}

local notation "LL" => Obs' (llSys (V := V) n kx sh)

open Obs'

/-- The parameters for which the capacity stays the same. -/
structure LLParams (C : Cfg K) (n : Nat) (sh : Nat → Int) : Prop where
  mode : C.mode = .blocking
  cap8 : 8 ≤ n
  pow : isPow2B n = true
  max : n ≤ isizeMax
  layout : C.layoutOk n = true
  same : nextCapacity C.initialCapacity n (((List.range (C.shards + 1)).map sh).sum).toNat = n

theorem ll_len : LL (len C) (fun m => m = (((List.range (C.shards + 1)).map sh).sum).toNat) := by
  unfold len
  refine bind (fun x => x = ((List.range (C.shards + 1)).map sh).sum) ?_ fun x hx => ret (by rw [hx])
  refine loop (fun x : Nat × Int => x.1 ≤ C.shards + 1 ∧ x.2 = ((List.range x.1).map sh).sum) ⟨by simp, by simp⟩ ?_
  rintro ⟨j, acc⟩ ⟨h1, h2⟩
  dsimp only at h1 h2 ⊢
  refine ite (fun h => ?_) fun h => ?_
  · refine step trivial fun r hr => ret ?_
    have hr : r = sh j := hr
    refine ⟨by omega, ?_⟩
    show acc + r = _
    rw [List.range_succ, List.map_append, List.sum_append, h2, hr]
    simp
  · refine ret ?_
    have : j = C.shards + 1 := by omega
    subst this
    exact h2

theorem ll_allocNextLocked (hp : LLParams C n sh) {T : Table} (hT : GoodT n T) : LL (allocNextLocked C none T) (GoodT n) := by
  unfold allocNextLocked
  refine step trivial fun r hr => ?_
  have hr : ∀ T, r = some T → GoodT n T := hr
  cases r with
  | some N => exact step trivial fun _ _ => ret (hr N rfl)
  | none =>
    refine bind _ ll_len fun m hm => ?_
    have hl : T.len = n := by have := hp.cap8; unfold Table.len; rw [hT.1]; omega
    have hn : (none : Option Nat).getD (nextCapacity C.initialCapacity T.len m) = n := by
      rw [hl, hm]; exact hp.same
    have hmax : max n 8 = n := by have := hp.cap8; omega
    dsimp only
    rw [hn, hmax, if_pos hp.max, if_pos hp.pow, if_pos hp.layout]
    exact step rfl fun N hN => step trivial fun _ _ => ret hN

theorem ll_getOrAllocNext (hp : LLParams C n sh) {T : Table} (hT : GoodT n T) : LL (getOrAllocNext C none T) (GoodT n) := by
  unfold getOrAllocNext
  refine step trivial fun r hr => ?_
  have hr : ∀ T, r = some T → GoodT n T := hr
  cases r with
  | some N => exact ret (hr N rfl)
  | none =>
    refine step trivial fun b _ => ?_
    refine ite (fun _ => ll_allocNextLocked hp hT) fun _ => ?_
    refine bind (fun x => ∀ N, x = some N → GoodT n N) ?_ fun x hx => ?_
    · refine loop (fun _ => True) trivial fun sp _ => ?_
      refine ite (fun _ => ?_) fun _ => ret fun N h => by cases h
      refine step trivial fun r hr => ?_
      cases r with
      | some N => exact ret hr
      | none => exact ret trivial
    · cases x with
      | some N => exact ret (hx N rfl)
      | none =>
        refine step trivial fun b hb => ?_
        have hb : b = true := hb
        rw [if_pos hb]
        exact ll_allocNextLocked hp hT

theorem ll_tryPromote {T N : Table} {c : Nat} : LL (tryPromote T N c) (fun _ => True) := by
  unfold tryPromote
  refine bind (fun _ => True) (ite (fun _ => step trivial fun _ _ => ret trivial) fun _ => act trivial fun _ _ => trivial) fun x _ => ?_
  refine ite (fun _ => ?_) fun _ => ret trivial
  refine step trivial fun r _ => ?_
  cases r with
  | none => exact ret trivial
  | some R =>
  refine step trivial fun b _ => ?_
  refine ite (fun _ => ?_) fun _ => ret trivial
  refine step trivial fun b _ => ?_
  refine ite (fun _ => ?_) fun _ => step trivial fun _ _ => ret trivial
  exact step trivial fun _ _ => step trivial fun _ _ => step trivial fun _ _ => ret trivial

theorem ll_insertCopy {e : Entry K V} {s : Slot K V} (hs : Other kx s) {T : Table} :
    LL (insertCopy C e s false T) (fun _ => True) := by
  unfold insertCopy
  refine step trivial fun _ _ => loop (fun _ => True) trivial fun T _ => ?_
  refine bind (fun _ => True) ?_ fun out _ => ?_
  · refine loop (fun _ => True) trivial fun probe _ => ?_
    refine ite (fun _ => ?_) fun _ => ret trivial
    refine step trivial fun m _ => ?_
    refine ite (fun _ => ?_) fun _ => ret trivial
    refine step hs fun r _ => ?_
    cases r with
    | none => exact step trivial fun _ _ => ret trivial
    | some found =>
      refine bind (fun _ => True) ?_ fun m _ => ?_
      · cases found.ptr with
        | none => exact ret trivial
        | some e' => exact step trivial fun _ _ => ret trivial
      · refine step trivial fun _ _ => ?_
        exact ite (fun _ => step trivial fun _ _ => ret trivial) fun _ => ret trivial
  · cases out with
    | some i => exact ret trivial
    | none => exact ite (fun h => by cases h) fun _ => ret trivial

theorem ll_copyAtBlocking {i : Nat} {T N : Table} : LL (copyAtBlocking C i T N) (fun _ => True) := by
  unfold copyAtBlocking
  refine step trivial fun s hs => ?_
  have hs : Other kx s := hs
  cases h : s.ptr with
  | none =>
    exact ite (fun _ => ret trivial) fun _ => step trivial fun _ _ => ret trivial
  | some e =>
    have : Other kx (Slot.untagged e) := by
      intro e' he'
      have : e = e' := by simpa [Slot.untagged] using he'
      exact this ▸ hs e h
    exact bind _ (ll_insertCopy this) fun r _ => ret trivial

theorem ll_copyChunkBlocking {T N : Table} {a c : Nat} : LL (copyChunkBlocking C T N a c) (fun _ => True) := by
  unfold copyChunkBlocking
  refine loop (fun _ => True) trivial fun j _ => ?_
  refine ite (fun _ => ite (fun _ => ?_) fun _ => ret trivial) fun _ => ret trivial
  exact bind _ ll_copyAtBlocking fun b _ => ite (fun _ => ret trivial) fun _ => ret trivial

theorem ll_helpCopyBlocking (hp : LLParams C n sh) {T : Table} : LL (helpCopyBlocking C T) (GoodT n) := by
  unfold helpCopyBlocking
  refine step trivial fun r hr => ?_
  have hr : ∀ T, r = some T → GoodT n T := hr
  cases r with
  | none => exact panic (.inr rfl)
  | some N =>
    refine loop (GoodT n) (hr N rfl) fun N hN => ?_
    refine bind (GoodT n) ?_ fun N hN => ?_
    · refine loop (GoodT n) hN fun N hN => ?_
      refine step trivial fun st _ => ite (fun _ => ?_) fun _ => ret hN
      exact bind _ (ll_getOrAllocNext hp hN) fun N' hN' => ret hN'
    · refine bind _ ll_tryPromote fun b _ => ite (fun _ => ret hN) fun _ => ?_
      dsimp only
      refine bind (fun out => match out with | .brk => True | .retry N' => GoodT n N' | .done N' => GoodT n N') ?_ fun out ho => ?_
      · refine loop (fun _ => True) trivial fun _ _ => ?_
        refine step trivial fun cl _ => ite (fun _ => ret trivial) fun _ => ?_
        refine step trivial fun start _ => bind _ ll_copyChunkBlocking fun r _ => ?_
        cases r with
        | none => exact step trivial fun _ _ => bind _ (ll_getOrAllocNext hp hN) fun N' hN' => step trivial fun _ _ => ret hN'
        | some c =>
          refine bind _ ll_tryPromote fun b _ => ite (fun _ => ret hN) fun _ => ?_
          exact step trivial fun _ _ => ite (fun _ => ret hN) fun _ => ret trivial
      · cases out with
        | done N' => exact ret ho
        | retry N' => exact ret ho
        | brk =>
          refine bind (fun _ => True) ?_ fun ok _ => ite (fun _ => ret hN) fun _ => ret hN
          refine loop (fun _ => True) trivial fun _ _ => step trivial fun st _ => ?_
          cases st with
          | pending => exact ite (fun _ => ret trivial) fun _ => step trivial fun _ _ => ret trivial
          | promoted => exact ret trivial
          | aborted => exact ret trivial

theorem ll_prepareRetryInsert (hp : LLParams C n sh) {T : Table} (hT : GoodT n T) {b : Bool} {c : Option Nat} :
    LL (prepareRetryInsert C c b T) (GoodT n) := by
  unfold prepareRetryInsert
  refine bind _ (ll_getOrAllocNext hp hT) fun N _ => ?_
  rw [hp.mode]
  unfold helpCopy
  rw [hp.mode]
  exact ll_helpCopyBlocking hp

theorem ll_insertFound {v : V} {b : Bool} {T : Table} {probe : Probe} {e : Entry K V} {s : Slot K V} (he : e.key ≠ kx) :
    LL (insertFound C kx v b T probe e s) (fun x => ∃ p, x = Sum.inl p) := by
  unfold insertFound
  refine step trivial fun _ _ => ?_
  rw [if_neg he]
  exact ret ⟨_, rfl⟩

theorem ll_insertProbe {v : V} {b : Bool} {T : Table} : LL (insertProbe C kx v b T) (fun x => x = .retry none) := by
  unfold insertProbe
  refine loop (fun _ => True) trivial fun probe _ => ?_
  refine ite (fun _ => ?_) fun _ => ret rfl
  refine step trivial fun m _ => ite (fun _ => ?_) fun _ => ite (fun _ => ?_) fun _ => ret trivial
  · refine bind (fun x => x = .found .null ∨ ∃ e s, x = .found (.value e s) ∧ e.key ≠ kx) ?_ fun x hx => ?_
    · unfold insertAt
      refine step ⟨rfl, rfl⟩ fun r hr => ?_
      obtain ⟨s, rfl, hs⟩ : ∃ s, r = .inr s ∧ Other kx s := hr
      dsimp only
      cases h : s.ptr with
      | none =>
        exact step trivial fun _ _ => ite (fun _ => step trivial fun _ _ => ret (.inl rfl)) fun _ => ret (.inl rfl)
      | some e =>
        refine step trivial fun _ _ => step trivial fun _ _ => ?_
        exact ite (fun _ => step trivial fun _ _ => ret (.inr ⟨_, _, rfl, hs e h⟩)) fun _ => ret (.inr ⟨_, _, rfl, hs e h⟩)
    · rcases hx with rfl | ⟨e, s, rfl, he⟩
      · exact ret trivial
      · exact (ll_insertFound he).post fun x ⟨p, hx⟩ => by rw [hx]; trivial
  · refine step trivial fun s hs => ?_
    have hs : Other kx s := hs
    cases h : s.ptr with
    | none => exact ret trivial
    | some e => exact (ll_insertFound (hs e h)).post fun x ⟨p, hx⟩ => by rw [hx]; trivial

/-- `insert kx` neither returns nor panics. -/
theorem ll_insert (hp : LLParams C n sh) {v : V} {b : Bool} : LL (insert C kx v b) (fun _ => False) := by
  unfold insert
  refine bind (fun _ => False) ?_ fun _ h => h.elim
  unfold insertInner
  refine bind (GoodT n) ?_ fun T hT => ?_
  · refine step trivial fun r hr => ?_
    obtain ⟨T, rfl, hT⟩ : ∃ T, r = some T ∧ GoodT n T := hr
    exact ret hT
  · refine loop (fun x : Table × Bool => GoodT n x.1) hT ?_
    rintro ⟨T, help⟩ hT
    refine bind _ ll_insertProbe fun x hx => ?_
    subst hx
    exact bind _ (ll_prepareRetryInsert hp hT) fun N hN => ret hN

end Papaya
