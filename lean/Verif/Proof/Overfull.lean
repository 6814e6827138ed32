import Verif.Proof.Observe
import Verif.Model.Api

/-! # Operations that never end, incremental mode

An observation logic in which the index of the root table is visible: `OW D r p Q` — if the root is table `r`, and every action
has a result allowed by `D`, then `p` performs only allowed actions, returns `x` only with `Q x r'`, where `r'` is the root then,
and panics only because of an internal error. The programs that finish all pending copies (`linearize`, `reserve`) go on forever as
long as the root table has a successor. -/

set_option linter.unusedSectionVars false
set_option linter.unusedVariables false

namespace Papaya

variable {K V : Type}

/-- Allowed actions; possible results, if the root is `r` before and `r'` after the action. -/
structure ObsW (K V : Type) where
  ok : {β : Type} → Act K V β → Prop
  res : Nat → Nat → {β : Type} → Act K V β → β → Prop

def ObW (D : ObsW K V) {α : Type} : Nat → Nat → Prog K V α → (α → Nat → Prop) → Prop
  | _, 0, _, _ => True
  | r, _ + 1, .ret x, Q => Q x r
  | _, _ + 1, .panic w, _ => w = .unreachableCode ∨ w = .unwrapNone
  | r, n + 1, .act a k, Q => D.ok a ∧ ∀ r' x, r ≤ r' → D.res r r' a x → ObW D r' n (k x) Q
  | r, n + 1, .iter body s k, Q => ObW D r n (Prog.unfoldIter body s k) Q

variable {D : ObsW K V}

theorem ObW.mono {α : Type} {r n m : Nat} {p : Prog K V α} {Q : α → Nat → Prop} (h : ObW D r n p Q) (hm : m ≤ n) : ObW D r m p Q := by
  induction m generalizing n p r with
  | zero => cases p <;> trivial
  | succ m ih =>
    obtain ⟨n, rfl⟩ : ∃ n', n = n' + 1 := ⟨n - 1, by omega⟩
    cases p with
    | ret x => exact h
    | panic w => exact h
    | act a k => exact ⟨h.1, fun r' x h1 hr => ih (h.2 r' x h1 hr) (by omega)⟩
    | iter body s k => exact ih (n := n) h (by omega)

theorem ObW.bind {α γ : Type} {r n : Nat} {p : Prog K V α} {f : α → Prog K V γ} {R : α → Nat → Prop} {Q : γ → Nat → Prop}
    (h : ObW D r n p R) (hf : ∀ x r' m, m ≤ n → r ≤ r' → R x r' → ObW D r' m (f x) Q) : ObW D r n (p.bind f) Q := by
  induction n generalizing p r with
  | zero => cases p.bind f <;> trivial
  | succ n ih =>
    cases p with
    | ret x => exact hf x _ _ (Nat.le_refl _) (Nat.le_refl _) h
    | panic w => exact h
    | act a k =>
      exact ⟨h.1, fun r' x h1 hr => ih (h.2 r' x h1 hr) fun y r'' m hm h2 => hf y r'' m (by omega) (Nat.le_trans h1 h2)⟩
    | iter body s k =>
      have h' : ObW D r n (Prog.unfoldIter body s k) R := h
      have := ih h' fun x r' m hm => hf x r' m (by omega)
      show ObW D r n (Prog.unfoldIter body s fun x => (k x).bind f) Q
      unfold Prog.unfoldIter at this ⊢
      rw [Prog.bind_assoc] at this
      convert this using 2
      funext x
      cases x <;> rfl

/-- For any number of steps. -/
def OW (D : ObsW K V) {α : Type} (r : Nat) (p : Prog K V α) (Q : α → Nat → Prop) : Prop := ∀ n, ObW D r n p Q

namespace OW

variable {α β γ : Type} {r : Nat}

theorem ret {x : α} {Q : α → Nat → Prop} (h : Q x r) : OW D r (pure x) Q := by
  intro n
  cases n with
  | zero => trivial
  | succ n => exact h

theorem panic {w : PanicReason} {Q : α → Nat → Prop} (h : w = .unreachableCode ∨ w = .unwrapNone) : OW D r (.panic w) Q := by
  intro n
  cases n with
  | zero => trivial
  | succ n => exact h

theorem bind {p : Prog K V α} {f : α → Prog K V β} (R : α → Nat → Prop) {Q : β → Nat → Prop} (h : OW D r p R)
    (hf : ∀ x r', r ≤ r' → R x r' → OW D r' (f x) Q) : OW D r (p >>= f) Q :=
  fun n => (h n).bind fun x r' m _ h1 hx => hf x r' h1 hx m

theorem loop {σ : Type} {body : σ → Prog K V (σ ⊕ β)} (I : σ → Nat → Prop) {s : σ} {Q : β → Nat → Prop} (hs : I s r)
    (h : ∀ s r', r ≤ r' → I s r' → OW D r' (body s) (fun x r'' => Sum.elim (fun s => I s r'') (fun b => Q b r'') x)) :
    OW D r (Prog.loop s body) Q := by
  intro n
  have key : ∀ n s r', r ≤ r' → I s r' → ObW D r' n (Prog.loop s body) Q := by
    intro n
    induction n with
    | zero => intro s r' _ _; trivial
    | succ n ih =>
      intro s r' hr hs
      show ObW D r' n (Prog.unfoldIter body s .ret) Q
      unfold Prog.unfoldIter
      refine (h s r' hr hs n).bind ?_
      intro x r'' m hm hr' hx
      cases x with
      | inl s' => exact (ih s' r'' (Nat.le_trans hr hr') hx).mono hm
      | inr b =>
        cases m with
        | zero => trivial
        | succ m => exact hx
  exact key n s r (Nat.le_refl _) hs

theorem ite {c : Prop} [Decidable c] {p q : Prog K V α} {Q : α → Nat → Prop} (h1 : c → OW D r p Q) (h2 : ¬ c → OW D r q Q) :
    OW D r (if c then p else q) Q := by
  split
  · exact h1 ‹_›
  · exact h2 ‹_›

theorem act {a : Act K V β} {Q : β → Nat → Prop} (h0 : D.ok a) (h : ∀ x r', r ≤ r' → D.res r r' a x → Q x r') : OW D r (.prim a) Q := by
  intro n
  cases n with
  | zero => trivial
  | succ n =>
    refine ⟨h0, fun r' x h1 hr => ?_⟩
    cases n with
    | zero => trivial
    | succ n => exact h x r' h1 hr

/-- An action followed by the rest. -/
theorem step {a : Act K V β} {f : β → Prog K V α} {Q : α → Nat → Prop} (h0 : D.ok a)
    (h : ∀ x r', r ≤ r' → D.res r r' a x → OW D r' (f x) Q) : OW D r (.prim a >>= f) Q :=
  bind (fun x r' => D.res r r' a x) (act h0 fun _ _ _ h => h) h

theorem act_inv {a : Act K V β} {k : β → Prog K V α} {Q : α → Nat → Prop} (h : OW D r (.act a k) Q) :
    D.ok a ∧ ∀ r' x, r ≤ r' → D.res r r' a x → OW D r' (k x) Q :=
  ⟨(h 1).1, fun r' x h1 hr m => (h (m + 1)).2 r' x h1 hr⟩

end OW

variable [DecidableEq K]

/-- A table handle with `n` slots. -/
def HasLen (n : Nat) (T : Table) : Prop := T.mask = n - 1

/-- What the operations do and observe while more keys are present than fit into one table: the root table has a successor. -/
def ofSys (n : Nat) (sh : Nat → Int) : ObsW K V where
  ok := fun a => match a with
    | .storeNext _ c => c = n
    | .addCount _ => False
    | .poison _ => False
    | .casRootInit _ => False
    | .casNew _ _ _ _ _ _ => False
    | _ => True
  res := fun r r' β a x => match β, a, x with
    | _, .loadRoot, x => ∃ T, x = some T ∧ HasLen n T ∧ T.id = r'
    | _, .peekRoot, x => x = some r'
    | _, .loadNext T, x => (∀ N, x = some N → HasLen n N) ∧ (T ≤ r' → ∃ N, x = some N ∧ N.id = T + 1)
    | _, .storeNext _ _, x => HasLen n x
    | _, .loadShard j, x => x = sh j
    | _, .loadStatus T, x => x = .promoted → T ≤ r'
    | _, .casRoot T N, x => (x = true → r' = N) ∧ (x = false → r' ≠ T)
    | _, .lockWait _, x => x = true
    | _, .sameTable T T', x => x = decide (T = T')
    | _, _, _ => True

variable {C : Cfg K} {n : Nat} {sh : Nat → Int} {r : Nat}

local notation "OF" => OW (ofSys (K := K) (V := V) n sh)

open OW

/-- The parameters for which the capacity stays the same. -/
structure OFParams (C : Cfg K) (n : Nat) (sh : Nat → Int) : Prop where
  mode : C.inc = true
  cap8 : 8 ≤ n
  pow : isPow2B n = true
  max : n ≤ isizeMax
  layout : C.layoutOk n = true
  same : nextCapacity C.initialCapacity n (((List.range (C.shards + 1)).map sh).sum).toNat = n

theorem of_len : OF r (len C) (fun m _ => m = (((List.range (C.shards + 1)).map sh).sum).toNat) := by
  unfold len
  refine bind (fun x _ => x = ((List.range (C.shards + 1)).map sh).sum) ?_ fun x _ _ hx => ret (by rw [hx])
  refine loop (fun (x : Nat × Int) _ => x.1 ≤ C.shards + 1 ∧ x.2 = ((List.range x.1).map sh).sum) ⟨by simp, by simp⟩ ?_
  rintro ⟨j, acc⟩ r' _ ⟨h1, h2⟩
  dsimp only at h1 h2 ⊢
  refine ite (fun h => ?_) fun h => ?_
  · refine step trivial fun x r'' _ hx => ret ?_
    have hx : x = sh j := hx
    refine ⟨by omega, ?_⟩
    show acc + x = _
    rw [List.range_succ, List.map_append, List.sum_append, h2, hx]
    simp
  · refine ret ?_
    have : j = C.shards + 1 := by omega
    subst this
    exact h2

theorem of_allocNextLocked (hp : OFParams C n sh) {T : Table} (hT : HasLen n T) : OF r (allocNextLocked C none T) (fun N _ => HasLen n N) := by
  unfold allocNextLocked
  refine step trivial fun x r' _ hx => ?_
  cases x with
  | some N => exact step trivial fun _ _ _ _ => ret (hx.1 N rfl)
  | none =>
    refine bind _ of_len fun m r' _ hm => ?_
    have hl : T.len = n := by have := hp.cap8; unfold Table.len; rw [hT]; omega
    have hn : (none : Option Nat).getD (nextCapacity C.initialCapacity T.len m) = n := by
      rw [hl, hm]; exact hp.same
    have hmax : max n 8 = n := by have := hp.cap8; omega
    dsimp only
    rw [hn, hmax, if_pos hp.max, if_pos hp.pow, if_pos hp.layout]
    exact step rfl fun N _ _ hN => step trivial fun _ _ _ _ => ret hN

theorem of_getOrAllocNext (hp : OFParams C n sh) {T : Table} (hT : HasLen n T) : OF r (getOrAllocNext C none T) (fun N _ => HasLen n N) := by
  unfold getOrAllocNext
  refine step trivial fun x r' _ hx => ?_
  cases x with
  | some N => exact ret (hx.1 N rfl)
  | none =>
    refine step trivial fun b _ _ _ => ?_
    refine ite (fun _ => of_allocNextLocked hp hT) fun _ => ?_
    refine bind (fun x _ => ∀ N, x = some N → HasLen n N) ?_ fun x _ _ hx => ?_
    · refine loop (fun _ _ => True) trivial fun sp _ _ _ => ?_
      refine ite (fun _ => ?_) fun _ => ret fun N h => by cases h
      refine step trivial fun x _ _ hx => ?_
      cases x with
      | some N => exact ret hx.1
      | none => exact ret trivial
    · cases x with
      | some N => exact ret (hx N rfl)
      | none =>
        refine step trivial fun b _ _ hb => ?_
        have hb : b = true := hb
        rw [if_pos hb]
        exact of_allocNextLocked hp hT

/-- If it answers `true`, the next table (or a later one) is the root. -/
theorem of_tryPromote {T N : Table} (hN : N.id = T.id + 1) {c : Nat} : OF r (tryPromote T N c) (fun b r' => b = true → N.id ≤ r') := by
  unfold tryPromote
  refine bind (fun _ _ => True) (ite (fun _ => step trivial fun _ _ _ _ => ret trivial) fun _ => act trivial fun _ _ _ _ => trivial)
    fun x r1 _ _ => ?_
  refine ite (fun _ => ?_) fun _ => ret fun h => by cases h
  refine step trivial fun x r2 _ hx => ?_
  obtain rfl : x = some r2 := hx
  refine step trivial fun b r2' h2' hb => ?_
  have hb : b = decide (T.id = r2) := hb
  refine ite (fun he => ?_) fun _ => ret fun h => by cases h
  refine step trivial fun b r3 h3 hb => ?_
  have hb : (b = true → r3 = N.id) ∧ (b = false → r3 ≠ T.id) := hb
  have he : T.id = r2 := of_decide_eq_true (by rename_i hb' _; rw [← hb']; exact he)
  refine ite (fun hbt => ?_) fun hbf => step trivial fun _ r4 h4 _ => ret fun _ => ?_
  · exact step trivial fun _ r4 h4 _ => step trivial fun _ r5 h5 _ => step trivial fun _ r6 h6 _ => ret fun _ => by have := hb.1 hbt; omega
  · have := hb.2 (by simpa using hbf)
    show N.id ≤ r4
    omega

theorem of_insertCopy (hp : OFParams C n sh) {e : Entry K V} {s : Slot K V} {b : Bool} {T : Table} (hT : HasLen n T) :
    OF r (insertCopy C e s b T) (fun _ _ => True) := by
  unfold insertCopy
  refine step trivial fun _ _ _ _ => loop (fun T _ => HasLen n T) hT fun T _ _ hT => ?_
  refine bind (fun _ _ => True) ?_ fun out _ _ _ => ?_
  · refine loop (fun _ _ => True) trivial fun probe _ _ _ => ?_
    refine ite (fun _ => ?_) fun _ => ret trivial
    refine step trivial fun m _ _ _ => ?_
    refine ite (fun _ => ?_) fun _ => ret trivial
    refine step trivial fun x _ _ _ => ?_
    cases x with
    | none => exact step trivial fun _ _ _ _ => ret trivial
    | some found =>
      refine bind (fun _ _ => True) ?_ fun m _ _ _ => ?_
      · cases found.ptr with
        | none => exact ret trivial
        | some e' => exact step trivial fun _ _ _ _ => ret trivial
      · refine step trivial fun _ _ _ _ => ?_
        exact ite (fun _ => step trivial fun _ _ _ _ => ret trivial) fun _ => ret trivial
  · cases out with
    | some i => exact ret trivial
    | none => exact ite (fun h => bind _ (of_getOrAllocNext hp hT) fun N _ _ hN => ret hN) fun _ => ret trivial

theorem of_copyAtIncremental (hp : OFParams C n sh) {i : Nat} {T N : Table} (hN : HasLen n N) :
    OF r (copyAtIncremental C i T N) (fun _ _ => True) := by
  unfold copyAtIncremental
  refine step trivial fun s _ _ _ => ?_
  cases h : s.ptr with
  | none => exact ite (fun _ => ret trivial) fun _ => act trivial fun _ _ _ _ => trivial
  | some e =>
    refine bind _ (of_insertCopy hp hN) fun x _ _ _ => ?_
    cases x with
    | none => exact panic (.inr rfl)
    | some x => exact step trivial fun _ _ _ _ => act trivial fun _ _ _ _ => trivial

theorem of_copyChunkIncremental (hp : OFParams C n sh) {T N : Table} (hN : HasLen n N) {a c : Nat} :
    OF r (copyChunkIncremental C T N a c) (fun _ _ => True) := by
  unfold copyChunkIncremental
  refine loop (fun _ _ => True) trivial fun j _ _ _ => ?_
  refine ite (fun _ => ite (fun _ => ?_) fun _ => ret trivial) fun _ => ret trivial
  exact bind _ (of_copyAtIncremental hp hN) fun _ _ _ _ => ret trivial

/-- Helping until the next table is promoted. -/
theorem of_helpCopyIncremental (hp : OFParams C n sh) {c : Nat} :
    OF r (helpCopyIncremental C c true) (fun x r' => ∃ N, x = some N ∧ HasLen n N ∧ N.id ≤ r') := by
  unfold helpCopyIncremental
  refine step trivial fun x r1 _ hx => ?_
  obtain ⟨T, rfl, hT, hTr⟩ : ∃ T, x = some T ∧ HasLen n T ∧ T.id = r1 := hx
  refine step trivial fun x r2 h2 hx => ?_
  obtain ⟨N, rfl, hN⟩ := hx.2 (by omega)
  have hN' := hx.1 N rfl
  refine bind (fun N r' => HasLen n N ∧ N.id ≤ r') ?_ fun N r' _ h => ret ⟨N, rfl, h⟩
  refine loop (fun _ _ => True) trivial fun _ r3 _ _ => ?_
  refine bind _ (of_tryPromote hN) fun b r4 _ hb => ite (fun hb1 => ret ⟨hN', hb hb1⟩) fun _ => ?_
  refine bind (fun out r' => match out with | .brk => True | .retry N' => True | .done N' => HasLen n N' ∧ N'.id ≤ r') ?_ fun out r5 _ ho => ?_
  · refine loop (fun _ _ => True) trivial fun _ r5 _ _ => ?_
    refine step trivial fun cl _ _ _ => ite (fun _ => ret trivial) fun _ => ?_
    refine step trivial fun start _ _ _ => bind _ (of_copyChunkIncremental hp hN') fun x _ _ _ => ?_
    refine bind _ (of_tryPromote hN) fun b _ _ hb => ite (fun hb1 => ret ?_) fun _ => ret trivial
    exact ⟨hN', hb (by simpa using hb1)⟩
  · cases out with
    | done N' => exact ret ho
    | retry N' => exact ret trivial
    | brk =>
      dsimp only
      rw [if_pos rfl]
      refine bind (fun _ r' => N.id ≤ r') ?_ fun _ _ _ h => ret ⟨hN', h⟩
      refine loop (fun _ _ => True) trivial fun _ _ _ _ => step trivial fun st r6 _ hst => ?_
      cases st with
      | promoted => exact ret (hst rfl)
      | pending => exact ite (fun _ => ret trivial) fun _ => step trivial fun _ _ _ _ => ret trivial
      | aborted => exact ite (fun _ => ret trivial) fun _ => step trivial fun _ _ _ _ => ret trivial

theorem of_helpCopy (hp : OFParams C n sh) {T : Table} :
    OF r (helpCopy C true T) (fun N r' => HasLen n N ∧ N.id ≤ r') := by
  unfold helpCopy
  have hm := hp.mode
  unfold Cfg.inc at hm
  split
  · rename_i h; rw [h] at hm; cases hm
  · refine bind _ (of_helpCopyIncremental hp) fun x r' _ hx => ?_
    obtain ⟨N, rfl, hN⟩ := hx
    exact ret hN

/-- `linearize` never returns. -/
theorem of_linearize (hp : OFParams C n sh) {T : Table} (hT : HasLen n T) (hr : T.id ≤ r) : OF r (linearize C T) (fun _ _ => False) := by
  unfold linearize
  rw [if_pos hp.mode]
  refine loop (fun T r => HasLen n T ∧ T.id ≤ r) ⟨hT, hr⟩ fun T r1 _ hT => ?_
  refine step trivial fun x r2 _ hx => ?_
  obtain ⟨N, rfl, _⟩ := hx.2 (by have := hT.2; omega)
  exact bind _ (of_helpCopy hp) fun N r' _ hN => ret hN

/-- `reserve` never returns, if the reservation requires more than `n` slots. -/
theorem of_reserve (hp : OFParams C n sh) {a c : Nat} (ha : (((List.range (C.shards + 1)).map sh).sum).toNat + a < 2 ^ 64)
    (hc : entriesFor ((((List.range (C.shards + 1)).map sh).sum).toNat + a) = some c) (hcn : n < c) :
    OF r (reserve C a) (fun _ _ => False) := by
  unfold reserve
  refine bind (fun T r' => HasLen n T ∧ T.id ≤ r') ?_ fun T r' _ hT => ?_
  · refine step trivial fun x r1 _ hx => ?_
    obtain ⟨T, rfl, hT, hTr⟩ : ∃ T, x = some T ∧ HasLen n T ∧ T.id = r1 := hx
    exact ret ⟨hT, Nat.le_of_eq hTr⟩
  · refine loop (fun T r => HasLen n T ∧ T.id ≤ r) hT fun T r1 _ hT => ?_
    refine bind _ of_len fun m r2 h2 hm => ?_
    subst hm
    rw [if_pos ha, hc]
    dsimp only
    have hl : T.len = n := by have := hp.cap8; have := hT.1; unfold HasLen at this; unfold Table.len; rw [this]; omega
    rw [if_neg (by omega)]
    refine bind (fun _ _ => True) ?_ fun _ _ _ _ => bind _ (of_helpCopy hp) fun N r' _ hN => ret hN
    unfold getOrAllocNext
    refine step trivial fun x r3 h3 hx => ?_
    obtain ⟨N, rfl, _⟩ := hx.2 (by have := hT.2; omega)
    exact ret trivial

end Papaya
