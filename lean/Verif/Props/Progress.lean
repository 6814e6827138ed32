import Verif.Spec.Progress
import Verif.Props.Lin
import Verif.Props.Memory

/-! # Progress of reading operations (C34) -/

set_option linter.unusedSectionVars false
set_option linter.unusedVariables false

namespace Papaya

variable {K V : Type} [DecidableEq K]

open GSt

/-- Actions that only read. -/
def Act.reads : {β : Type} → Act K V β → Bool
  | _, .loadRoot | _, .peekRoot | _, .loadNext _ | _, .loadMd _ _ | _, .loadSlot _ _ | _, .loadStatus _ | _, .loadClaim _
  | _, .loadCopied _ | _, .deref _ | _, .loadShard _ => true
  | _, _ => false

theorem exec_reads {C : Cfg K} {t : Tid} {β : Type} {a : Act K V β} (h : a.reads = true) (σ : St K V) :
    ∃ r, Exec C t a σ r σ := by
  cases a <;> first | exact ⟨_, rfl, rfl⟩ | exact ⟨(), rfl⟩ | cases h

theorem exec_reads_mem {C : Cfg K} {t : Tid} {β : Type} {a : Act K V β} (h : a.reads = true) {σ σ' : St K V} {r : β}
    (he : Exec C t a σ r σ') : σ' = σ := by
  cases a <;> first | exact he.2 | exact he | cases h

/-- What an action may return while the root is at least `R` and the number of tables at most `N`; `cap`: the capacities. -/
def Fits (R N : Nat) (cap : Nat → Nat) : {β : Type} → Act K V β → β → Prop
  | _, .loadRoot, r => ∀ T, r = some T → R ≤ T.id ∧ T.id < N ∧ T.limit = limit (cap T.id)
  | _, .loadNext T, r => ∀ T', r = some T' → T < T'.id ∧ T'.id < N ∧ T'.limit = limit (cap T'.id)
  | _, _, _ => True

/-- The program only reads, never waits, never panics, and returns within `n` steps a result that satisfies `Q`. -/
inductive Within (R N : Nat) (cap : Nat → Nat) : {α : Type} → Prog K V α → Nat → (α → Prop) → Prop
  | ret {α : Type} {a : α} {n Q} (h : Q a) : Within R N cap (.ret a) n Q
  | act {α β : Type} {a : Act K V β} {k : β → Prog K V α} {n Q} (hw : a.reads = true)
      (h : ∀ r, Fits R N cap a r → Within R N cap (k r) n Q) : Within R N cap (.act a k) (n + 1) Q
  | iter {α β σ : Type} {body : σ → Prog K V (σ ⊕ β)} {s : σ} {k : β → Prog K V α} {n Q}
      (h : Within R N cap (Prog.unfoldIter body s k) n Q) : Within R N cap (.iter body s k) (n + 1) Q

namespace Within

variable {R N : Nat} {cap : Nat → Nat}

theorem mono {α : Type} {p : Prog K V α} {n m : Nat} {Q Q' : α → Prop} (h : Within R N cap p n Q) (hn : n ≤ m)
    (hQ : ∀ a, Q a → Q' a) : Within R N cap p m Q' := by
  induction h generalizing m with
  | ret h => exact .ret (hQ _ h)
  | act hw h ih =>
    obtain ⟨m, rfl⟩ : ∃ m', m = m' + 1 := ⟨m - 1, by omega⟩
    exact .act hw fun r hr => ih r hr (by omega) hQ
  | iter h ih =>
    obtain ⟨m, rfl⟩ : ∃ m', m = m' + 1 := ⟨m - 1, by omega⟩
    exact .iter (ih (by omega) hQ)

theorem bind {α γ : Type} {p : Prog K V α} {f : α → Prog K V γ} {n m : Nat} {Q : α → Prop} {Q' : γ → Prop}
    (h : Within R N cap p n Q) (hf : ∀ a, Q a → Within R N cap (f a) m Q') : Within R N cap (p.bind f) (n + m) Q' := by
  induction h with
  | ret h => exact (hf _ h).mono (by omega) fun _ h => h
  | act hw h ih =>
    rw [Nat.add_right_comm]
    exact .act hw fun r hr => ih r hr hf
  | iter h ih =>
    rw [Nat.add_right_comm]
    refine .iter ?_
    have := ih hf
    unfold Prog.unfoldIter at this ⊢
    rw [Prog.bind_assoc] at this
    convert this using 2
    funext x
    cases x <;> rfl

theorem prim {β : Type} {a : Act K V β} (hw : a.reads = true) : Within R N cap (.prim a) 1 (Fits R N cap a) :=
  .act hw fun _ hr => .ret hr

/-- Loops: `c s` bounds the cost of the rest of the loop. -/
theorem loop {σ β : Type} {body : σ → Prog K V (σ ⊕ β)} {Q : β → Prop} (I : σ → Prop) (c : σ → Nat)
    (h : ∀ s, I s → ∃ m, Within R N cap (body s) m (Sum.elim (fun s' => I s' ∧ 1 + m + c s' ≤ c s) fun b => Q b ∧ 1 + m ≤ c s))
    {s : σ} (hs : I s) : Within R N cap (Prog.loop s body) (c s) Q := by
  generalize hn : c s = n
  induction n using Nat.strong_induction_on generalizing s with
  | _ n ih =>
    subst hn
    obtain ⟨m, hm⟩ := h s hs
    by_cases h0 : 1 + m ≤ c s
    · obtain ⟨d, hd⟩ : ∃ d, c s = (m + d) + 1 := ⟨c s - m - 1, by omega⟩
      rw [hd]
      refine .iter (bind hm fun x hx => ?_)
      cases x with
      | inl s' =>
        obtain ⟨h1, h2⟩ := hx
        exact (ih (c s') (by omega) h1 rfl).mono (by omega) fun _ h => h
      | inr b => exact .ret hx.1
    · exact absurd hm (by
        -- the body returns, and both outcomes need `1 + m ≤ c s`
        intro hm
        have : ∀ {α : Type} {p : Prog K V α} {n : Nat} {Q : α → Prop}, Within R N cap p n Q → (∀ a, ¬ Q a) → False := by
          intro α p n Q h
          induction h with
          | ret h => exact fun h' => h' _ h
          | act hw h ih =>
            rename_i a _ _ _
            intro h'
            have hfit : ∃ r, Fits R N cap a r := by
              cases a <;> first
                | exact ⟨none, fun _ h => by cases h⟩
                | exact ⟨⟨0, 0, 0⟩, trivial⟩ | exact ⟨true, trivial⟩ | exact ⟨(), trivial⟩ | exact ⟨0, trivial⟩
                | exact ⟨Slot.null, trivial⟩ | exact ⟨none, trivial⟩ | exact ⟨.inr Slot.null, trivial⟩
                | exact ⟨Status.pending, trivial⟩ | cases hw
            obtain ⟨r, hr⟩ := hfit
            exact ih r hr h'
          | iter h ih => exact ih
        refine this hm fun x hx => ?_
        cases x with
        | inl s' => exact h0 (by have := hx.2; omega)
        | inr b => exact h0 hx.2)

end Within

section
variable {C : Cfg K} {R N : Nat} {cap : Nat → Nat}

theorem within_getProbe (k : K) (T : Table) :
    Within R N cap (getProbe (V := V) C k T) (4 * T.limit + 5) fun _ => True := by
  unfold getProbe
  refine Within.mono (Within.loop (Q := fun _ : GetOut K V => True) (fun _ : Probe => True)
    (fun p => 4 * (T.limit + 1 - p.len) + 1) ?_ trivial) ?_ fun _ h => h
  rotate_left
  · show 4 * (T.limit + 1 - 0) + 1 ≤ _
    omega
  · intro p _
    by_cases hp : p.len ≤ T.limit
    · refine ⟨3, ?_⟩
      rw [if_pos hp]
      have hn : ∀ n, n ≤ 3 → Within R N cap (.ret (Sum.inl (p.next T.mask)) : Prog K V (Probe ⊕ GetOut K V)) n
          (Sum.elim (fun s' => True ∧ 1 + 3 + (4 * (T.limit + 1 - s'.len) + 1) ≤ 4 * (T.limit + 1 - p.len) + 1)
            fun _ => True ∧ 1 + 3 ≤ 4 * (T.limit + 1 - p.len) + 1) := by
        intro n _
        refine .ret ⟨trivial, ?_⟩
        show 1 + 3 + (4 * (T.limit + 1 - (p.len + 1)) + 1) ≤ _
        omega
      have hr : ∀ n x, Within R N cap (.ret (Sum.inr x) : Prog K V (Probe ⊕ GetOut K V)) n
          (Sum.elim (fun s' => True ∧ 1 + 3 + (4 * (T.limit + 1 - s'.len) + 1) ≤ 4 * (T.limit + 1 - p.len) + 1)
            fun _ => True ∧ 1 + 3 ≤ 4 * (T.limit + 1 - p.len) + 1) := by
        intro n x
        exact .ret ⟨trivial, by omega⟩
      refine Within.bind (n := 1) (m := 2) (.prim rfl) fun m _ => ?_
      split
      · refine Within.bind (n := 1) (m := 1) (.prim rfl) fun s _ => ?_
        split
        · exact hn _ (by omega)
        · refine Within.bind (n := 1) (m := 0) (.prim rfl) fun _ _ => ?_
          split
          · split
            · exact hr _ _
            · exact hr _ _
          · split
            · exact hr _ _
            · exact hn _ (by omega)
      · split
        · exact hr _ _
        · exact hn _ (by omega)
    · refine ⟨0, ?_⟩
      rw [if_neg hp]
      exact .ret ⟨trivial, by omega⟩

theorem within_get (k : K) : Within R N cap (get (V := V) C k) (1 + ∑ T ∈ Finset.Ico R N, (4 * limit (cap T) + 7))
    fun _ => True := by
  unfold get
  refine Within.bind (n := 1) (.prim rfl) fun r hr => ?_
  cases r with
  | none => exact .ret trivial
  | some T =>
    obtain ⟨h1, h2, h3⟩ := hr T rfl
    have := Within.loop (R := R) (N := N) (cap := cap) (V := V) (K := K) (Q := fun _ : Option (Entry K V) => True)
      (body := fun T : Table => do
        match ← getProbe C k T with
        | .found e => return Sum.inr (some e)
        | .absent => return Sum.inr none
        | .nextTable => do
          if C.inc then
            match ← A.loadNext T.id with
            | some next => return Sum.inl next
            | none => return Sum.inr none
          else
            return Sum.inr none)
      (fun T => R ≤ T.id ∧ T.id < N ∧ T.limit = limit (cap T.id))
      (fun T => ∑ T ∈ Finset.Ico T.id N, (4 * limit (cap T) + 7)) (s := T) ?_ ⟨h1, h2, h3⟩
    · refine this.mono ?_ fun _ h => h
      exact Finset.sum_le_sum_of_subset (Finset.Ico_subset_Ico h1 (Nat.le_refl _))
    · rintro T ⟨h1, h2, h3⟩
      refine ⟨(4 * T.limit + 5) + 1, ?_⟩
      have h4 := Finset.sum_eq_sum_Ico_succ_bot h2 fun T => 4 * limit (cap T) + 7
      have hr : ∀ n x, Within R N cap (.ret (Sum.inr x) : Prog K V (Table ⊕ Option (Entry K V))) n
          (Sum.elim (fun T' => (R ≤ T'.id ∧ T'.id < N ∧ T'.limit = limit (cap T'.id)) ∧
              1 + (4 * T.limit + 5 + 1) + ∑ T ∈ Finset.Ico T'.id N, (4 * limit (cap T) + 7) ≤
                ∑ T ∈ Finset.Ico T.id N, (4 * limit (cap T) + 7))
            fun _ => True ∧ 1 + (4 * T.limit + 5 + 1) ≤ ∑ T ∈ Finset.Ico T.id N, (4 * limit (cap T) + 7)) := by
        intro n x
        exact .ret ⟨trivial, by omega⟩
      refine Within.bind (within_getProbe k T) fun x _ => ?_
      cases x with
      | found e => exact hr _ _
      | absent => exact hr _ _
      | nextTable =>
        show Within R N cap (ite _ _ _) _ _
        split
        · refine Within.bind (n := 1) (m := 0) (.prim rfl) fun x hx => ?_
          cases x with
          | none => exact hr _ _
          | some T' =>
            obtain ⟨h5, h6, h7⟩ := hx T' rfl
            refine .ret ⟨⟨by omega, h6, h7⟩, ?_⟩
            have h8 : ∑ T ∈ Finset.Ico T'.id N, (4 * limit (cap T) + 7) ≤ ∑ T ∈ Finset.Ico (T.id + 1) N, (4 * limit (cap T) + 7) :=
              Finset.sum_le_sum_of_subset (Finset.Ico_subset_Ico h5 (Nat.le_refl _))
            omega
        · exact hr _ _

variable {t : Tid} {ps ps' : PSt K V}

theorem steps_tabs (h : Reach C ps) (hs : Steps C ps ps') : ps.mem.nTabs ≤ ps'.mem.nTabs ∧
    (∀ T, T < ps.mem.nTabs → ps'.mem.cap T = ps.mem.cap T) ∧
    (∀ r, ps.mem.root = some r → ∃ r', ps'.mem.root = some r' ∧ r ≤ r') := by
  obtain ⟨S, S', g, g', ⟨g1, _⟩, ⟨g2, _⟩, h1, _⟩ := steps_grow h hs
  rw [← g1, ← g2]
  exact ⟨h1.nTabs, h1.cap, h1.root⟩

theorem reach_tabs (h : Reach C ps) : (∀ r, ps.mem.root = some r → r < ps.mem.nTabs) ∧
    ∀ T, T < ps.mem.nTabs → ps.mem.next T = if T + 1 < ps.mem.nTabs then some (T + 1) else none := by
  obtain ⟨S, g, ⟨g1, g2, _⟩, _⟩ := h.pinv 1
  rw [← g1]
  exact ⟨fun r hr => (g2.s.some r hr).1, g2.s.next⟩

/-- The result of an action fits, as long as the state does. -/
theorem exec_fits (h : Reach C ps) {q : PSt K V} (h1 : Steps C ps q) (h2 : Steps C q ps') {c : Call K V} {β : Type}
    {a : Act K V β} {k : β → Prog K V c.Res} {r : β} {σ : St K V} (ht : q.th t = .run c (.act a k))
    (he : Exec C t a q.mem r σ) : Fits ps.mem.rootIx ps'.mem.nTabs ps'.mem.cap a r := by
  have hq := h.steps h1
  obtain ⟨a1, a2, a3⟩ := steps_tabs hq h2
  obtain ⟨b1, b2⟩ := reach_tabs hq
  cases a with
  | loadRoot =>
    intro T hT
    obtain ⟨rfl, _⟩ := he
    cases hr : q.mem.root with
    | none => rw [hr] at hT; cases hT
    | some r =>
      rw [hr] at hT
      cases hT
      refine ⟨?_, Nat.lt_of_lt_of_le (b1 r hr) a1, ?_⟩
      · show ps.mem.rootIx ≤ r
        unfold St.rootIx
        cases hr0 : ps.mem.root with
        | none => exact Nat.zero_le _
        | some r0 =>
          obtain ⟨r', h3, h4⟩ := (steps_tabs h h1).2.2 r0 hr0
          rw [hr] at h3; cases h3; exact h4
      · show limit (q.mem.cap r) = limit (ps'.mem.cap r)
        rw [a2 r (b1 r hr)]
  | loadNext T =>
    intro T' hT
    have h3 : T < q.mem.nTabs := (C21_memory_safe hq ht).1
    obtain ⟨rfl, _⟩ := he
    rw [b2 T h3] at hT
    split at hT
    · rename_i h4
      cases hT
      refine ⟨Nat.lt_succ_self _, Nat.lt_of_lt_of_le h4 a1, ?_⟩
      show limit (q.mem.cap (T + 1)) = limit (ps'.mem.cap (T + 1))
      rw [a2 _ h4]
    · cases hT
  | _ => trivial

theorem runOwn_within (h : Reach C ps) {c : Call K V} {p : Prog K V c.Res} {n : Nat} {q : PSt K V}
    (hth : ps.th t = .run c p) (hr : RunOwn C t n ps q) (hq : Steps C q ps') {B : Nat}
    (hp : Within ps.mem.rootIx ps'.mem.nTabs ps'.mem.cap p B fun _ => True) :
    (∃ p' m, q.th t = .run c p' ∧ Within ps.mem.rootIx ps'.mem.nTabs ps'.mem.cap p' m (fun _ => True) ∧ n + m ≤ B) ∨
    (q.th t = .idle ∧ n ≤ B + 1) := by
  induction hr with
  | refl => exact .inl ⟨p, B, hth, hp, by omega⟩
  | @own n ps q q' h1 h2 ih =>
    rcases ih h hth (.head h2.step hq) hp with ⟨p', m, h3, h4, h5⟩ | ⟨h3, _⟩
    · cases h2 with
      | act h6 he =>
        rw [h3] at h6
        cases h6
        have := exec_fits h h1.steps (.head (.act t h3 he) hq) h3 he
        cases h4 with
        | act _ h7 => exact .inl ⟨_, _, if_pos rfl, h7 _ this, by omega⟩
      | loop h6 =>
        rw [h3] at h6
        cases h6
        cases h4 with
        | iter h7 => exact .inl ⟨_, _, if_pos rfl, h7, by omega⟩
      | ret h6 => exact .inr ⟨if_pos rfl, by omega⟩
      | panic h6 =>
        rw [h3] at h6
        cases h6
        cases h4
    · cases h2 with
      | act h6 => rw [h3] at h6; cases h6
      | loop h6 => rw [h3] at h6; cases h6
      | ret h6 => rw [h3] at h6; cases h6
      | panic h6 => rw [h3] at h6; cases h6
  | other _ h2 h3 ih => rw [h3]; exact ih h hth (.head h2 hq) hp

theorem within_call {c : Call K V} {k : K} (hc : c = .get k ∨ c = .containsKey k) :
    Within R N cap (c.prog C) (1 + ∑ T ∈ Finset.Ico R N, (4 * limit (cap T) + 7)) fun _ => True := by
  rcases hc with rfl | rfl
  · exact within_get k
  · refine Within.mono (Within.bind (m := 0) (within_get k) fun _ _ => .ret trivial) (by omega) fun _ h => h

/-- **C34** `get` and `contains_key` are wait-free: whatever the other guards do (or if they are suspended forever, in the
middle of a write or a resize, …), the operation takes at most `2 + ∑ (4 · limit + 7)` of its own steps, where the sum is over the
tables that exist between its start (the root table then) and its end. -/
theorem C34_get_bounded (h : Reach C ps) {c : Call K V} {k : K} (hc : c = .get k ∨ c = .containsKey k)
    (hth : ps.th t = .run c (c.prog C)) {n : Nat} (hr : RunOwn C t n ps ps') : n ≤ ps'.mem.getBound ps.mem.rootIx := by
  unfold St.getBound
  rcases runOwn_within h hth hr .refl (within_call hc) with ⟨_, m, _, _, h1⟩ | ⟨_, h1⟩ <;> omega

/-- **C34** … and it can always take its next step, without waiting for anyone, until it has returned; it never panics. -/
theorem C34_get_never_blocked (h : Reach C ps) {c : Call K V} {k : K} (hc : c = .get k ∨ c = .containsKey k)
    (hth : ps.th t = .run c (c.prog C)) {n : Nat} (hr : RunOwn C t n ps ps') :
    (∃ q, OwnStep C t ps' q) ∧ (∀ why, ps'.th t ≠ .run c (.panic why)) ∨ ps'.th t = .idle := by
  rcases runOwn_within h hth hr .refl (within_call hc) with ⟨p, m, h1, h2, _⟩ | ⟨h1, _⟩
  · cases h2 with
    | ret => exact .inl ⟨⟨_, .ret h1⟩, fun why hw => by rw [h1] at hw; cases hw⟩
    | act hw =>
      obtain ⟨r, he⟩ := exec_reads (C := C) (t := t) hw ps'.mem
      exact .inl ⟨⟨_, .act h1 he⟩, fun why hw => by rw [h1] at hw; cases hw⟩
    | iter => exact .inl ⟨⟨_, .loop h1⟩, fun why hw => by rw [h1] at hw; cases hw⟩
  · exact .inr h1

/-- **C34** In particular, a `get` that runs while every other thread is suspended, at whatever points of their operations, returns;
it changes nothing. -/
theorem C34_get_alone (h : Reach C ps) {c : Call K V} {k : K} (hc : c = .get k ∨ c = .containsKey k)
    (hth : ps.th t = .run c (c.prog C)) : ∃ n ps' r, RunOwn C t n ps ps' ∧ n ≤ ps.mem.getBound ps.mem.rootIx ∧
      ps'.hist = ps.hist ++ [.ret (t, ps.seq t) c r] ∧ ps'.mem = ps.mem := by
  have key : ∀ m n q (p : Prog K V c.Res), RunOwn C t n ps q → q.th t = .run c p → q.mem = ps.mem → q.hist = ps.hist →
      q.seq t = ps.seq t → Within ps.mem.rootIx ps.mem.nTabs ps.mem.cap p m (fun _ => True) →
      ∃ n' ps' r, RunOwn C t n' ps ps' ∧ n' ≤ n + m + 1 ∧ ps'.hist = ps.hist ++ [.ret (t, ps.seq t) c r] ∧
        ps'.mem = ps.mem := by
    intro m
    induction m with
    | zero =>
      intro n q p h1 h2 h3 h4 h5 h6
      cases h6 with
      | ret => exact ⟨n + 1, _, _, .own h1 (.ret h2), by omega, by rw [h4, h5], h3⟩
    | succ m ih =>
      intro n q p h1 h2 h3 h4 h5 h6
      cases h6 with
      | ret => exact ⟨n + 1, _, _, .own h1 (.ret h2), by omega, by rw [h4, h5], h3⟩
      | act hw h7 =>
        obtain ⟨r, he⟩ := exec_reads (C := C) (t := t) hw q.mem
        have hf := exec_fits h h1.steps (.refl (a := q)) h2 he
        rw [h3] at hf
        obtain ⟨n', ps', r', g1, g2, g3⟩ := ih (n + 1) _ _ (.own h1 (.act h2 he)) (if_pos rfl) h3 h4 h5 (h7 r hf)
        exact ⟨n', ps', r', g1, by omega, g3⟩
      | iter h7 =>
        obtain ⟨n', ps', r', g1, g2, g3⟩ := ih (n + 1) _ _ (.own h1 (.loop h2)) (if_pos rfl) h3 h4 h5 h7
        exact ⟨n', ps', r', g1, by omega, g3⟩
  obtain ⟨n', ps', r', g1, g2, g3⟩ := key _ 0 ps _ .refl hth rfl rfl rfl (within_call hc)
  exact ⟨n', ps', r', g1, by unfold St.getBound; omega, g3⟩

end

-- guard 0 is suspended in the middle of an incremental resize; guard 1 starts a `get`
example : ∃ ps : PSt Nat Nat, Reach cfgI ps ∧ ps.th 1 = .run (.get 3) ((Call.get 3).prog cfgI) ∧
    ps.mem.root = some 0 ∧ ps.mem.next 0 = some 1 := by
  obtain ⟨ps, _, h1, h2⟩ := demo_run (C := cfgI) (V := Nat) (l := midResize 66)
    (P := fun ps => ps.mem.root == some 0 && (ps.mem.next 0 == some 1 && match ps.th 1 with
      | .idle => true
      | _ => false)) (by decide +kernel)
  simp only [Bool.and_eq_true, beq_iff_eq] at h2
  obtain ⟨h2, h3, h4⟩ := h2
  split at h4
  · rename_i h5
    exact ⟨_, .step h1 (.inv 1 (.get 3) h5 trivial), rfl, h2, h3⟩
  · cases h4

end Papaya
