import Verif.Proof.TermOps
import Verif.Props.Drop
import Verif.Props.Lin
import Verif.Exec.Demo

/-! # C29, C47: operations executed alone end (incremental mode) -/

set_option linter.unusedSectionVars false
set_option linter.unusedVariables false

namespace Papaya

variable {K V : Type} [DecidableEq K]

open GSt

variable {C : Cfg K} {t : Tid} {sp : Bool} {ps ps' : PSt K V}

/-! ## From termination to bounds -/

/-- An action has finitely many outcomes. -/
theorem exec_finite {β : Type} (C : Cfg K) (t : Tid) (a : Act K V β) (σ : St K V) :
    ∃ l : List (β × St K V), ∀ r σ', Exec C t a σ r σ' → (r, σ') ∈ l := by
  have one : ∀ x : β × St K V, (∀ r σ', Exec C t a σ r σ' → (r, σ') = x) →
      ∃ l : List (β × St K V), ∀ r σ', Exec C t a σ r σ' → (r, σ') ∈ l :=
    fun x h => ⟨[x], fun r σ' he => by rw [h r σ' he]; exact List.mem_cons_self⟩
  have two : ∀ x y : β × St K V, (∀ r σ', Exec C t a σ r σ' → (r, σ') = x ∨ (r, σ') = y) →
      ∃ l : List (β × St K V), ∀ r σ', Exec C t a σ r σ' → (r, σ') ∈ l :=
    fun x y h => ⟨[x, y], fun r σ' he => by rcases h r σ' he with h | h <;> rw [h] <;> simp⟩
  have hex := can_exec (C := C) (t := t) (a := a) (σ := σ)
  cases a with
  | lockWait T =>
    refine two (true, { σ with lock := fun T' => if T' = T then .held t else σ.lock T' }) (false, σ) fun r σ' he => ?_
    rcases he with ⟨_, rfl, rfl⟩ | ⟨_, rfl, rfl⟩
    · exact .inl rfl
    · exact .inr rfl
  | tryLock T =>
    refine two (true, { σ with lock := fun T' => if T' = T then .held t else σ.lock T' }) (false, σ) fun r σ' he => ?_
    rcases he with ⟨_, rfl, rfl⟩ | ⟨_, rfl, rfl⟩
    · exact .inl rfl
    · exact .inr rfl
  | casRootInit cap =>
    cases hr : σ.root with
    | none =>
      refine one (St.handle { σ.allocTable cap .promoted with root := some σ.nTabs } σ.nTabs, { σ.allocTable cap .promoted with root := some σ.nTabs }) fun r σ' he => ?_
      simp only [Exec, hr] at he
      obtain ⟨rfl, rfl⟩ := he
      rfl
    | some T =>
      refine one (σ.handle T, σ) fun r σ' he => ?_
      simp only [Exec, hr] at he
      obtain ⟨rfl, rfl⟩ := he
      rfl
  | cas w T i x y =>
    refine two (none, σ.setSlot T i y) (some (σ.slot T i), σ) fun r σ' he => ?_
    rcases he with ⟨_, rfl, rfl⟩ | ⟨_, rfl, rfl⟩
    · exact .inl rfl
    · exact .inr rfl
  | casNew w T i x k v =>
    refine two (.inl ⟨σ.nIds, k, v⟩, { σ.setSlot T i (Slot.untagged ⟨σ.nIds, k, v⟩) with nIds := σ.nIds + 1 }) (.inr (σ.slot T i), σ) fun r σ' he => ?_
    rcases he with ⟨_, rfl, rfl⟩ | ⟨_, rfl, rfl⟩
    · exact .inl rfl
    · exact .inr rfl
  | casRoot T N =>
    refine two (true, { σ with root := some N }) (false, σ) fun r σ' he => ?_
    rcases he with ⟨_, rfl, rfl⟩ | ⟨_, rfl, rfl⟩
    · exact .inl rfl
    · exact .inr rfl
  | parkStatus T => exact one ((), σ) fun r σ' he => by rw [he.2]
  | parkSlot T i => exact one ((), σ) fun r σ' he => by rw [he.2]
  | unparkStatus T => exact one ((), σ) fun r σ' he => by rw [he.2]
  | unparkSlot T i => exact one ((), σ) fun r σ' he => by rw [he.2]
  | unlock T => exact one ((), _) fun r σ' he => by rw [show σ' = _ from he]
  | poison T => exact one ((), _) fun r σ' he => by rw [show σ' = _ from he]
  | storeMd T i m => exact one ((), _) fun r σ' he => by rw [show σ' = _ from he]
  | storeSlot T i s => exact one ((), _) fun r σ' he => by rw [show σ' = _ from he]
  | storeStatus T s => exact one ((), _) fun r σ' he => by rw [show σ' = _ from he]
  | retire e => exact one ((), _) fun r σ' he => by rw [show σ' = _ from he]
  | retireTable e => exact one ((), _) fun r σ' he => by rw [show σ' = _ from he]
  | pushDeferred T e => exact one ((), _) fun r σ' he => by rw [show σ' = _ from he]
  | addCount d => exact one ((), _) fun r σ' he => by rw [show σ' = _ from he]
  | deref e => exact one ((), _) fun r σ' he => by rw [show σ' = _ from he]
  | _ =>
    obtain ⟨r0, σ0, h0, _⟩ := hex (fun h => h)
    refine one (r0, σ0) fun r σ' he => ?_
    obtain ⟨h1, h2⟩ := h0
    obtain ⟨h3, h4⟩ := he
    subst_vars
    rfl

theorem bound_list {α : Type} (f : α → Nat → Prop) (hmono : ∀ x n m, f x n → n ≤ m → f x m) (l : List α) (h : ∀ x ∈ l, ∃ n, f x n) :
    ∃ n, ∀ x ∈ l, f x n := by
  induction l with
  | nil => exact ⟨0, fun x hx => by cases hx⟩
  | cons a l ih =>
    obtain ⟨n, hn⟩ := ih fun x hx => h x (List.mem_cons_of_mem _ hx)
    obtain ⟨m, hm⟩ := h a List.mem_cons_self
    refine ⟨max n m, fun x hx => ?_⟩
    rcases List.mem_cons.1 hx with rfl | hx
    · exact hmono _ _ _ hm (Nat.le_max_right _ _)
    · exact hmono _ _ _ (hn x hx) (Nat.le_max_left _ _)

/-- What is claimed of all the states reached. -/
def RunsOut (C : Cfg K) (t : Tid) (sp : Bool) (N : Nat) (c : Call K V) (ps : PSt K V) : Prop :=
  ∀ n ps', SoloRun C t sp n ps ps' → n ≤ N ∧ ((∃ q, SoloStep C t sp ps' q) ∨
      (∃ r, ps'.hist = ps.hist ++ [.ret (t, ps.seq t) c r]) ∨ (∃ w, ps'.hist = ps.hist ++ [.panic (t, ps.seq t) c w]))

theorem RunsOut.mono {N M : Nat} {c : Call K V} (h : RunsOut C t sp N c ps) (hm : N ≤ M) : RunsOut C t sp M c ps :=
  fun n ps' hr => ⟨Nat.le_trans (h n ps' hr).1 hm, (h n ps' hr).2⟩

theorem SoloStep.idle_stuck {q : PSt K V} (h : ps.th t = .idle) (hs : SoloStep C t sp ps q) : False := by
  cases hs with
  | act h1 => rw [h] at h1; cases h1
  | loop h1 => rw [h] at h1; cases h1
  | ret h1 => rw [h] at h1; cases h1
  | panic h1 => rw [h] at h1; cases h1

theorem Tm.runsOut {α : Type} {p : Prog K V α} {σ : St K V} {Q : α → St K V → Prop} (h : Tm C t sp p σ Q) :
    ∃ N, ∀ (c : Call K V) (hα : α = c.Res) (ps : PSt K V), Reach C ps → ps.mem = σ → ps.th t = .run c (hα ▸ p) → RunsOut C t sp N c ps := by
  have good : ∀ {ps : PSt K V}, Reach C ps → GoodSt C ps.mem := by
    intro ps h
    obtain ⟨S, g, ⟨g1, g2, _⟩, _⟩ := h.pinv 1
    exact ⟨S, g1, g2⟩
  induction h with
  | ret h =>
    refine ⟨1, fun c hα ps hr hm hth => ?_⟩
    subst hα
    intro n ps' hrun
    cases hrun with
    | refl => exact ⟨Nat.zero_le _, .inl ⟨_, .ret hth⟩⟩
    | step hs hrun =>
      cases hs with
      | act h1 => rw [hth] at h1; cases h1
      | loop h1 => rw [hth] at h1; cases h1
      | panic h1 => rw [hth] at h1; cases h1
      | ret h1 =>
        rw [hth] at h1
        cases h1
        cases hrun with
        | refl => exact ⟨Nat.le_refl _, .inr (.inl ⟨_, rfl⟩)⟩
        | step hs => exact (hs.idle_stuck (if_pos rfl)).elim
  | panic =>
    refine ⟨1, fun c hα ps hr hm hth => ?_⟩
    subst hα
    intro n ps' hrun
    cases hrun with
    | refl => exact ⟨Nat.zero_le _, .inl ⟨_, .panic hth⟩⟩
    | step hs hrun =>
      cases hs with
      | act h1 => rw [hth] at h1; cases h1
      | loop h1 => rw [hth] at h1; cases h1
      | ret h1 => rw [hth] at h1; cases h1
      | panic h1 =>
        rw [hth] at h1
        cases h1
        cases hrun with
        | refl => exact ⟨Nat.le_refl _, .inr (.inr ⟨_, rfl⟩)⟩
        | step hs => exact (hs.idle_stuck (if_pos rfl)).elim
  | @act β a k σ Q h1 h2 ih =>
    obtain ⟨l, hl⟩ := exec_finite C t a σ
    classical
    obtain ⟨N, hN⟩ := bound_list (fun (x : β × St K V) N => ExecA C t sp a σ x.1 x.2 → ∀ (c : Call K V) (hα : α = c.Res) (ps : PSt K V),
        Reach C ps → ps.mem = x.2 → ps.th t = .run c (hα ▸ k x.1) → RunsOut C t sp N c ps)
      (fun x n m hf hnm he c hα ps hr hm hth => (hf he c hα ps hr hm hth).mono hnm) l
      (fun x hx => by
        by_cases he : ExecA C t sp a σ x.1 x.2
        · obtain ⟨N, hN⟩ := ih x.1 x.2 he
          exact ⟨N, fun _ => hN⟩
        · exact ⟨0, fun h => absurd h he⟩)
    refine ⟨N + 1, fun c hα ps hr hm hth => ?_⟩
    subst hα hm
    intro n ps' hrun
    cases hrun with
    | refl =>
      obtain ⟨r, σ', he, hs⟩ := h1
      exact ⟨Nat.zero_le _, .inl ⟨_, .act hth he fun _ => hs⟩⟩
    | step hs hrun =>
      cases hs with
      | loop h1 => rw [hth] at h1; cases h1
      | ret h1 => rw [hth] at h1; cases h1
      | panic h1 => rw [hth] at h1; cases h1
      | @act c' _ _ _ r σ' h3 he hs =>
        rw [hth] at h3
        cases h3
        have hr' := Reach.step hr (.act t hth he)
        have := hN (r, σ') (hl _ _ he) ⟨he, hs, good hr'⟩ c rfl _ hr' rfl (if_pos rfl) _ _ hrun
        exact ⟨by omega, this.2⟩
  | @iter β s body x k σ Q h ih =>
    obtain ⟨N, hN⟩ := ih
    refine ⟨N + 1, fun c hα ps hr hm hth => ?_⟩
    subst hα hm
    intro n ps' hrun
    cases hrun with
    | refl => exact ⟨Nat.zero_le _, .inl ⟨_, .loop hth⟩⟩
    | step hs hrun =>
      cases hs with
      | act h1 => rw [hth] at h1; cases h1
      | ret h1 => rw [hth] at h1; cases h1
      | panic h1 => rw [hth] at h1; cases h1
      | loop h3 =>
        rw [hth] at h3
        cases h3
        have hr' := Reach.step hr (.loop t hth)
        have := hN c rfl _ hr' rfl (if_pos rfl) _ _ hrun
        exact ⟨by omega, this.2⟩

/-! ## The state at rest -/

/-- At rest, in incremental mode, all copies are complete. -/
theorem AtRest.w {ks : K → Prop} (h : Reach C ps) (hr : AtRest ps) (hi : C.inc = true) {kk : Option K} (hk : ∀ k, kk = some k → ∀ v, ¬ ps.mem.Holds k v) :
    W ks kk ps.mem := by
  refine ⟨fun T i e _ hp _ hc => C23_copies_complete h hr hi hp hc, fun x hx T i e hp he => ?_, C23_unlocked h hr⟩
  obtain ⟨S, g1, g2⟩ := h.restG hr
  rw [← g1] at hp ⊢
  have hp : S.kslot T i e := hp
  show S.copiedF T i
  by_cases hT : S.rt ≤ T
  · by_cases hc : S.copying T i
    · exact g2.copied hi hp hc
    · have hv := g2.vis_iff.2 ⟨hT, hp, hc⟩
      have hb := (live_binds (k := x)).1 ⟨T, i, hv, g2.vis_md hv, he⟩
      exact absurd ⟨e, g1 ▸ hb.1, he, rfl⟩ (hk x hx e.val)
  · have h1 := kslot_lt g2.inv.s hp
    have h2 : T + 1 < S.nTabs := by
      have := root_eq g2.inv.s h1
      have := (g2.inv.s.some _ this).1
      omega
    have hpair : S.CopyPair T (T + 1) := ⟨Nat.lt_succ_self _, h2, ⟨h1, by omega, g2.inv.s.incab hi _⟩, fun P h3 h4 => by omega⟩
    obtain ⟨l, hl⟩ := g2.inv.c.c8 _ _ i hpair ⟨h2, by omega, g2.inv.s.incab hi _⟩ (kslot_idx g2.inv.s g2.inv.p hp)
    exact ((g2.inv.c.c3 _ _ _ _ hl hpair).2 e hp).1 hi

theorem endsAlone_of {c : Call K V} (h : Reach C ps) (ht : ps.th t = .idle) (hwf : c.WF) {P : St K V → Prop} {Q : c.Res → St K V → Prop}
    (hp : Tt C t sp P (c.prog C) Q) (h0 : P ps.mem) : EndsAlone C t sp ps c := by
  have hg : GoodSt C ps.mem := by
    obtain ⟨S, g, ⟨g1, g2, _⟩, _⟩ := h.pinv 1
    exact ⟨S, g1, g2⟩
  obtain ⟨N, hN⟩ := (hp ps.mem hg h0).runsOut
  refine ⟨N, fun n ps' hr => ?_⟩
  have h1 : Reach C (ps.call C t c) := .step h (.inv t c ht hwf)
  have := hN c rfl (ps.call C t c) h1 rfl (if_pos rfl) n ps' hr
  have h2 : (ps.call C t c).seq t = ps.seq t + 1 := if_pos rfl
  rw [h2] at this
  exact this

theorem tt_key {c : Call K V} {k : K} (hi : C.inc = true) {ks : K → Prop} {kk : Option K} (hsp : Sp sp ks kk k) (hc : c.key? = some k) :
    Tt C t sp (W ks kk) (c.prog C) fun _ _ => True := by
  have triv : ∀ {α : Type} {x : α}, Tt (K := K) (V := V) C t sp (fun _ => True) (pure x) fun _ _ => True := Tt.ret fun _ _ _ => trivial
  have hins : ∀ v, Tt (V := V) C t sp (W ks kk) (Call.tryInsertProg C k v) fun _ _ => True := by
    intro v
    unfold Call.tryInsertProg
    refine Tt.bind _ (tt_insert hi hsp) fun r => ?_
    cases r with
    | inserted e => exact triv
    | replaced a b => exact Tt.panic
    | error a b => exact triv
  have hwith : ∀ f, Tt (V := V) C t sp (W ks kk) (tryInsertWith C k f) fun _ _ => True := by
    intro f
    unfold tryInsertWith
    refine Tt.bind _ (tt_compute hi hsp) fun r => ?_
    split
    · exact triv
    · exact triv
    · exact Tt.panic
  have huoi : ∀ u f, Tt (V := V) C t sp (W ks kk) (updateOrInsertWith C k u f) fun _ _ => True := by
    intro u f
    unfold updateOrInsertWith
    refine Tt.bind _ (tt_compute hi hsp) fun r => ?_
    split
    · exact triv
    · exact triv
    · exact Tt.panic
  cases c with
  | get k' => cases hc; exact tt_any tt_get
  | containsKey k' => cases hc; exact Tt.bind _ (tt_any tt_get) fun _ => triv
  | insert k' v =>
    cases hc
    refine Tt.bind _ (tt_insert hi hsp) fun r => ?_
    cases r with
    | inserted e => exact triv
    | replaced a b => exact triv
    | error a b => exact Tt.panic
  | tryInsert k' v => cases hc; exact hins v
  | tryInsertWith k' f => cases hc; exact hwith f
  | getOrInsert k' v =>
    cases hc
    refine Tt.bind _ (hins v) fun r => ?_
    cases r with
    | inl e => exact triv
    | inr e => exact triv
  | getOrInsertWith k' f =>
    cases hc
    refine Tt.bind _ (hwith f) fun r => ?_
    cases r with
    | inl e => exact triv
    | inr e => exact triv
  | update k' f =>
    cases hc
    refine Tt.bind _ (tt_compute hi hsp) fun r => ?_
    split
    · exact triv
    · exact triv
    · exact Tt.panic
  | updateOrInsert k' u v => cases hc; exact huoi _ _
  | updateOrInsertWith k' u f => cases hc; exact huoi _ _
  | compute k' f => cases hc; exact tt_compute hi hsp
  | remove k' => cases hc; exact tt_remove hi hsp
  | removeIf k' f => cases hc; exact tt_removeIf hi hsp
  | clear => cases hc
  | retain f => cases hc
  | iter => cases hc
  | iterTake n => cases hc
  | len => cases hc
  | isEmpty => cases hc
  | reserve n => cases hc

/-! ## The claims -/

/-- **C47** In incremental mode, every operation on a single key ends when it is executed alone (no other operation is running, and none
was abandoned or failed to allocate a table): after a bounded number of steps it has returned or panicked. For every hash function,
capacity, contents, pending resize. Weak compare-exchanges are assumed not to fail spuriously. -/
theorem C47_ends (h : Reach C ps) (hr : AtRest ps) (hi : C.inc = true) (ht : ps.th t = .idle) {c : Call K V} {k : K}
    (hc : c.key? = some k) (hwf : c.WF) : EndsAlone C t false ps c :=
  endsAlone_of h ht hwf (tt_key hi (ks := fun _ => True) ⟨trivial, .inr ⟨rfl, rfl⟩⟩ hc) (hr.w h hi (kk := none) fun _ h => by cases h)

/-- **C29**, **C47** If the map does not contain the key, it ends even if every weak compare-exchange may fail spuriously. In particular,
in incremental mode, inserting a new key ends, for every hash function. -/
theorem C29_new_key_ends (h : Reach C ps) (hr : AtRest ps) (hi : C.inc = true) (ht : ps.th t = .idle) {c : Call K V} {k : K}
    (hc : c.key? = some k) (hwf : c.WF) (hk : ∀ v, ¬ ps.mem.Holds k v) : EndsAlone C t true ps c :=
  endsAlone_of h ht hwf (tt_key hi (ks := fun _ => True) ⟨trivial, .inl ⟨rfl, rfl⟩⟩ hc) (hr.w h hi fun x hx => by cases hx; exact hk)

/-- **C47** `len` and `is_empty` end, in any state. -/
theorem C47_len_ends (h : Reach C ps) (ht : ps.th t = .idle) {c : Call K V} (hc : c = .len ∨ c = .isEmpty) : EndsAlone C t sp ps c := by
  rcases hc with rfl | rfl
  · exact endsAlone_of h ht trivial (P := fun _ => True) (tt_len _) trivial
  · exact endsAlone_of h ht trivial (P := fun _ => True) (Tt.bind (fun _ _ => True) (tt_len _) fun _ => Tt.ret (Q := fun _ _ => True) fun _ _ h => h) trivial

theorem SoloRun.snoc {n : Nat} {q : PSt K V} (h : SoloRun C t sp n ps ps') (hs : SoloStep C t sp ps' q) : SoloRun C t sp (n + 1) ps q := by
  induction h with
  | refl => exact .step hs .refl
  | step h1 _ ih => exact .step h1 (ih hs)

theorem SoloRun.steps {n : Nat} (h : SoloRun C t sp n ps ps') : Steps C ps ps' := by
  induction h with
  | refl => exact .refl
  | step h1 _ ih => exact .head h1.step ih

/-- … so it does return or panic, and panics only for the reasons documented (C09). -/
theorem EndsAlone.reaches {c : Call K V} (h : Reach C ps) (ht : ps.th t = .idle) (hwf : c.WF) (he : EndsAlone C t sp ps c) :
    ∃ n ps', SoloRun C t sp n (ps.call C t c) ps' ∧ ((∃ r, ps'.hist = (ps.call C t c).hist ++ [.ret (t, ps.seq t + 1) c r]) ∨
      ∃ w, ps'.hist = (ps.call C t c).hist ++ [.panic (t, ps.seq t + 1) c w] ∧ c.MayPanic C w) := by
  have h1 : Reach C (ps.call C t c) := .step h (.inv t c ht hwf)
  obtain ⟨N, hN⟩ := he
  have key : ∀ m n ps', m + n = N + 1 → SoloRun C t sp n (ps.call C t c) ps' →
      ∃ n ps', SoloRun C t sp n (ps.call C t c) ps' ∧ ((∃ r, ps'.hist = (ps.call C t c).hist ++ [.ret (t, ps.seq t + 1) c r]) ∨
      ∃ w, ps'.hist = (ps.call C t c).hist ++ [.panic (t, ps.seq t + 1) c w] ∧ c.MayPanic C w) := by
    intro m
    induction m with
    | zero =>
      intro n ps' hm hr
      have := (hN n ps' hr).1
      omega
    | succ m ih =>
      intro n ps' hm hr
      rcases (hN n ps' hr).2 with ⟨q, hq⟩ | hq | ⟨w, hq⟩
      · exact ih (n + 1) q (by omega) (hr.snoc hq)
      · exact ⟨n, ps', hr, .inl hq⟩
      · exact ⟨n, ps', hr, .inr ⟨w, hq, C09_panics (h1.steps hr.steps) (by rw [hq]; exact List.mem_append_right _ (List.mem_singleton.2 rfl))⟩⟩
  exact key (N + 1) 0 _ rfl .refl

-- at rest in the middle of an incremental resize, with entries that have been copied: key 6 is present
example : ∃ ps : PSt Nat Nat, Reach cfgI ps ∧ AtRest ps ∧ ps.th 0 = .idle ∧ ps.mem.root = some 0 ∧ ps.mem.next 0 = some 1 ∧
    (ps.mem.slot 0 0).copied = true ∧ ps.mem.Holds 6 60 ∧
    EndsAlone cfgI 0 false ps (.update 6 (Closure.pure fun v => v + 1)) := by
  obtain ⟨ps, h0, h1, h2⟩ := demo_run (C := cfgI) (l := restCmds)
    (P := fun ps => restB ps && (ps.mem.root == some 0 && (ps.mem.next 0 == some 1 && ((ps.mem.slot 0 0).copied &&
      (((List.range 8).any fun i => holdsB ps.mem i 6 60) && match ps.th 0 with
      | .idle => true
      | _ => false))))) (by decide +kernel)
  simp only [Bool.and_eq_true, beq_iff_eq] at h2
  obtain ⟨a1, a2, a3, a4, a5, a6⟩ := h2
  have hr := restB_iff h0 a1
  split at a6
  · rename_i hth
    obtain ⟨i, _, hi⟩ := List.any_eq_true.1 a5
    exact ⟨ps, h1, hr, hth, a2, a3, a4, holdsB_iff hi, C47_ends h1 hr rfl hth rfl pure_wf⟩
  · cases a6

/-- The configuration of C29_witness, with incremental resizing. -/
def cfgBadI : Cfg Nat := ⟨fun _ => 0, .incremental 8, 48, 1, fun t => t, 0, 0, 0, fun _ => true⟩

/-- Test: none of the slots of the first three tables has key `k`. -/
def lacksB (σ : St Nat Nat) (k : Nat) : Bool :=
  σ.nTabs ≤ 3 && ((List.range 3).all fun T => (List.range (σ.cap T)).all fun i => match (σ.slot T i).ptr with
    | some e => e.key != k
    | none => true)

-- a constant hash function, 31 keys (as many as the probe limit allows): inserting one more key ends
example : ∃ ps : PSt Nat Nat, Reach cfgBadI ps ∧ AtRest ps ∧ ps.th 0 = .idle ∧ (∀ v, ¬ ps.mem.Holds 31 v) ∧ ps.mem.Holds 30 300 ∧
    EndsAlone cfgBadI 0 true ps (.insert 31 310) := by
  obtain ⟨ps, h0, h1, h2⟩ := demo_run (C := cfgBadI) (l := fill 31)
    (P := fun ps => restB ps && (lacksB ps.mem 31 && (((List.range 64).any fun i => holdsB ps.mem i 30 300) && match ps.th 0 with
      | .idle => true
      | _ => false))) (by decide +kernel)
  simp only [Bool.and_eq_true, beq_iff_eq] at h2
  obtain ⟨a1, a2, a3, a4⟩ := h2
  have hr := restB_iff h0 a1
  split at a4
  · rename_i hth
    obtain ⟨i, _, hi⟩ := List.any_eq_true.1 a3
    have hk : ∀ v, ¬ ps.mem.Holds 31 v := by
      rintro v ⟨e, ⟨T, i, he⟩, hk, _⟩
      obtain ⟨S, g, ⟨g1, g2, _⟩, _⟩ := h1.pinv 1
      have he : S.kslot T i e := by have := he.2.2.1; rw [← g1] at this; exact this
      have b1 := kslot_lt g2.s he
      have b2 := kslot_idx g2.s g2.p he
      unfold lacksB at a2
      rw [← g1] at a2
      simp only [Bool.and_eq_true, decide_eq_true_eq, List.all_eq_true, List.mem_range] at a2
      have := a2.2 T (by omega) i b2
      rw [show (S.slot T i).ptr = some e from he] at this
      simp [hk] at this
    exact ⟨ps, h1, hr, hth, hk, holdsB_iff hi, C29_new_key_ends h1 hr rfl hth rfl trivial hk⟩
  · cases a4

end Papaya
