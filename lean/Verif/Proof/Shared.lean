import Verif.Model.Shared
import Verif.Proof.FinishInv

/-! # Shared guards: simulation by private guards

Every call slot gets a guard of its own, created when an operation is called in it, and dropped together with the guard
of the slot. -/

set_option linter.unusedSectionVars false
set_option linter.unusedVariables false

namespace Papaya

variable {K V : Type} [DecidableEq K]

variable {C : Cfg K} {gd : Tid → Tid}

/-- The memory, with other guards. -/
def St.withG (σ : St K V) (pn : Tid → Bool) (bl tb : Nat → Tid → Bool) : St K V :=
  { σ with pinned := pn, blockers := bl, tabBlockers := tb }

/-- Status of a slot, and of its private guard. -/
inductive ThSim : Th K V → Th K V → Prop
  | out : ThSim .out .out
  | idle : ThSim .out .idle
  | run (c : Call K V) (p : Prog K V c.Res) : ThSim (.run c p) (.run c p)
  | gone : ThSim .gone .gone

/-- The guards of the private system hold nothing back that those of the shared system do not. -/
structure GSim (gd : Tid → Tid) (σ τ : St K V) : Prop where
  mem : σ.withG τ.pinned τ.blockers τ.tabBlockers = τ
  pin : ∀ t, τ.pinned t = true → σ.pinned (gd t) = true
  blk : ∀ x t, τ.blockers x t = true → σ.blockers x (gd t) = true
  tblk : ∀ x t, τ.tabBlockers x t = true → σ.tabBlockers x (gd t) = true

/-- Guard `t` holds nothing back. -/
def St.Clear (τ : St K V) (t : Tid) : Prop :=
  τ.pinned t = false ∧ ∀ x, τ.blockers x t = false ∧ τ.tabBlockers x t = false

structure Sim (gd : Tid → Tid) (ss : SSt K V) (ps : PSt K V) : Prop where
  mem : GSim gd ss.mem ps.mem
  clear : ∀ t, ps.th t = .out → ps.mem.Clear t
  th : ∀ t, ThSim (ss.th t) (ps.th t)
  seq : ss.seq = ps.seq
  hist : ss.hist = ps.hist
  held : ∀ g e, e ∈ ss.held g → ∃ t, gd t = g ∧ e ∈ ps.held t
  fin : ∃ n, ∀ t, n ≤ t → ps.th t = .out

theorem exec_sim {t : Tid} {β : Type} {a : Act K V β} {σ σ' τ : St K V} {r : β} (h : GSim gd σ τ) (he : Exec C t a σ r σ') :
    ∃ τ', Exec C t a τ r τ' ∧ GSim gd σ' τ' ∧ ∀ u, τ.Clear u → τ'.Clear u := by
  obtain ⟨h1, h2, h3, h4⟩ := h
  generalize τ.pinned = pn, τ.blockers = bl, τ.tabBlockers = tb at *
  subst h1
  have key : σ'.pinned = σ.pinned → σ'.blockers = σ.blockers → σ'.tabBlockers = σ.tabBlockers →
      Exec C t a (σ.withG pn bl tb) r (σ'.withG pn bl tb) →
      ∃ τ', Exec C t a (σ.withG pn bl tb) r τ' ∧ GSim gd σ' τ' ∧ ∀ u, (σ.withG pn bl tb).Clear u → τ'.Clear u :=
    fun e1 e2 e3 hx => ⟨_, hx, ⟨rfl, by rw [e1]; exact h2, by rw [e2]; exact h3, by rw [e3]; exact h4⟩, fun u h => h⟩
  cases a with
  | retire e =>
    have he : σ' = σ.retireEntry e := he
    subst he
    refine ⟨_, rfl, ⟨rfl, h2, fun x u hx => ?_, h4⟩, fun u hu => ⟨hu.1, fun x => ⟨?_, (hu.2 x).2⟩⟩⟩
    · have hx : (if x = e.id then pn u else bl x u) = true := hx
      show (if x = e.id then σ.pinned (gd u) else σ.blockers x (gd u)) = true
      split at hx
      · rw [if_pos ‹_›]; exact h2 u hx
      · rw [if_neg ‹_›]; exact h3 x u hx
    · show (if x = e.id then pn u else bl x u) = false
      split
      · exact hu.1
      · exact (hu.2 x).1
  | retireTable T =>
    have he : σ' = _ := he
    subst he
    refine ⟨_, rfl, ⟨rfl, h2, h3, fun x u hx => ?_⟩, fun u hu => ⟨hu.1, fun x => ⟨(hu.2 x).1, ?_⟩⟩⟩
    · have hx : (if x = T then pn u else tb x u) = true := hx
      show (if x = T then σ.pinned (gd u) else σ.tabBlockers x (gd u)) = true
      split at hx
      · rw [if_pos ‹_›]; exact h2 u hx
      · rw [if_neg ‹_›]; exact h4 x u hx
    · show (if x = T then pn u else tb x u) = false
      split
      · exact hu.1
      · exact (hu.2 x).2
  | casRootInit cap =>
    unfold Exec at he
    cases hr : σ.root with
    | none =>
      simp only [hr] at he
      obtain ⟨e1, e2⟩ := he
      subst e1
      refine key rfl rfl rfl ?_
      unfold Exec
      have : (σ.withG pn bl tb).root = none := hr
      simp only [this]
      exact ⟨rfl, e2⟩
    | some T =>
      simp only [hr] at he
      obtain ⟨e1, e2⟩ := he
      subst e1
      refine key rfl rfl rfl ?_
      unfold Exec
      have : (σ'.withG pn bl tb).root = some T := hr
      simp only [this]
      exact ⟨trivial, e2⟩
  | storeNext T cap =>
    obtain ⟨e1, e2⟩ := he
    subst e1
    exact key rfl rfl rfl ⟨rfl, e2⟩
  | casNew w T i e k v =>
    rcases he with ⟨e1, e2, e3⟩ | ⟨e1, e2, e3⟩ <;> subst e3
    · exact key rfl rfl rfl (.inl ⟨e1, e2, rfl⟩)
    · exact key rfl rfl rfl (.inr ⟨e1, e2, rfl⟩)
  | cas w T i e n =>
    rcases he with ⟨e1, e2, e3⟩ | ⟨e1, e2, e3⟩ <;> subst e3
    · exact key rfl rfl rfl (.inl ⟨e1, e2, rfl⟩)
    · exact key rfl rfl rfl (.inr ⟨e1, e2, rfl⟩)
  | tryLock T =>
    rcases he with ⟨e1, e2, e3⟩ | ⟨e1, e2, e3⟩ <;> subst e3
    · exact key rfl rfl rfl (.inl ⟨e1, e2, rfl⟩)
    · exact key rfl rfl rfl (.inr ⟨e1, e2, rfl⟩)
  | lockWait T =>
    rcases he with ⟨e1, e2, e3⟩ | ⟨e1, e2, e3⟩ <;> subst e3
    · exact key rfl rfl rfl (.inl ⟨e1, e2, rfl⟩)
    · exact key rfl rfl rfl (.inr ⟨e1, e2, rfl⟩)
  | casRoot T N =>
    rcases he with ⟨e1, e2, e3⟩ | ⟨e1, e2, e3⟩ <;> subst e3
    · exact key rfl rfl rfl (.inl ⟨e1, e2, rfl⟩)
    · exact key rfl rfl rfl (.inr ⟨e1, e2, rfl⟩)
  | unlock T => have he : σ' = _ := he; subst he; exact key rfl rfl rfl rfl
  | poison T => have he : σ' = _ := he; subst he; exact key rfl rfl rfl rfl
  | storeMd T i m => have he : σ' = _ := he; subst he; exact key rfl rfl rfl rfl
  | storeSlot T i s => have he : σ' = _ := he; subst he; exact key rfl rfl rfl rfl
  | storeStatus T s => have he : σ' = _ := he; subst he; exact key rfl rfl rfl rfl
  | deref e => have he : σ' = _ := he; subst he; exact key rfl rfl rfl rfl
  | pushDeferred T e => have he : σ' = _ := he; subst he; exact key rfl rfl rfl rfl
  | addCount d => have he : σ' = _ := he; subst he; exact key rfl rfl rfl rfl
  | _ => obtain ⟨e1, e2⟩ := he; subst e2; exact key rfl rfl rfl ⟨e1, rfl⟩

theorem ThSim.set {th th' : Tid → Th K V} {t : Tid} {x y : Th K V} (h : ∀ t, ThSim (th t) (th' t)) (hx : ThSim x y) :
    ∀ u, ThSim (setTh th t x u) (setTh th' t y u) := by
  intro u
  unfold setTh
  split
  · exact hx
  · exact h u

theorem ThSim.run_inv {x : Th K V} {c : Call K V} {p : Prog K V c.Res} (h : ThSim (.run c p) x) : x = .run c p := by
  cases h; rfl

theorem ThSim.out_inv {x : Th K V} (h : ThSim .out x) : x = .out ∨ x = .idle := by
  cases h
  · exact .inl rfl
  · exact .inr rfl

theorem fin_set {th : Tid → Th K V} {t : Tid} {x : Th K V} (h : ∃ n, ∀ t, n ≤ t → th t = .out) :
    ∃ n, ∀ u, n ≤ u → setTh th t x u = .out := by
  obtain ⟨n, h⟩ := h
  refine ⟨max n (t + 1), fun u hu => ?_⟩
  have h1 : n ≤ u := le_trans (Nat.le_max_left _ _) hu
  have h2 : t < u := le_trans (Nat.le_max_right _ _) hu
  rw [setTh_ne (Nat.ne_of_gt h2)]
  exact h u h1

theorem clear_set {th : Tid → Th K V} {t : Tid} {x : Th K V} {P : Tid → Prop} (hx : x ≠ .out) (h : ∀ u, th u = .out → P u) :
    ∀ u, setTh th t x u = .out → P u := by
  intro u hu
  by_cases hut : u = t
  · subst hut; rw [setTh_same] at hu; exact absurd hu hx
  · rw [setTh_ne hut] at hu; exact h u hu

theorem Sim.init {ss : SSt K V} (h : SInit C ss) : ∃ ps, Reach C ps ∧ Sim gd ss ps := by
  obtain ⟨h1, h2, h3, h4, h5⟩ := h
  have hz : ss.mem.pinned = (fun _ => false) ∧ ss.mem.blockers = (fun _ _ => false) ∧ ss.mem.tabBlockers = fun _ _ => false := by
    unfold initSt at h1
    simp only at h1
    split at h1
    · rw [← Option.some.inj h1]; exact ⟨rfl, rfl, rfl⟩
    · obtain ⟨n, _, h1⟩ := Option.map_eq_some_iff.1 h1
      rw [← h1]; exact ⟨rfl, rfl, rfl⟩
  obtain ⟨z1, z2, z3⟩ := hz
  refine ⟨⟨ss.mem, ss.th, ss.seq, ss.held, ss.hist⟩, .init ⟨h1, h2, h3, h4, h5⟩, ⟨rfl, ?_, ?_, ?_⟩, ?_, ?_, rfl, rfl, ?_, 0, ?_⟩
  · intro t ht; rw [z1] at ht; cases ht
  · intro x t ht; rw [z2] at ht; cases ht
  · intro x t ht; rw [z3] at ht; cases ht
  · intro t _; exact ⟨by rw [z1], fun x => ⟨by rw [z2], by rw [z3]⟩⟩
  · intro t; rw [h2]; exact .out
  · intro g e he; rw [h4] at he; cases he
  · intro t _; rw [h2]

/-- All private guards of `g` below `n` are dropped. -/
theorem Sim.drop {ss : SSt K V} {ps : PSt K V} {g : Tid} (hr : Reach C ps) (h : Sim gd ss ps)
    (hn : ∀ t c p, gd t = g → ss.th t ≠ .run c p) (n : Nat) :
    ∃ ps', Reach C ps' ∧ Sim gd { ss with held := fun u => if u = g then [] else ss.held u } ps' ∧
      (∀ t, t < n → gd t = g → ps'.mem.Clear t) ∧ ∀ t, ps.th t = .out → ps'.th t = .out := by
  induction n with
  | zero =>
    refine ⟨ps, hr, ⟨h.mem, h.clear, h.th, h.seq, h.hist, fun g' e he => ?_, h.fin⟩, fun t ht => by omega, fun _ h => h⟩
    have he : e ∈ (if g' = g then [] else ss.held g') := he
    split at he
    · cases he
    · exact h.held g' e he
  | succ n ih =>
    obtain ⟨q, h1, h2, h3, ho⟩ := ih
    by_cases hg : gd n = g
    swap
    · refine ⟨q, h1, h2, fun t ht hgt => h3 t ?_ hgt, ho⟩
      rcases Nat.lt_or_eq_of_le (Nat.le_of_lt_succ ht) with h4 | rfl
      · exact h4
      · exact absurd hgt hg
    have hcl : ∀ t, q.mem.Clear t → (q.mem.unpin n).Clear t := by
      intro t ht
      refine ⟨?_, fun x => ⟨?_, ?_⟩⟩
      · show (if t = n then false else q.mem.pinned t) = false
        split
        · rfl
        · exact ht.1
      · show (if t = n then false else q.mem.blockers x t) = false
        split
        · rfl
        · exact (ht.2 x).1
      · show (if t = n then false else q.mem.tabBlockers x t) = false
        split
        · rfl
        · exact (ht.2 x).2
    have hcn : (q.mem.unpin n).Clear n := ⟨if_pos rfl, fun x => ⟨if_pos rfl, if_pos rfl⟩⟩
    have hgs : GSim gd ss.mem (q.mem.unpin n) := by
      obtain ⟨a1, a2, a3, a4⟩ := h2.mem
      refine ⟨?_, ?_, ?_, ?_⟩
      · have a1 : ss.mem.withG q.mem.pinned q.mem.blockers q.mem.tabBlockers = q.mem := a1
        show ss.mem.withG _ _ _ = q.mem.unpin n
        rw [← a1]; rfl
      · intro t ht
        have ht : (if t = n then false else q.mem.pinned t) = true := ht
        split at ht
        · cases ht
        · exact a2 t ht
      · intro x t ht
        have ht : (if t = n then false else q.mem.blockers x t) = true := ht
        split at ht
        · cases ht
        · exact a3 x t ht
      · intro x t ht
        have ht : (if t = n then false else q.mem.tabBlockers x t) = true := ht
        split at ht
        · cases ht
        · exact a4 x t ht
    have hheld : ∀ g' e, e ∈ (if g' = g then [] else ss.held g') → ∃ t, gd t = g' ∧ e ∈ (if t = n then [] else q.held t) := by
      intro g' e he
      by_cases hgg : g' = g
      · rw [if_pos hgg] at he; cases he
      · obtain ⟨t, h4, h5⟩ := h2.held g' e he
        refine ⟨t, h4, ?_⟩
        rw [if_neg]
        · exact h5
        · rintro rfl
          exact hgg (h4.symm.trans hg)
    have hcl' : ∀ t, t < n + 1 → gd t = g → (q.mem.unpin n).Clear t := by
      intro t ht hgt
      rcases Nat.lt_or_eq_of_le (Nat.le_of_lt_succ ht) with h4 | rfl
      · exact hcl t (h3 t h4 hgt)
      · exact hcn
    have h4 := h2.th n
    have h4 : ThSim (ss.th n) (q.th n) := h4
    cases hth : q.th n with
    | out =>
      refine ⟨q, h1, h2, fun t ht hgt => ?_, ho⟩
      rcases Nat.lt_or_eq_of_le (Nat.le_of_lt_succ ht) with h5 | rfl
      · exact h3 t h5 hgt
      · exact h2.clear t hth
    | idle =>
      refine ⟨_, .step h1 (.unpin n hth), ⟨hgs, ?_, ?_, h2.seq, h2.hist, hheld, fin_set h2.fin⟩, hcl', fun t ht => ?_⟩
      rotate_left 2
      · show setTh _ _ _ _ = _
        unfold setTh
        split
        · rfl
        · exact ho t ht
      · intro t ht
        by_cases htn : t = n
        · subst htn; exact hcn
        · have ht : setTh q.th n .out t = .out := ht
          rw [setTh_ne htn] at ht
          exact hcl t (h2.clear t ht)
      · intro t
        show ThSim (ss.th t) (setTh q.th n .out t)
        by_cases htn : t = n
        · subst htn
          rw [setTh_same]
          rw [hth] at h4
          generalize ss.th t = y at h4
          cases h4; exact .out
        · rw [setTh_ne htn]; exact h2.th t
    | run c p =>
      exfalso
      rw [hth] at h4
      refine hn n c p hg ?_
      generalize ss.th n = y at h4
      cases h4; rfl
    | gone =>
      refine ⟨_, .step h1 (.release n hth), ⟨hgs, fun t ht => hcl t (h2.clear t ht), h2.th, h2.seq, h2.hist, hheld, h2.fin⟩, hcl', ho⟩

theorem Sim.step {ss ss' : SSt K V} {ps : PSt K V} (hr : Reach C ps) (h : Sim gd ss ps) (hs : SStep C gd ss ss') :
    ∃ ps', Reach C ps' ∧ Sim gd ss' ps' := by
  cases hs with
  | pin g hg =>
    refine ⟨ps, hr, ⟨⟨h.mem.mem, fun t ht => ?_, h.mem.blk, h.mem.tblk⟩, h.clear, h.th, h.seq, h.hist, h.held, h.fin⟩⟩
    show (if gd t = g then true else ss.mem.pinned (gd t)) = true
    split
    · rfl
    · exact h.mem.pin t ht
  | unpin g hg =>
    obtain ⟨n, hn⟩ := h.fin
    obtain ⟨q, h1, h2, h3, ho⟩ := Sim.drop hr h hg n
    have hcl : ∀ t, gd t = g → q.mem.Clear t := by
      intro t hgt
      rcases Nat.lt_or_ge t n with h4 | h4
      · exact h3 t h4 hgt
      · exact h2.clear t (ho t (hn t h4))
    refine ⟨q, h1, ⟨⟨h2.mem.mem, fun t ht => ?_, fun x t ht => ?_, fun x t ht => ?_⟩, h2.clear, h2.th, h2.seq, h2.hist, h2.held, h2.fin⟩⟩
    · show (if gd t = g then false else ss.mem.pinned (gd t)) = true
      rw [if_neg, h2.mem.pin t ht]
      intro hgt; rw [(hcl t hgt).1] at ht; cases ht
    · show (if gd t = g then false else ss.mem.blockers x (gd t)) = true
      rw [if_neg, h2.mem.blk x t ht]
      intro hgt; rw [((hcl t hgt).2 x).1] at ht; cases ht
    · show (if gd t = g then false else ss.mem.tabBlockers x (gd t)) = true
      rw [if_neg, h2.mem.tblk x t ht]
      intro hgt; rw [((hcl t hgt).2 x).2] at ht; cases ht
  | @abandon t c p ht =>
    have h1 := h.th t
    rw [ht] at h1
    have h1 := h1.run_inv
    refine ⟨_, .step hr (.abandon t h1), ⟨h.mem, ?_, ThSim.set h.th .gone, h.seq, h.hist, h.held, fin_set h.fin⟩⟩
    exact clear_set (by simp) h.clear
  | inv t c ht hg hwf =>
    -- the private guard is created if it does not exist
    obtain ⟨q, h1, h2, h3⟩ : ∃ q, Reach C q ∧ Sim gd ss q ∧ q.th t = .idle := by
      have h1 := h.th t
      rw [ht] at h1
      rcases h1.out_inv with h1 | h1
      · refine ⟨_, .step hr (.pin t h1), ⟨⟨?_, ?_, h.mem.blk, h.mem.tblk⟩, ?_, ?_, h.seq, h.hist, h.held, fin_set h.fin⟩, setTh_same⟩
        · have := h.mem.mem
          show ss.mem.withG _ _ _ = ps.mem.pin t
          rw [← this]; rfl
        · intro u hu
          have hu : (if u = t then true else ps.mem.pinned u) = true := hu
          split at hu
          · rename_i hut; rw [hut]; exact hg
          · exact h.mem.pin u hu
        · intro u hu
          by_cases hut : u = t
          · subst hut
            have hu : setTh ps.th u .idle u = .out := hu
            rw [setTh_same] at hu; cases hu
          · have hu : setTh ps.th t .idle u = .out := hu
            rw [setTh_ne hut] at hu
            have := h.clear u hu
            refine ⟨?_, this.2⟩
            show (if u = t then true else ps.mem.pinned u) = false
            rw [if_neg hut]; exact this.1
        · intro u
          show ThSim (ss.th u) (setTh ps.th t .idle u)
          by_cases hut : u = t
          · subst hut; rw [setTh_same, ht]; exact .idle
          · rw [setTh_ne hut]; exact h.th u
      · exact ⟨ps, hr, h, h1⟩
    refine ⟨_, .step h1 (.inv t c h3 hwf), ⟨h2.mem, ?_, ThSim.set h2.th (.run _ _), ?_, ?_, h2.held, fin_set h2.fin⟩⟩
    · exact clear_set (by simp) h2.clear
    · show (fun u => _) = fun u => _
      rw [h2.seq]
    · show _ ++ _ = _ ++ _
      rw [h2.hist, h2.seq]
  | @act t c β a k r σ ht he =>
    have h1 := h.th t
    rw [ht] at h1
    have h1 := h1.run_inv
    obtain ⟨τ, e1, e2, e3⟩ := exec_sim h.mem he
    refine ⟨_, .step hr (.act t h1 e1), ⟨e2, ?_, ThSim.set h.th (.run _ _), h.seq, h.hist, h.held, fin_set h.fin⟩⟩
    exact clear_set (by simp) (fun u hu => e3 u (h.clear u hu))
  | @loop t c β σ body s k ht =>
    have h1 := h.th t
    rw [ht] at h1
    have h1 := h1.run_inv
    refine ⟨_, .step hr (.loop t h1), ⟨h.mem, ?_, ThSim.set h.th (.run _ _), h.seq, h.hist, h.held, fin_set h.fin⟩⟩
    exact clear_set (by simp) h.clear
  | @ret t c r ht =>
    have h1 := h.th t
    rw [ht] at h1
    have h1 := h1.run_inv
    refine ⟨_, .step hr (.ret t h1), ⟨h.mem, ?_, ThSim.set h.th .idle, h.seq, ?_, ?_, fin_set h.fin⟩⟩
    · exact clear_set (by simp) h.clear
    · show _ ++ _ = _ ++ _
      rw [h.hist, h.seq]
    · intro g e he
      have he : e ∈ (if g = gd t then c.refs r ++ ss.held g else ss.held g) := he
      have key : e ∈ ss.held g → ∃ u, gd u = g ∧ e ∈ (if u = t then c.refs r ++ ps.held t else ps.held u) := by
        intro he
        obtain ⟨u, h2, h3⟩ := h.held g e he
        refine ⟨u, h2, ?_⟩
        split
        · rename_i hut; rw [← hut]; exact List.mem_append_right _ h3
        · exact h3
      split at he
      · rename_i hg
        rcases List.mem_append.1 he with he | he
        · refine ⟨t, hg.symm, ?_⟩
          show e ∈ (if t = t then _ else _)
          rw [if_pos rfl]; exact List.mem_append_left _ he
        · exact key he
      · exact key he
  | @panic t c w ht =>
    have h1 := h.th t
    rw [ht] at h1
    have h1 := h1.run_inv
    refine ⟨_, .step hr (.panic t h1), ⟨h.mem, ?_, ThSim.set h.th .idle, h.seq, ?_, h.held, fin_set h.fin⟩⟩
    · exact clear_set (by simp) h.clear
    · show _ ++ _ = _ ++ _
      rw [h.hist, h.seq]
  | freeEntry x h1 h2 h3 =>
    have hm := h.mem.mem
    refine ⟨_, .step hr (.freeEntry x ?_ ?_ ?_), ⟨⟨?_, h.mem.pin, h.mem.blk, h.mem.tblk⟩, h.clear, h.th, h.seq, h.hist, h.held, h.fin⟩⟩
    · rw [← hm]; exact h1
    · intro t
      cases hb : ps.mem.blockers x t with
      | false => rfl
      | true => rw [← h2 (gd t), h.mem.blk x t hb]
    · rw [← hm]; exact h3
    · show (ss.mem.freeEntry x).withG _ _ _ = ps.mem.freeEntry x
      rw [← hm]; rfl
  | freeTable T h1 h2 h3 =>
    have hm := h.mem.mem
    refine ⟨_, .step hr (.freeTable T ?_ ?_ ?_), ⟨⟨?_, h.mem.pin, h.mem.blk, h.mem.tblk⟩, h.clear, h.th, h.seq, h.hist, h.held, h.fin⟩⟩
    · rw [← hm]; exact h1
    · intro t
      cases hb : ps.mem.tabBlockers T t with
      | false => rfl
      | true => rw [← h2 (gd t), h.mem.tblk T t hb]
    · rw [← hm]; exact h3
    · show (ss.mem.freeTable T).withG _ _ _ = ps.mem.freeTable T
      rw [← hm]; rfl

/-- Every reachable state of the system with shared guards corresponds to one of the system with private guards. -/
theorem SReach.sim {ss : SSt K V} (h : SReach C gd ss) : ∃ ps, Reach C ps ∧ Sim gd ss ps := by
  induction h with
  | init h => exact Sim.init h
  | step _ hs ih =>
    obtain ⟨ps, h1, h2⟩ := ih
    exact h2.step h1 hs

end Papaya
