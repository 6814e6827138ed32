import Verif.Proof.Overfull
import Verif.Props.Livelock
import Verif.Props.Term
import Verif.Props.Quiet

/-! # C48: iterating, clearing, retaining and reserving need not end (incremental mode)

The claim that these operations, executed alone, end for every hash function is false of the code in incremental mode. -/

set_option linter.unusedSectionVars false
set_option linter.unusedVariables false

namespace Papaya

variable {K V : Type} [DecidableEq K]

open GSt

variable {C : Cfg K} {ps ps' : PSt K V} {n : Nat} {sh : Nat → Int} {F : Finset K}

/-- What stays true of the memory. -/
structure OFInv (n : Nat) (sh : Nat → Int) (σ : St K V) : Prop where
  caps : ∀ T, T < σ.nTabs → σ.cap T = n
  next : ∀ T N, σ.next T = some N → N < σ.nTabs
  root : σ.root ≠ none
  lock : ∀ T, σ.lock T ≠ .poisoned
  shard : σ.shard = sh

theorem OFInv.handle {σ : St K V} (h : OFInv n sh σ) {T : Nat} (hT : T < σ.nTabs) : HasLen n (σ.handle T) := by
  unfold St.handle HasLen
  simp [h.caps T hT]

theorem exec_of {t : Tid} {β : Type} {a : Act K V β} {σ σ' : St K V} {r : β} (he : Exec C t a σ r σ')
    (hok : (ofSys n sh).ok a) (h : OFInv n sh σ) (hr : ∀ T, σ.root = some T → T < σ.nTabs)
    (hnx : ∀ T, T ≤ σ.rootIx → σ.next T = some (T + 1)) (hpr : ∀ T, σ.status T = .promoted → T ≤ σ.rootIx) :
    OFInv n sh σ' ∧ (ofSys n sh).res σ.rootIx σ'.rootIx a r := by
  have hset : ∀ (T i : Nat) (s : Slot K V), OFInv n sh (σ.setSlot T i s) := fun T i s => ⟨h.caps, h.next, h.root, h.lock, h.shard⟩
  cases a with
  | loadRoot =>
    obtain ⟨rfl, rfl⟩ := he
    refine ⟨h, ?_⟩
    cases hroot : σ'.root with
    | none => exact absurd hroot h.root
    | some T =>
      refine ⟨_, rfl, h.handle (hr T hroot), ?_⟩
      unfold St.rootIx; rw [hroot]; rfl
  | peekRoot =>
    obtain ⟨rfl, rfl⟩ := he
    refine ⟨h, ?_⟩
    cases hroot : σ'.root with
    | none => exact absurd hroot h.root
    | some T =>
      show some T = some σ'.rootIx
      unfold St.rootIx; rw [hroot]; rfl
  | casRootInit c => exact hok.elim
  | loadNext T =>
    obtain ⟨rfl, rfl⟩ := he
    refine ⟨h, fun N hN => ?_, fun hT => ?_⟩
    · obtain ⟨N', h1, rfl⟩ := Option.map_eq_some_iff.1 hN
      exact h.handle (h.next T N' h1)
    · rw [hnx T hT]; exact ⟨_, rfl, rfl⟩
  | tryLock T =>
    rcases he with ⟨h1, rfl, rfl⟩ | ⟨h1, rfl, rfl⟩
    · refine ⟨⟨h.caps, h.next, h.root, fun T' => ?_, h.shard⟩, trivial⟩
      show (if T' = T then _ else _) ≠ _
      split
      · simp
      · exact h.lock T'
    · exact ⟨h, trivial⟩
  | lockWait T =>
    rcases he with ⟨h1, rfl, rfl⟩ | ⟨h1, rfl, rfl⟩
    · refine ⟨⟨h.caps, h.next, h.root, fun T' => ?_, h.shard⟩, rfl⟩
      show (if T' = T then _ else _) ≠ _
      split
      · simp
      · exact h.lock T'
    · exact absurd h1 (h.lock T)
  | unlock T =>
    have he : σ' = _ := he
    subst he
    refine ⟨⟨h.caps, h.next, h.root, fun T' => ?_, h.shard⟩, trivial⟩
    show (if T' = T then _ else _) ≠ _
    split
    · simp
    · exact h.lock T'
  | poison T => exact hok.elim
  | storeNext T c =>
    obtain ⟨rfl, rfl⟩ := he
    have hc : c = n := hok
    subst hc
    have key : OFInv c sh { σ.allocTable c .pending with
              next := fun T' => if T' = T then some σ.nTabs else if T' = σ.nTabs then none else σ.next T' } := by
      refine ⟨fun T' hT' => ?_, fun T' N hN => ?_, h.root, fun T' => ?_, h.shard⟩
      · have hT' : T' < σ.nTabs + 1 := hT'
        show (if T' = σ.nTabs then c else σ.cap T') = c
        split
        · rfl
        · exact h.caps T' (by omega)
      · show N < σ.nTabs + 1
        have hN : (if T' = T then some σ.nTabs else if T' = σ.nTabs then none else σ.next T') = some N := hN
        split at hN
        · cases hN; omega
        · split at hN
          · cases hN
          · have := h.next T' N hN; omega
      · show (if T' = σ.nTabs then _ else σ.lock T') ≠ _
        split
        · simp
        · exact h.lock T'
    refine ⟨key, ?_⟩
    exact key.handle (Nat.lt_succ_self _)
  | loadMd T i => obtain ⟨rfl, rfl⟩ := he; exact ⟨h, trivial⟩
  | storeMd T i m =>
    have he : σ' = _ := he
    subst he
    exact ⟨⟨h.caps, h.next, h.root, h.lock, h.shard⟩, trivial⟩
  | loadSlot T i => obtain ⟨rfl, rfl⟩ := he; exact ⟨h, trivial⟩
  | cas w T i exp new =>
    rcases he with ⟨h1, rfl, rfl⟩ | ⟨h1, rfl, rfl⟩
    · exact ⟨hset T i new, trivial⟩
    · exact ⟨h, trivial⟩
  | casNew w T i exp k v => exact hok.elim
  | fetchOrCopying T i =>
    obtain ⟨rfl, rfl⟩ := he
    exact ⟨hset T i _, trivial⟩
  | storeSlot T i s =>
    have he : σ' = _ := he
    subst he
    exact ⟨hset T i s, trivial⟩
  | loadStatus T => obtain ⟨rfl, rfl⟩ := he; exact ⟨h, hpr T⟩
  | parkStatus T => obtain ⟨_, rfl⟩ := he; exact ⟨h, trivial⟩
  | parkSlot T i => obtain ⟨_, rfl⟩ := he; exact ⟨h, trivial⟩
  | unparkStatus T => obtain ⟨_, rfl⟩ := he; exact ⟨h, trivial⟩
  | unparkSlot T i => obtain ⟨_, rfl⟩ := he; exact ⟨h, trivial⟩
  | storeStatus T s =>
    have he : σ' = _ := he
    subst he
    exact ⟨⟨h.caps, h.next, h.root, h.lock, h.shard⟩, trivial⟩
  | loadClaim T => obtain ⟨rfl, rfl⟩ := he; exact ⟨h, trivial⟩
  | addClaim T m s =>
    obtain ⟨rfl, rfl⟩ := he
    exact ⟨⟨h.caps, h.next, h.root, h.lock, h.shard⟩, trivial⟩
  | loadCopied T => obtain ⟨rfl, rfl⟩ := he; exact ⟨h, trivial⟩
  | addCopied T m s =>
    obtain ⟨rfl, rfl⟩ := he
    exact ⟨⟨h.caps, h.next, h.root, h.lock, h.shard⟩, trivial⟩
  | casRoot T N =>
    rcases he with ⟨h1, rfl, rfl⟩ | ⟨h1, rfl, rfl⟩
    · exact ⟨⟨h.caps, h.next, by simp, h.lock, h.shard⟩, fun _ => rfl, fun h => by cases h⟩
    · refine ⟨h, (fun h => by cases h), fun _ h2 => h1 ?_⟩
      cases h3 : σ'.root with
      | none => exact absurd h3 h.root
      | some R =>
        unfold St.rootIx at h2; rw [h3] at h2
        have h2 : R = T := h2
        rw [h2]
  | sameTable T T' => obtain ⟨rfl, rfl⟩ := he; exact ⟨h, rfl⟩
  | sameEntry x y => obtain ⟨rfl, rfl⟩ := he; exact ⟨h, trivial⟩
  | deref e => have he : σ' = _ := he; subst he; exact ⟨h, trivial⟩
  | retire e =>
    have he : σ' = _ := he
    subst he
    exact ⟨⟨h.caps, h.next, h.root, h.lock, h.shard⟩, trivial⟩
  | retireTable T =>
    have he : σ' = _ := he
    subst he
    exact ⟨⟨h.caps, h.next, h.root, h.lock, h.shard⟩, trivial⟩
  | pushDeferred T e =>
    have he : σ' = _ := he
    subst he
    exact ⟨⟨h.caps, h.next, h.root, h.lock, h.shard⟩, trivial⟩
  | loadShard j =>
    obtain ⟨rfl, rfl⟩ := he
    exact ⟨h, by rw [h.shard]; rfl⟩
  | addCount d => exact hok.elim

/-- More keys than fit into one table: the root table has a successor. -/
theorem of_next {q : PSt K V} (hR : Reach C q) (hinc : C.inc = true) (hh : ∀ k k', C.hash k = C.hash k') (hm : OFInv n sh q.mem)
    (hF : ∀ k, k ∈ F → ∃ v, q.mem.Holds k v) (hc : limit n + 1 < F.card) :
    (∀ T, T ≤ q.mem.rootIx → q.mem.next T = some (T + 1)) ∧ ∀ T, q.mem.status T = .promoted → T ≤ q.mem.rootIx := by
  obtain ⟨S, g, ⟨g1, g2, _⟩, _⟩ := hR.pinv 1
  have hrt : S.rt = q.mem.rootIx := by rw [← g1]; rfl
  have hn : S.nTabs = q.mem.nTabs := by rw [← g1]
  have hlt : S.rt + 1 < S.nTabs := by
    by_contra hge
    have h1 : ∀ k, k ∈ F → ∃ m, m < limit n + 1 ∧ ∀ k', ∃ e, S.kslot S.rt (S.pos C S.rt k' m) e ∧ e.key = k := by
      intro k hk
      obtain ⟨v, e, ⟨T, i, h2, h3, h4, _⟩, h5, _⟩ := hF k hk
      have h4 : S.kslot T i e := by
        show (S.toSt.slot T i).ptr = _
        rw [g1]; exact h4
      have hT := kslot_lt g2.s h4
      have : T = S.rt := by omega
      subst this
      obtain ⟨m, h6, h7, _⟩ := g2.p.p4 _ _ _ h4
      have hcap : S.lim S.rt = limit n := by
        unfold GSt.lim
        have : S.cap S.rt = n := by
          have := hm.caps S.rt (by omega)
          rw [← g1] at this; exact this
        rw [this]
      refine ⟨m, by omega, fun k' => ⟨e, ?_, h5⟩⟩
      have : S.pos C S.rt k' m = S.pos C S.rt e.key m := by
        unfold GSt.pos Cfg.h1; rw [hh k' e.key]
      rw [this, h7]; exact h4
    choose! f hf1 hf2 using h1
    have h2 : F.card ≤ (Finset.range (limit n + 1)).card := by
      refine Finset.card_le_card_of_injOn f (fun k hk => ?_) ?_
      · exact Finset.mem_coe.2 (Finset.mem_range.2 (hf1 k (Finset.mem_coe.1 hk)))
      · intro a ha b hb' hab
        obtain ⟨e1, h3, h4⟩ := hf2 a (Finset.mem_coe.1 ha) a
        obtain ⟨e2, h5, h6⟩ := hf2 b (Finset.mem_coe.1 hb') a
        rw [hab] at h3
        unfold GSt.kslot at h3 h5
        rw [h3] at h5
        cases h5
        rw [← h4, ← h6]
    rw [Finset.card_range] at h2
    omega
  refine ⟨fun T hT => ?_, fun T hT => ?_⟩
  · have := g2.s.next T (by omega)
    rw [if_pos (by omega)] at this
    rw [← g1]; exact this
  · rw [← g1] at hT
    rw [← hrt]
    exact (g2.s.prom T hT).1

/-! ## A second execution with the same memory accesses

`clear` and `retain` may change the contents, so what is known about executions without writers does not apply to them. But as long as
they have not got past `linearize`, they do what an iteration does. -/

theorem ObW.later {α : Type} {r r' m : Nat} {p : Prog K V α} (h : ObW (ofSys n sh) r m p fun _ _ => False) (hr : r ≤ r') :
    ObW (ofSys n sh) r' m p fun _ _ => False := by
  induction m generalizing p r r' with
  | zero => cases p <;> trivial
  | succ m ih =>
    cases p with
    | ret x => exact h
    | panic w => exact h
    | act a k => exact ⟨h.1, fun r'' x h1 hx => h.2 r'' x (Nat.le_trans hr h1) hx⟩
    | iter body s k =>
      have h' : ObW (ofSys n sh) r m (Prog.unfoldIter body s k) fun _ _ => False := h
      exact ih h' hr

theorem Prog.bind_ret' {α : Type} (p : Prog K V α) : p.bind Prog.ret = p := by
  induction p with
  | ret x => rfl
  | panic w => rfl
  | act a k ih => exact congrArg (Prog.act a) (funext ih)
  | iter body s k ih1 ih2 => exact congrArg (Prog.iter body s) (funext ih2)

theorem unfoldIter_bind {α β γ σ : Type} {body : σ → Prog K V (σ ⊕ β)} {s : σ} {k : β → Prog K V α} {f : α → Prog K V γ} :
    (Prog.unfoldIter body s k).bind f = Prog.unfoldIter body s fun x => (k x).bind f := by
  unfold Prog.unfoldIter
  rw [Prog.bind_assoc]
  congr 1
  funext x
  cases x <;> rfl

/-- The first program does what the second one does, forever. -/
inductive Twin (n : Nat) (sh : Nat → Int) {α α' : Type} : Nat → Prog K V α → Prog K V α' → Prop
  | lin {r : Nat} {β : Type} {p : Prog K V β} {k : β → Prog K V α} {k' : β → Prog K V α'} (h : OW (ofSys n sh) r p fun _ _ => False) :
      Twin n sh r (p.bind k) (p.bind k')
  | pre {r : Nat} {β σ : Type} {body : σ → Prog K V (σ ⊕ β)} {s : σ} {k : β → Prog K V α} {p' : Prog K V α'}
      (h : ∀ r', r ≤ r' → Twin n sh r' (Prog.unfoldIter body s k) p') : Twin n sh r (.iter body s k) p'
  | load {r : Nat} {k : Option Table → Prog K V α} {k' : Option Table → Prog K V α'}
      (h : ∀ T r', HasLen n T → T.id = r' → Twin n sh r' (k (some T)) (k' (some T))) :
      Twin n sh r (.act .loadRoot k) (.act .loadRoot k')

variable {α α' : Type} {r : Nat} {p' : Prog K V α'}

theorem Twin.later {p : Prog K V α} {r' : Nat} (h : Twin n sh r p p') (hr : r ≤ r') : Twin n sh r' p p' := by
  cases h with
  | lin h => exact .lin fun m => (h m).later hr
  | pre h => exact .pre fun r'' h1 => h r'' (Nat.le_trans hr h1)
  | load h => exact .load h

theorem Twin.act_inv {β : Type} {a : Act K V β} {k : β → Prog K V α} (h : Twin n sh r (.act a k) p') :
    ∃ k', p' = .act a k' ∧ (ofSys n sh).ok a ∧ ∀ r' x, r ≤ r' → (ofSys n sh).res r r' a x → Twin n sh r' (k x) (k' x) := by
  generalize hp : Prog.act a k = p at h
  cases h with
  | @lin _ _ p0 k1 k2 h =>
    cases p0 with
    | ret x => exact (h 1).elim
    | panic w => cases hp
    | iter body s k => cases hp
    | act a' k0 =>
      cases hp
      obtain ⟨h1, h2⟩ := h.act_inv
      exact ⟨fun x => (k0 x).bind k2, rfl, h1, fun r' x h3 h4 => .lin (h2 r' x h3 h4)⟩
  | pre h => cases hp
  | load h =>
    cases hp
    refine ⟨_, rfl, trivial, fun r' x _ hx => ?_⟩
    obtain ⟨T, rfl, h1, h2⟩ : ∃ T, x = some T ∧ HasLen n T ∧ T.id = r' := hx
    exact h T r' h1 h2

theorem Twin.iter_inv {β σ : Type} {body : σ → Prog K V (σ ⊕ β)} {s : σ} {k : β → Prog K V α} (h : Twin n sh r (.iter body s k) p') :
    Twin n sh r (Prog.unfoldIter body s k) p' ∨
      ∃ k', p' = .iter body s k' ∧ Twin n sh r (Prog.unfoldIter body s k) (Prog.unfoldIter body s k') := by
  generalize hp : Prog.iter body s k = p at h
  cases h with
  | @lin _ _ p0 k1 k2 h =>
    cases p0 with
    | ret x => exact (h 1).elim
    | panic w => cases hp
    | act a k => cases hp
    | iter body' s' k0 =>
      cases hp
      refine .inr ⟨fun x => (k0 x).bind k2, rfl, ?_⟩
      rw [← unfoldIter_bind, ← unfoldIter_bind]
      exact .lin fun m => h (m + 1)
  | pre h => cases hp; exact .inl (h r (Nat.le_refl _))
  | load h => cases hp

theorem Twin.ret_inv {x : α} (h : Twin n sh r (.ret x) p') : False := by
  generalize hp : Prog.ret x = p at h
  cases h with
  | @lin _ _ p0 k1 k2 h =>
    cases p0 with
    | ret x => exact (h 1).elim
    | _ => cases hp
  | _ => cases hp

theorem Twin.panic_inv {w : PanicReason} (h : Twin n sh r (.panic w : Prog K V α) p') : w = .unreachableCode ∨ w = .unwrapNone := by
  generalize hp : (Prog.panic w : Prog K V α) = p at h
  cases h with
  | @lin _ _ p0 k1 k2 h =>
    cases p0 with
    | ret x => exact (h 1).elim
    | panic w => cases hp; exact h 1
    | _ => cases hp
  | _ => cases hp

/-- The operation to compare with. -/
def twin : Call K V → Call K V
  | .reserve a => .reserve a
  | _ => .iter

theorem twin_wf (c : Call K V) : (twin c).WF := by
  unfold twin; split <;> trivial

theorem twin_writes (c : Call K V) (k : K) : ¬ (twin c).Writes k := by
  unfold twin; split <;> exact id

theorem twin_prog (hp : OFParams C n sh) {σ : St K V} (hσ : σ.shard = sh) {c : Call K V} (hc : Finishing C n σ c) :
    Twin n sh r (c.prog C) ((twin c).prog C) := by
  subst hσ
  cases c with
  | iter =>
    refine .load fun T r' h1 h2 => ?_
    show Twin n _ r' (Prog.bind (linearize C T) _) (Prog.bind (linearize C T) _)
    exact .lin (of_linearize hp h1 (Nat.le_of_eq h2))
  | iterTake m =>
    refine .load fun T r' h1 h2 => ?_
    show Twin n _ r' (Prog.bind (linearize C T) _) (Prog.bind (linearize C T) _)
    exact .lin (of_linearize hp h1 (Nat.le_of_eq h2))
  | clear =>
    refine .load fun T r' h1 h2 => .pre fun r'' h3 => ?_
    unfold Prog.unfoldIter
    show Twin n _ r'' (Prog.bind (Prog.bind (linearize C T) _) _) (Prog.bind (linearize C T) _)
    rw [Prog.bind_assoc]
    exact .lin (of_linearize hp h1 (by omega))
  | retain f =>
    refine .load fun T r' h1 h2 => .pre fun r'' h3 => ?_
    unfold Prog.unfoldIter
    show Twin n _ r'' (Prog.bind (Prog.bind (linearize C T) _) _) (Prog.bind (linearize C T) _)
    rw [Prog.bind_assoc]
    exact .lin (of_linearize hp h1 (by omega))
  | reserve a =>
    obtain ⟨c, h1, h2⟩ := hc
    have h3 : OW (ofSys n σ.shard) r (reserve C a : Prog K V Unit) fun _ _ => False := by
      refine of_reserve hp ?_ h1 h2
      unfold entriesFor at h1
      split at h1
      · omega
      · cases h1
    have := Twin.lin (k := Prog.ret) (k' := Prog.ret) h3
    rwa [Prog.bind_ret'] at this
  | _ => exact hc.elim

/-! ## The execution -/

/-- The situation. -/
structure OFStart (C : Cfg K) (n : Nat) (F : Finset K) (sh : Nat → Int) (ps : PSt K V) : Prop where
  reach : Reach C ps
  hash : ∀ k k', C.hash k = C.hash k'
  params : OFParams C n sh
  mem : OFInv n sh ps.mem
  keys : ∀ k, k ∈ F → ∃ v, ps.mem.Holds k v
  card : limit n + 1 < F.card
  quiet : ∀ o c, HEv.inv o c ∈ ps.hist → Ended ps.hist o

/-- The thread `x` of an execution and the thread `x'` of the second execution. -/
inductive TwinTh (n : Nat) (sh : Nat → Int) (c : Call K V) (r : Nat) : Th K V → Th K V → Prop
  | out : TwinTh n sh c r .out .out
  | idle : TwinTh n sh c r .idle .idle
  | gone : TwinTh n sh c r .gone .gone
  | run {p : Prog K V c.Res} {p' : Prog K V (twin c).Res} (h : Twin n sh r p p') : TwinTh n sh c r (.run c p) (.run (twin c) p')

theorem TwinTh.later {c : Call K V} {r r' : Nat} {x x' : Th K V} (h : TwinTh n sh c r x x') (hr : r ≤ r') : TwinTh n sh c r' x x' := by
  cases h with
  | out => exact .out
  | idle => exact .idle
  | gone => exact .gone
  | run h => exact .run (h.later hr)

/-- The two executions. -/
structure OFRun (C : Cfg K) (n : Nat) (c : Call K V) (sh : Nat → Int) (o : OpId) (ps q q' : PSt K V) : Prop where
  steps : Steps C ps q'
  calls : ∀ o c', HEv.inv o c' ∈ q'.hist → HEv.inv o c' ∈ ps.hist ∨ c' = twin c
  same : q'.mem = q.mem
  inv : OFInv n sh q.mem
  th : ∀ u, TwinTh n sh c q.mem.rootIx (q.th u) (q'.th u)
  ended : ¬ Ended q.hist o

theorem setTh_twin {c : Call K V} {r r' : Nat} {f f' : Tid → Th K V} (h : ∀ u, TwinTh n sh c r (f u) (f' u)) (hr : r ≤ r') {t : Tid}
    {x x' : Th K V} (hx : TwinTh n sh c r' x x') (u : Tid) : TwinTh n sh c r' (setTh f t x u) (setTh f' t x' u) := by
  unfold setTh
  split
  · exact hx
  · exact (h u).later hr

theorem of_root {q q' : PSt K V} (h : Reach C q) (hs : Step C q q') (h0 : q.mem.root ≠ none) : q.mem.rootIx ≤ q'.mem.rootIx := by
  cases hr : q.mem.root with
  | none => exact absurd hr h0
  | some r =>
    obtain ⟨r', h1, h2⟩ := (C32_root_once h).2.1 r hr (Relation.ReflTransGen.single hs)
    unfold St.rootIx
    rw [hr, h1]
    exact h2

theorem of_run (h0 : OFStart C n F sh ps) {c : Call K V} (hc : Finishing C n ps.mem c) (hsh : ps.mem.shard = sh) {o : OpId}
    (he : ¬ Ended ps.hist o) (hs : Steps C ps ps')
    (hw : ∀ o c', HEv.inv o c' ∈ ps'.hist → HEv.inv o c' ∈ ps.hist ∨ c' = c) : ∃ q, OFRun C n c sh o ps ps' q := by
  induction hs with
  | refl =>
    refine ⟨ps, .refl, fun o c' h => .inl h, rfl, h0.mem, fun u => ?_, he⟩
    by_cases h1 : ps.th u = .out
    · rw [h1]; exact .out
    by_cases h2 : ps.th u = .idle
    · rw [h2]; exact .idle
    obtain ⟨S, g, ⟨_, _, _, _, _, g6⟩, _⟩ := h0.reach.pinv 1
    obtain ⟨⟨c, h3⟩, h4⟩ := g6.pend u h1 h2
    exact absurd (h0.quiet _ _ h3) h4
  | @tail q q1 hsq hstep ih =>
    have hpre := step_hist hstep
    obtain ⟨q', ih⟩ := ih fun o c h => hw o c (hpre.subset h)
    have hR := h0.reach.steps hsq
    have hRt := h0.reach.steps ih.steps
    have hroot := of_root hR hstep ih.inv.root
    have hsame := ih.same
    have hF : ∀ k, k ∈ F → ∃ v, q'.mem.Holds k v := by
      intro k hk
      obtain ⟨v, hv⟩ := h0.keys k hk
      refine ⟨v, (C14_contents_stable h0.reach ih.steps k (fun o c' h1 h2 => ?_) v).2 hv⟩
      rcases ih.calls o c' h1 with h3 | rfl
      · exact h0.quiet o c' h3
      · exact absurd h2 (twin_writes c k)
    obtain ⟨hnx, hpr⟩ := of_next hRt h0.params.mode h0.hash (by rw [hsame]; exact ih.inv) hF h0.card
    rw [hsame] at hnx hpr
    have hth := fun {t : Tid} {x : Th K V} (h : q.th t = x) => h ▸ ih.th t
    cases hstep with
    | pin t h =>
      have h1 := hth h
      have h2 : q'.th t = .out := by generalize q'.th t = y at h1; cases h1; rfl
      exact ⟨_, ih.steps.tail (.pin t h2), ih.calls, by rw [hsame], ⟨ih.inv.caps, ih.inv.next, ih.inv.root, ih.inv.lock, ih.inv.shard⟩,
        setTh_twin ih.th (Nat.le_refl _) .idle, ih.ended⟩
    | unpin t h =>
      have h1 := hth h
      have h2 : q'.th t = .idle := by generalize q'.th t = y at h1; cases h1; rfl
      exact ⟨_, ih.steps.tail (.unpin t h2), ih.calls, by rw [hsame], ⟨ih.inv.caps, ih.inv.next, ih.inv.root, ih.inv.lock, ih.inv.shard⟩,
        setTh_twin ih.th (Nat.le_refl _) .out, ih.ended⟩
    | @abandon t c2 p h =>
      have h1 := hth h
      obtain ⟨c2, p2, h2⟩ : ∃ c2 p2, q'.th t = .run c2 p2 := by generalize q'.th t = y at h1; cases h1; exact ⟨_, _, rfl⟩
      exact ⟨_, ih.steps.tail (.abandon t h2), ih.calls, hsame, ih.inv, setTh_twin ih.th (Nat.le_refl _) .gone, ih.ended⟩
    | release t h =>
      have h1 := hth h
      have h2 : q'.th t = .gone := by generalize q'.th t = y at h1; cases h1; rfl
      exact ⟨_, ih.steps.tail (.release t h2), ih.calls, by rw [hsame], ⟨ih.inv.caps, ih.inv.next, ih.inv.root, ih.inv.lock, ih.inv.shard⟩,
        ih.th, ih.ended⟩
    | inv t c' h hwf =>
      have h1 := hth h
      have h2 : q'.th t = .idle := by generalize q'.th t = y at h1; cases h1; rfl
      have hnew : HEv.inv (t, q.seq t + 1) c' ∉ ps.hist := by
        intro hin
        obtain ⟨S, g, ⟨_, _, g3, _, _, g6⟩, _⟩ := hR.pinv 1
        have := (g6.i1 _ _ ((steps_hist hsq).subset hin)).2.1
        rw [g3] at this
        simp at this
      have hcc := (hw _ c' (by simp)).resolve_left hnew
      subst hcc
      refine ⟨_, ih.steps.tail (.inv t (twin c') h2 (twin_wf _)), fun o c2 h3 => ?_, hsame, ih.inv,
        setTh_twin ih.th (Nat.le_refl _) (.run (twin_prog h0.params hsh hc)), ?_⟩
      · rcases List.mem_append.1 h3 with h3 | h3
        · exact ih.calls o c2 h3
        · rw [List.mem_singleton] at h3; cases h3; exact .inr rfl
      · rintro (⟨c', r, h1⟩ | ⟨c', r, h1⟩) <;> rcases List.mem_append.1 h1 with h1 | h1
        · exact ih.ended (.inl ⟨c', r, h1⟩)
        · rw [List.mem_singleton] at h1; cases h1
        · exact ih.ended (.inr ⟨c', r, h1⟩)
        · rw [List.mem_singleton] at h1; cases h1
    | act t h he =>
      have h1 := hth h
      generalize hy : q'.th t = y at h1
      cases h1 with
      | run h1 =>
        obtain ⟨k', rfl, h3, h4⟩ := h1.act_inv
        obtain ⟨h5, h6⟩ := exec_of he h3 ih.inv (fun T hT => rootOk hR hT) hnx hpr
        exact ⟨_, ih.steps.tail (.act t hy (by rw [hsame]; exact he)), ih.calls, rfl, h5,
          setTh_twin ih.th hroot (.run (h4 _ _ hroot h6)), ih.ended⟩
    | loop t h =>
      have h1 := hth h
      generalize hy : q'.th t = y at h1
      cases h1 with
      | run h1 =>
        rcases h1.iter_inv with h2 | ⟨k', rfl, h2⟩
        · refine ⟨q', ih.steps, ih.calls, hsame, ih.inv, fun u => ?_, ih.ended⟩
          have : q'.th = setTh q'.th t (q'.th t) := by
            funext u; unfold setTh; split
            · rename_i h; rw [h]
            · rfl
          rw [this]
          refine setTh_twin ih.th (Nat.le_refl _) ?_ u
          rw [hy]
          exact .run h2
        · exact ⟨_, ih.steps.tail (.loop t hy), ih.calls, hsame, ih.inv, setTh_twin ih.th (Nat.le_refl _) (.run h2), ih.ended⟩
    | ret t h =>
      have h1 := hth h
      generalize hy : q'.th t = y at h1
      cases h1 with
      | run h1 => exact h1.ret_inv.elim
    | panic t h =>
      have h1 := hth h
      generalize hy : q'.th t = y at h1
      cases h1 with
      | run h1 =>
        have h3 := C09_no_internal_panic hR h
        rcases h1.panic_inv with h4 | h4
        · exact absurd h4 h3.1
        · exact absurd h4 h3.2
    | freeEntry x h1 h2 h3 =>
      exact ⟨_, ih.steps.tail (.freeEntry x (by rw [hsame]; exact h1) (by rw [hsame]; exact h2) (by rw [hsame]; exact h3)), ih.calls,
        by rw [hsame], ⟨ih.inv.caps, ih.inv.next, ih.inv.root, ih.inv.lock, ih.inv.shard⟩, ih.th, ih.ended⟩
    | freeTable T h1 h2 h3 =>
      exact ⟨_, ih.steps.tail (.freeTable T (by rw [hsame]; exact h1) (by rw [hsame]; exact h2) (by rw [hsame]; exact h3)), ih.calls,
        by rw [hsame], ⟨ih.inv.caps, ih.inv.next, ih.inv.root, ih.inv.lock, ih.inv.shard⟩, ih.th, ih.ended⟩

/-- **C48 is false of the code** in incremental mode: in such a situation an iteration, `clear`, `retain` and a reservation, executed
alone, never return (and do not panic), however long they run. -/
theorem C48_never_returns {c : Call K V} {o : OpId} (hov : Overfull C n ps) (hc : Finishing C n ps.mem c) (h : Solo C ps ps' o c) :
    ¬ Ended ps'.hist o := by
  obtain ⟨m, ⟨F, h1, h2⟩, h3⟩ := hov.keys
  have hinc : C.inc = true := by
    have := hov.mode
    unfold Cfg.inc
    cases hm : C.mode with
    | blocking => exact absurd hm this
    | incremental k => rfl
  have h0 : OFStart C n F ps.mem.shard ps := by
    refine ⟨h.reach, hov.hash, ⟨hinc, hov.size.1, hov.size.2.2.1, hov.size.2.1, hov.size.2.2.2.1, hov.same⟩,
      ⟨hov.tables.2, reach_next h.reach, hov.tables.1, hov.size.2.2.2.2, rfl⟩, fun k hk => (h1 k).1 hk, by omega, h.quiet⟩
  have hwf := C01_history_wf (h.reach.steps h.steps)
  have hsub := (steps_hist h.steps).subset
  have hA : ¬ Ended ps.hist o := by
    have key : ∀ c', HEv.inv o c' ∈ ps.hist → False := fun c' h1 => by
      have := hwf.inv_unique (hsub h1) h.called
      subst this
      exact h.fresh h1
    have hwf0 := C01_history_wf h.reach
    rintro (⟨c', r, h1⟩ | ⟨c', r, h1⟩)
    · exact key c' (hwf0.ret_inv' h1)
    · exact key c' (hwf0.panic_inv h1)
  have hB : ∀ o' c', HEv.inv o' c' ∈ ps'.hist → HEv.inv o' c' ∈ ps.hist ∨ c' = c := by
    intro o' c' h1
    by_cases h2 : HEv.inv o' c' ∈ ps.hist
    · exact .inl h2
    · right
      have := h.others o' c' h1 h2
      subst this
      exact hwf.inv_unique h1 h.called
  obtain ⟨q, hq⟩ := of_run h0 hc rfl hA h.steps hB
  exact hq.ended

/-- A map in incremental mode, created with 128 slots, and a constant hash function. -/
def cfgOver : Cfg Nat := ⟨fun _ => 0, .incremental 8, 96, 1, fun t => t, 0, 0, 0, fun _ => true⟩

/-- Tests of the hypotheses of `C48_never_returns` for `n = 128`. -/
def overfullB (ps : PSt Nat Nat) : Bool :=
  ps.mem.root == some 0 && ps.mem.nTabs == 2 && ps.mem.cap 0 == 128 && ps.mem.cap 1 == 128 && ps.mem.lock 0 == .free &&
  ps.mem.lock 1 == .free && (((List.range 2).map ps.mem.shard).sum).toNat == 40 &&
  ps.hist.all fun ev => match ev with
    | .inv o _ => ps.hist.any (HEv.endTest o)
    | _ => true

theorem overfullB_iff {ps : PSt Nat Nat} (hr : Reach cfgOver ps) (h : overfullB ps = true) (hk : HasKeys ps.mem 40) :
    Overfull cfgOver 128 ps ∧ (∀ o c, HEv.inv o c ∈ ps.hist → Ended ps.hist o) ∧ Finishing cfgOver 128 ps.mem (.reserve 1000) := by
  unfold overfullB at h
  simp only [Bool.and_eq_true, beq_iff_eq] at h
  obtain ⟨⟨⟨⟨⟨⟨⟨h1, h2⟩, h3⟩, h4⟩, h5⟩, h6⟩, h7⟩, h8⟩ := h
  obtain ⟨S, g, ⟨g1, g2, _⟩, _⟩ := hr.pinv 1
  have h7' : (((List.range (cfgOver.shards + 1)).map ps.mem.shard).sum).toNat = 40 := h7
  refine ⟨⟨by simp [cfgOver], fun _ _ => rfl, ⟨by rw [h1]; simp, fun T hT => ?_⟩,
    ⟨by decide, by decide, by decide, rfl, fun T => ?_⟩, ⟨40, hk, by decide⟩, ?_⟩, fun o c ho => ?_, ?_⟩
  · have : T = 0 ∨ T = 1 := by omega
    rcases this with rfl | rfl
    · exact h3
    · exact h4
  · rcases Nat.lt_or_ge T 2 with hT | hT
    · have : T = 0 ∨ T = 1 := by omega
      rcases this with rfl | rfl
      · rw [h5]; simp
      · rw [h6]; simp
    · rw [← g1] at h2
      have := (g2.s.out T (by omega)).2.2.2.2.2.2.1
      rw [← g1, this]; simp
  · rw [h7']; decide
  · exact ended_of_test (List.all_eq_true.1 h8 _ ho)
  · refine ⟨2048, ?_, by decide⟩
    rw [h7']
    decide

theorem overfull_exists : ∃ ps : PSt Nat Nat, Reach cfgOver ps ∧ HasKeys ps.mem 40 ∧ overfullB ps = true ∧ ps.th 0 = .idle ∧
    ∀ o c w, HEv.panic o c w ∉ ps.hist := by
  obtain ⟨ps, ps', r, h1, h4, h2, h3⟩ := demo_alone (C := cfgOver) (V := Nat) (l1 := fill 40) (l2 := [.fin 1 9000]) (t := 1)
    (c := .len) trivial (n := 1) (m := 80) (P2 := fun ps => (overfullB ps && match ps.th 0 with | .idle => true | _ => false) &&
      ps.hist.all fun ev => match ev with | .panic _ _ _ => false | _ => true)
    (Q := fun | .len, r => Nat.beq r 40 | _, _ => false) (by decide +kernel) (by decide +kernel)
  have h3 : r = (40 : Nat) := Nat.eq_of_beq_eq_true h3
  subst h3
  rw [Bool.and_eq_true, Bool.and_eq_true] at h4
  obtain ⟨⟨h5, h6⟩, h7⟩ := h4
  refine ⟨ps', h1.reach.steps h1.steps, C13_len h1 h2, h5, ?_, fun o c w hw => by cases List.all_eq_true.1 h7 _ hw⟩
  split at h6
  · assumption
  · cases h6

/-- In such a situation these operations do not end: the claim of C47 is false of them. -/
theorem C48_not_endsAlone {c : Call K V} {t : Tid} {sp : Bool} (hov : Overfull C n ps) (hc : Finishing C n ps.mem c) (h : Reach C ps)
    (hq : ∀ o c, HEv.inv o c ∈ ps.hist → Ended ps.hist o) (ht : ps.th t = .idle) (hwf : c.WF) : ¬ EndsAlone C t sp ps c := by
  intro he
  obtain ⟨m, ps', h1, h2⟩ := he.reaches h ht hwf
  have hst : Steps C ps ps' := .head (.inv t c ht hwf) h1.steps
  have hnew : HEv.inv (t, ps.seq t + 1) c ∉ ps.hist := by
    intro hin
    obtain ⟨S, g, ⟨_, _, g3, _, _, g6⟩, _⟩ := h.pinv 1
    have := (g6.i1 _ _ hin).2.1
    rw [g3] at this
    simp at this
  have hcall : HEv.inv (t, ps.seq t + 1) c ∈ ps'.hist := (steps_hist h1.steps).subset (List.mem_append_right _ (List.mem_singleton.2 rfl))
  have hs : Solo C ps ps' (t, ps.seq t + 1) c := by
    refine ⟨h, hst, hq, hnew, hcall, fun o' c' h3 h4 => ?_⟩
    have key : ∀ ev, (∀ o c, ev ≠ HEv.inv o c) → ps'.hist = (ps.call C t c).hist ++ [ev] → o' = (t, ps.seq t + 1) := by
      intro ev hev heq
      rw [heq] at h3
      rcases List.mem_append.1 h3 with h3 | h3
      · rcases List.mem_append.1 h3 with h3 | h3
        · exact absurd h3 h4
        · rw [List.mem_singleton] at h3; cases h3; rfl
      · rw [List.mem_singleton] at h3; exact absurd h3.symm (hev _ _)
    rcases h2 with ⟨r, h2⟩ | ⟨w, h2, _⟩
    · exact key _ (fun _ _ h => by cases h) h2
    · exact key _ (fun _ _ h => by cases h) h2
  refine C48_never_returns hov hc hs ?_
  rcases h2 with ⟨r, h2⟩ | ⟨w, h2, _⟩
  · exact .inl ⟨c, r, by rw [h2]; exact List.mem_append_right _ (List.mem_singleton.2 rfl)⟩
  · exact .inr ⟨c, w, by rw [h2]; exact List.mem_append_right _ (List.mem_singleton.2 rfl)⟩

/-- **C48 is false of the code**: a reachable state of a map with 40 keys, after which an iteration, `clear`, `retain` and
`reserve(1000)`, called next and executed alone, never return. -/
theorem C48_witness : ∃ ps : PSt Nat Nat, Reach cfgOver ps ∧ HasKeys ps.mem 40 ∧
    (∀ o c, HEv.inv o c ∈ ps.hist → Ended ps.hist o) ∧ ps.th 0 = .idle ∧
    (∀ ps' o c, c = .iter ∨ c = .clear ∨ (∃ f, c = .retain f) ∨ c = .reserve 1000 → Solo cfgOver ps ps' o c → ¬ Ended ps'.hist o) ∧
    ¬ EndsAlone cfgOver 0 false ps .iter ∧ ¬ EndsAlone cfgOver 0 false ps .clear ∧ ¬ EndsAlone cfgOver 0 false ps (.reserve 1000) := by
  obtain ⟨ps, h1, h2, h3, h4, _⟩ := overfull_exists
  obtain ⟨h5, h6, h7⟩ := overfullB_iff h1 h3 h2
  refine ⟨ps, h1, h2, h6, h4, fun ps' o c hc h => C48_never_returns h5 ?_ h, C48_not_endsAlone h5 trivial h1 h6 h4 trivial,
    C48_not_endsAlone h5 trivial h1 h6 h4 trivial, C48_not_endsAlone h5 h7 h1 h6 h4 trivial⟩
  rcases hc with rfl | rfl | ⟨f, rfl⟩ | rfl
  · trivial
  · trivial
  · trivial
  · exact h7

-- such an iteration under way: it has replaced the root table twice
example : ∃ ps ps' : PSt Nat Nat, Solo cfgOver ps ps' (0, 41) .iter ∧ ps.mem.root = some 0 ∧ ps'.mem.root = some 2 := by
  obtain ⟨ps, ps', h1, h2, h3, h4, h5, h6⟩ := demo_call (C := cfgOver) (V := Nat) (l1 := fill 40) (t := 0) (c := .iter) trivial (n := 41)
    (P1 := fun ps => overfullB ps && ps.hist.length == 80) (l2 := [.go 0 5000])
    (P2 := fun ps => ps.mem.root == some 2 && ps.hist.length == 81) (by decide +kernel) (by decide +kernel)
  simp only [Bool.and_eq_true, beq_iff_eq] at h3 h4
  have h10 : ∀ o c, HEv.inv o c ∈ ps.hist → Ended ps.hist o := by
    intro o c ho
    have h8 := h3.1
    unfold overfullB at h8
    simp only [Bool.and_eq_true] at h8
    exact ended_of_test (List.all_eq_true.1 h8.2 _ ho)
  have h11 : ps.mem.root = some 0 := by
    have h8 := h3.1
    unfold overfullB at h8
    simp only [Bool.and_eq_true, beq_iff_eq] at h8
    exact h8.1.1.1.1.1.1.1
  refine ⟨ps, ps', ⟨h1, h2, h10, h6 _, h5, fun o c a b => ?_⟩, h11, h4.1⟩
  obtain ⟨A, hA⟩ := steps_hist h2
  have hl := congrArg List.length hA
  rw [List.length_append, h3.2, h4.2] at hl
  obtain ⟨x, rfl⟩ := List.length_eq_one_iff.1 (show A.length = 1 by omega)
  rw [← hA] at a h5
  have a := (List.mem_append.1 a).resolve_left b
  have h5 := (List.mem_append.1 h5).resolve_left (h6 _)
  rw [List.mem_singleton] at a h5
  rw [← h5] at a
  cases a; rfl

end Papaya
