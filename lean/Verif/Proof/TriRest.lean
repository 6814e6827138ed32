import Verif.Proof.TriProm

/-! # Triples of table initialization, helping, waiting and retiring -/

set_option linter.unusedSectionVars false
set_option linter.unusedVariables false

namespace Papaya

variable {K V : Type} [DecidableEq K]

open GSt

variable {C : Cfg K} {t : Tid} {Ap : PanicReason → GSt K V → Prop}

theorem rootAcc_rt {S : GSt K V} (h : S.Inv C) (hp : Pinned t S) {r : Nat} (hr : S.root = some r) :
    RootAcc t (S.handle r) S := by
  have hrt : S.rt = r := by unfold rt; rw [hr]; rfl
  have hlt := (h.s.some r hr).1
  have hd := h.l.d3 t
  refine ⟨⟨hp, hlt, rfl, ?_⟩, ?_, ?_⟩
  · show S.pr t ≤ r; omega
  · show S.wasRoot r; rw [← hrt]; exact wasRoot_rt h.s hlt
  · show S.rInv t ≤ r; omega

/-- There is a table. -/
def HasTab (S : GSt K V) : Prop := 0 < S.nTabs

instance : Inert C t (HasTab (K := K) (V := V)) :=
  Inert.mono fun S S' h1 h2 h3 h => by have := h3.nTabs; unfold HasTab at *; omega

theorem rootInitSt_OwnQ {S : GSt K V} {cap : Nat} (h : S.Inv C) (hr : S.root = none) : OwnQ t S (S.rootInitSt cap) :=
  (rootInitSt_Own h hr).ownQ

theorem tri_initTable [hA : SysA C Ap] (hc : C.capacity = 0) {capacity : Option Nat} (hcap : ∀ n, capacity = some n → isPow2 n) :
    Tri (V := V) C t Ap (Mt t) (fun S => Pinned t S) (initTable C capacity) (fun T S => RootAcc t T S) := by
  unfold initTable
  have hpw : isPow2B (capacity.getD 32) = true := by
    cases capacity with
    | none => decide
    | some n => exact (isPow2B_iff n).2 (hcap n rfl)
  refine Tri.ite (fun hn => ?_) (fun hn => absurd hpw hn)
  refine Tri.ite (fun _ => ?_) (fun hl => Tri.panic fun _ _ _ => hA.ok _ _ (.inr (.inr (.inl ⟨rfl, _, by simpa using hl⟩))))
  refine Tri.act (fun _ _ _ => trivial) ?_
  intro S T σ'' h hp he
  cases hr : S.root with
  | some r =>
    have he' : σ'' = S.toSt ∧ T = S.handle r := by
      simp only [Exec, hr] at he; exact he
    obtain ⟨rfl, rfl⟩ := he'
    exact ⟨S, rfl, h, Evo.refl S, fun t' _ => Own.refl t' S, Mt.refl t S, rootAcc_rt h hp hr⟩
  | none =>
    have he' : σ'' = (S.rootInitSt (max (capacity.getD 32) 8)).toSt ∧ T = σ''.handle S.nTabs := by
      simp only [Exec, hr] at he; exact he
    obtain ⟨rfl, rfl⟩ := he'
    have hinv := (rootInitSt_Inv (cap := max (capacity.getD 32) 8) h hr (isPow2_max hn) (Nat.le_max_right _ _)
      (by unfold Cfg.initialCapacity; rw [if_pos hc]; have := Nat.le_max_right (capacity.getD 32) 8; omega)).1
    have hev : Evo S (S.rootInitSt (max (capacity.getD 32) 8)) := rootInitSt_Evo h hr
    exact ⟨_, rfl, hinv, hev, fun t' _ => rootInitSt_Own h hr, ⟨hev, (rootInitSt_OwnQ h hr).toOwn0⟩,
      rootAcc_rt hinv hp rfl⟩

theorem RootAcc.hasTab {S : GSt K V} {T : Table} (h : RootAcc t T S) : HasTab S := by
  have := h.1.2.1; unfold HasTab; omega

theorem tri_helpCopyIncremental [hA : SysA C Ap] (hb : C.inc = true) {chunk : Nat} {block : Bool} :
    Tri (V := V) C t Ap (Mt t) (fun S => Pinned t S ∧ HasTab S) (helpCopyIncremental C chunk block)
      (fun r S => ∃ n, r = some n ∧ (block = true → RootAcc t n S)) := by
  have hg := fun S : GSt K V => Mt.refl t S
  unfold helpCopyIncremental
  refine Tri.bind (fun r S => match r with | none => False | some T => RootAcc t T S) ?_ ?_
  · refine tri_loadRoot hg (fun S _ h => h.1) _ ?_ ?_
    · intro S T h hp h1 _; exact h1
    · intro S h hp hr; have := (h.s.none hr).1; have h2 : 0 < S.nTabs := hp.2; omega
  rintro (_ | T)
  · exact Tri.false fun S _ h => h
  simp only
  refine Tri.bind (fun r S => match r with | none => RootAcc t T S | some N => RootAcc t T S ∧ Pair t T N S) ?_ ?_
  · refine Tri.mt (tri_loadNext (fun S _ h => h.1) _ ?_ ?_)
    · intro S N h hp h1 h2
      exact ⟨hp, hp.1, h1, by rw [h2]; exact pair_wasRoot_succ h.s hp.2.1 (by rw [← h2]; exact h1.2.1)⟩
    · intro S h hp h1; exact hp
  rintro (_ | N)
  · exact Tri.ret fun S _ h => ⟨_, rfl, fun _ => h⟩
  simp only
  have hdone : ∀ {S : GSt K V}, RootAcc t T S → Pair t T N S → S.wasRoot N.id → RootAcc t N S := by
    intro S h1 h2 h3
    refine ⟨h2.2.1, h3, ?_⟩
    have := h1.2.2; have := h2.2.2.1; omega
  have hpr0 : ∀ {c a : Nat}, Tri (V := V) C t Ap (Mt t)
      (fun S => (RootAcc t T S ∧ Pair t T N S) ∧ ∀ j', a ≤ j' → j' < a + c → Done C t T.id N.id j' S)
      (tryPromote T N c)
      (fun b S => (RootAcc t T S ∧ Pair t T N S) ∧ (b = true → S.wasRoot N.id)) := by
    intro c a
    exact ((tri_tryPromote (a := a)).frame (fun S => RootAcc t T S ∧ Pair t T N S)).conseq
      (fun S _ h => ⟨⟨h.1.2, h.2⟩, h.1⟩) (fun _ S _ h => ⟨h.2, h.1⟩)
  refine Tri.bind (fun n S => block = true → RootAcc t n S) ?_ (fun n => Tri.ret fun S _ h => ⟨n, rfl, h⟩)
  refine Tri.loop (fun _ S => RootAcc t T S ∧ Pair t T N S) ?_
  intro _
  refine Tri.bind _ ((hpr0 (c := 0) (a := 0)).pre fun S _ h => ⟨h, fun j' _ h => by omega⟩) ?_
  intro b
  refine Tri.ite (fun hbt => Tri.ret fun S _ h => fun _ => hdone h.1.1 h.1.2 (h.2 hbt)) (fun _ => ?_)
  refine Tri.bind (fun out S => match out with
    | .brk => (RootAcc t T S ∧ AllClaimed T N S) ∧ Pair t T N S
    | .retry n => False
    | .done n => block = true → RootAcc t n S) ?_ ?_
  · refine (Tri.loop (fun _ S => RootAcc t T S ∧ Pair t T N S) ?_).pre fun S _ h => h.1
    intro _
    refine Tri.bind (fun cl S => (RootAcc t T S ∧ Pair t T N S) ∧ cl ≤ S.claim N.id) ?_ ?_
    · haveI := fun cl : Nat => (⟨fun S S' h1 h2 h3 h4 h => Nat.le_trans h (h3.claim N.id)⟩ : Inert C t (fun S : GSt K V => cl ≤ S.claim N.id))
      exact Tri.load _ hg (fun S h hp => hp.2.2.1.tabOk h) (fun _ _ _ h => h.2) (fun S r _ hp he => ⟨hp, Nat.le_of_eq he.1⟩)
    intro cl
    refine Tri.ite (fun hcl => Tri.ret fun S _ h => ⟨⟨h.1.1, Nat.le_trans hcl h.2⟩, h.1.2⟩) (fun _ => ?_)
    refine Tri.bind _ ((tri_addClaim.frame (RootAcc t T)).pre fun S _ h => ⟨h.1.2, h.1.1⟩) ?_
    intro start
    refine Tri.bind _ (((tri_copyChunkIncremental hb).frame (fun S => RootAcc t T S ∧ Pair t T N S)).pre
      fun S _ h => ⟨h.1, h.2, h.1.1⟩) ?_
    intro copied
    refine Tri.bind _ ((hpr0 (a := start)).pre fun S _ h => ⟨h.2, h.1⟩) ?_
    intro p
    refine Tri.ite (fun hp => Tri.ret fun S _ h => fun hbl => ?_) (fun _ => Tri.ret fun S _ h => h.1)
    have : p = true := by
      rcases hp with hp | hp
      · exact hp
      · rw [hbl] at hp; cases hp
    exact hdone h.1.1 h.1.2 (h.2 this)
  · rintro (_ | n | n)
    · simp only
      refine Tri.ite (fun hbl => ?_) (fun hbl => Tri.ret fun S _ h h' => absurd h' (by simpa using hbl))
      refine Tri.bind (fun _ S => RootAcc t N S) ?_ (fun _ => Tri.ret fun S _ h _ => h)
      refine Tri.loop (fun _ S => (RootAcc t T S ∧ AllClaimed T N S) ∧ Pair t T N S) ?_
      intro spun
      refine Tri.bind _ ((tri_loadStatus.frame (fun S => RootAcc t T S ∧ AllClaimed T N S)).pre fun S _ h => ⟨h.2, h.1⟩) ?_
      intro st
      cases st
      · refine Tri.ite (fun _ => Tri.ret fun S _ h => ⟨h.2, h.1.1⟩) fun _ => ?_
        exact Tri.bind _ ((tri_parkStatus.frame (RootAcc t T)).pre fun S _ h => ⟨⟨h.1.1, h.2.2⟩, h.2.1⟩) fun _ => Tri.ret fun S _ h => ⟨⟨h.2, h.1.2⟩, h.1.1⟩
      · refine Tri.ite (fun _ => Tri.ret fun S _ h => ⟨h.2, h.1.1⟩) fun _ => ?_
        exact Tri.bind _ ((tri_parkStatus.frame (RootAcc t T)).pre fun S _ h => ⟨⟨h.1.1, h.2.2⟩, h.2.1⟩) fun _ => Tri.ret fun S _ h => ⟨⟨h.2, h.1.2⟩, h.1.1⟩
      · exact Tri.ret fun S _ h => hdone h.2.1 h.1.1 (h.1.2.2 rfl)
    · exact Tri.false fun S _ h => h
    · exact Tri.ret fun S _ h => h

theorem inc_of_blocking (h : C.mode = .blocking) : C.inc = false := by unfold Cfg.inc; rw [h]
theorem inc_of_incremental {n : Nat} (h : C.mode = .incremental n) : C.inc = true := by unfold Cfg.inc; rw [h]

theorem tri_helpCopyAll [hA : SysA C Ap] {T : Table} :
    Tri (V := V) C t Ap (Mt t) (fun S => RootAcc t T S ∧ T.id + 1 < S.nTabs) (helpCopy C true T)
      (fun n S => RootAcc t n S) := by
  unfold helpCopy
  split
  · rename_i hm
    refine ((tri_helpCopyBlocking (inc_of_blocking hm) (T := T)).frame (RootAcc t T)).conseq
      (fun S _ h => ⟨⟨h.1.1, h.1.2.1, h.2⟩, h.1⟩) ?_
    rintro n S _ ⟨⟨h1, h2, h3⟩, h4⟩
    exact ⟨h1, h2, by have := h4.2.2; omega⟩
  · rename_i chunk hm
    refine Tri.bind _ ((tri_helpCopyIncremental (inc_of_incremental hm)).pre fun S _ h => ⟨h.1.1.1, h.1.hasTab⟩) ?_
    rintro (_ | n)
    · exact Tri.false fun S _ ⟨n, h, _⟩ => by cases h
    · rw [if_pos rfl]
      refine Tri.ret fun S _ h => ?_
      obtain ⟨n', h1, h2⟩ := h
      cases h1; exact h2 rfl

theorem tri_helpCopyOne [hA : SysA C Ap] (hi : C.inc = true) {T : Table} :
    Tri (V := V) C t Ap (Mt t) (fun S => Acc t T S ∧ T.id + 1 < S.nTabs) (helpCopy C false T)
      (fun n S => Acc t n S ∧ n.id = T.id + 1) := by
  unfold helpCopy
  split
  · rename_i hm
    rw [inc_of_blocking hm] at hi; cases hi
  · rename_i chunk hm
    refine Tri.bind (fun _ S => Acc t T S ∧ T.id + 1 < S.nTabs)
      (((tri_helpCopyIncremental hi).frame (fun S => Acc t T S ∧ T.id + 1 < S.nTabs)).conseq
        (fun S _ h => ⟨⟨h.1.1, by have := h.2; unfold HasTab; omega⟩, h⟩) (fun _ S _ h => h.2)) ?_
    intro r
    rw [if_neg (by simp)]
    refine Tri.bind (fun r S => match r with | some n => Acc t n S ∧ n.id = T.id + 1 | none => False) ?_ ?_
    · refine Tri.mt (tri_loadNext (fun S _ h => h.1) _ ?_ ?_)
      · intro S N h hp h1 h2; exact ⟨h1, h2⟩
      · intro S h hp h1; have := hp.2; omega
    rintro (_ | n)
    · exact Tri.false fun S _ h => h
    · exact Tri.ret fun S _ h => h

/-- Nothing newer than the current operation was hidden when `T` was replaced. -/
def LinTab (t : Tid) (T : Nat) (S : GSt K V) : Prop := T + 1 < S.nTabs → S.invPos t ≤ (S.nextLog T).length

instance {T : Nat} : Inert C t (LinTab (K := K) (V := V) t T) := ⟨fun S S' h1 h2 h3 h4 h hlt => by
  rw [h4.invPos]
  by_cases hn : T + 1 < S.nTabs
  · rw [h3.nlog T hn]; exact h hn
  · have := (h3.nlog' T (by omega) hlt).length_le
    have := h1.e.e6 t
    omega⟩

theorem tri_linearize [hA : SysA C Ap] {T : Table} :
    Tri (V := V) C t Ap (Mt t) (fun S => RootAcc t T S) (linearize C T)
      (fun n S => RootAcc t n S ∧ (C.inc = true → LinTab t n.id S)) := by
  unfold linearize
  refine Tri.ite (fun hi => ?_) (fun hi => Tri.ret fun S _ h => ⟨h, fun h' => absurd h' hi⟩)
  refine Tri.loop (fun T S => RootAcc t T S) ?_
  intro T
  refine Tri.bind (fun r S => match r with
    | none => RootAcc t T S ∧ LinTab t T.id S
    | some _ => RootAcc t T S ∧ T.id + 1 < S.nTabs) ?_ ?_
  · refine Tri.mt (tri_loadNext (fun S _ h => h.1) _ ?_ ?_)
    · intro S N h hp h1 h2; exact ⟨hp, by rw [← h2]; exact h1.2.1⟩
    · intro S h hp h1; exact ⟨hp, fun h2 => by omega⟩
  rintro (_ | N)
  · exact Tri.ret fun S _ h => ⟨h.1, fun _ => h.2⟩
  · simp only
    refine Tri.bind _ tri_helpCopyAll ?_
    intro n
    exact Tri.ret fun S _ h => h

theorem tri_waitCopied {T : Table} {i : Nat} (hi : i < T.len) {e : Entry K V} :
    Tri C t Ap (Mt t) (fun S => Acc t T S ∧ Frozen T.id i e S ∧ S.md T.id i ≠ EMPTY) (waitCopied C i T)
      (fun _ S => S.passed C T.id e.key) := by
  unfold waitCopied
  refine Tri.bind (fun b S => (Acc t T S ∧ Frozen T.id i e S ∧ S.md T.id i ≠ EMPTY) ∧ (b = true → S.passed C T.id e.key)) ?_ fun seen =>
    Tri.ite (fun hs => Tri.ret fun S _ h => h.2 hs) fun _ => ?_
  rotate_left
  · refine Tri.load _ (Mt.refl t) (fun S h hp => ⟨hp.1.1.idx_len h hi, e, hp.1.2.1⟩) (fun _ _ _ h => h.2) ?_
    intro S r h hp he
    exact .inr ⟨i, e, hp.1.2.1.1, rfl, he.1, hp.1.2.2⟩
  refine Tri.loop (fun _ S => Acc t T S ∧ Frozen T.id i e S ∧ S.md T.id i ≠ EMPTY) ?_
  intro _
  refine Tri.ite (fun _ => ?_) fun _ => Tri.ret fun S _ h => ⟨h, by simp⟩
  refine Tri.bind (fun s S => (Acc t T S ∧ Frozen T.id i e S ∧ S.md T.id i ≠ EMPTY) ∧
    (s.copied = true → S.passed C T.id e.key)) ?_ ?_
  · refine tri_loadSlot (Mt.refl t) (fun S _ h => h.1) hi _ ?_
    intro S h hp
    exact ⟨hp, fun hc => .inr ⟨i, e, hp.2.1.1, rfl, hc, hp.2.2⟩⟩
  · intro s
    exact Tri.ite (fun hc => Tri.ret fun S _ h => ⟨h.1, fun _ => h.2 hc⟩) (fun hc => Tri.ret fun S _ h => h.1)

/-! ## Retiring an unlinked entry -/

/-- `e` is the only entry that `t` has to retire; it remains only in tables before `U`. -/
def OneTok (t : Tid) (e : Entry K V) (U : Nat) (S : GSt K V) : Prop :=
  (∃ b, S.tok e.id = .owned t U b) ∧ ∀ id U' b', S.tok id = .owned t U' b' → id = e.id

instance {e : Entry K V} {U : Nat} : Kept C t (OneTok t e U) := ⟨fun S S' _ _ _ h4 h => by
  obtain ⟨⟨b, h1⟩, h2⟩ := h
  exact ⟨⟨b, h4.tok _ _ _ h1⟩, fun id U' b' h => h2 id U' b' (h4.tok' _ _ _ h)⟩⟩

/-- … and it was unlinked before `U` became the root. -/
def EarlyTok (t : Tid) (e : Entry K V) (U : Nat) (S : GSt K V) : Prop := S.tok e.id = .owned t U true

instance {e : Entry K V} {U : Nat} : Kept C t (EarlyTok t e U) := ⟨fun S S' _ _ _ h4 h => h4.tok _ _ _ h⟩

theorem owned_facts {S : GSt K V} (h : S.Inv C) {e : Entry K V} {U : Nat} {b : Bool} (ht : S.tok e.id = .owned t U b) :
    S.freed e.id = false ∧ S.retired e.id = false ∧ (∀ P, ∀ e' ∈ S.deferred P, e'.id ≠ e.id) := by
  have hr : S.retired e.id = false := by
    cases hr : S.retired e.id with
    | false => rfl
    | true =>
      obtain ⟨U', h1⟩ := (h.m.m2 _).1 hr
      rw [ht] at h1; cases h1
  refine ⟨?_, hr, ?_⟩
  · cases hf : S.freed e.id with
    | false => rfl
    | true =>
      rcases h.m.m5 _ hf with ⟨h1, _⟩ | ⟨P, h1, _⟩
      · rw [hr] at h1; cases h1
      · rw [ht] at h1; cases h1
  · intro P e' he' hid
    have := (h.m.m7 e.id P).2 ⟨e', he', hid⟩
    rw [ht] at this; cases this

theorem tri_retire {e : Entry K V} {U : Nat} :
    Tri C t Ap (Mt t) (fun S => OneTok t e U S ∧ U ≤ S.rt) (A.retire e) (fun _ => NoTok t) := by
  refine Tri.act (fun S h hp => ?_) ?_
  · obtain ⟨⟨⟨b, ht⟩, h2⟩, hU⟩ := hp
    obtain ⟨g1, g2, g3⟩ := owned_facts h ht
    refine ⟨g1, g2, g3, fun T i hk => ?_⟩
    have := h.m.m1 T i e U hk (.inl ⟨t, b, ht⟩)
    omega
  · intro S r σ'' h hp he
    obtain ⟨⟨⟨b, ht⟩, h2⟩, hU⟩ := hp
    refine ⟨S.retireSt e U, he.symm, retireSt_Inv h ht hU, retireSt_Evo, fun t' hne => retireSt_Own hne ht,
      ⟨retireSt_Evo, retireSt_Own0 ht⟩, ?_⟩
    intro id U' b' h'
    have htk : (S.retireSt e U).tok id = if id = e.id then .retired U else S.tok id := rfl
    rw [htk] at h'
    split at h'
    · cases h'
    · rename_i hne; exact hne (h2 id U' b' h')

theorem tri_pushDeferred (hi : C.inc = true) {P : Table} {e : Entry K V} {U : Nat} (hU : U = P.id + 1) :
    Tri C t Ap (Mt t) (fun S => Acc t P S ∧ OneTok t e U S ∧ EarlyTok t e U S) (A.pushDeferred P.id e)
      (fun _ => NoTok t) := by
  subst hU
  refine Tri.act (fun S h hp => ?_) ?_
  · obtain ⟨ha, h2, h3⟩ := hp
    obtain ⟨g1, g2, g3⟩ := owned_facts h h3
    refine ⟨ha.tabOk h, g1, g2, g3, fun T i hk => ?_⟩
    have := h.m.m1 T i e _ hk (.inl ⟨t, true, h3⟩)
    omega
  · intro S r σ'' h hp he
    obtain ⟨ha, h2, h3⟩ := hp
    refine ⟨S.pushSt P.id e, he.symm, pushSt_Inv h hi h3 ha.2.1, pushSt_Evo, fun t' hne => pushSt_Own hne h3,
      ⟨pushSt_Evo, pushSt_Own0 h3⟩, ?_⟩
    intro id U' b' h'
    have htk : (S.pushSt P.id e).tok id = if id = e.id then .deferred P.id else S.tok id := rfl
    rw [htk] at h'
    split at h'
    · cases h'
    · rename_i hne; exact hne (h2.2 id U' b' h')

/-- The bound recorded when `e` was unlinked from a slot with tagged pointer `s` in table `T`. -/
def unlinkOf (C : Cfg K) (s : Slot K V) (T : Nat) : Nat := if C.inc = true ∧ s.borrowed = false then 0 else T

/-- State of the scan for the root from `T` on. -/
def ScanI (t : Tid) (T R : Table) (n : Option Table) (S : GSt K V) : Prop :=
  match n with
  | some n => Acc t n S ∧ T.id ≤ n.id ∧ (T.id ≤ R.id → n.id ≤ R.id)
  | none => R.id < T.id

instance {T R : Table} {n : Option Table} : Inert C t (ScanI (K := K) (V := V) t T R n) := by
  unfold ScanI; cases n <;> infer_instance

theorem tri_deferRetire {e : Entry K V} {s : Slot K V} {T : Table} :
    Tri C t Ap (Mt t) (fun S => Acc t T S ∧ OneTok t e (unlinkOf C s T.id) S) (deferRetire C e s T)
      (fun _ => NoTok t) := by
  have hg := fun S : GSt K V => Mt.refl t S
  unfold deferRetire
  split
  · rename_i hm
    have hi := inc_of_blocking hm
    refine tri_retire.pre fun S h hp => ⟨hp.2, ?_⟩
    obtain ⟨b, ht⟩ := hp.2.1
    exact ((h.m.own _ _ _ _ ht).2 hi).1
  · rename_i chunk hm
    have hi := inc_of_incremental hm
    refine Tri.ite (fun hb => ?_) (fun hb => ?_)
    · refine tri_retire.pre fun S h hp => ⟨hp.2, ?_⟩
      unfold unlinkOf; rw [if_pos ⟨hi, hb⟩]; omega
    have hU : unlinkOf C s T.id = T.id := by unfold unlinkOf; rw [if_neg (fun h => hb h.2)]
    rw [hU]
    refine Tri.bind (fun r S => match r with
      | none => False
      | some R => (Acc t T S ∧ Acc t R S ∧ R.id ≤ S.rt) ∧ OneTok t e T.id S ∧ (R.id < T.id → EarlyTok t e T.id S)) ?_ ?_
    · refine tri_loadRoot hg (fun S _ h => h.1.1) _ ?_ ?_
      · intro S R h hp h1 h2
        refine ⟨⟨hp.1, h1.1, by omega⟩, hp.2, fun hlt => ?_⟩
        obtain ⟨b, ht⟩ := hp.2.1
        unfold EarlyTok
        cases b with
        | true => exact ht
        | false => have := (h.m.own _ _ _ _ ht).1 rfl; omega
      · intro S h hp hr
        have := (h.s.none hr).1
        have := hp.1.2.1
        omega
    rintro (_ | R)
    · exact Tri.false fun S _ h => h
    simp only
    refine Tri.bind (fun b S => (((Acc t T S ∧ Acc t R S ∧ R.id ≤ S.rt) ∧ OneTok t e T.id S ∧
      (R.id < T.id → EarlyTok t e T.id S)) ∧ if b = true then T.id ≤ R.id else R.id < T.id)) ?_ ?_
    · refine Tri.mt ?_
      refine Tri.pre (P := fun S => ScanI t T R (some T) S ∧ ((Acc t T S ∧ Acc t R S ∧ R.id ≤ S.rt) ∧ OneTok t e T.id S ∧
          (R.id < T.id → EarlyTok t e T.id S))) ?_ (fun S _ h => ⟨⟨h.1.1, Nat.le_refl _, fun h => h⟩, h⟩)
      refine Tri.loop (fun (n : Option Table) S => ScanI t T R n S ∧ ((Acc t T S ∧ Acc t R S ∧ R.id ≤ S.rt) ∧
        OneTok t e T.id S ∧ (R.id < T.id → EarlyTok t e T.id S))) ?_
      rintro (_ | n)
      · refine Tri.ret fun S _ h => ⟨h.2, ?_⟩
        rw [if_neg (by simp)]; exact h.1
      · simp only
        refine tri_sameTable (fun S => Mq.refl t S) (fun S h hp => ⟨hp.1.1.tabOk h, hp.2.1.2.1.tabOk h⟩)
          (fun hn => Tri.ret fun S _ h => ⟨h.2, ?_⟩) (fun hn => ?_)
        · rw [if_pos rfl]
          have h1 : Acc t n S ∧ T.id ≤ n.id ∧ _ := h.1
          omega
        · refine Tri.bind (fun (n : Option Table) S => ScanI t T R n S ∧ ((Acc t T S ∧ Acc t R S ∧ R.id ≤ S.rt) ∧
            OneTok t e T.id S ∧ (R.id < T.id → EarlyTok t e T.id S))) ?_ (fun _ => Tri.ret fun S _ h => h)
          refine tri_loadNext (fun S _ h => h.1.1) _ ?_ ?_
          · intro S N h hp h1 h2
            have h3 : Acc t n S ∧ T.id ≤ n.id ∧ (T.id ≤ R.id → n.id ≤ R.id) := hp.1
            refine ⟨⟨h1, by omega, fun h4 => ?_⟩, hp.2⟩
            have := h3.2.2 h4
            omega
          · intro S h hp h1
            have h3 : Acc t n S ∧ T.id ≤ n.id ∧ (T.id ≤ R.id → n.id ≤ R.id) := hp.1
            refine ⟨?_, hp.2⟩
            show R.id < T.id
            have h4 := hp.2.1.2.1.2.1
            by_contra h5
            have := h3.2.2 (by omega)
            omega
    · intro b
      refine Tri.ite (fun hbt => ?_) (fun hbf => ?_)
      · refine tri_retire.pre fun S h hp => ⟨hp.1.2.1, ?_⟩
        have h2 := hp.2
        rw [if_pos hbt] at h2
        have := hp.1.1.2.2
        omega
      · refine Tri.pre (P := fun S => (Acc t R S ∧ R.id < T.id) ∧ Acc t T S ∧ OneTok t e T.id S ∧ EarlyTok t e T.id S) ?_ ?_
        · refine Tri.loop (fun (R : Table) S => (Acc t R S ∧ R.id < T.id) ∧ Acc t T S ∧ OneTok t e T.id S ∧ EarlyTok t e T.id S) ?_
          intro P
          refine Tri.bind (fun r S => match r with
            | none => False
            | some N => (Acc t P S ∧ P.id < T.id) ∧ Acc t N S ∧ N.id = P.id + 1 ∧ Acc t T S ∧ OneTok t e T.id S ∧ EarlyTok t e T.id S) ?_ ?_
          · refine Tri.mt (tri_loadNext (fun S _ h => h.1.1) _ ?_ ?_)
            · intro S N h hp h1 h2; exact ⟨hp.1, h1, h2, hp.2⟩
            · intro S h hp h1
              have := hp.1.2
              have := hp.2.1.2.1
              omega
          rintro (_ | N)
          · exact Tri.false fun S _ h => h
          · simp only
            refine Tri.extract (φ := P.id < T.id ∧ N.id = P.id + 1) (fun S _ h => ⟨h.1.2, h.2.2.1⟩) ?_
            rintro ⟨hp1, hp2⟩
            refine tri_sameTable hg (fun S h hp => ⟨hp.2.1.tabOk h, hp.2.2.2.1.tabOk h⟩) (fun hN => ?_)
              (fun hN => Tri.ret fun S _ h => ⟨⟨h.2.1, by omega⟩, h.2.2.2⟩)
            refine Tri.bind (fun _ => NoTok t) ((tri_pushDeferred hi (U := T.id) (by omega)).pre
              fun S _ h => ⟨h.1.1, h.2.2.2.2⟩) (fun _ => Tri.ret fun S _ h => h)
        · intro S _ h
          have h2 := h.2
          rw [if_neg hbf] at h2
          exact ⟨⟨h.1.1.2.1, h2⟩, h.1.1.1, h.1.2.1, h.1.2.2 h2⟩

end Papaya
