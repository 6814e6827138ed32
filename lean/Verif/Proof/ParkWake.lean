import Verif.Proof.Park
import Verif.Props.Deadlock

/-! # The parkers: whoever is registered when the condition becomes false is woken -/

set_option linter.unusedSectionVars false
set_option linter.unusedVariables false

namespace Papaya

variable {K V : Type} [DecidableEq K] {C : Cfg K}

open GSt

/-- The duty to wake those who wait on `a`. -/
def PKey.duty : PKey → WDuty
  | .status T => .wakeStatus T
  | .slot T i => .wakeSlot T i

theorem PKey.duty_doneBy {β : Type} {b : Act K V β} {a : PKey} : a.duty.doneBy b ↔ b.unparkKey = some a := by
  cases a <;> cases b <;> simp [PKey.duty, WDuty.doneBy, Act.unparkKey]

/-- Those who wait on `a` have been removed from the map. -/
def PkPC.past (a : PKey) : PkPC → Prop
  | .u2 a' _ => a' = a
  | .u3 a' _ => a' = a
  | _ => False

/-- The operation of `u` will remove those who wait on `a` from the map. -/
def Waker (C : Cfg K) (x : KSt K V) (u : Tid) (a : PKey) : Prop :=
  (∃ c p, x.ps.th u = .run c p ∧ ∀ n, WSh C.inc n (some a.duty) p fun o _ => o = none) ∧ ¬ (x.pk u).past a

theorem PKey.noObs {o : WDuty} (h : ∀ N s, o ≠ .prom N s) {S S' : GSt K V} {t : Tid} {β : Type} {b : Act K V β} {r : β}
    (he : Exec C t b S.toSt r S'.toSt) : WObs (some o) b r :=
  wobs_of he fun d hd N s h' => by cases hd; exact absurd h' (h N s)

theorem PKey.duty_ne {a : PKey} : ∀ N s, a.duty ≠ .prom N s := by cases a <;> intro N s h <;> cases h

theorem WSh.obs {α β : Type} {n : Nat} {d : WDuty} {b : Act K V β} {k : β → Prog K V α} {Q : Option WDuty → α → Prop} {t : Tid}
    {σ σ' : St K V} {r : β} {inc : Bool} (h : WSh inc (n + 1) (some d) (.act b k) Q) (hd : ∀ N s, d ≠ .prom N s)
    (he : Exec C t b σ r σ') (hn : ¬ d.doneBy b) : WSh inc n (some d) (k r) Q := by
  refine (h.2 r ?_).2 fun d' hd' => by cases hd'; exact hn
  cases b with
  | sameTable T T' => cases d <;> exact he.1
  | peekRoot => cases d <;> first | trivial | exact absurd rfl (hd _ _)
  | _ => cases d <;> trivial

theorem excused_step {ps ps' : PSt K V} (hs : Step C ps ps') (h : Excused ps) : Excused ps' := by
  rcases h with ⟨t, ht⟩ | ⟨o, c, w, h1, h2⟩
  · exact .inl ⟨t, step_gone hs ht⟩
  · refine .inr ⟨o, c, w, ?_, h2⟩
    cases hs <;> first | exact h1 | exact List.mem_append_left _ h1

/-- What the acting thread's program becomes: it keeps its duty. -/
theorem own_duty {ps ps' : PSt K V} {u : Tid} {c : Call K V} {p : Prog K V c.Res} {a : PKey} (hs : OwnStep C u ps ps')
    (hr : ps.th u = .run c p) (hw : ∀ n, WSh C.inc n (some a.duty) p fun o _ => o = none) (hp : p.unparkKey ≠ some a) :
    Excused ps' ∨ (∃ p', ps'.th u = .run c p' ∧ ∀ n, WSh C.inc n (some a.duty) p' fun o _ => o = none) ∧ ps'.seq u = ps.seq u := by
  cases hs with
  | act h he =>
    rw [hr] at h; cases h
    exact .inr ⟨⟨_, setTh_same, fun n => (hw (n + 1)).obs PKey.duty_ne he fun hd => hp (PKey.duty_doneBy.1 hd)⟩, rfl⟩
  | loop h =>
    rw [hr] at h; cases h
    exact .inr ⟨⟨_, setTh_same, fun n => hw (n + 1)⟩, rfl⟩
  | ret h =>
    rw [hr] at h; cases h
    cases (hw 1 : some a.duty = none)
  | panic h =>
    rw [hr] at h; cases h
    rcases (hw 1 : some a.duty = none ∨ _) with h1 | h1
    · cases h1
    · exact .inl (.inr ⟨_, _, _, List.mem_append_right _ (List.mem_singleton.2 rfl), h1⟩)

theorem own_seq {ps ps' : PSt K V} {t : Tid} (hs : OwnStep C t ps ps') : ps'.seq = ps.seq := by
  cases hs <;> rfl

theorem step_seq {ps ps' : PSt K V} (hs : Step C ps ps') {u : Tid} {c : Call K V} {p : Prog K V c.Res} (h : ps.th u = .run c p) :
    ps'.seq u = ps.seq u := by
  cases hs with
  | inv t c ht _ =>
    show (if u = t then _ else _) = _
    rw [if_neg (fun h' => by rw [h', ht] at h; cases h)]
  | _ => rfl

/-- Nobody is registered while `pending` is zero. -/
theorem KInv.none_registered {x : KSt K V} (h : KInv x) {T : Nat} (h0 : x.pending T = 0) {a : PKey} (ha : a.tab = T) (id : Nat) :
    ¬ x.registered a id := by
  rintro ⟨r, hr, rfl, rfl⟩
  obtain ⟨A, _, h2⟩ := h.fin
  have h3 := h2 T
  rw [h0] at h3
  have h4 : 0 ≤ ∑ t ∈ A, (x.pk t).debt T := Finset.sum_nonneg fun t _ => PkPC.debt_nonneg T _
  have h5 : 0 < (x.reg.filter fun r => r.a.tab = T).card := Finset.card_pos.2 ⟨r, Finset.mem_filter.2 ⟨hr, ha⟩⟩
  omega

theorem PkPC.past_inUnpark {a : PKey} {q : PkPC} (h : q.past a) : q.inUnpark a := by
  cases q <;> first | exact h | exact h.elim

theorem WSh.not_park {α : Type} {p : Prog K V α} {d : WDuty} {inc : Bool} {Q : Option WDuty → α → Prop}
    (h : ∀ n, WSh inc n (some d) p Q) : p.parkKey = none := by
  cases p with
  | act b k =>
    cases b with
    | parkStatus T => have := (h 1).1; cases d <;> cases this
    | parkSlot T i => have := (h 1).1; cases d <;> cases this
    | _ => rfl
  | _ => rfl

theorem after_wsh {α : Type} {p p' : Prog K V α} {a b : PKey} {inc : Bool} {Q : Option WDuty → α → Prop}
    (h : ∀ n, WSh inc n (some a.duty) p Q) (hb : p.unparkKey = some b) (hp : p.after = some p') (hab : b ≠ a) :
    ∀ n, WSh inc n (some a.duty) p' Q := by
  intro n
  have hn : ∀ {β : Type} (x : Act K V β), x.unparkKey = some b → ¬ a.duty.doneBy x := fun x hx hd => by
    rw [PKey.duty_doneBy.1 hd] at hx; cases hx; exact hab rfl
  cases p with
  | act x k =>
    cases x with
    | unparkStatus T =>
      cases hp
      refine ((h (n + 1)).2 () ?_).2 fun d hd => by cases hd; exact hn (.unparkStatus T) hb
      cases a <;> trivial
    | unparkSlot T i =>
      cases hp
      refine ((h (n + 1)).2 () ?_).2 fun d hd => by cases hd; exact hn (.unparkSlot T i) hb
      cases a <;> trivial
    | _ => cases hb
  | _ => cases hb

/-- A waker stays one until nobody is registered. -/
theorem Waker.any {x x' : KSt K V} {u : Tid} {a : PKey} (h : Waker C x u a) (hi : KInv x) (hs : KAny C x x') :
    Excused x'.ps ∨ (Waker C x' u a ∧ x'.ps.seq u = x.ps.seq u) ∨ ∀ id, ¬ x'.registered a id := by
  obtain ⟨⟨c, p, hr, hw⟩, hpast⟩ := h
  have hnp := WSh.not_park hw
  have hnin : ∀ b, ¬ (x.pk u).inPark b := fun b hb => by
    have := (hi.at' u).park hb hr
    rw [hnp] at this; cases this
  rcases hs with hs | hs
  · cases hs with
    | env hs hn =>
      rcases hn u c p hr with h1 | h1
      · exact .inr (.inl ⟨⟨⟨c, p, h1, hw⟩, hpast⟩, step_seq hs hr⟩)
      · exact .inl (.inl ⟨u, h1⟩)
    | own t hs =>
      by_cases htu : u = t
      · subst htu
        have hgo : ∀ {y : KSt K V} {q : PkPC}, y.ps = x.ps → ¬ q.past a → y.pk = (fun w => if w = u then q else x.pk w) →
            Waker C y u a ∧ y.ps.seq u = x.ps.seq u := by
          intro y q hy hq hpk
          refine ⟨⟨⟨c, p, by rw [hy]; exact hr, hw⟩, ?_⟩, by rw [hy]⟩
          rw [congrFun hpk u]; simpa using hq
        have hbad : ∀ b, (x.pk u).inPark b → Excused x'.ps ∨ (Waker C x' u a ∧ x'.ps.seq u = x.ps.seq u) ∨ ∀ id, ¬ x'.registered a id :=
          fun b hb => absurd hb (hnin b)
        have hdone : ∀ {c' : Call K V} {q q' : Prog K V c'.Res} {b : PKey}, x.ps.th u = .run c' q → (x.pk u).inUnpark b → b ≠ a →
            q.after = some q' → Waker C ((x.resume u c' q').go u .norm) u a ∧
              ((x.resume u c' q').go u .norm).ps.seq u = x.ps.seq u := by
          intro c' q q' b h1 h2 h3 h4
          have h5 := (hi.at' u).unpark h2 h1
          rw [hr] at h1; cases h1
          refine ⟨⟨⟨c, q', setTh_same, after_wsh hw h5 h4 h3⟩, ?_⟩, rfl⟩
          show ¬ PkPC.past a (if u = u then .norm else x.pk u)
          rw [if_pos rfl]; exact id
        cases hs with
        | pool hs hn hp =>
          rcases own_duty hs hr hw (by rw [(hp c p hr).2]; simp) with h1 | ⟨⟨p', h1, h2⟩, h3⟩
          · exact .inl h1
          · exact .inr (.inl ⟨⟨⟨c, p', h1, h2⟩, hpast⟩, h3⟩)
        | callPark h1 h2 h3 => rw [hr] at h1; cases h1; rw [hnp] at h3; cases h3
        | announce h1 h2 => exact hbad _ (by rw [h2]; rfl)
        | register h1 h2 => exact hbad _ (by rw [h2]; rfl)
        | checkFalse h1 h2 => exact hbad _ (by rw [h2]; rfl)
        | checkTrue h1 h2 => exact hbad _ (by rw [h2]; rfl)
        | removeSome h1 h2 => exact hbad _ (by rw [h2]; rfl)
        | removeNone h1 h2 => exact hbad _ (by rw [h2]; rfl)
        | retract h1 h2 => exact hbad _ (by rw [h2]; rfl)
        | wake h1 h2 => exact hbad _ (by rw [h2]; rfl)
        | still h1 h2 => exact hbad _ (by rw [h2]; rfl)
        | woken h1 h2 => exact hbad _ (by rw [h2]; rfl)
        | finalFalse h1 h2 => exact hbad _ (by rw [h2]; rfl)
        | finalTrue h1 h2 => exact hbad _ (by rw [h2]; rfl)
        | callUnpark h1 h2 h3 => exact .inr (.inl (hgo rfl id rfl))
        | @unparkNone c' q q' b h1 h2 h3 h4 =>
          by_cases hb : b = a
          · subst hb
            exact .inr (.inr fun id => hi.none_registered h3 rfl id)
          · exact .inr (.inl (hdone h1 (by rw [h2]; rfl) hb h4))
        | unparkSome h1 h2 h3 => exact .inr (.inl (hgo rfl id rfl))
        | @take c' q b l h1 h2 h3 =>
          by_cases hb : b = a
          · subst hb
            refine .inr (.inr fun id => ?_)
            rintro ⟨r, hr, h4, _⟩
            exact (Finset.mem_filter.1 hr).2 h4
          · exact .inr (.inl (hgo (q := .u2 b l) rfl (fun h => hb h) rfl))
        | @subtract c' q b l h1 h2 =>
          exact .inr (.inl (hgo (q := .u3 b l) rfl (fun h => hpast (by rw [h2]; exact h)) rfl))
        | @wakeOne c' q b w l h1 h2 =>
          exact .inr (.inl (hgo (q := .u3 b l) rfl (fun h => hpast (by rw [h2]; exact h)) rfl))
        | @unparkDone c' q q' b h1 h2 h4 =>
          by_cases hb : b = a
          · exact absurd (by rw [h2]; exact hb) hpast
          · exact .inr (.inl (hdone h1 (by rw [h2]; rfl) hb h4))
      · have hth : x'.ps.th u = x.ps.th u := by
          rcases hs.pool_step hi with h1 | h1
          · rw [h1]
          · exact own_others h1 htu
        have hseq : x'.ps.seq = x.ps.seq := by
          rcases hs.pool_step hi with h1 | h1
          · rw [h1]
          · exact own_seq h1
        have hpk : x'.pk u = x.pk u := by
          cases hs <;> first | rfl | exact if_neg htu
        exact .inr (.inl ⟨⟨⟨c, p, by rw [hth, hr], hw⟩, by rw [hpk]; exact hpast⟩, by rw [hseq]⟩)
  · cases hs with
    | @mk t c' p' b id h1 h2 =>
      by_cases htu : u = t
      · subst htu
        exact absurd (by rw [h2]; rfl) (hnin b)
      · refine .inr (.inl ⟨⟨⟨c, p, hr, hw⟩, ?_⟩, rfl⟩)
        show ¬ PkPC.past a (if u = t then _ else x.pk u)
        rw [if_neg htu]; exact hpast

/-! ## The action that makes the condition false -/

/-- The table exists; the slot is being copied. -/
def PKey.Live (S : GSt K V) : PKey → Prop
  | .status N => N < S.nTabs
  | .slot T i => T < S.nTabs ∧ S.copying T i

/-- Whoever makes the condition false has the duty to wake those who wait for it. -/
theorem done_creates {S S' : GSt K V} {t : Tid} {β : Type} {b : Act K V β} {r : β} {a : PKey} (hev : Evo S S') (hok : S.okAct b)
    (he : Exec C t b S.toSt r S'.toSt)
    (hlive : a.Live S)
    (h0 : ¬ a.Done S.toSt) (h1 : a.Done S'.toSt) : a.duty ∈ b.wduties C.inc r := by
  have key : S'.status = S.status → S'.slot = S.slot → False := fun g1 g2 => by
    cases a with
    | status N => exact h0 ((congrFun g1 N).symm.trans h1)
    | slot T i =>
      refine h0 ?_
      have : S'.slot T i = S.slot T i := by rw [g2]
      show (S.slot T i).copied = true
      rw [← this]; exact h1
  have hslot : ∀ T i s, S'.slot = (fun T' i' => if T' = T ∧ i' = i then s else S.slot T' i') → S'.status = S.status →
      a = .slot T i ∧ s.copied = true ∧ s.copying = true := by
    intro T i s g1 g2
    cases a with
    | status N => exact absurd ((congrFun g2 N).symm.trans h1) h0
    | slot T' i' =>
      have g3 : S'.slot T' i' = if T' = T ∧ i' = i then s else S.slot T' i' := by rw [g1]
      by_cases hT : T' = T ∧ i' = i
      · obtain ⟨rfl, rfl⟩ := hT
        rw [if_pos ⟨rfl, rfl⟩] at g3
        have h1 : (S'.slot T' i').copied = true := h1
        have h2 : (S'.slot T' i').copying = true := (hev.frozen T' i' hlive.2).2.1
        rw [g3] at h1 h2
        exact ⟨rfl, h1, h2⟩
      · rw [if_neg hT] at g3
        exact absurd (show (S.slot T' i').copied = true by rw [← g3]; exact h1) h0
  have hfresh : (∀ N, N ≠ S.nTabs → S'.status N = S.status N) → (∀ T, T ≠ S.nTabs → ∀ i, S'.slot T i = S.slot T i) → False := by
    intro g1 g2
    cases a with
    | status N =>
      have hlive : N < S.nTabs := hlive
      exact h0 ((g1 N (by omega)).symm.trans h1)
    | slot T i =>
      refine h0 ?_
      have hl : T < S.nTabs := hlive.1
      have : S'.slot T i = S.slot T i := g2 T (by omega) i
      show (S.slot T i).copied = true
      rw [← this]; exact h1
  have sm : ∀ {σ' : St K V}, S'.toSt = σ' → σ'.status = S.status → σ'.slot = S.slot → a.duty ∈ b.wduties C.inc r := by
    intro σ' h2 h3 h4
    exact (key (by rw [← h3, ← h2]) (by rw [← h4, ← h2])).elim
  cases b with
  | casRootInit cap =>
    simp only [Exec] at he
    split at he
    · refine (hfresh (fun N hN => ?_) fun T hT i => ?_).elim
      · rw [he.1]; exact if_neg hN
      · rw [he.1]; exact if_neg hT
    · exact sm he.1 rfl rfl
  | storeNext T cap =>
    refine (hfresh (fun N hN => ?_) fun T hT i => ?_).elim
    · rw [he.1]; exact if_neg hN
    · rw [he.1]; exact if_neg hT
  | tryLock T => rcases he with ⟨_, _, h5⟩ | ⟨_, _, h5⟩ <;> exact sm h5 rfl rfl
  | lockWait T => rcases he with ⟨_, _, h5⟩ | ⟨_, _, h5⟩ <;> exact sm h5 rfl rfl
  | cas w T i e n =>
    rcases he with ⟨_, _, h5⟩ | ⟨_, _, h5⟩
    · have := hslot T i n (by rw [h5]; rfl) (by rw [h5]; rfl)
      rw [hok.2.1] at this; cases this.2.2
    · exact sm h5 rfl rfl
  | casNew w T i e k v =>
    rcases he with ⟨_, _, h5⟩ | ⟨_, _, h5⟩
    · have := hslot T i _ (by rw [h5]; rfl) (by rw [h5]; rfl)
      cases this.2.2
    · exact sm h5 rfl rfl
  | fetchOrCopying T i =>
    obtain ⟨g1, g2, _⟩ := hslot T i _ (by rw [he.2]; rfl) (by rw [he.2]; rfl)
    subst g1
    exact absurd g2 h0
  | storeSlot T i s =>
    have h5 : S'.toSt = _ := he
    obtain ⟨g1, _⟩ := hslot T i s (by rw [h5]; rfl) (by rw [h5]; rfl)
    subst g1
    exact List.mem_singleton.2 rfl
  | storeStatus T s =>
    have h5 : S'.toSt = _ := he
    cases a with
    | slot T' i' => exact absurd (show (S.slot T' i').copied = true by
        have : S'.slot T' i' = S.slot T' i' := by rw [h5]
        rw [← this]; exact h1) h0
    | status N =>
      have g3 : S'.status N = if N = T then s else S.status N := by rw [h5]
      by_cases hN : N = T
      · subst hN
        rw [if_pos rfl] at g3
        have : s = .promoted := by rw [← g3]; exact h1
        subst this
        exact List.mem_singleton.2 rfl
      · rw [if_neg hN] at g3
        exact absurd (show S.status N = .promoted by rw [← g3]; exact h1) h0
  | casRoot T N => rcases he with ⟨_, _, h5⟩ | ⟨_, _, h5⟩ <;> exact sm h5 rfl rfl
  | unlock T => exact sm (id he : S'.toSt = _) rfl rfl
  | poison T => exact sm (id he : S'.toSt = _) rfl rfl
  | storeMd T i m => exact sm (id he : S'.toSt = _) rfl rfl
  | deref e => exact sm (id he : S'.toSt = _) rfl rfl
  | retire e => exact sm (id he : S'.toSt = _) rfl rfl
  | retireTable e => exact sm (id he : S'.toSt = _) rfl rfl
  | pushDeferred T e => exact sm (id he : S'.toSt = _) rfl rfl
  | addCount d => exact sm (id he : S'.toSt = _) rfl rfl
  | _ => exact sm he.2 rfl rfl

/-! ## The invariant -/

/-- Whoever sleeps although the condition is false will be removed from the map by someone. -/
def WakeInv (C : Cfg K) (x : KSt K V) : Prop :=
  ∀ t a id, (x.pk t = .p4 a id ∨ x.pk t = .p5 a id) → x.registered a id → a.Done x.ps.mem → Excused x.ps ∨ ∃ u, Waker C x u a

theorem PKey.not_done {σ : St K V} {a : PKey} (h : a.shouldPark σ) : ¬ a.Done σ := by
  cases a with
  | status T => intro h1; have h : σ.status T = .pending := h; rw [show σ.status T = .promoted from h1] at h; cases h
  | slot T i => intro h1; have h1 : (σ.slot T i).copied = true := h1; rw [show (σ.slot T i).copied = false from h] at h1; cases h1

theorem PkStep.mem {x x' : KSt K V} {t : Tid} (hs : PkStep C t x x') :
    (x' = { x with ps := x'.ps } ∧ OwnStep C t x.ps x'.ps) ∨ x'.ps.mem = x.ps.mem := by
  cases hs with
  | pool hs => exact .inl ⟨rfl, hs⟩
  | _ => exact .inr rfl

/-- Registrations are not made for those who have already registered. -/
theorem KInv.reg_back {x x' : KSt K V} (h : KInv x) (hs : KAny C x x') {t : Tid} {a : PKey} {id : Nat} (hh : (x.pk t).holds a id)
    (hr : x'.registered a id) : x.registered a id := by
  rcases hs with hs | hs
  · cases hs with
    | env => exact hr
    | own u hs =>
      cases hs with
      | @register c p b h1 h2 =>
        obtain ⟨r, h3, h4, h5⟩ := hr
        rcases Finset.mem_insert.1 h3 with h6 | h6
        · subst h6
          have h4 : b = a := h4
          have h5 : x.count b.tab + 1 = id := h5
          have := h.le t a id hh
          subst h4; omega
        · exact ⟨r, h6, h4, h5⟩
      | removeSome h1 h2 h3 =>
        obtain ⟨r, h3, h4, h5⟩ := hr
        exact ⟨r, (Finset.mem_filter.1 h3).1, h4, h5⟩
      | take l h1 h2 h3 =>
        obtain ⟨r, h3, h4, h5⟩ := hr
        exact ⟨r, (Finset.mem_filter.1 h3).1, h4, h5⟩
      | _ => exact hr
  · cases hs with
    | mk => exact hr

theorem KAny.sleeps {x x' : KSt K V} (hs : KAny C x x') {t : Tid} {a : PKey} {id : Nat}
    (h : x'.pk t = .p4 a id ∨ x'.pk t = .p5 a id) (hd : a.Done x'.ps.mem) : x.pk t = .p4 a id ∨ x.pk t = .p5 a id := by
  have key : ∀ {y : KSt K V} {u : Tid} {q : PkPC}, (y.go u q).pk t = .p4 a id ∨ (y.go u q).pk t = .p5 a id → y.pk = x.pk →
      (u = t → (q = .p4 a id ∨ q = .p5 a id) → x.pk t = .p4 a id ∨ x.pk t = .p5 a id) → x.pk t = .p4 a id ∨ x.pk t = .p5 a id := by
    intro y u q h1 h2 h3
    have h4 : (y.go u q).pk t = if t = u then q else x.pk t := by
      show (if t = u then q else y.pk t) = _
      rw [h2]
    rw [h4] at h1
    by_cases ht : t = u
    · rw [if_pos ht] at h1; exact h3 ht.symm h1
    · rw [if_neg ht] at h1; exact h1
  rcases hs with hs | hs
  · cases hs with
    | env => exact h
    | own u hs =>
      cases hs with
      | pool => exact h
      | checkTrue h1 h2 h3 =>
        refine key h rfl fun _ hq => ?_
        rcases hq with hq | hq <;> cases hq
        exact absurd hd (PKey.not_done h3)
      | wake h1 h2 h3 =>
        refine key h rfl fun hu hq => ?_
        rcases hq with hq | hq <;> cases hq
        subst hu; exact .inl h2
      | still h1 h2 h3 =>
        refine key h rfl fun hu hq => ?_
        rcases hq with hq | hq <;> cases hq
        subst hu; exact .inr h2
      | _ => exact key h rfl fun _ hq => by rcases hq with hq | hq <;> cases hq
  · cases hs with
    | mk h1 h2 =>
      refine key h rfl fun hu hq => ?_
      rcases hq with hq | hq <;> cases hq
      subst hu; exact .inl h2

theorem WakeInv.any {x x' : KSt K V} (hw : WakeInv C x) (hx : Reach C x.ps) (hi : KInv x) (hs : KAny C x x') : WakeInv C x' := by
  intro t a id ht hr hd
  have ht0 := hs.sleeps ht hd
  have hh : (x.pk t).holds a id := by rcases ht0 with h | h <;> rw [h] <;> exact ⟨rfl, rfl⟩
  have hr0 := hi.reg_back hs hh hr
  by_cases hd0 : a.Done x.ps.mem
  · have hexc : Excused x.ps → Excused x'.ps := by
      intro he
      rcases hs with hs | hs
      · cases hs with
        | env hs => exact excused_step hs he
        | own u hs =>
          rcases hs.pool_step hi with h1 | h1
          · rw [h1]; exact he
          · exact excused_step h1.step he
      · cases hs with
        | mk => exact he
    rcases hw t a id ht0 hr0 hd0 with h1 | ⟨u, h1⟩
    · exact .inl (hexc h1)
    · rcases h1.any hi hs with h2 | h2 | h2
      · exact .inl h2
      · exact .inr ⟨u, h2.1⟩
      · exact absurd hr (h2 id)
  · have hmem : x'.ps.mem ≠ x.ps.mem := fun h => hd0 (by rw [← h]; exact hd)
    have hin : (x.pk t).inPark a := by rcases ht0 with h | h <;> rw [h] <;> rfl
    have hnn : x.pk t ≠ .norm := by rcases ht0 with h | h <;> rw [h] <;> simp
    have hstep : Step C x.ps x'.ps ∧ x'.pk = x.pk := by
      rcases hs with hs | hs
      · cases hs with
        | env hs => exact ⟨hs, rfl⟩
        | own u hs =>
          rcases hs.mem with ⟨h1, h2⟩ | h1
          · exact ⟨h2.step, by rw [h1]⟩
          · exact absurd h1 hmem
      · cases hs with
        | mk => exact absurd rfl hmem
    obtain ⟨hst, hpk⟩ := hstep
    clear hs
    rcases hi.at' t with h1 | h1 | ⟨c, p, h1, _⟩
    · exact absurd h1 hnn
    · exact .inl (.inl ⟨t, step_gone hst h1⟩)
    · have hpa := (hi.at' t).park hin h1
      obtain ⟨S, g, hS, hwk⟩ := hx.work 1
      obtain ⟨S', g', hS', hev, _⟩ := pinvG_step hS hst
      have hm := hS.1
      have hm' := hS'.1
      have hlive : a.Live S := by
        cases p with
        | act b k =>
          have hok := Reach.okAct hS h1
          cases b with
          | parkStatus T => cases hpa; obtain ⟨_, s, h2, _⟩ := hok; exact h2.2.1
          | parkSlot T i => cases hpa; obtain ⟨⟨h3, _⟩, e, _, h2⟩ := hok; exact ⟨h3.1, h2⟩
          | _ => cases hpa
        | _ => cases hpa
      have hsame : (∀ σ', x'.ps.mem = σ' → σ'.status = x.ps.mem.status → σ'.slot = x.ps.mem.slot → Excused x'.ps ∨ ∃ u, Waker C x' u a) := by
        intro σ' h2 h3 h4
        refine absurd ?_ hd0
        rw [h2] at hd
        cases a with
        | status N => exact (congrFun h3 N).symm.trans hd
        | slot T i =>
          show (x.ps.mem.slot T i).copied = true
          rw [← h4]; exact hd
      generalize hps : x'.ps = ps' at *
      cases hst with
      | @act v _ _ b k r σ hv he =>
        have hm' : S'.toSt = σ := hm'
        have he' : Exec C v b S.toSt r S'.toSt := by rw [hm, hm']; exact he
        have hmd := done_creates hev (Reach.okAct hS hv) he' hlive (by rw [hm]; exact hd0) (by rw [hm']; exact hd)
        have hob : WObs none _ _ := wobs_of he' fun d hd => by cases hd
        refine .inr ⟨v, ⟨_, _, by rw [hps]; exact setTh_same, fun n => ((hwk.plain v _ _ hv (n + 1)).2 _ hob).1 _ hmd⟩, ?_⟩
        rw [hpk]
        intro hp
        have := (hi.at' v).unpark (PkPC.past_inUnpark hp) hv
        cases b <;> first | (cases this; done) | (cases hmd)
      | _ => exact hsame _ rfl rfl rfl

theorem KReach.wakeInv {x : KSt K V} (h : KReach C x) : WakeInv C x := by
  induction h with
  | init h => intro t a id ht; rw [h.2.2.2 t] at ht; rcases ht with ht | ht <;> cases ht
  | step h hs ih => exact ih.any h.inv.1 h.inv.2 (.inl hs)
  | spurious h hs ih => exact ih.any h.inv.1 h.inv.2 (.inr hs)

end Papaya
