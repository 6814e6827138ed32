import Verif.Proof.Livelock
import Verif.Spec.Solo
import Verif.Props.Lin
import Verif.Exec.Demo

/-! # C29: an insertion that never returns (blocking mode)

The claim that inserting a new key terminates for every hash function is false of the code in blocking mode. -/

set_option linter.unusedSectionVars false
set_option linter.unusedVariables false

namespace Papaya

variable {K V : Type} [DecidableEq K]

open GSt

variable {C : Cfg K} {ps ps' : PSt K V} {n : Nat} {kx : K} {sh : Nat → Int} {F : Finset K}

/-- What stays true of the memory. -/
structure LLInv (n : Nat) (kx : K) (sh : Nat → Int) (σ : St K V) : Prop where
  caps : ∀ T, T < σ.nTabs → σ.cap T = n
  next : ∀ T N, σ.next T = some N → N < σ.nTabs
  root : σ.root ≠ none
  lock : ∀ T, σ.lock T ≠ .poisoned
  shard : σ.shard = sh
  slots : ∀ T i, Other kx (σ.slot T i)

theorem LLInv.handle {σ : St K V} (h : LLInv n kx sh σ) {T : Nat} (hT : T < σ.nTabs) : GoodT n (σ.handle T) := by
  unfold St.handle GoodT
  simp [h.caps T hT]

theorem exec_ll {t : Tid} {β : Type} {a : Act K V β} {σ σ' : St K V} {r : β} (he : Exec C t a σ r σ')
    (hok : (llSys n kx sh).ok a) (h : LLInv n kx sh σ) (hr : ∀ T, σ.root = some T → T < σ.nTabs)
    (hr' : ∀ T, σ'.root = some T → T < σ'.nTabs)
    (hno : ∀ T i k v, σ' = { σ.setSlot T i (Slot.untagged ⟨σ.nIds, k, v⟩) with nIds := σ.nIds + 1 } → k ≠ kx) : LLInv n kx sh σ' ∧ (llSys n kx sh).res a r := by
  have hset : ∀ (T i : Nat) (s : Slot K V), Other kx s → LLInv n kx sh (σ.setSlot T i s) := by
    intro T i s hs
    refine ⟨h.caps, h.next, h.root, h.lock, h.shard, fun T' i' => ?_⟩
    show Other kx (if T' = T ∧ i' = i then s else σ.slot T' i')
    split
    · exact hs
    · exact h.slots T' i'
  cases a with
  | loadRoot =>
    obtain ⟨rfl, rfl⟩ := he
    refine ⟨h, ?_⟩
    cases hroot : σ'.root with
    | none => exact absurd hroot h.root
    | some T => exact ⟨_, rfl, h.handle (hr T hroot)⟩
  | peekRoot =>
    obtain ⟨rfl, rfl⟩ := he
    exact ⟨h, trivial⟩
  | casRootInit c => exact hok.elim
  | loadNext T =>
    obtain ⟨rfl, rfl⟩ := he
    refine ⟨h, fun N hN => ?_⟩
    obtain ⟨N', h1, rfl⟩ := Option.map_eq_some_iff.1 hN
    exact h.handle (h.next T N' h1)
  | tryLock T =>
    rcases he with ⟨h1, rfl, rfl⟩ | ⟨h1, rfl, rfl⟩
    · refine ⟨⟨h.caps, h.next, h.root, fun T' => ?_, h.shard, h.slots⟩, trivial⟩
      show (if T' = T then _ else _) ≠ _
      split
      · simp
      · exact h.lock T'
    · exact ⟨h, trivial⟩
  | lockWait T =>
    rcases he with ⟨h1, rfl, rfl⟩ | ⟨h1, rfl, rfl⟩
    · refine ⟨⟨h.caps, h.next, h.root, fun T' => ?_, h.shard, h.slots⟩, rfl⟩
      show (if T' = T then _ else _) ≠ _
      split
      · simp
      · exact h.lock T'
    · exact absurd h1 (h.lock T)
  | unlock T =>
    have he : σ' = _ := he
    subst he
    refine ⟨⟨h.caps, h.next, h.root, fun T' => ?_, h.shard, h.slots⟩, trivial⟩
    show (if T' = T then _ else _) ≠ _
    split
    · simp
    · exact h.lock T'
  | poison T => exact hok.elim
  | storeNext T c =>
    obtain ⟨rfl, rfl⟩ := he
    have hc : c = n := hok
    subst hc
    have key : LLInv c kx sh { σ.allocTable c .pending with
              next := fun T' => if T' = T then some σ.nTabs else if T' = σ.nTabs then none else σ.next T' } := by
      refine ⟨fun T' hT' => ?_, fun T' N hN => ?_, h.root, fun T' => ?_, h.shard, fun T' i => ?_⟩
      · have hT' : T' < σ.nTabs + 1 := hT'
        show (if T' = σ.nTabs then c else σ.cap T') = c
        split
        · rfl
        · exact h.caps T' (by omega)
      · show N < σ.nTabs + 1
        have hN : (if T' = T then some σ.nTabs else if T' = σ.nTabs then none else σ.next T') = some N := hN
        split at hN
        · cases hN; omega
        · split at hN
          · cases hN
          · have := h.next T' N hN; omega
      · show (if T' = σ.nTabs then _ else σ.lock T') ≠ _
        split
        · simp
        · exact h.lock T'
      · show Other kx (if T' = σ.nTabs then Slot.null else σ.slot T' i)
        split
        · intro e he; cases he
        · exact h.slots T' i
    refine ⟨key, ?_⟩
    exact key.handle (Nat.lt_succ_self _)
  | loadMd T i => obtain ⟨rfl, rfl⟩ := he; exact ⟨h, trivial⟩
  | storeMd T i m =>
    have he : σ' = _ := he
    subst he
    exact ⟨⟨h.caps, h.next, h.root, h.lock, h.shard, h.slots⟩, trivial⟩
  | loadSlot T i => obtain ⟨rfl, rfl⟩ := he; exact ⟨h, h.slots T i⟩
  | cas w T i exp new =>
    rcases he with ⟨h1, rfl, rfl⟩ | ⟨h1, rfl, rfl⟩
    · exact ⟨hset T i new hok, fun s hs => by cases hs⟩
    · exact ⟨h, fun s hs => by cases hs; exact h.slots T i⟩
  | casNew w T i exp k v =>
    rcases he with ⟨h1, rfl, rfl⟩ | ⟨h1, rfl, rfl⟩
    · obtain ⟨_, hk⟩ : exp = Slot.null ∧ k = kx := hok
      exact absurd hk (hno T i k v rfl)
    · exact ⟨h, _, rfl, h.slots T i⟩
  | fetchOrCopying T i =>
    obtain ⟨rfl, rfl⟩ := he
    exact ⟨hset T i _ (h.slots T i), h.slots T i⟩
  | storeSlot T i s =>
    have he : σ' = _ := he
    subst he
    exact ⟨hset T i s hok, trivial⟩
  | loadStatus T => obtain ⟨rfl, rfl⟩ := he; exact ⟨h, trivial⟩
  | parkStatus T => obtain ⟨_, rfl⟩ := he; exact ⟨h, trivial⟩
  | parkSlot T i => obtain ⟨_, rfl⟩ := he; exact ⟨h, trivial⟩
  | unparkStatus T => obtain ⟨_, rfl⟩ := he; exact ⟨h, trivial⟩
  | unparkSlot T i => obtain ⟨_, rfl⟩ := he; exact ⟨h, trivial⟩
  | storeStatus T s =>
    have he : σ' = _ := he
    subst he
    exact ⟨⟨h.caps, h.next, h.root, h.lock, h.shard, h.slots⟩, trivial⟩
  | loadClaim T => obtain ⟨rfl, rfl⟩ := he; exact ⟨h, trivial⟩
  | addClaim T m s =>
    obtain ⟨rfl, rfl⟩ := he
    exact ⟨⟨h.caps, h.next, h.root, h.lock, h.shard, h.slots⟩, trivial⟩
  | loadCopied T => obtain ⟨rfl, rfl⟩ := he; exact ⟨h, trivial⟩
  | addCopied T m s =>
    obtain ⟨rfl, rfl⟩ := he
    exact ⟨⟨h.caps, h.next, h.root, h.lock, h.shard, h.slots⟩, trivial⟩
  | casRoot T N =>
    rcases he with ⟨h1, rfl, rfl⟩ | ⟨h1, rfl, rfl⟩
    · exact ⟨⟨h.caps, h.next, by simp, h.lock, h.shard, h.slots⟩, trivial⟩
    · exact ⟨h, trivial⟩
  | sameTable T T' => obtain ⟨rfl, rfl⟩ := he; exact ⟨h, trivial⟩
  | sameEntry x y => obtain ⟨rfl, rfl⟩ := he; exact ⟨h, trivial⟩
  | deref e => have he : σ' = _ := he; subst he; exact ⟨h, trivial⟩
  | retire e =>
    have he : σ' = _ := he
    subst he
    exact ⟨⟨h.caps, h.next, h.root, h.lock, h.shard, h.slots⟩, trivial⟩
  | retireTable T =>
    have he : σ' = _ := he
    subst he
    exact ⟨⟨h.caps, h.next, h.root, h.lock, h.shard, h.slots⟩, trivial⟩
  | pushDeferred T e =>
    have he : σ' = _ := he
    subst he
    exact ⟨⟨h.caps, h.next, h.root, h.lock, h.shard, h.slots⟩, trivial⟩
  | loadShard j =>
    obtain ⟨rfl, rfl⟩ := he
    exact ⟨h, by rw [h.shard]; rfl⟩
  | addCount d => exact hok.elim

/-- The whole probe sequence is occupied in the root table: there is no room for another key. -/
theorem ll_full {S : GSt K V} (hS : S.Inv C) (hb : C.mode = .blocking) (hh : ∀ k k', C.hash k = C.hash k')
    (hF : ∀ k, k ∈ F → ∃ e j, S.kslot S.rt j e ∧ e.key = k) (hc : F.card = S.lim S.rt + 1) (hkx : kx ∉ F) {i : Nat}
    {e : Entry K V} (h : S.kslot S.rt i e) : e.key ≠ kx := by
  intro hk
  have h1 : ∀ k, k ∈ Insert.insert kx F → ∃ m, m < S.lim S.rt + 1 ∧ ∃ e, S.kslot S.rt (S.pos C S.rt kx m) e ∧ e.key = k := by
    intro k hkF
    obtain ⟨e', j, h2, h3⟩ : ∃ e j, S.kslot S.rt j e ∧ e.key = k := by
      rcases Finset.mem_insert.1 hkF with rfl | hkF
      · exact ⟨e, i, h, hk⟩
      · exact hF k hkF
    obtain ⟨m, h4, h5, _⟩ := hS.p.p4 _ _ _ h2
    refine ⟨m, by omega, e', ?_, h3⟩
    have : S.pos C S.rt kx m = S.pos C S.rt e'.key m := by
      unfold GSt.pos Cfg.h1; rw [hh kx e'.key]
    rw [this, h5]; exact h2
  choose! f hf1 hf2 using h1
  have h2 : (Insert.insert kx F).card ≤ (Finset.range (S.lim S.rt + 1)).card := by
    refine Finset.card_le_card_of_injOn f (fun k hk => ?_) ?_
    · exact Finset.mem_coe.2 (Finset.mem_range.2 (hf1 k (Finset.mem_coe.1 hk)))
    · intro a ha b hb' hab
      obtain ⟨e1, h3, h4⟩ := hf2 a (Finset.mem_coe.1 ha)
      obtain ⟨e2, h5, h6⟩ := hf2 b (Finset.mem_coe.1 hb')
      rw [hab] at h3
      unfold GSt.kslot at h3 h5
      rw [h3] at h5
      cases h5
      rw [← h4, ← h6]
  rw [Finset.card_insert_of_notMem hkx, Finset.card_range] at h2
  omega

/-- A slot that was just filled with a fresh entry is in the root table or a later one. -/
theorem fresh_late {S S' : GSt K V} (hS : S.Inv C) (hS' : S'.Inv C) (hb : C.inc = false) {T i : Nat} {e : Entry K V}
    (h : S'.kslot T i e) (hnc : ¬ S'.copying T i) (hid : e.id = S.nIds)
    (hsl : ∀ T' j, T' ≠ T → S'.slot T' j = S.slot T' j) : S'.rt ≤ T := by
  by_contra hlt
  have hlt : T < S'.rt := by omega
  have hT := kslot_lt hS'.s h
  by_cases hab : S'.aborted T
  · -- an aborted table only contains entries of an earlier table
    obtain ⟨s, hs⟩ : ∃ s, S'.CopyPair s T := by
      obtain ⟨j, hj⟩ := hS'.c.c7 T hab
      obtain ⟨s, hs, _⟩ := hS'.c.c2 T j (by rw [hj]; simp)
      exact ⟨s, hs⟩
    obtain ⟨j, h1, _, _⟩ := hS'.c.c10 hb s T i e hs hab h
    have h2 : S.kslot s j e := by
      unfold GSt.kslot at h1 ⊢
      rwa [hsl s j (by have := hs.1; omega)] at h1
    obtain ⟨x, h3, rfl⟩ := hS.p.p3 _ _ _ h2
    have := (hS.e.e0 _ _ h3).2
    omega
  · exact hnc (p6 hS'.s hS'.c ⟨hT, by omega, hab⟩ hlt (kslot_idx hS'.s hS'.p h))

/-- The invariant of the execution. -/
structure LLRun (n : Nat) (kx : K) (v : V) (sh : Nat → Int) (o : OpId) (ps : PSt K V) : Prop where
  mem : LLInv n kx sh ps.mem
  th : ∀ u, ps.th u = .out ∨ ps.th u = .idle ∨ ps.th u = .gone ∨
    ∃ p, ps.th u = .run (.insert kx v) p ∧ Obs' (llSys n kx sh) p fun _ => False
  ended : ¬ Ended ps.hist o

/-- The situation: a constant hash function, a map in blocking mode whose tables have `n` slots, and keys that occupy a whole
probe sequence. -/
structure LLStart (C : Cfg K) (n : Nat) (kx : K) (F : Finset K) (sh : Nat → Int) (ps : PSt K V) : Prop where
  reach : Reach C ps
  hash : ∀ k k', C.hash k = C.hash k'
  params : LLParams C n sh
  mem : LLInv n kx sh ps.mem
  keys : ∀ k, k ∈ F → ∃ v, ps.mem.Holds k v
  card : F.card = limit n + 1
  other : kx ∉ F
  quiet : ∀ o c, HEv.inv o c ∈ ps.hist → Ended ps.hist o

theorem rootOk (h : Reach C ps) {T : Nat} (hr : ps.mem.root = some T) : T < ps.mem.nTabs := by
  obtain ⟨S, g, ⟨g1, g2, _⟩, _⟩ := h.pinv 1
  rw [← g1] at hr ⊢
  exact (g2.s.some T hr).1

/-- No new entry is published. -/
theorem ll_noNew (h0 : LLStart C n kx F sh ps) {q q' : PSt K V} (hs : Steps C ps q) (hq : Step C q q')
    (hw : ∀ o c, HEv.inv o c ∈ q'.hist → HEv.inv o c ∈ ps.hist ∨ ∃ v, c = .insert kx v) (hm : LLInv n kx sh q.mem)
    {T i : Nat} {k : K} {v : V}
    (heq : q'.mem = { q.mem.setSlot T i (Slot.untagged ⟨q.mem.nIds, k, v⟩) with nIds := q.mem.nIds + 1 }) : k ≠ kx := by
  have hs' : Steps C ps q' := hs.tail hq
  have hb : C.mode = .blocking := h0.params.mode
  have hinc : C.inc = false := by unfold Cfg.inc; rw [hb]
  obtain ⟨S, g, ⟨g1, g2, _⟩, _⟩ := (h0.reach.steps hs).pinv 1
  obtain ⟨S', g', ⟨g1', g2', _⟩, _⟩ := (h0.reach.steps hs').pinv 1
  have hslot : ∀ T' j, S'.slot T' j = if T' = T ∧ j = i then Slot.untagged ⟨S.nIds, k, v⟩ else S.slot T' j := by
    intro T' j
    show S'.toSt.slot T' j = _
    rw [g1', heq, ← g1]; rfl
  have hk : S'.kslot T i ⟨S.nIds, k, v⟩ := by
    unfold GSt.kslot; rw [hslot, if_pos ⟨rfl, rfl⟩]; rfl
  have hnc : ¬ S'.copying T i := by
    unfold GSt.copying; rw [hslot, if_pos ⟨rfl, rfl⟩]; simp [Slot.untagged]
  have hle := fresh_late g2 g2' hinc hk hnc rfl fun T' j hne => by rw [hslot, if_neg fun h => hne h.1]
  have hrt : S'.rt < S'.nTabs := rt_lt g2'.s (kslot_lt g2'.s hk)
  have hcap : S'.cap S'.rt = n := by
    have h1 : S'.cap = q.mem.cap := by
      show S'.toSt.cap = _
      rw [g1', heq]; rfl
    have h2 : S'.nTabs = q.mem.nTabs := by
      show S'.toSt.nTabs = _
      rw [g1', heq]; rfl
    rw [h1]; exact hm.caps _ (by rw [← h2]; exact hrt)
  have hF : ∀ k, k ∈ F → ∃ e j, S'.kslot S'.rt j e ∧ e.key = k := by
    intro k hkF
    obtain ⟨v, hv⟩ := h0.keys k hkF
    have := (C14_contents_stable h0.reach hs' k (fun o c h1 h2 => by
      rcases hw o c h1 with h3 | ⟨v', rfl⟩
      · exact h0.quiet o c h3
      · have h2 : kx = k := h2
        exact absurd (h2 ▸ hkF) h0.other) v).2 hv
    obtain ⟨e, h1, h2, h3⟩ := this
    obtain ⟨j, h4, h5⟩ := (C15_blocking_contents (h0.reach.steps hs') hb).1 h1
    rw [← g1'] at h4
    exact ⟨e, j, h4, h2⟩
  have hlim : F.card = S'.lim S'.rt + 1 := by unfold GSt.lim; rw [hcap]; exact h0.card
  rcases Nat.lt_or_ge S'.rt T with hlt | hge
  · rcases g2'.p.f1 T i _ hk hlt with ⟨j, h1, _⟩ | ⟨h1, _⟩
    · exact ll_full g2' hb h0.hash hF hlim h0.other h1
    · rw [hinc] at h1; cases h1
  · have : T = S'.rt := by omega
    subst this
    exact ll_full g2' hb h0.hash hF hlim h0.other hk

theorem Obs'.act_inv {D : ObsSys K V} {α β : Type} {a : Act K V β} {k : β → Prog K V α} {Q : α → Prop}
    (h : Obs' D (.act a k) Q) : D.ok a ∧ ∀ r, D.res a r → Obs' D (k r) Q :=
  ⟨(h 1).1, fun r hr m => (h (m + 1)).2 r hr⟩

theorem ll_prog (hp : LLParams C n sh) {v : V} :
    Obs' (llSys n kx sh) ((Call.insert kx v : Call K V).prog C) fun _ => False := by
  unfold Call.prog
  exact Obs'.bind (fun _ => False) (ll_insert hp) fun _ h => h.elim

theorem ll_run (h0 : LLStart C n kx F sh ps) {v : V} {o : OpId} (he : ¬ Ended ps.hist o) (hs : Steps C ps ps')
    (hw : ∀ o c, HEv.inv o c ∈ ps'.hist → HEv.inv o c ∈ ps.hist ∨ c = .insert kx v) : LLRun n kx v sh o ps' := by
  induction hs with
  | refl =>
    refine ⟨h0.mem, fun u => ?_, he⟩
    by_cases h1 : ps.th u = .out
    · exact .inl h1
    by_cases h2 : ps.th u = .idle
    · exact .inr (.inl h2)
    obtain ⟨S, g, ⟨_, _, _, _, _, g6⟩, _⟩ := h0.reach.pinv 1
    obtain ⟨⟨c, h3⟩, h4⟩ := g6.pend u h1 h2
    exact absurd (h0.quiet _ _ h3) h4
  | @tail q q' hsq hstep ih =>
    have hpre := step_hist hstep
    have ih := ih fun o c h => hw o c (hpre.subset h)
    have hR := h0.reach.steps hsq
    have hR' : Reach C q' := hR.step hstep
    have hset : ∀ (u : Tid) (x : Th K V), (x = .out ∨ x = .idle ∨ x = .gone ∨
        ∃ p, x = .run (.insert kx v) p ∧ Obs' (llSys n kx sh) p fun _ => False) → ∀ u', setTh q.th u x u' = .out ∨
        setTh q.th u x u' = .idle ∨ setTh q.th u x u' = .gone ∨
        ∃ p, setTh q.th u x u' = .run (.insert kx v) p ∧ Obs' (llSys n kx sh) p fun _ => False := by
      intro u x hx u'
      unfold setTh
      split
      · exact hx
      · exact ih.th u'
    have hrun : ∀ {u : Tid} {c : Call K V} {p : Prog K V c.Res}, q.th u = .run c p →
        ∃ p', (Th.run c p : Th K V) = .run (.insert kx v) p' ∧ Obs' (llSys n kx sh) p' fun _ => False := by
      intro u c p hu
      rcases ih.th u with h1 | h1 | h1 | ⟨p', h1, h2⟩
      · rw [hu] at h1; cases h1
      · rw [hu] at h1; cases h1
      · rw [hu] at h1; cases h1
      · rw [hu] at h1; exact ⟨p', h1, h2⟩
    have hnn := fun {T i k v} => ll_noNew (T := T) (i := i) (k := k) (v := v) h0 hsq hstep
      (fun o c h => (hw o c h).imp id fun h => ⟨_, h⟩) ih.mem
    cases hstep with
    | pin t h =>
      exact ⟨⟨ih.mem.caps, ih.mem.next, ih.mem.root, ih.mem.lock, ih.mem.shard, ih.mem.slots⟩, hset _ _ (.inr (.inl rfl)), ih.ended⟩
    | unpin t h =>
      exact ⟨⟨ih.mem.caps, ih.mem.next, ih.mem.root, ih.mem.lock, ih.mem.shard, ih.mem.slots⟩, hset _ _ (.inl rfl), ih.ended⟩
    | abandon t h => exact ⟨ih.mem, hset _ _ (.inr (.inr (.inl rfl))), ih.ended⟩
    | release t h =>
      exact ⟨⟨ih.mem.caps, ih.mem.next, ih.mem.root, ih.mem.lock, ih.mem.shard, ih.mem.slots⟩, ih.th, ih.ended⟩
    | inv t c h hwf =>
      have hnew : HEv.inv (t, q.seq t + 1) c ∉ ps.hist := by
        intro hin
        obtain ⟨S, g, ⟨_, _, g3, _, _, g6⟩, _⟩ := hR.pinv 1
        have := (g6.i1 _ _ ((steps_hist hsq).subset hin)).2.1
        rw [g3] at this
        simp at this
      have hc := (hw _ c (by simp)).resolve_left hnew
      subst hc
      refine ⟨ih.mem, hset _ _ (.inr (.inr (.inr ⟨_, rfl, ll_prog h0.params⟩))), ?_⟩
      rintro (⟨c', r, h1⟩ | ⟨c', r, h1⟩) <;> rcases List.mem_append.1 h1 with h1 | h1
      · exact ih.ended (.inl ⟨c', r, h1⟩)
      · rw [List.mem_singleton] at h1; cases h1
      · exact ih.ended (.inr ⟨c', r, h1⟩)
      · rw [List.mem_singleton] at h1; cases h1
    | act t h he =>
      obtain ⟨p', h1, h2⟩ := hrun h
      cases h1
      obtain ⟨h3, h4⟩ := h2.act_inv
      obtain ⟨h5, h6⟩ := exec_ll he h3 ih.mem (fun T hT => rootOk hR hT) (fun T hT => rootOk hR' hT) fun T i k v heq => hnn heq
      exact ⟨h5, hset _ _ (.inr (.inr (.inr ⟨_, rfl, h4 _ h6⟩))), ih.ended⟩
    | loop t h =>
      obtain ⟨p', h1, h2⟩ := hrun h
      cases h1
      exact ⟨ih.mem, hset _ _ (.inr (.inr (.inr ⟨_, rfl, fun m => h2 (m + 1)⟩))), ih.ended⟩
    | ret t h =>
      obtain ⟨p', h1, h2⟩ := hrun h
      cases h1
      exact (h2 1).elim
    | panic t h =>
      obtain ⟨p', h1, h2⟩ := hrun h
      cases h1
      have h3 := C09_no_internal_panic hR h
      rcases h2 1 with h4 | h4
      · exact absurd h4 h3.1
      · exact absurd h4 h3.2
    | freeEntry x h1 h2 h3 =>
      exact ⟨⟨ih.mem.caps, ih.mem.next, ih.mem.root, ih.mem.lock, ih.mem.shard, ih.mem.slots⟩, ih.th, ih.ended⟩
    | freeTable T h1 h2 h3 =>
      exact ⟨⟨ih.mem.caps, ih.mem.next, ih.mem.root, ih.mem.lock, ih.mem.shard, ih.mem.slots⟩, ih.th, ih.ended⟩

theorem exec_next {t : Tid} {β : Type} {a : Act K V β} {σ σ' : St K V} {r : β} (he : Exec C t a σ r σ')
    (h : ∀ T N, σ.next T = some N → N < σ.nTabs) : ∀ T N, σ'.next T = some N → N < σ'.nTabs := by
  cases a with
  | casRootInit c =>
    have he : (match σ.root with
      | none => σ' = { σ.allocTable c .promoted with root := some σ.nTabs } ∧ r = σ'.handle σ.nTabs
      | some T => σ' = σ ∧ r = σ.handle T) := he
    split at he
    · obtain ⟨rfl, _⟩ := he
      intro T N hN
      show N < σ.nTabs + 1
      have hN : (if T = σ.nTabs then none else σ.next T) = some N := hN
      split at hN
      · cases hN
      · have := h T N hN; omega
    · obtain ⟨rfl, _⟩ := he; exact h
  | storeNext T c =>
    obtain ⟨rfl, rfl⟩ := he
    intro T' N hN
    show N < σ.nTabs + 1
    have hN : (if T' = T then some σ.nTabs else if T' = σ.nTabs then none else σ.next T') = some N := hN
    split at hN
    · cases hN; omega
    · split at hN
      · cases hN
      · have := h T' N hN; omega
  | tryLock T => rcases he with ⟨_, _, rfl⟩ | ⟨_, _, rfl⟩ <;> exact h
  | lockWait T => rcases he with ⟨_, _, rfl⟩ | ⟨_, _, rfl⟩ <;> exact h
  | cas w T i exp new => rcases he with ⟨_, _, rfl⟩ | ⟨_, _, rfl⟩ <;> exact h
  | casNew w T i exp k v => rcases he with ⟨_, _, rfl⟩ | ⟨_, _, rfl⟩ <;> exact h
  | casRoot T N => rcases he with ⟨_, _, rfl⟩ | ⟨_, _, rfl⟩ <;> exact h
  | unlock T => have he : σ' = _ := he; subst he; exact h
  | poison T => have he : σ' = _ := he; subst he; exact h
  | storeMd T i m => have he : σ' = _ := he; subst he; exact h
  | storeSlot T i s => have he : σ' = _ := he; subst he; exact h
  | storeStatus T s => have he : σ' = _ := he; subst he; exact h
  | sameTable T T' => obtain ⟨_, rfl⟩ := he; exact h
  | sameEntry x y => obtain ⟨_, rfl⟩ := he; exact h
  | deref e => have he : σ' = _ := he; subst he; exact h
  | retire e => have he : σ' = _ := he; subst he; exact h
  | retireTable T => have he : σ' = _ := he; subst he; exact h
  | pushDeferred T e => have he : σ' = _ := he; subst he; exact h
  | addCount d => have he : σ' = _ := he; subst he; exact h
  | loadRoot => obtain ⟨_, rfl⟩ := he; exact h
  | peekRoot => obtain ⟨_, rfl⟩ := he; exact h
  | loadNext T => obtain ⟨_, rfl⟩ := he; exact h
  | loadMd T i => obtain ⟨_, rfl⟩ := he; exact h
  | loadSlot T i => obtain ⟨_, rfl⟩ := he; exact h
  | fetchOrCopying T i => obtain ⟨_, rfl⟩ := he; exact h
  | loadStatus T => obtain ⟨_, rfl⟩ := he; exact h
  | parkStatus T => obtain ⟨_, rfl⟩ := he; exact h
  | parkSlot T i => obtain ⟨_, rfl⟩ := he; exact h
  | unparkStatus T => obtain ⟨_, rfl⟩ := he; exact h
  | unparkSlot T i => obtain ⟨_, rfl⟩ := he; exact h
  | loadClaim T => obtain ⟨_, rfl⟩ := he; exact h
  | addClaim T m s => obtain ⟨_, rfl⟩ := he; exact h
  | loadCopied T => obtain ⟨_, rfl⟩ := he; exact h
  | addCopied T m s => obtain ⟨_, rfl⟩ := he; exact h
  | loadShard j => obtain ⟨_, rfl⟩ := he; exact h

theorem reach_next (h : Reach C ps) : ∀ T N, ps.mem.next T = some N → N < ps.mem.nTabs := by
  induction h with
  | init h =>
    obtain ⟨h1, _⟩ := h
    intro T N hN
    unfold initSt at h1
    simp only at h1
    split at h1
    · rw [← Option.some.inj h1] at hN; cases hN
    · obtain ⟨n, _, h1⟩ := Option.map_eq_some_iff.1 h1
      rw [← h1] at hN
      have hN : (if T = 0 then none else none) = some N := hN
      split at hN <;> cases hN
  | step h hs ih =>
    cases hs with
    | act t h he => exact exec_next he ih
    | _ => exact ih

theorem Crowded.start (h : Crowded C n ps) (hr : Reach C ps) (hq : ∀ o c, HEv.inv o c ∈ ps.hist → Ended ps.hist o)
    (hk : ∀ v, ¬ ps.mem.Holds kx v) : ∃ F, LLStart C n kx F ps.mem.shard ps := by
  obtain ⟨F, h1, h2⟩ := h.keys
  refine ⟨F, hr, h.hash, ⟨h.mode, h.size.1, h.size.2.2.1, h.size.2.1, h.size.2.2.2.1, h.same⟩, ?_, fun k hk => (h1 k).1 hk, h2,
    fun hF => ?_, hq⟩
  · obtain ⟨S, g, g0, _⟩ := hr.pinv 1
    have hb := h.mode
    obtain ⟨g1, g2, g3, g4, g5, g6⟩ := g0
    have hn := h.table.2.1
    rw [← g1] at hn
    refine ⟨fun T hT => ?_, reach_next hr, by rw [h.table.1]; simp, fun T => ?_, rfl, fun T i e he => ?_⟩
    · have : T = 0 := by have := h.table.2.1; omega
      rw [this]; exact h.table.2.2
    · rcases Nat.eq_zero_or_pos T with rfl | hT
      · exact h.size.2.2.2.2
      · have := (g2.s.out T (by omega)).2.2.2.2.2.2.1
        rw [← g1]
        rw [this]; simp
    · rw [← g1] at he
      have hT := kslot_lt g2.s he
      have hrt : S.rt = 0 := by
        unfold GSt.rt
        have := h.table.1
        rw [← g1] at this
        rw [this]; rfl
      have hT0 : T = 0 := by omega
      subst hT0
      intro hke
      -- the entry is in the root table: it is published, as nothing is running
      have hvis : S.vis 0 i e := by
        refine ⟨by omega, (wasRoot_rt g2.s hT).2.2 |> (hrt ▸ ·), he, fun h => ?_, fun hm => ?_⟩
        · have := h.1; omega
        · have := (g2.p.p7 _ _ _ he hm.1).1
          unfold Cfg.inc at this; rw [hb] at this; cases this
      have habs := abs_vis g2.s g2.p g2.l hvis
      by_cases hmd : S.md 0 i = EMPTY
      · have hu := g2.l.u2 0 i e he hmd (by omega) hvis.2.1 hvis.2.2.2.1
        obtain ⟨hnl, x, hx, hh⟩ := hu
        obtain ⟨x', hx', hxe⟩ := g2.p.p3 _ _ _ he
        rw [hx] at hx'
        cases hx'
        have hne := g6.unl _ _ hx (by rw [hxe]; exact hnl)
        have hseq := (g2.e.e5 _ _ hx).1
        have hop : 0 < x.op.2 := by
          by_contra h0
          have h0 : x.op.2 = 0 := by omega
          obtain ⟨T', i', _, _, _, _, _, heff⟩ := g2.l.u1 _ _ hx (by rw [hxe]; exact hnl)
          have : x.op = (x.op.1, 0) := by rw [← h0]
          rw [this] at heff
          exact g6.i0 _ _ _ _ heff
        obtain ⟨c, hc⟩ := g6.i2 _ hop hseq
        exact hne (hq _ _ hc)
      · refine hk e.val ⟨e, ?_, hke, rfl⟩
        rw [← g1]
        exact ⟨0, i, hvis.1, hvis.2.1, he, hmd, hvis.2.2.2.2, hvis.2.2.2.1⟩
  · obtain ⟨v, hv⟩ := (h1 kx).1 hF
    exact hk v hv

/-- **C29 is false of the code** in blocking mode: in such a situation the insertion of a new key, executed alone, never
returns (and does not panic), however long it runs. -/
theorem C29_insert_never_returns {v : V} {o : OpId} (hc : Crowded C n ps) (hk : ∀ v, ¬ ps.mem.Holds kx v)
    (h : Solo C ps ps' o (.insert kx v)) : ¬ Ended ps'.hist o := by
  obtain ⟨F, h0⟩ := hc.start h.reach h.quiet hk
  have hwf := C01_history_wf (h.reach.steps h.steps)
  have hsub := (steps_hist h.steps).subset
  refine (ll_run (v := v) h0 ?_ h.steps ?_).ended
  · have key : ∀ c', HEv.inv o c' ∈ ps.hist → False := fun c' h1 => by
      have := hwf.inv_unique (hsub h1) h.called
      subst this
      exact h.fresh h1
    have hwf0 := C01_history_wf h.reach
    rintro (⟨c', r, h1⟩ | ⟨c', r, h1⟩)
    · exact key c' (hwf0.ret_inv' h1)
    · exact key c' (hwf0.panic_inv h1)
  · intro o' c' h1
    by_cases h2 : HEv.inv o' c' ∈ ps.hist
    · exact .inl h2
    · right
      have := h.others o' c' h1 h2
      subst this
      exact hwf.inv_unique h1 h.called

/-- A map in blocking mode, created with 64 slots, and a constant hash function. -/
def cfgBad : Cfg Nat := ⟨fun _ => 0, .blocking, 48, 1, fun t => t, 0, 0, 0, fun _ => true⟩

/-- Tests of the hypotheses of `C29_insert_never_returns` for `n = 64` and the keys `0`, …, `30`. -/
def crowdedB (ps : PSt Nat Nat) : Bool :=
  ps.mem.root == some 0 && ps.mem.nTabs == 1 && ps.mem.cap 0 == 64 && ps.mem.lock 0 == .free &&
  ((List.range 31).all fun k => (List.range 64).any fun i => holdsB ps.mem i k (10 * k)) &&
  ((List.range 64).all fun i => match (ps.mem.slot 0 i).ptr with | some e => decide (e.key < 31) | none => true) &&
  nextCapacity 48 64 (((List.range 2).map ps.mem.shard).sum).toNat == 64 &&
  ps.hist.all fun ev => match ev with
    | .inv o _ => ps.hist.any (HEv.endTest o)
    | _ => true

theorem crowdedB_iff {ps : PSt Nat Nat} (hr : Reach cfgBad ps) (h : crowdedB ps = true) :
    Crowded cfgBad 64 ps ∧ (∀ v, ¬ ps.mem.Holds 31 v) ∧ ∀ o c, HEv.inv o c ∈ ps.hist → Ended ps.hist o := by
  unfold crowdedB at h
  simp only [Bool.and_eq_true, beq_iff_eq] at h
  obtain ⟨⟨⟨⟨⟨⟨⟨h1, h2⟩, h3⟩, h4⟩, h5⟩, h6⟩, h7⟩, h8⟩ := h
  have hb : ∀ {e : Entry Nat Nat}, ps.mem.Binds e → e.key < 31 := by
    intro e he
    obtain ⟨i, h9, _⟩ := (C15_blocking_contents hr rfl).1 he
    have hix : ps.mem.rootIx = 0 := by unfold St.rootIx; rw [h1]; rfl
    rw [hix] at h9
    obtain ⟨S, g, ⟨g1, g2, _⟩, _⟩ := hr.pinv 1
    have hi : i < 64 := by
      rw [← g1] at h9 h3
      have := kslot_idx g2.s g2.p h9
      rw [h3] at this; exact this
    have := List.all_eq_true.1 h6 i (List.mem_range.2 hi)
    unfold St.Ptr at h9
    rw [h9] at this
    simpa using this
  refine ⟨⟨rfl, fun _ _ => rfl, ⟨h1, h2, h3⟩, ⟨by decide, by decide, by decide, rfl, by rw [h4]; simp⟩, ?_, h7⟩, ?_, ?_⟩
  · refine ⟨Finset.range 31, fun k => ⟨fun hk => ?_, fun ⟨v, e, he, hk, _⟩ => ?_⟩, by decide⟩
    · have := List.all_eq_true.1 h5 k (List.mem_range.2 (Finset.mem_range.1 hk))
      obtain ⟨i, _, hi⟩ := List.any_eq_true.1 this
      exact ⟨_, holdsB_iff hi⟩
    · rw [← hk]; exact Finset.mem_range.2 (hb he)
  · rintro v ⟨e, he, hk, _⟩
    have := hb he
    omega
  · intro o c ho
    exact ended_of_test (List.all_eq_true.1 h8 _ ho)

/-- **C29 is false of the code**: a reachable state of a map with 31 keys, after which inserting one more key never returns. -/
theorem C29_witness : ∃ ps : PSt Nat Nat, Reach cfgBad ps ∧ HasKeys ps.mem 31 ∧ (∀ v, ¬ ps.mem.Holds 31 v) ∧
    (∀ o c, HEv.inv o c ∈ ps.hist → Ended ps.hist o) ∧
    ∀ ps' o v, Solo cfgBad ps ps' o (.insert 31 v) → ¬ Ended ps'.hist o := by
  obtain ⟨ps, _, h1, h2⟩ := demo_run (C := cfgBad) (l := fill 31) (P := crowdedB) (by decide +kernel)
  obtain ⟨h3, h4, h5⟩ := crowdedB_iff h1 h2
  exact ⟨ps, h1, h3.keys, h4, h5, fun ps' o v h => C29_insert_never_returns h3 h4 h⟩

-- such an insertion under way: it has replaced the table twice
example : ∃ ps ps' : PSt Nat Nat, Solo cfgBad ps ps' (0, 32) (.insert 31 310) ∧ Crowded cfgBad 64 ps ∧
    (∀ v, ¬ ps.mem.Holds 31 v) ∧ ps'.mem.root = some 2 := by
  obtain ⟨ps, ps', h1, h2, h3, h4, h5, h6⟩ := demo_call (C := cfgBad) (l1 := fill 31) (t := 0) (c := .insert 31 310) trivial (n := 32)
    (P1 := fun ps => crowdedB ps && ps.hist.length == 62) (l2 := [.go 0 3000])
    (P2 := fun ps => ps.mem.root == some 2 && ps.hist.length == 63) (by decide +kernel) (by decide +kernel)
  simp only [Bool.and_eq_true, beq_iff_eq] at h3 h4
  obtain ⟨h8, h9, h10⟩ := crowdedB_iff h1 h3.1
  refine ⟨ps, ps', ⟨h1, h2, h10, h6 _, h5, fun o c a b => ?_⟩, h8, h9, h4.1⟩
  obtain ⟨A, hA⟩ := steps_hist h2
  have hl := congrArg List.length hA
  rw [List.length_append, h3.2, h4.2] at hl
  obtain ⟨x, rfl⟩ := List.length_eq_one_iff.1 (show A.length = 1 by omega)
  rw [← hA] at a h5
  have a := (List.mem_append.1 a).resolve_left b
  have h5 := (List.mem_append.1 h5).resolve_left (h6 _)
  rw [List.mem_singleton] at a h5
  rw [← h5] at a
  cases a; rfl

end Papaya
