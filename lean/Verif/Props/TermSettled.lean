import Verif.Proof.TermSettled
import Verif.Props.Term
import Verif.Props.Quiet
import Verif.Props.Probe
import Verif.Props.Livelock

/-! # C49: operations that need no new table end

Both modes; in particular everything blocking mode can promise. -/

set_option linter.unusedSectionVars false
set_option linter.unusedVariables false

namespace Papaya

variable {K V : Type} [DecidableEq K] {C : Cfg K} {ps : PSt K V} {t : Tid} {sp : Bool} {c : Call K V} {k : K}

open GSt

/-! ## The counter at rest -/

/-- **C13** At rest the sum of the counter is the number of keys. -/
theorem C13_counter_exact (h : Reach C ps) (hr : AtRest ps) (ht : ps.th t = .idle) :
    ∃ F : Finset K, (∀ k, k ∈ F ↔ ∃ v, ps.mem.Holds k v) ∧ ((List.range (C.shards + 1)).map ps.mem.shard).sum = F.card := by
  have h1 : Reach C (ps.call C t (.len : Call K V)) := .step h (.inv t .len ht trivial)
  obtain ⟨S, g, b, _⟩ := h1.pinv 1
  obtain ⟨b1, b2, _, _, _, b6⟩ := b
  have hd : AllDone ps.hist := by
    obtain ⟨S0, g0, ⟨c1, c2, _, _, _, c6⟩, _⟩ := h.pinv 1
    exact fun o c ho => .inr (c6.old o (c6.i1 o c ho).1 (c6.i1 o c ho).2.1 fun _ => hr.threads o.1)
  have hq := b6.quiet ps.hist _ .len [] rfl hd rfl (fun o c hc => by cases hc)
  have hq1 := b6.q1 ps.hist _ .len [] rfl hd
  obtain ⟨F, f1, f2⟩ := deltas_card b2 (List.take_prefix (g.tInv (t, ps.seq t + 1)) S.log)
  have hm : S.toSt = ps.mem := b1
  refine ⟨F, fun k => ?_, ?_⟩
  · rw [f1, ← hq.2 k, Option.ne_none_iff_exists']
    exact exists_congr fun v => by rw [← hm, holds_iff b2]
  · have h2 := b2.n.1
    rw [hq.1] at h2
    have h3 : ((List.range (C.shards + 1)).map S.shard).sum = paySum (g.pInv (t, ps.seq t + 1)) := h2
    rw [← hm]
    show ((List.range (C.shards + 1)).map S.shard).sum = _
    rw [h3, hq1, f2]

/-! ## The state -/

theorem AtRest.settled (h : Reach C ps) (hr : AtRest ps) (hb : C.inc = false) : NoResize ps.mem :=
  fun _ hT => C23_blocking_resized h hr hb hT

theorem HasRoom.roomy {σ : St K V} (hg : GoodSt C σ) (hn : NoResize σ) (h : HasRoom C k σ) : Roomy C k σ := by
  refine ⟨hn, fun r hr => ?_⟩
  obtain ⟨n, h1, i, rfl, h2⟩ := h r hr
  have h3 : (σ.handle r).limit = limit (σ.cap r) := rfl
  exact ⟨n, by rw [h3]; exact h1, h2⟩

theorem Reach.good (h : Reach C ps) : GoodSt C ps.mem := by
  obtain ⟨S, g, ⟨g1, g2, _⟩, _⟩ := h.pinv 1
  exact ⟨S, g1, g2⟩

/-- A key of the map has room. -/
theorem room_of_holds (h : Reach C ps) (hn : NoResize ps.mem) {v : V} (hk : ps.mem.Holds k v) : HasRoom C k ps.mem := by
  obtain ⟨S, g, ⟨g1, g2, _⟩, _⟩ := h.pinv 1
  rw [← g1] at hn hk ⊢
  intro r hr
  obtain ⟨e, ⟨T, i, h1, h2, h3, h4⟩, rfl, rfl⟩ := hk
  have hTr : T = r := by
    have hT := kslot_lt g2.s h3
    have hrr : S.root = some r := hr
    have h5 := (g2.s.some r hrr).1
    have h6 : S.next r = none := hn r hr
    rw [g2.s.next r h5] at h6
    have h7 : S.rt = r := by unfold GSt.rt; rw [hrr]; rfl
    have h8 : S.rt ≤ T := h1
    split at h6
    · cases h6
    · omega
  subst hTr
  obtain ⟨n, h5, h6, _⟩ := g2.p.p4 T i e h3
  exact ⟨n, h5, i, h6.symm, .inr ⟨e, h3, rfl⟩⟩

open Classical in
/-- Pigeonhole: if fewer slots of the root table are in use than are probed, there is room. -/
theorem room_of_few (h : Reach C ps)
    (hf : ∀ r, ps.mem.root = some r → ((Finset.range (ps.mem.cap r)).filter fun i => ps.mem.slot r i ≠ Slot.null).card <
      min (ps.mem.cap r) (limit (ps.mem.cap r) + 1)) : HasRoom C k ps.mem := by
  obtain ⟨S, g, ⟨g1, g2, _⟩, _⟩ := h.pinv 1
  intro r hr
  have hlt : r < S.nTabs := by
    rw [← g1] at hr
    exact (g2.s.some r hr).1
  obtain ⟨a, ha⟩ := (g2.s.cap r hlt).1
  have ha : ps.mem.cap r = 2 ^ a := by rw [← g1]; exact ha
  have hf := hf r hr
  rw [ha] at hf ⊢
  by_contra hc
  have hall : ∀ n, n ≤ limit (2 ^ a) → ps.mem.slot r (Probe.after (C.h1 k) (2 ^ a - 1) n).i ≠ Slot.null :=
    fun n hn hs => hc ⟨n, hn, _, rfl, .inl hs⟩
  have hsub : ((Finset.range (min (2 ^ a) (limit (2 ^ a) + 1))).image fun n => (Probe.after (C.h1 k) (2 ^ a - 1) n).i) ⊆
      (Finset.range (2 ^ a)).filter fun i => ps.mem.slot r i ≠ Slot.null := by
    intro i hi
    obtain ⟨n, hn, rfl⟩ := Finset.mem_image.1 hi
    rw [Finset.mem_range] at hn
    exact Finset.mem_filter.2 ⟨Finset.mem_range.2 (C16_probe_in_bounds _ _ _), hall n (by omega)⟩
  have hcard := Finset.card_le_card hsub
  rw [Finset.card_image_of_injOn, Finset.card_range] at hcard
  · omega
  · intro n hn m hm he
    simp only [Finset.coe_range, Set.mem_Iio] at hn hm
    exact C16_probe_distinct _ a n m (by omega) (by omega) he

/-! ## The claims -/

theorem tt_insKey (hb : C.inc = false) (hc : c.key? = some k) : Tt C t false (Roomy C k) (c.prog C) fun _ _ => True := by
  have triv : ∀ {α : Type} {x : α}, Tt (K := K) (V := V) C t false (fun _ => True) (pure x) fun _ _ => True := Tt.ret fun _ _ _ => trivial
  have hcomp : ∀ {R : Type} {f : Closure (Option (K × V)) (Operation V R)}, Tt C t false (Roomy C k) (compute C k f) (fun _ _ => True) :=
    fun {R f} => (tt_computeZ hb).weaken fun σ _ h => .inl h
  have hins : ∀ v, Tt (V := V) C t false (Roomy C k) (Call.tryInsertProg C k v) fun _ _ => True := by
    intro v
    unfold Call.tryInsertProg
    refine Tt.bind _ tt_insertZ fun r => ?_
    cases r with
    | inserted e => exact triv
    | replaced a b => exact Tt.panic
    | error a b => exact triv
  have hwith : ∀ f, Tt (V := V) C t false (Roomy C k) (tryInsertWith C k f) fun _ _ => True := by
    intro f
    unfold tryInsertWith
    refine Tt.bind _ hcomp fun r => ?_
    split
    · exact triv
    · exact triv
    · exact Tt.panic
  have huoi : ∀ u f, Tt (V := V) C t false (Roomy C k) (updateOrInsertWith C k u f) fun _ _ => True := by
    intro u f
    unfold updateOrInsertWith
    refine Tt.bind _ hcomp fun r => ?_
    split
    · exact triv
    · exact triv
    · exact Tt.panic
  cases c with
  | get k' => cases hc; exact tt_any tt_get
  | containsKey k' => cases hc; exact Tt.bind _ (tt_any tt_get) fun _ => triv
  | insert k' v =>
    cases hc
    refine Tt.bind _ tt_insertZ fun r => ?_
    cases r with
    | inserted e => exact triv
    | replaced a b => exact triv
    | error a b => exact Tt.panic
  | tryInsert k' v => cases hc; exact hins v
  | tryInsertWith k' f => cases hc; exact hwith f
  | getOrInsert k' v =>
    cases hc
    refine Tt.bind _ (hins v) fun r => ?_
    cases r with
    | inl e => exact triv
    | inr e => exact triv
  | getOrInsertWith k' f =>
    cases hc
    refine Tt.bind _ (hwith f) fun r => ?_
    cases r with
    | inl e => exact triv
    | inr e => exact triv
  | update k' f =>
    cases hc
    refine Tt.bind _ hcomp fun r => ?_
    split
    · exact triv
    · exact triv
    · exact Tt.panic
  | updateOrInsert k' u v => cases hc; exact huoi _ _
  | updateOrInsertWith k' u f => cases hc; exact huoi _ _
  | compute k' f => cases hc; exact hcomp
  | remove k' => cases hc; exact (tt_removeZ hb).weaken fun σ _ h => h.1
  | removeIf k' f => cases hc; exact (tt_removeIfZ hb).weaken fun σ _ h => h.1
  | clear => cases hc
  | retain f => cases hc
  | iter => cases hc
  | iterTake n => cases hc
  | len => cases hc
  | isEmpty => cases hc
  | reserve n => cases hc

theorem tt_neverInserts (hb : C.inc = false) (hc : c.neverInserts) : Tt C t false Settled (c.prog C) fun _ _ => True := by
  have triv : ∀ {α : Type} {x : α}, Tt (K := K) (V := V) C t false (fun _ => True) (pure x) fun _ _ => True := Tt.ret fun _ _ _ => trivial
  cases c with
  | get k' => exact tt_any tt_get
  | containsKey k' => exact Tt.bind _ (tt_any tt_get) fun _ => triv
  | update k' f =>
    refine Tt.bind _ ((tt_computeZ hb).weaken fun σ _ h => .inr ⟨h, ?_⟩) fun r => ?_
    · intro s s' v hs
      cases hs
    · split
      · exact triv
      · exact triv
      · exact Tt.panic
  | compute k' f => exact (tt_computeZ hb).weaken fun σ _ h => .inr ⟨h, hc⟩
  | remove k' => exact tt_removeZ hb
  | removeIf k' f => exact tt_removeIfZ hb
  | clear => exact tt_clearZ
  | retain f => exact tt_retainZ
  | iter => exact tt_iterZ
  | iterTake n => exact tt_iterZ
  | len => exact tt_any (tt_len _)
  | isEmpty => exact Tt.bind _ (tt_any (tt_len _)) fun _ => triv
  | _ => exact hc.elim

/-- **C49** In blocking mode, every operation that never inserts a key ends when it is executed alone: after a bounded number of steps it
has returned or panicked. For every hash function and all contents. -/
theorem C49_ends (h : Reach C ps) (hr : AtRest ps) (hb : C.inc = false) (ht : ps.th t = .idle) (hc : c.neverInserts) (hwf : c.WF) :
    EndsAlone C t false ps c :=
  endsAlone_of h ht hwf (tt_neverInserts hb hc) (hr.settled h hb)

/-- **C49**, **C29** In blocking mode, every operation on a single key (also those that insert) ends if there is room for the key. -/
theorem C49_room_ends (h : Reach C ps) (hr : AtRest ps) (hb : C.inc = false) (ht : ps.th t = .idle) (hc : c.key? = some k) (hwf : c.WF)
    (hroom : HasRoom C k ps.mem) : EndsAlone C t false ps c :=
  endsAlone_of h ht hwf (tt_insKey hb hc) (hroom.roomy h.good (hr.settled h hb))

/-- **C49** … in particular if the map contains the key … -/
theorem C49_present_ends (h : Reach C ps) (hr : AtRest ps) (hb : C.inc = false) (ht : ps.th t = .idle) (hc : c.key? = some k) (hwf : c.WF)
    {v : V} (hk : ps.mem.Holds k v) : EndsAlone C t false ps c :=
  C49_room_ends h hr hb ht hc hwf (room_of_holds h (hr.settled h hb) hk)

open Classical in
/-- **C49**, **C29** … or if fewer slots are in use than the length of a probe sequence: for every hash function, even a constant one. -/
theorem C49_few_ends (h : Reach C ps) (hr : AtRest ps) (hb : C.inc = false) (ht : ps.th t = .idle) (hc : c.key? = some k) (hwf : c.WF)
    (hf : ∀ r, ps.mem.root = some r → ((Finset.range (ps.mem.cap r)).filter fun i => ps.mem.slot r i ≠ Slot.null).card <
      min (ps.mem.cap r) (limit (ps.mem.cap r) + 1)) : EndsAlone C t false ps c :=
  C49_room_ends h hr hb ht hc hwf (room_of_few h hf)

/-- **C48** In both modes, if no resize is pending: `iter`, `clear` and `retain` end; weak compare-exchanges may fail spuriously. -/
theorem C48_settled_ends (h : Reach C ps) (ht : ps.th t = .idle) (hn : NoResize ps.mem)
    (hc : c = .iter ∨ (∃ n, c = .iterTake n) ∨ c = .clear ∨ ∃ f, c = .retain f) (hwf : c.WF) : EndsAlone C t sp ps c := by
  rcases hc with rfl | ⟨n, rfl⟩ | rfl | ⟨f, rfl⟩
  · exact endsAlone_of h ht hwf tt_iterZ hn
  · exact endsAlone_of h ht hwf tt_iterZ hn
  · exact endsAlone_of h ht hwf tt_clearZ hn
  · exact endsAlone_of h ht hwf tt_retainZ hn

/-- **C48** At rest, in both modes: `reserve` ends if the root table is large enough (or there is no table yet). -/
theorem C48_reserve_ends (h : Reach C ps) (hr : AtRest ps) (ht : ps.th t = .idle) {a n c : Nat} (hn : HasKeys ps.mem n)
    (hc : entriesFor (n + a) = some c) (hcap : ∀ r, ps.mem.root = some r → c ≤ ps.mem.cap r) : EndsAlone C t sp ps (.reserve a : Call K V) := by
  obtain ⟨F, f1, f2⟩ := C13_counter_exact h hr ht
  obtain ⟨F', f3, f4⟩ := hn
  have hF : F = F' := Finset.ext fun k => (f1 k).trans (f3 k).symm
  subst hF
  refine endsAlone_of h ht trivial tt_reserveZ ⟨fun c' hc' r hr => ?_, fun hroot => ?_⟩
  · rw [f2, Int.toNat_natCast, f4, hc] at hc'
    cases hc'
    exact hcap r hr
  · rw [f2, f4]
    have : F = ∅ := by
      refine Finset.eq_empty_of_forall_notMem fun k hk => ?_
      obtain ⟨v, e, ⟨T, i, h1⟩, _⟩ := (f1 k).1 hk
      obtain ⟨S, g, ⟨g1, g2, _⟩, _⟩ := h.pinv 1
      rw [← g1] at h1 hroot
      have := kslot_lt g2.s h1.2.2.1
      have := (g2.s.none hroot).1
      omega
    rw [← f4, this]
    rfl

/-- **C49** `get` and `contains_key` end, in any state whatsoever (in the middle of other operations, after panics): both modes. -/
theorem C49_get_ends (h : Reach C ps) (ht : ps.th t = .idle) {k : K} (hc : c = .get k ∨ c = .containsKey k) : EndsAlone C t sp ps c := by
  rcases hc with rfl | rfl
  · exact endsAlone_of h ht trivial (P := fun _ => True) (tt_any tt_get) trivial
  · exact endsAlone_of h ht trivial (P := fun _ => True) (Tt.bind (fun _ _ => True) (tt_any tt_get) fun _ =>
      Tt.ret (Q := fun _ _ => True) fun _ _ h => h) trivial

/-- Test: guard `t` is idle. -/
def idleB (ps : PSt K V) (t : Tid) : Bool := match ps.th t with
  | .idle => true
  | _ => false

theorem idleB_iff {ps : PSt K V} {t : Tid} (h : idleB ps t = true) : ps.th t = .idle := by
  unfold idleB at h
  split at h
  · assumption
  · cases h

-- The state of C29_witness (a constant hash function, every slot of the probe sequence in use; inserting a new key never returns):
-- everything else ends. Also `insert`, if the key is there.
example : ∃ ps : PSt Nat Nat, Reach cfgBad ps ∧ AtRest ps ∧ ps.th 0 = .idle ∧ HasKeys ps.mem 31 ∧
    (∀ ps' o v, Solo cfgBad ps ps' o (.insert 31 v) → ¬ Ended ps'.hist o) ∧
    EndsAlone cfgBad 0 false ps (.insert 7 0) ∧ EndsAlone cfgBad 0 false ps (.update 31 (Closure.pure fun v => v + 1)) ∧
    EndsAlone cfgBad 0 false ps (.remove 31) ∧ EndsAlone cfgBad 0 false ps .clear ∧ EndsAlone cfgBad 0 true ps .iter := by
  obtain ⟨ps, h0, h1, h2⟩ := demo_run (C := cfgBad) (l := fill 31) (P := fun ps => crowdedB ps && (restB ps && idleB ps 0)) (by decide +kernel)
  simp only [Bool.and_eq_true] at h2
  obtain ⟨a1, a2, a3⟩ := h2
  obtain ⟨b1, b2, b3⟩ := crowdedB_iff h1 a1
  have hr := restB_iff h0 a2
  have ht := idleB_iff a3
  obtain ⟨v, hv⟩ : ∃ v, ps.mem.Holds 7 v := by
    unfold crowdedB at a1
    simp only [Bool.and_eq_true, beq_iff_eq] at a1
    have := List.all_eq_true.1 a1.1.1.1.2 7 (by decide)
    obtain ⟨i, _, hi⟩ := List.any_eq_true.1 this
    exact ⟨_, holdsB_iff hi⟩
  exact ⟨ps, h1, hr, ht, b1.keys, fun ps' o v h => C29_insert_never_returns b1 b2 h, C49_present_ends h1 hr rfl ht rfl trivial hv,
    C49_ends h1 hr rfl ht trivial pure_wf, C49_ends h1 hr rfl ht trivial trivial, C49_ends h1 hr rfl ht trivial trivial,
    C48_settled_ends h1 ht (hr.settled h1 rfl) (.inl rfl) trivial⟩

-- … one key less: now inserting a new key ends
example : ∃ ps : PSt Nat Nat, Reach cfgBad ps ∧ AtRest ps ∧ ps.th 0 = .idle ∧ HasRoom cfgBad 30 ps.mem ∧
    EndsAlone cfgBad 0 false ps (.insert 30 0) := by
  obtain ⟨ps, h0, h1, h2⟩ := demo_run (C := cfgBad) (l := fill 30) (P := fun ps => restB ps && (idleB ps 0 && (ps.mem.root == some 0 && (ps.mem.cap 0 == 64 &&
    ((List.range 64).filter fun i => !(match (ps.mem.slot 0 i) with
      | ⟨none, false, false, false⟩ => true
      | _ => false)).length == 30)))) (by decide +kernel)
  simp only [Bool.and_eq_true, beq_iff_eq] at h2
  obtain ⟨a2, a3, a4, a5, a6⟩ := h2
  have hr := restB_iff h0 a2
  have ht := idleB_iff a3
  have hroom : HasRoom cfgBad 30 ps.mem := by
    refine room_of_few h1 fun r hr => ?_
    rw [a4] at hr
    cases hr
    rw [a5]
    refine Nat.lt_of_le_of_lt (m := 30) ?_ (by decide)
    rw [← a6, ← List.toFinset_card_of_nodup (List.Nodup.filter _ List.nodup_range)]
    refine Finset.card_le_card fun i hi => ?_
    rw [Finset.mem_filter, Finset.mem_range] at hi
    rw [List.mem_toFinset, List.mem_filter, List.mem_range]
    refine ⟨hi.1, ?_⟩
    simp only [Bool.not_eq_true']
    split
    · rename_i hs; exact absurd hs hi.2
    · rfl
  exact ⟨ps, h1, hr, ht, hroom, C49_room_ends h1 hr rfl ht rfl trivial hroom⟩

-- incremental resizing, six keys, no resize pending
example : ∃ ps : PSt Nat Nat, Reach cfgI ps ∧ AtRest ps ∧ ps.th 0 = .idle ∧ NoResize ps.mem ∧ ps.mem.Holds 5 50 ∧
    EndsAlone cfgI 0 true ps .clear ∧ EndsAlone cfgI 0 true ps (.retain (Closure.pure fun x => x.1 < 3)) := by
  obtain ⟨ps, h0, h1, h2⟩ := demo_run (C := cfgI) (l := fill 6) (P := fun ps => restB ps && (idleB ps 0 && (ps.mem.root == some 0 && (ps.mem.next 0 == none &&
    (List.range 8).any fun i => holdsB ps.mem i 5 50)))) (by decide +kernel)
  simp only [Bool.and_eq_true, beq_iff_eq] at h2
  obtain ⟨a2, a3, a4, a5, a6⟩ := h2
  obtain ⟨i, _, hi⟩ := List.any_eq_true.1 a6
  have hr := restB_iff h0 a2
  have ht := idleB_iff a3
  have hn : NoResize ps.mem := fun r hr => by rw [a4] at hr; cases hr; exact a5
  exact ⟨ps, h1, hr, ht, hn, holdsB_iff hi, C48_settled_ends h1 ht hn (.inr (.inr (.inl rfl))) trivial,
    C48_settled_ends h1 ht hn (.inr (.inr (.inr ⟨_, rfl⟩))) pure_wf⟩

-- `get` while guard 0 is suspended in the middle of an insertion that is resizing the table
example : ∃ ps : PSt Nat Nat, Reach cfgI ps ∧ ps.mem.next 0 = some 1 ∧ ¬ AtRest ps ∧ EndsAlone cfgI 1 true ps (.get 3) := by
  obtain ⟨ps, h0, h1, h2⟩ := demo_run (C := cfgI) (l := midResize 66) (P := fun ps => idleB ps 1 && (ps.mem.next 0 == some 1 &&
    (match ps.th 0 with
    | .run _ _ => true
    | _ => false))) (by decide +kernel)
  simp only [Bool.and_eq_true, beq_iff_eq] at h2
  obtain ⟨a1, a2, a3⟩ := h2
  refine ⟨ps, h1, a2, fun hr => ?_, C49_get_ends h1 (idleB_iff a1) (.inl rfl)⟩
  rcases hr.threads 0 with h | h <;> rw [h] at a3 <;> cases a3

end Papaya
