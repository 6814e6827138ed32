import Verif.Model.Drop
import Verif.Proof.FinishInv
import Verif.Props.Memory
import Verif.Props.Lin
import Verif.Exec.Abort

/-! # Between operations; dropping the map (C23) -/

set_option linter.unusedSectionVars false
set_option linter.unusedVariables false

namespace Papaya

variable {K V : Type} [DecidableEq K]

open GSt

variable {C : Cfg K} {t : Tid} {ps ps' : PSt K V}

/-- No operation is running (none was abandoned), and none failed to allocate a table. -/
structure AtRest (ps : PSt K V) : Prop where
  threads : ∀ t, ps.th t = .out ∨ ps.th t = .idle
  panics : ∀ o c w, HEv.panic o c w ∈ ps.hist → ¬ AllocPanic w

theorem hard_sys {c : Call K V} {w : PanicReason} (h : c.MayPanic C w) (hw : w.hard = true) : AllocPanic w := by
  obtain ⟨h1, h2⟩ := mayPanic_ne h
  cases w with
  | unreachableCode => exact absurd rfl h1
  | unwrapNone => exact absurd rfl h2
  | notPowerOfTwo => exact .inl rfl
  | maxCapacity => exact .inr (.inl rfl)
  | layoutOverflow => exact .inr (.inr (.inl rfl))
  | poisonedLock => exact .inr (.inr (.inr rfl))
  | capacityOverflow => cases hw
  | removeNone => cases hw
  | user => cases hw

theorem AtRest.nothing_due (h : Reach C ps) (hr : AtRest ps) (d : Duty) : ¬ d.Due C ps.mem := by
  refine h.nothing_due hr.threads (fun o c w hm => ?_) d
  cases hw : w.hard with
  | false => rfl
  | true => exact absurd (hard_sys (C09_panics h hm) hw) (hr.panics o c w hm)

/-- **C23** At rest, in blocking mode, no resize is pending: the root is the last table. -/
theorem C23_blocking_resized (h : Reach C ps) (hr : AtRest ps) (hb : C.inc = false) {T : Nat} (hT : ps.mem.root = some T) :
    ps.mem.next T = none := by
  have hd := AtRest.nothing_due h hr (.stay T)
  obtain ⟨S, g, ⟨g1, g2, g3, g4, g5, g6⟩, _⟩ := h.pinv 1
  rw [← g1] at hT hd ⊢
  have h1 := (g2.s.some T hT).1
  have := g2.s.next T h1
  show S.next T = none
  rw [this, if_neg]
  exact fun h2 => hd ⟨hb, hT, h2⟩

/-- **C23** At rest, every slot of an incremental resize that is marked as being copied has been copied. -/
theorem C23_copies_complete (h : Reach C ps) (hr : AtRest ps) (hi : C.inc = true) {T i : Nat} {e : Entry K V}
    (hp : ps.mem.Ptr T i e) (hc : (ps.mem.slot T i).copying = true) : (ps.mem.slot T i).copied = true := by
  have hd := AtRest.nothing_due h hr (.store T i)
  cases hx : (ps.mem.slot T i).copied with
  | true => rfl
  | false => exact absurd ⟨hi, hc, (by rw [show (ps.mem.slot T i).ptr = some e from hp]; simp), hx⟩ hd

/-- **C23** At rest, every former root table has been handed to the collector. -/
theorem C23_tables_retired (h : Reach C ps) (hr : AtRest ps) {T : Nat} (hT : T < ps.mem.rootIx)
    (ha : ps.mem.status T ≠ .aborted) : ps.mem.tabRetired T = true := by
  have hd := AtRest.nothing_due h hr (.retire T)
  cases hx : ps.mem.tabRetired T with
  | true => rfl
  | false => exact absurd ⟨hT, ha, hx⟩ hd

/-- **C23** At rest, no allocation mutex is held. -/
theorem C23_unlocked (h : Reach C ps) (hr : AtRest ps) (T : Nat) (t : Tid) : ps.mem.lock T ≠ .held t :=
  fun hx => AtRest.nothing_due h hr (.unlock T) ⟨t, hx⟩

/-- Entries deferred on a table that has been freed have been freed. -/
theorem deferred_freed (h : Reach C ps) : ∀ T, ps.mem.tabFreed T = true → ∀ e ∈ ps.mem.deferred T, ps.mem.freed e.id = true := by
  induction h with
  | init h =>
    intro T hT
    exfalso
    obtain ⟨h1, _⟩ := h
    unfold initSt at h1
    simp only at h1
    split at h1
    · rw [← Option.some.inj h1] at hT; cases hT
    · obtain ⟨n, _, h1⟩ := Option.map_eq_some_iff.1 h1
      rw [← h1] at hT; cases hT
  | @step ps ps' hr hs ih =>
    cases hs with
    | freeEntry x h1 h2 h3 =>
      intro T hT e he
      show (if e.id = x then true else ps.mem.freed e.id) = true
      rw [ih T hT e he, ite_self]
    | freeTable P h1 h2 h3 =>
      intro T hT e he
      have he : e ∈ ps.mem.deferred T := he
      have hT : (if T = P then true else ps.mem.tabFreed T) = true := hT
      show ((ps.mem.deferred P).any (fun e' => e'.id == e.id) || ps.mem.freed e.id) = true
      rw [Bool.or_eq_true]
      by_cases hP : T = P
      · rw [hP] at he
        exact .inl (List.any_eq_true.2 ⟨e, he, beq_iff_eq.2 rfl⟩)
      · rw [if_neg hP] at hT
        exact .inr (ih T hT e he)
    | @act t c β a k r σ ht he =>
      have hsafe := C21_memory_safe hr ht
      cases a with
      | casRootInit cap =>
        simp only [Exec] at he
        split at he
        · rw [he.1]
          intro T hT e hm
          have hm : e ∈ (if T = ps.mem.nTabs then [] else ps.mem.deferred T) := hm
          split at hm
          · cases hm
          · exact ih T hT e hm
        · rw [he.1]; exact ih
      | storeNext P cap =>
        rw [he.1]
        intro T hT e hm
        have hm : e ∈ (if T = ps.mem.nTabs then [] else ps.mem.deferred T) := hm
        split at hm
        · cases hm
        · exact ih T hT e hm
      | pushDeferred P e' =>
        rw [show σ = _ from he]
        intro T hT e hm
        have hm : e ∈ (if T = P then e' :: ps.mem.deferred P else ps.mem.deferred T) := hm
        have hT : ps.mem.tabFreed T = true := hT
        split at hm
        · rename_i hP
          rw [hP, hsafe.1.2] at hT; cases hT
        · exact ih T hT e hm
      | tryLock T => rcases he with ⟨_, _, h5⟩ | ⟨_, _, h5⟩ <;> (rw [h5]; exact ih)
      | lockWait T => rcases he with ⟨_, _, h5⟩ | ⟨_, _, h5⟩ <;> (rw [h5]; exact ih)
      | cas w T i e n => rcases he with ⟨_, _, h5⟩ | ⟨_, _, h5⟩ <;> (rw [h5]; exact ih)
      | casNew w T i e k v => rcases he with ⟨_, _, h5⟩ | ⟨_, _, h5⟩ <;> (rw [h5]; exact ih)
      | casRoot T N => rcases he with ⟨_, _, h5⟩ | ⟨_, _, h5⟩ <;> (rw [h5]; exact ih)
      | unlock T => rw [show σ = _ from he]; exact ih
      | poison T => rw [show σ = _ from he]; exact ih
      | storeMd T i m => rw [show σ = _ from he]; exact ih
      | storeSlot T i s => rw [show σ = _ from he]; exact ih
      | storeStatus T s => rw [show σ = _ from he]; exact ih
      | deref e => rw [show σ = _ from he]; exact ih
      | retire e => rw [show σ = _ from he]; exact ih
      | retireTable e => rw [show σ = _ from he]; exact ih
      | addCount d => rw [show σ = _ from he]; exact ih
      | _ => rw [he.2]; exact ih
    | _ => exact ih

/-- What a running operation does next is allowed in the current state. -/
theorem Reach.okNext (h : Reach C ps) : ∃ S : GSt K V, S.toSt = ps.mem ∧ S.Inv C ∧
    ∀ (t : Tid) (c : Call K V) (β : Type) (a : Act K V β) (k : β → Prog K V c.Res), ps.th t = .run c (.act a k) → S.okAct a := by
  obtain ⟨S, g, ⟨g1, g2, g3, g4, g5, g6⟩, _⟩ := h.pinv 1
  refine ⟨S, g1, g2, fun t c β a k ht => ?_⟩
  have h7 := g4 t
  rw [ht] at h7
  exact (h7 S g2 ((rg K V C).refl t S)).1

/-- Tables handed to the collector are former roots. -/
theorem retired_root (h : Reach C ps) : ∀ T, ps.mem.tabRetired T = true → ps.mem.status T ≠ .aborted := by
  induction h with
  | init h =>
    intro T hT
    exfalso
    obtain ⟨h1, _⟩ := h
    unfold initSt at h1
    simp only at h1
    split at h1
    · rw [← Option.some.inj h1] at hT; cases hT
    · obtain ⟨n, _, h1⟩ := Option.map_eq_some_iff.1 h1
      rw [← h1] at hT; cases hT
  | @step ps ps' hr hs ih =>
    cases hs with
    | @act t c β a k r σ ht he =>
      obtain ⟨S, g1, g2, g3⟩ := hr.okNext
      have hok := g3 t c β a k ht
      rw [← g1] at ih he
      have hrw : ∀ T, S.tabRetired T = true → S.wasRoot T := by
        intro T hT
        have h1 := (g2.m.m4 T t hT).1
        refine ⟨?_, by omega, ih T hT⟩
        by_contra hn
        have := (g2.s.out T (by omega)).2.2.2.2.2.2.2.2.1
        rw [hT] at this; cases this
      cases a with
      | casRootInit cap =>
        simp only [Exec] at he
        split at he
        · rw [he.1]
          intro T hT
          show (if T = S.nTabs then Status.promoted else S.status T) ≠ .aborted
          split
          · simp
          · exact ih T hT
        · rw [he.1]; exact ih
      | storeNext P cap =>
        rw [he.1]
        intro T hT
        show (if T = S.nTabs then Status.pending else S.status T) ≠ .aborted
        split
        · simp
        · exact ih T hT
      | tryLock T => rcases he with ⟨_, _, h5⟩ | ⟨_, _, h5⟩ <;> (rw [h5]; exact ih)
      | lockWait T => rcases he with ⟨_, _, h5⟩ | ⟨_, _, h5⟩ <;> (rw [h5]; exact ih)
      | cas w T i e n => rcases he with ⟨_, _, h5⟩ | ⟨_, _, h5⟩ <;> (rw [h5]; exact ih)
      | casNew w T i e k v => rcases he with ⟨_, _, h5⟩ | ⟨_, _, h5⟩ <;> (rw [h5]; exact ih)
      | casRoot T N => rcases he with ⟨_, _, h5⟩ | ⟨_, _, h5⟩ <;> (rw [h5]; exact ih)
      | unlock T => rw [show σ = _ from he]; exact ih
      | poison T => rw [show σ = _ from he]; exact ih
      | storeMd T i m => rw [show σ = _ from he]; exact ih
      | storeSlot T i s => rw [show σ = _ from he]; exact ih
      | storeStatus T s =>
        rw [show σ = _ from he]
        intro T' hT
        have hT : S.tabRetired T' = true := hT
        show (if T' = T then s else S.status T') ≠ .aborted
        split
        · rename_i hTT
          intro hs
          exact hok.2 hs (hTT ▸ hrw T' hT)
        · exact ih T' hT
      | deref e => rw [show σ = _ from he]; exact ih
      | retire e => rw [show σ = _ from he]; exact ih
      | retireTable P =>
        rw [show σ = _ from he]
        intro T' hT
        have hT : (if T' = P then true else S.tabRetired T') = true := hT
        by_cases hTT : T' = P
        · rw [hTT]; exact hok.2.2.2.2.2
        · rw [if_neg hTT] at hT; exact ih T' hT
      | pushDeferred P e' => rw [show σ = _ from he]; exact ih
      | addCount d => rw [show σ = _ from he]; exact ih
      | _ => rw [he.2]; exact ih
    | _ => exact ih

/-- The state at rest. -/
structure RestG (C : Cfg K) (S : GSt K V) : Prop where
  inv : S.Inv C
  all : AllInfo S
  logged : ∀ id x, S.info id = some x → S.logged x.entry
  tok : ∀ id t U b, S.tok id ≠ .owned t U b
  due : ∀ d : Duty, ¬ d.Due C S.toSt
  def_ : ∀ T, S.tabFreed T = true → ∀ e ∈ S.deferred T, S.freed e.id = true

theorem Reach.restG (h : Reach C ps) (hr : AtRest ps) : ∃ S : GSt K V, S.toSt = ps.mem ∧ RestG C S := by
  have hd := AtRest.nothing_due h hr
  have hdf := deferred_freed h
  obtain ⟨S, g, ⟨g1, g2, g3, g4, g5, g6⟩, hf, _⟩ := h.pinv 1
  rw [← g1] at hd hdf
  have hend : ∀ o c, HEv.inv o c ∈ ps.hist → Ended ps.hist o := by
    intro o c hc
    have i1 := g6.i1 o c hc
    exact g6.old o i1.1 i1.2.1 (fun _ => hr.threads o.1)
  refine ⟨S, g1, g2, hf, ?_, ?_, hd, hdf⟩
  · intro id y hy
    by_contra h1
    have h2 := g6.unl _ _ hy h1
    have h3 := (g2.e.e5 _ _ hy).1
    by_cases h0 : 0 < y.op.2
    · obtain ⟨c, hc⟩ := g6.i2 _ h0 h3
      exact h2 (hend _ _ hc)
    · obtain ⟨T, i, _, _, _, _, _, h4⟩ := g2.l.u1 _ _ hy h1
      have : y.op = (y.op.1, 0) := Prod.ext rfl (by simp; omega)
      rw [this] at h4
      exact g6.i0 _ _ _ _ h4
  · intro id t U b htok
    have h7 := g4 t
    rcases hr.threads t with h1 | h1
    · rw [h1] at h7; exact h7.1 _ _ _ htok
    · rw [h1] at h7; exact h7.2.1 _ _ _ htok

namespace RestG

variable {S : GSt K V}

theorem ab (h : RestG C S) {T : Nat} (hT : T < S.nTabs) (hr : S.rt ≤ T) : ¬ S.aborted T := by
  by_cases hi : C.inc = true
  · exact h.inv.s.incab hi T
  · have h0 := root_eq h.inv.s hT
    have h1 := h.due (.stay S.rt)
    have : T = S.rt := by
      by_contra hn
      exact h1 ⟨by simpa using hi, h0, by show S.rt + 1 < S.nTabs; omega⟩
    rw [this]
    exact (h.inv.s.some _ h0).2

theorem inc_of (h : RestG C S) {T : Nat} (hT : T < S.nTabs) (hr : S.rt < T) : C.inc = true := by
  by_contra hi
  exact h.due (.stay S.rt) ⟨by simpa using hi, root_eq h.inv.s hT, by show S.rt + 1 < S.nTabs; omega⟩

theorem md_rt (h : RestG C S) {j : Nat} {e : Entry K V} (hk : S.kslot S.rt j e) : S.md S.rt j ≠ EMPTY := by
  intro hm
  have hT := kslot_lt h.inv.s hk
  have h1 := h.inv.l.u2 _ _ _ hk hm (Nat.le_refl _) (h.ab hT (Nat.le_refl _)) (fun h2 => absurd h2.1 (Nat.lt_irrefl _))
  obtain ⟨x, hx, hx'⟩ := h.inv.p.p3 _ _ _ hk
  exact h1.1 (hx' ▸ h.logged _ _ hx)

theorem copied (h : RestG C S) (hi : C.inc = true) {T j : Nat} {e : Entry K V} (hk : S.kslot T j e) (hc : S.copying T j) :
    S.copiedF T j := by
  have h1 := h.due (.store T j)
  by_contra hn
  exact h1 ⟨hi, hc, (by rw [show (S.slot T j).ptr = some e from hk]; simp), by simpa [copiedF] using hn⟩

/-- At rest, the slots whose entries `drop` frees are the current locations of entries. -/
theorem vis_iff (h : RestG C S) {T i : Nat} {e : Entry K V} :
    S.vis T i e ↔ S.rt ≤ T ∧ S.kslot T i e ∧ ¬ S.copying T i := by
  constructor
  · rintro ⟨h1, h2, h3, h4, h5⟩
    refine ⟨h1, h3, fun hc => h5 ?_⟩
    obtain ⟨⟨p1, p2, _⟩, p3⟩ := h.inv.p.p5 _ _ hc
    have hT : T = S.rt := by omega
    subst hT
    exact ⟨h.copied (h.inc_of p3 (Nat.lt_succ_self _)) h3 hc, h.md_rt h3⟩
  · rintro ⟨h1, h2, h3⟩
    have hT := kslot_lt h.inv.s h2
    refine ⟨h1, h.ab hT h1, h2, ?_, fun hm => h3 (h.inv.p.p7 _ _ _ h2 hm.1).2⟩
    rintro ⟨h4, j, h5, h6⟩
    apply h6
    have hi := h.inc_of hT h4
    rcases h.inv.p.f1 _ _ _ h2 h4 with ⟨j', h7, h8, _⟩ | ⟨_, h7⟩
    · have := kslot_unique h.inv.p h5 h7 rfl
      subst this
      exact ⟨h.copied hi h5 h8, h.md_rt h5⟩
    · exact passed_kslot h.inv.p h7 h5 rfl

theorem vis_md (h : RestG C S) {T i : Nat} {e : Entry K V} (hv : S.vis T i e) : S.md T i ≠ EMPTY := by
  intro hm
  have h1 := h.inv.l.u2 _ _ _ hv.2.2.1 hm hv.1 hv.2.1 hv.2.2.2.1
  obtain ⟨x, hx, hx'⟩ := h.inv.p.p3 _ _ _ hv.2.2.1
  exact h1.1 (hx' ▸ h.logged _ _ hx)

theorem tok_live (h : RestG C S) {id : Nat} {x : EInfo K V} (hx : S.info id = some x) :
    S.tok id = .live ↔ ∃ T i, S.vis T i x.entry := by
  rw [h.inv.m.m8 _ _ hx]
  constructor
  · rintro (h1 | h1)
    · exact absurd (h.logged _ _ hx) h1
    · obtain ⟨T, i, h2, _⟩ := (h.inv.l.a _ _).1 h1
      exact ⟨T, i, h2⟩
  · rintro ⟨T, i, h1⟩
    exact .inr ((h.inv.l.a _ _).2 ⟨T, i, h1, h.vis_md h1, rfl⟩)

/-- The tables visited by `drop`. -/
def tabs (S : GSt K V) : List Nat := match S.root with
  | none => []
  | some r => List.range' r (S.nTabs - r)

theorem mem_tabs (h : RestG C S) {T : Nat} : T ∈ tabs S ↔ S.rt ≤ T ∧ T < S.nTabs := by
  unfold tabs
  split
  · rename_i h0
    have := (h.inv.s.none h0).1
    simp [this]
  · rename_i r h0
    have h1 := (h.inv.s.some r h0).1
    have h2 : S.rt = r := by simp [rt, h0]
    rw [List.mem_range'_1, h2]
    omega

theorem tabs_nodup (S : GSt K V) : (tabs S).Nodup := by
  unfold tabs
  split
  · exact List.nodup_nil
  · exact List.nodup_range'

theorem walk_range (h : RestG C S) : ∀ n r, r + n = S.nTabs → 0 < n → S.toSt.Walk (some r) (List.range' r n)
  | 0, r, _, h0 => absurd h0 (Nat.lt_irrefl _)
  | n + 1, r, h1, _ => by
    rw [List.range'_succ]
    refine .cons ?_
    have h2 := h.inv.s.next r (by omega)
    show S.toSt.Walk (S.next r) _
    rw [h2]
    split
    · exact walk_range h n (r + 1) (by omega) (by omega)
    · have : n = 0 := by omega
      subst this
      exact .nil

theorem walk (h : RestG C S) : S.toSt.Walk S.root (tabs S) := by
  unfold tabs
  cases h0 : S.root with
  | none => exact .nil
  | some r =>
    have h1 := (h.inv.s.some r h0).1
    exact h.walk_range _ _ (by omega) (by omega)

end RestG

theorem walk_unique {σ : St K V} {o : Option Nat} {l l' : List Nat} (h : σ.Walk o l) (h' : σ.Walk o l') : l' = l := by
  induction h generalizing l' with
  | nil => cases h'; rfl
  | cons _ ih => cases h' with | cons h2 => rw [ih h2]

namespace RestG

variable {S : GSt K V}

theorem mem_dropEntries (h : RestG C S) {T x : Nat} :
    x ∈ S.toSt.dropEntries T ↔ ∃ i e, S.kslot T i e ∧ ¬ S.copying T i ∧ e.id = x := by
  unfold St.dropEntries
  rw [List.mem_filterMap]
  constructor
  · rintro ⟨i, _, h1⟩
    cases hp : (S.slot T i).ptr with
    | none => rw [hp] at h1; cases h1
    | some e =>
      rw [hp] at h1
      simp only at h1
      split at h1
      · cases h1
      · rename_i hc
        exact ⟨i, e, hp, hc, Option.some.inj h1⟩
  · rintro ⟨i, e, h1, h2, h3⟩
    refine ⟨i, List.mem_range.2 (kslot_idx h.inv.s h.inv.p h1), ?_⟩
    rw [show (S.slot T i).ptr = some e from h1]
    simp only
    rw [if_neg (show ¬ (S.slot T i).copying = true from h2), h3]

theorem id_inj (h : RestG C S) {T i T' i' : Nat} {e e' : Entry K V} (h1 : S.kslot T i e) (h2 : S.kslot T' i' e')
    (h3 : e.id = e'.id) : e = e' := by
  obtain ⟨x, hx, hx'⟩ := h.inv.p.p3 _ _ _ h1
  obtain ⟨y, hy, hy'⟩ := h.inv.p.p3 _ _ _ h2
  rw [h3, hy] at hx
  rw [← hx', ← hy', Option.some.inj hx]

theorem dropEntries_nodup (h : RestG C S) (T : Nat) : (S.toSt.dropEntries T).Nodup := by
  unfold St.dropEntries
  refine List.Nodup.filterMap ?_ List.nodup_range
  intro i j x h1 h2
  have key : ∀ i, x ∈ (match (S.slot T i).ptr with
      | none => none
      | some e => if (S.slot T i).copying = true then none else some e.id) → ∃ e, S.kslot T i e ∧ e.id = x := by
    intro i h1
    cases hp : (S.slot T i).ptr with
    | none => rw [hp] at h1; cases h1
    | some e =>
      rw [hp] at h1
      simp only at h1
      split at h1
      · cases h1
      · exact ⟨e, hp, Option.some.inj h1⟩
  obtain ⟨e, h3, h4⟩ := key i h1
  obtain ⟨e', h5, h6⟩ := key j h2
  have := h.id_inj h3 h5 (h4.trans h6.symm)
  subst this
  exact kslot_unique h.inv.p h3 h5 rfl

theorem mem_drain (h : RestG C S) {P x : Nat} : x ∈ S.toSt.drain P ↔ S.tok x = .deferred P := by
  unfold St.drain
  rw [h.inv.m.m7, List.mem_map]

theorem mem_reclaimTables (h : RestG C S) {T : Nat} :
    T ∈ S.toSt.reclaimTables ↔ T < S.rt ∧ S.tabRetired T = true ∧ S.tabFreed T = false := by
  unfold St.reclaimTables
  rw [List.mem_filter, List.mem_range]
  simp only [Bool.and_eq_true, Bool.not_eq_true']
  constructor
  · rintro ⟨h1, h2, h3⟩
    exact ⟨(h.inv.m.m4 T 0 h2).1, h2, h3⟩
  · rintro ⟨h1, h2, h3⟩
    refine ⟨?_, h2, h3⟩
    by_contra hn
    have := (h.inv.s.out T (by show S.nTabs ≤ T; omega)).2.2.2.2.2.2.2.2.1
    rw [this] at h2; cases h2

theorem live_mem (h : RestG C S) {T x : Nat} (hT : T ∈ tabs S) (hx : x ∈ S.toSt.dropEntries T) :
    S.tok x = .live ∧ x < S.nIds ∧ ∃ i e, S.vis T i e ∧ e.id = x := by
  obtain ⟨i, e, h1, h2, rfl⟩ := h.mem_dropEntries.1 hx
  obtain ⟨y, hy, hy'⟩ := h.inv.p.p3 _ _ _ h1
  have hv := h.vis_iff.2 ⟨(h.mem_tabs.1 hT).1, h1, h2⟩
  exact ⟨(h.tok_live hy).2 ⟨T, i, hy' ▸ hv⟩, (h.inv.e.e0 _ _ hy).2, i, e, hv, rfl⟩

theorem freed_live (h : RestG C S) {x : Nat} (hx : S.tok x = .live) : S.freed x = false := by
  by_contra hn
  rcases h.inv.m.m5 x (by simpa using hn) with ⟨h1, _⟩ | ⟨P, h1, _⟩
  · obtain ⟨U, h2⟩ := (h.inv.m.m2 x).1 h1
    rw [hx] at h2; cases h2
  · rw [hx] at h1; cases h1

theorem freed_deferred (h : RestG C S) {x P : Nat} (hx : S.tok x = .deferred P) :
    S.freed x = true ↔ S.tabFreed P = true := by
  constructor
  · intro hf
    rcases h.inv.m.m5 x hf with ⟨h1, _⟩ | ⟨P', h1, h2⟩
    · obtain ⟨U, h2⟩ := (h.inv.m.m2 x).1 h1
      rw [hx] at h2; cases h2
    · rw [hx] at h1; cases h1; exact h2
  · intro hf
    obtain ⟨e, h1, h2⟩ := (h.inv.m.m7 x P).1 hx
    rw [← h2]
    exact h.def_ P hf e h1

theorem deferred_lt (h : RestG C S) {x P : Nat} (hx : S.tok x = .deferred P) : x < S.nIds ∧ P < S.nTabs := by
  constructor
  · cases hi : S.info x with
    | none => rw [h.inv.m.m9 x hi] at hx; cases hx
    | some y => exact (h.inv.e.e0 _ _ hi).2
  · by_contra hn
    have := (h.inv.s.out P (by show S.nTabs ≤ P; omega)).2.2.2.2.2.2.2.1
    obtain ⟨e, h1, _⟩ := (h.inv.m.m7 x P).1 hx
    rw [this] at h1; cases h1

theorem mem_reclaim1 (h : RestG C S) {x : Nat} :
    x ∈ (List.range S.nIds).filter (fun x => S.retired x && !S.freed x) ↔
      x < S.nIds ∧ (∃ U, S.tok x = .retired U) ∧ S.freed x = false := by
  rw [List.mem_filter, List.mem_range, Bool.and_eq_true, Bool.not_eq_true', h.inv.m.m2]

/-- Exactly the entries not yet freed are freed by `drop`. -/
theorem mem_frees (h : RestG C S) {x : Nat} :
    x ∈ S.toSt.dropFrees (tabs S) ↔ x < S.nIds ∧ S.freed x = false := by
  unfold St.dropFrees St.reclaimEntries
  rw [List.mem_append, List.mem_append, List.mem_flatMap, List.mem_flatMap, h.mem_reclaim1]
  constructor
  · rintro ((⟨h1, _, h2⟩ | ⟨P, h1, h2⟩) | ⟨T, h1, h2⟩)
    · exact ⟨h1, h2⟩
    · have h3 := h.mem_drain.1 h2
      refine ⟨(h.deferred_lt h3).1, ?_⟩
      cases hf : S.freed x with
      | false => rfl
      | true => rw [h.freed_deferred h3, (h.mem_reclaimTables.1 h1).2.2] at hf; cases hf
    · rcases List.mem_append.1 h2 with h2 | h2
      · obtain ⟨h3, h4, _⟩ := h.live_mem h1 h2
        exact ⟨h4, h.freed_live h3⟩
      · have h3 := h.mem_drain.1 h2
        refine ⟨(h.deferred_lt h3).1, ?_⟩
        cases hf : S.freed x with
        | false => rfl
        | true =>
          rw [h.freed_deferred h3] at hf
          have h4 := (h.inv.m.m4 T 0 (h.inv.m.m6 T hf).1).1
          have h5 := (h.mem_tabs.1 h1).1
          omega
  · rintro ⟨h1, h2⟩
    cases ht : S.tok x with
    | owned t U b => exact absurd ht (h.tok _ _ _ _)
    | retired U => exact .inl (.inl ⟨h1, ⟨U, rfl⟩, h2⟩)
    | deferred P =>
      obtain ⟨_, h3⟩ := h.deferred_lt ht
      by_cases hP : P < S.rt
      · refine .inl (.inr ⟨P, h.mem_reclaimTables.2 ⟨hP, ?_, ?_⟩, h.mem_drain.2 ht⟩)
        · have hd := h.due (.retire P)
          by_contra hn
          exact hd ⟨hP, h.inv.s.incab (h.inv.m.m10 _ _ ht) P, by simpa using hn⟩
        · cases hf : S.tabFreed P with
          | false => rfl
          | true => rw [(h.freed_deferred ht).2 hf] at h2; cases h2
      · exact .inr ⟨P, h.mem_tabs.2 ⟨by omega, h3⟩, List.mem_append.2 (.inr (h.mem_drain.2 ht))⟩
    | live =>
      cases hi : S.info x with
      | none => exact absurd hi (h.all x h1)
      | some y =>
        obtain ⟨T, i, hv⟩ := (h.tok_live hi).1 ht
        obtain ⟨v1, v2, v3⟩ := h.vis_iff.1 hv
        exact .inr ⟨T, h.mem_tabs.2 ⟨v1, kslot_lt h.inv.s v2⟩, List.mem_append.2 (.inl (h.mem_dropEntries.2
          ⟨i, _, v2, v3, (h.inv.e.e0 _ _ hi).1⟩))⟩

theorem drain_nodup (h : RestG C S) (P : Nat) : (S.toSt.drain P).Nodup := h.inv.m.m7' P

theorem reclaimTables_nodup (S : GSt K V) : S.toSt.reclaimTables.Nodup := List.nodup_range.filter _

/-- Nothing is freed twice. -/
theorem nodup_frees (h : RestG C S) : (S.toSt.dropFrees (tabs S)).Nodup := by
  unfold St.dropFrees St.reclaimEntries
  refine List.nodup_append'.2 ⟨List.nodup_append'.2 ⟨List.nodup_range.filter _, ?_, ?_⟩, ?_, ?_⟩
  · refine List.nodup_flatMap.2 ⟨fun P _ => h.drain_nodup P, (reclaimTables_nodup S).imp ?_⟩
    intro P P' hne x h1 h2
    have h1 := h.mem_drain.1 h1
    have h2 := h.mem_drain.1 h2
    rw [h1] at h2; cases h2; exact hne rfl
  · intro x h1 h2
    obtain ⟨P, _, h2⟩ := List.mem_flatMap.1 h2
    obtain ⟨_, ⟨U, h1⟩, _⟩ := h.mem_reclaim1.1 h1
    rw [h.mem_drain.1 h2] at h1; cases h1
  · refine List.nodup_flatMap.2 ⟨fun T hT => List.nodup_append'.2 ⟨h.dropEntries_nodup T, h.drain_nodup T, ?_⟩, ?_⟩
    · intro x h1 h2
      have h1 := (h.live_mem hT h1).1
      rw [h.mem_drain.1 h2] at h1; cases h1
    · refine (tabs_nodup S).imp_of_mem ?_
      intro T T' hT hT' hne x h1 h2
      rcases List.mem_append.1 h1 with h1 | h1 <;> rcases List.mem_append.1 h2 with h2 | h2
      · obtain ⟨_, _, i, e, h3, h4⟩ := h.live_mem hT h1
        obtain ⟨_, _, i', e', h5, h6⟩ := h.live_mem hT' h2
        have := h.id_inj h3.2.2.1 h5.2.2.1 (h4.trans h6.symm)
        subst this
        exact hne (vis_unique h.inv.s h.inv.p h3 h5 rfl).1
      · have h1 := (h.live_mem hT h1).1
        rw [h.mem_drain.1 h2] at h1; cases h1
      · have h2 := (h.live_mem hT' h2).1
        rw [h.mem_drain.1 h1] at h2; cases h2
      · have h1 := h.mem_drain.1 h1
        rw [h.mem_drain.1 h2] at h1; cases h1; exact hne rfl
  · intro x h1 h2
    obtain ⟨T, hT, h2⟩ := List.mem_flatMap.1 h2
    obtain ⟨hT1, hT2⟩ := h.mem_tabs.1 hT
    rcases List.mem_append.1 h1 with h1 | h1
    · obtain ⟨_, ⟨U, h1⟩, _⟩ := h.mem_reclaim1.1 h1
      rcases List.mem_append.1 h2 with h2 | h2
      · rw [(h.live_mem hT h2).1] at h1; cases h1
      · rw [h.mem_drain.1 h2] at h1; cases h1
    · obtain ⟨P, hP, h1⟩ := List.mem_flatMap.1 h1
      have h1 := h.mem_drain.1 h1
      rcases List.mem_append.1 h2 with h2 | h2
      · rw [(h.live_mem hT h2).1] at h1; cases h1
      · rw [h.mem_drain.1 h2] at h1; cases h1
        have := (h.mem_reclaimTables.1 hP).1
        omega

end RestG

/-- **C23** Dropping the map, no operation running, frees exactly the entries not freed yet, each of them once, and only
touches live tables; the loop over the tables terminates. -/
theorem C23_drop_entries (h : Reach C ps) (hr : AtRest ps) : ∃ l, ps.mem.Walk ps.mem.root l ∧
    (∀ l', ps.mem.Walk ps.mem.root l' → l' = l) ∧ (∀ T ∈ l, ps.mem.TableAlive T) ∧
    (ps.mem.dropFrees l).Nodup ∧ ∀ x, x ∈ ps.mem.dropFrees l ↔ x < ps.mem.nIds ∧ ps.mem.freed x = false := by
  obtain ⟨S, g1, g⟩ := h.restG hr
  rw [← g1]
  refine ⟨RestG.tabs S, g.walk, fun l' h1 => walk_unique g.walk h1, ?_, g.nodup_frees, fun x => g.mem_frees⟩
  intro T hT
  obtain ⟨h1, h2⟩ := g.mem_tabs.1 hT
  refine ⟨h2, ?_⟩
  show S.tabFreed T = false
  cases hf : S.tabFreed T with
  | false => rfl
  | true => have := (g.inv.m.m4 T 0 (g.inv.m.m6 T hf).1).1; omega

/-- **C23** Dropping the map, no operation running, frees exactly the tables not freed yet, each of them once — except
tables abandoned by a blocking resize (they are never retired: see `aborted_leak`). -/
theorem C23_drop_tables (h : Reach C ps) (hr : AtRest ps) {l : List Nat} (hl : ps.mem.Walk ps.mem.root l) :
    (ps.mem.dropTables l).Nodup ∧ ∀ T, T ∈ ps.mem.dropTables l ↔
      T < ps.mem.nTabs ∧ ps.mem.tabFreed T = false ∧ ps.mem.status T ≠ .aborted := by
  have hra := retired_root h
  obtain ⟨S, g1, g⟩ := h.restG hr
  rw [← g1] at hl hra ⊢
  have := walk_unique g.walk hl
  subst this
  unfold St.dropTables
  constructor
  · refine List.nodup_append'.2 ⟨RestG.reclaimTables_nodup S, RestG.tabs_nodup S, ?_⟩
    intro T h1 h2
    have := (g.mem_reclaimTables.1 h1).1
    have := (g.mem_tabs.1 h2).1
    omega
  · intro T
    rw [List.mem_append, g.mem_reclaimTables, g.mem_tabs]
    constructor
    · rintro (⟨h1, h2, h3⟩ | ⟨h1, h2⟩)
      · refine ⟨?_, h3, hra T h2⟩
        by_contra hn
        have := (g.inv.s.out T (Nat.le_of_not_lt hn)).2.2.2.2.2.2.2.2.1
        rw [h2] at this; cases this
      · refine ⟨h2, ?_, g.ab h2 h1⟩
        cases hf : S.tabFreed T with
        | false => rfl
        | true => have := (g.inv.m.m4 T 0 (g.inv.m.m6 T hf).1).1; omega
    · rintro ⟨h1, h2, h3⟩
      by_cases hT : T < S.rt
      · refine .inl ⟨hT, ?_, h2⟩
        have hd := g.due (.retire T)
        by_contra hn
        exact hd ⟨hT, h3, by simpa using hn⟩
      · exact .inr ⟨by omega, h1⟩

theorem exec_pinned {β : Type} {a : Act K V β} {σ σ' : St K V} {r : β} (he : Exec C t a σ r σ') : σ'.pinned = σ.pinned := by
  cases a with
  | casRootInit cap =>
    simp only [Exec] at he
    split at he
    · rw [he.1]; rfl
    · rw [he.1]
  | storeNext P cap => rw [he.1]; rfl
  | tryLock T => rcases he with ⟨_, _, h5⟩ | ⟨_, _, h5⟩ <;> rw [h5]
  | lockWait T => rcases he with ⟨_, _, h5⟩ | ⟨_, _, h5⟩ <;> rw [h5]
  | cas w T i e n => rcases he with ⟨_, _, h5⟩ | ⟨_, _, h5⟩ <;> (rw [h5]; try rfl)
  | casNew w T i e k v => rcases he with ⟨_, _, h5⟩ | ⟨_, _, h5⟩ <;> (rw [h5]; try rfl)
  | casRoot T N => rcases he with ⟨_, _, h5⟩ | ⟨_, _, h5⟩ <;> rw [h5]
  | unlock T => rw [show σ' = _ from he]
  | poison T => rw [show σ' = _ from he]
  | storeMd T i m => rw [show σ' = _ from he]; rfl
  | storeSlot T i s => rw [show σ' = _ from he]; rfl
  | storeStatus T s => rw [show σ' = _ from he]
  | deref e => rw [show σ' = _ from he]
  | retire e => rw [show σ' = _ from he]; rfl
  | retireTable P => rw [show σ' = _ from he]
  | pushDeferred P e' => rw [show σ' = _ from he]
  | addCount d => rw [show σ' = _ from he]
  | _ => rw [he.2]; try rfl

theorem setTh_out {th : Tid → Th K V} {t u : Tid} {x : Th K V} {p : Tid → Bool}
    (h : ∀ u, p u = false → th u = .out ∨ th u = .gone)
    (ht : th t ≠ .out ∧ th t ≠ .gone) (hp : p u = false) : setTh th t x u = .out ∨ setTh th t x u = .gone := by
  unfold setTh
  split
  · rename_i hu; subst hu; exact absurd (h u hp) (not_or.2 ht)
  · exact h u hp

/-- A guard that is not active is running nothing. -/
theorem unpinned_out (h : Reach C ps) : ∀ u, ps.mem.pinned u = false → ps.th u = .out ∨ ps.th u = .gone := by
  induction h with
  | init h => intro u _; rw [h.2.1]; exact .inl rfl
  | step hr hs ih =>
    cases hs with
    | pin t h =>
      intro u hu
      have hu : (if u = t then true else _) = false := hu
      split at hu
      · cases hu
      · rename_i hn
        show setTh _ t _ u = _ ∨ setTh _ t _ u = _
        unfold setTh
        rw [if_neg hn]; exact ih u hu
    | unpin t h =>
      intro u hu
      have hu : (if u = t then false else _) = false := hu
      show setTh _ t _ u = _ ∨ setTh _ t _ u = _
      unfold setTh
      split
      · exact .inl rfl
      · rename_i hn
        rw [if_neg hn] at hu; exact ih u hu
    | release t h =>
      intro u hu
      have hu : (if u = t then false else _) = false := hu
      split at hu
      · rename_i hn; rw [hn]; exact .inr h
      · exact ih u hu
    | act t h he => intro u hu; rw [exec_pinned he] at hu; exact setTh_out ih (by rw [h]; simp) hu
    | abandon t h => intro u hu; exact setTh_out ih (by rw [h]; simp) hu
    | inv t c h hw => intro u hu; exact setTh_out ih (by rw [h]; simp) hu
    | loop t h => intro u hu; exact setTh_out ih (by rw [h]; simp) hu
    | ret t h => intro u hu; exact setTh_out ih (by rw [h]; simp) hu
    | panic t h => intro u hu; exact setTh_out ih (by rw [h]; simp) hu
    | _ => exact ih

/-- Test for `AtRest`. -/
def restB (ps : PSt K V) : Bool :=
  ((List.range tidBound).all fun t => match ps.th t with | .out => true | .idle => true | _ => false) &&
  ps.hist.all fun ev => match ev with | .panic _ _ _ => false | .inv o _ => decide (o.1 < tidBound) | _ => true

theorem restB_iff [DecidableEq V] {l : List (Cmd K V)} (h : runMap C l = some ps) (hr : restB ps = true) : AtRest ps := by
  simp only [restB, Bool.and_eq_true, List.all_eq_true, List.mem_range] at hr
  refine ⟨fun t => ?_, fun o c w hm => by simpa using hr.2 _ hm⟩
  rcases Nat.lt_or_ge t tidBound with ht | ht
  · have := hr.1 t ht
    split at this
    · exact .inl ‹_›
    · exact .inr ‹_›
    · cases this
  · obtain ⟨h1, h2⟩ := runMap_ok h
    refine (unpinned_out h1 t (h2 t ht).1).imp id fun hg => ?_
    obtain ⟨S, g, ⟨_, _, _, _, _, g6⟩, _⟩ := h1.pinv 1
    obtain ⟨⟨c, hc⟩, _⟩ := g6.pend t (by rw [hg]; simp) (by rw [hg]; simp)
    have h3 : decide (t < tidBound) = true := hr.2 _ hc
    exact absurd (of_decide_eq_true h3) (Nat.not_lt.2 ht)

/-- Guard 0 fills the table of 8 slots, overwrites keys, and triggers an incremental resize that stays unfinished: it
copies some slots, and removes keys afterwards. -/
def restCmds : List (Cmd Nat Nat) :=
  fill 8 ++ [.call 0 (.insert 3 0), .fin 0 5000, .unpin 0, .unpin 1, .freeEntry 3, .pin 0, .call 0 (.insert 8 80), .fin 0 5000,
    .call 0 (.remove 0), .fin 0 5000, .call 0 (.remove 8), .fin 0 5000]

-- at rest in the middle of an incremental resize: one entry freed, others retired or deferred, two tables
example : ∃ ps : PSt Nat Nat, Reach cfgI ps ∧ AtRest ps ∧ ps.mem.root = some 0 ∧ ps.mem.next 0 = some 1 ∧
    ps.mem.freed 3 = true ∧ (∃ e, e ∈ ps.mem.deferred 0) ∧ (ps.mem.slot 0 0).copying = true ∧ (∃ x, ps.mem.retired x = true ∧ ps.mem.freed x = false) := by
  obtain ⟨ps, h0, h1, h2⟩ := demo_run (C := cfgI) (l := restCmds)
    (P := fun ps => restB ps && (ps.mem.root == some 0 && (ps.mem.next 0 == some 1 && (ps.mem.freed 3 && (!(ps.mem.deferred 0).isEmpty &&
      ((ps.mem.slot 0 0).copying && ((List.range 20).any fun x => ps.mem.retired x && !ps.mem.freed x))))))) (by decide +kernel)
  simp only [Bool.and_eq_true, beq_iff_eq] at h2
  obtain ⟨a1, a2, a3, a4, a5, a6, a7⟩ := h2
  refine ⟨ps, h1, restB_iff h0 a1, a2, a3, a4, ?_, a6, ?_⟩
  · cases hd : ps.mem.deferred 0 with
    | nil => rw [hd] at a5; cases a5
    | cons e l => exact ⟨e, List.mem_cons_self⟩
  · obtain ⟨x, _, hx⟩ := List.any_eq_true.1 a7
    rw [Bool.and_eq_true, Bool.not_eq_true'] at hx
    exact ⟨x, hx⟩

/-- A table abandoned by a blocking resize is not freed when the map is dropped: nothing is running, the table is
allocated, it has been neither freed nor handed to the collector, and `drop` does not reach it. (The allocation leaks;
its entries do not, see `C23_drop_entries`.) -/
theorem aborted_leak : ∃ (C : Cfg Nat) (ps : PSt Nat Nat), Reach C ps ∧ AtRest ps ∧
    ∃ T, T < ps.mem.nTabs ∧ ps.mem.tabFreed T = false ∧ ps.mem.tabRetired T = false ∧
      ∀ l, ps.mem.Walk ps.mem.root l → T ∉ ps.mem.dropTables l := by
  obtain ⟨ps, h0, h1, h2⟩ := demo_run (C := cfgA) (l := abortCmds ++ [.fin 0 5000])
    (P := fun ps => restB ps && (ps.mem.status 1 == .aborted && (ps.mem.nTabs == 3 && (!ps.mem.tabFreed 1 && !ps.mem.tabRetired 1))))
    (by decide +kernel)
  simp only [Bool.and_eq_true, beq_iff_eq, Bool.not_eq_true'] at h2
  obtain ⟨a1, a2, a3, a4, a5⟩ := h2
  have hr := restB_iff h0 a1
  refine ⟨cfgA, ps, h1, hr, 1, by omega, a4, a5, fun l hl hm => ?_⟩
  exact (((C23_drop_tables h1 hr hl).2 1).1 hm).2.2 a2

end Papaya
