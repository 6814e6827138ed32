import Verif.Proof.TriCopy

/-! # Triples of helping to resize -/

set_option linter.unusedSectionVars false
set_option linter.unusedVariables false

namespace Papaya

variable {K V : Type} [DecidableEq K]

open GSt

variable {C : Cfg K} {t : Tid} {Ap : PanicReason → GSt K V → Prop}

/-- `T` is a table thread `t` may access, which was the root at some instant of the current operation or later. -/
def RootAcc (t : Tid) (T : Table) (S : GSt K V) : Prop := Acc t T S ∧ S.wasRoot T.id ∧ S.rInv t ≤ T.id

instance {T : Table} : Inert (V := V) C t (RootAcc t T) := by unfold RootAcc; infer_instance

def Pinned (t : Tid) (S : GSt K V) : Prop := S.pinned t = true

instance : Inert (V := V) C t (Pinned (K := K) t) := ⟨fun S S' h1 h2 h3 h4 h => by
  unfold Pinned; rw [h4.pinned]; exact h⟩

theorem tri_loadRoot {P : GSt K V → Prop} {Gd : GSt K V → GSt K V → Prop} (hg : ∀ S, Gd S S)
    [Stable (rg K V C) t P] (hP : ∀ S, S.Inv C → P S → Pinned t S)
    (Q : Option Table → GSt K V → Prop)
    (h1 : ∀ S T, S.Inv C → P S → RootAcc t T S → T.id = S.rt → Q (some T) S)
    (h2 : ∀ S, S.Inv C → P S → S.root = none → Q none S) :
    Tri C t Ap Gd P A.loadRoot Q := by
  refine Tri.load _ hg (fun _ _ _ => trivial) (fun _ _ _ h => h.2) ?_
  intro S r h hp he
  have he1 := he.1
  cases hr : S.root with
  | none =>
    rw [hr] at he1
    rw [he1]
    exact h2 S h hp hr
  | some T =>
    rw [hr] at he1
    rw [he1]
    have hrt : S.rt = T := by unfold rt; rw [hr]; rfl
    have hlt := (h.s.some T hr).1
    have hd := h.l.d3 t
    refine h1 S (S.handle T) h hp ⟨⟨hP S h hp, hlt, rfl, ?_⟩, ?_, ?_⟩ hrt.symm
    · show S.pr t ≤ T; omega
    · show S.wasRoot T; rw [← hrt]; exact wasRoot_rt h.s hlt
    · show S.rInv t ≤ T; omega

/-- Framing in general. -/
theorem Tri.frameG {α : Type} {Gd : GSt K V → GSt K V → Prop} {P : GSt K V → Prop} {Q : α → GSt K V → Prop} {p : Prog K V α}
    {F : GSt K V → Prop} (h : Tri C t Ap Gd P p Q) (hF : ∀ S S', S.Inv C → S'.Inv C → Gd S S' → F S → F S')
    [hst : Stable (rg K V C) t F] : Tri C t Ap Gd (fun S => P S ∧ F S) p (fun x S => Q x S ∧ F S) :=
  Hoare.frame (L := rg K V C) h hF

/-! ## Copying one slot -/

/-- Slot `(T, j)` is frozen, with the pointer and tag of `s`. -/
def FrozenAs (T j : Nat) (s : Slot K V) (S : GSt K V) : Prop :=
  (S.slot T j).ptr = s.ptr ∧ S.copying T j ∧ (S.slot T j).borrowed = s.borrowed

instance {T j : Nat} {s : Slot K V} : Inert C t (FrozenAs T j s) :=
  Inert.mono fun S S' h1 h2 h3 h => by
    have := h3.frozen T j h.2.1
    exact ⟨this.1.trans h.1, this.2.1, this.2.2.trans h.2.2⟩

theorem FrozenAs.nulled {S : GSt K V} {T j : Nat} {s : Slot K V} (h : FrozenAs T j s S) (hs : s.ptr = none) :
    S.Nulled T j := by
  refine ⟨?_, h.1.trans hs⟩
  intro hn
  have := h.2.1
  unfold copying at this
  rw [hn] at this; cases this

theorem doneCopy_mono {S S' : GSt K V} {s N j : Nat} (h : S.Inv C) (hpr : S.CopyPair s N) (he : Evo S S')
    (hcs : S'.cs N j = S.cs N j) (hd : S.DoneCopy C t s N j) : S'.DoneCopy C t s N j := by
  rcases hd with ⟨T, i, h1, h2, h3⟩ | ⟨h1, h2, h3⟩
  · refine .inl ⟨T, i, hcs.trans h1, he.md _ _ h2, fun hi => ?_⟩
    obtain ⟨e, hk, _⟩ := h.c.c4 s N j T i (by unfold loc; rw [h1]; rfl) hpr
    exact he.copied _ _ _ hk (h3 hi)
  · have := he.frozen _ _ h3
    exact .inr ⟨hcs.trans h1, this.1.trans h2, this.2.1⟩

theorem Mj.done {S S' : GSt K V} {s N j j' : Nat} (h : S.Inv C) (hpr : S.CopyPair s N) (hm : Mj t N j S S')
    (hne : j' ≠ j) (hd : S.DoneCopy C t s N j') : S'.DoneCopy C t s N j' :=
  doneCopy_mono h hpr hm.1 (hm.2.2.1 _ _ (fun hh => hne hh.2) (GSt.DoneCopy.owner hd)) hd

theorem markSt_Own0 {S : GSt K V} {s N j : Nat} : Own0 t S (S.markSt t s N j) :=
  Own0.quiet rfl rfl rfl rfl rfl rfl rfl rfl rfl rfl

theorem tri_mark {T N : Table} {j : Nat} (hj : j < T.len) :
    Tri (V := V) C t Ap (Mj t N.id j)
      (fun S => (Acc t T S ∧ Acc t N S ∧ S.CopyPair T.id N.id) ∧ Claimed t N.id j S) (A.fetchOrCopying T.id j)
      (fun s S => (Acc t T S ∧ Acc t N S ∧ S.CopyPair T.id N.id) ∧ Marked t N.id j S ∧ FrozenAs T.id j s S ∧
        (∀ e, s.ptr = some e → S.Prot t e ∧ (C.inc = true → s.copying = false ∧ s.copied = false))) := by
  refine Tri.act (fun S h hp => hp.1.1.idx_len h hj) ?_
  intro S r σ'' h hp he
  obtain ⟨⟨ha, haN, hpr⟩, hcl⟩ := hp
  obtain ⟨rfl, rfl⟩ := he
  have hj' := (ha.idx_len h hj).2
  have hev : Evo S (S.markSt t T.id N.id j) := markSt_Evo h hcl
  have hinv : (S.markSt t T.id N.id j).Inv C := markSt_Inv h hpr hj' hcl
  have hfr : FrozenAs T.id j (S.slot T.id j) (S.markSt t T.id N.id j) := by
    have hsl : (S.markSt t T.id N.id j).slot T.id j = { S.slot T.id j with copying := true } := by
      rw [markSt, slSt_slot, if_pos ⟨rfl, rfl⟩]
    refine ⟨?_, ?_, ?_⟩
    · rw [hsl]
    · unfold copying; rw [hsl]
    · rw [hsl]
  refine ⟨S.markSt t T.id N.id j, rfl, hinv, hev,
    fun t' ht => slSt_Own ht (by rw [show S.cs _ j = _ from hcl]; rfl) (.inl rfl),
    ⟨hev, markSt_Own0, fun N' j' hn _ => if_neg hn, fun _ _ _ h => h⟩, ?_, ?_, hfr, ?_⟩
  · exact Inert.inert (C := C) (t := t) (P := fun S => Acc t T S ∧ Acc t N S ∧ S.CopyPair T.id N.id) S _ h hinv hev
      markSt_Own0 ⟨ha, haN, hpr⟩
  · show (if N.id = N.id ∧ j = j then _ else _) = _
    rw [if_pos ⟨rfl, rfl⟩]
  · intro e hk
    refine ⟨markSt_Own0.prot e (ha.prot h hk), fun hi => ?_⟩
    have hnc : ¬ S.copying T.id j := h.c.c9 hi _ _ _ hpr (.inr ⟨t, hcl⟩)
    have h1 : (S.slot T.id j).copying = false := by
      unfold copying at hnc; simpa using hnc
    refine ⟨h1, ?_⟩
    cases hcd : (S.slot T.id j).copied with
    | false => rfl
    | true => exact absurd (h.p.p7 _ _ _ hk hcd).2 hnc

/-- A copied slot. -/
def Done (C : Cfg K) (t : Tid) (s N j : Nat) (S : GSt K V) : Prop := S.CopyPair s N ∧ S.DoneCopy C t s N j

theorem tri_nullMd {T N : Table} {j : Nat} {s : Slot K V} (hj : j < T.len) (hs : s.ptr = none) :
    Tri (V := V) C t Ap (Mj t N.id j)
      (fun S => (Acc t T S ∧ Acc t N S ∧ S.CopyPair T.id N.id) ∧ Marked t N.id j S ∧ FrozenAs T.id j s S)
      (A.storeMd T.id j TOMBSTONE) (fun _ => Done C t T.id N.id j) :=
  (((tri_storeMd hj TOMBSTONE_ne_EMPTY).frameQ
    (fun S => (Acc t T S ∧ Acc t N S ∧ S.CopyPair T.id N.id) ∧ Marked t N.id j S ∧ FrozenAs T.id j s S)).conseq
    (fun S h hp => ⟨⟨hp.1.1, MdOk.of_nulled (hp.2.2.nulled hs)⟩, hp⟩)
    (fun _ S _ h => ⟨h.2.1.2.2, .inr ⟨h.2.2.1, h.2.2.2.1.trans hs, h.2.2.2.2.1⟩⟩)).mj

theorem tri_copyAtBlocking [hA : SysA C Ap] (hb : C.inc = false) {T N : Table} {j : Nat} (hj : j < T.len) :
    Tri (V := V) C t Ap (Mj t N.id j)
      (fun S => (Acc t T S ∧ Acc t N S ∧ S.CopyPair T.id N.id) ∧ Claimed t N.id j S) (copyAtBlocking C j T N)
      (fun b S => if b = true then Done C t T.id N.id j S else Marked t N.id j S) := by
  unfold copyAtBlocking
  refine Tri.bind _ (tri_mark hj) ?_
  intro s
  cases hs : s.ptr with
  | none =>
    simp only
    refine Tri.ite (fun _ => ?_) (fun _ => ?_)
    · refine Tri.ret fun S _ h => ?_
      rw [if_pos rfl]
      exact ⟨h.1.2.2, .inr ⟨h.2.1, h.2.2.1.1.trans hs, h.2.2.1.2.1⟩⟩
    · refine Tri.bind _ ((tri_nullMd hj hs).pre fun S _ h => ⟨h.1, h.2.1, h.2.2.1⟩) ?_
      intro _
      refine Tri.ret fun S _ h => ?_
      rw [if_pos rfl]; exact h
  | some e =>
    simp only
    refine Tri.bind _ (((Tri.frameG (F := fun S : GSt K V => S.CopyPair T.id N.id)
      (tri_insertCopy (t := t) (N := N.id) (j := j) (s0 := T.id) (e := e) (sl := Slot.untagged e) (resize := false) (T := N)
        rfl rfl rfl (fun h => by rw [hb] at h; cases h) (fun h => by cases h))
      (fun S S' h1 h2 h3 h4 => Inert.inert (C := C) (t := t) (P := fun S => S.CopyPair T.id N.id) S S' h1 h2 h3.1 h3.2.1 h4)).pre ?_)) ?_
    · intro S h hp
      refine ⟨⟨⟨hp.1.2.1, hp.1.2.2, ⟨?_, hp.2.2.1.2.1⟩, (hp.2.2.2 e rfl).1, Nat.le_refl _, fun _ => rfl, ?_⟩, hp.2.1⟩, hp.1.2.2⟩
      · exact hp.2.2.1.1.trans hs
      · intro P h1 h2; omega
    · rintro (_ | ⟨T', i⟩)
      · refine Tri.ret fun S _ h => ?_
        exact h.1.2
      · refine Tri.ret fun S _ h => ?_
        exact ⟨h.2, .inl ⟨_, _, h.1.1, h.1.2, fun hi => by rw [hb] at hi; cases hi⟩⟩

theorem copiedSt_OwnQ {S : GSt K V} {s j : Nat} : OwnQ t S (S.copiedSt s j) := (copiedSt_Own (t' := t)).ownQ

theorem slot_ext {s s' : Slot K V} (h1 : s.ptr = s'.ptr) (h2 : s.copying = s'.copying) (h3 : s.copied = s'.copied)
    (h4 : s.borrowed = s'.borrowed) : s = s' := by
  cases s; cases s'; simp at *; exact ⟨h1, h2, h3, h4⟩

theorem tri_copyAtIncremental [hA : SysA C Ap] (hb : C.inc = true) {T N : Table} {j : Nat} (hj : j < T.len) :
    Tri (V := V) C t Ap (Mj t N.id j)
      (fun S => (Acc t T S ∧ Acc t N S ∧ S.CopyPair T.id N.id) ∧ Claimed t N.id j S) (copyAtIncremental C j T N)
      (fun _ => Done C t T.id N.id j) := by
  unfold copyAtIncremental
  refine Tri.bind _ (tri_mark hj) ?_
  intro s
  cases hs : s.ptr with
  | none =>
    simp only
    refine Tri.ite (fun _ => ?_) (fun _ => ?_)
    · exact Tri.ret fun S _ h => ⟨h.1.2.2, .inr ⟨h.2.1, h.2.2.1.1.trans hs, h.2.2.1.2.1⟩⟩
    · exact (tri_nullMd hj hs).pre fun S _ h => ⟨h.1, h.2.1, h.2.2.1⟩
  | some e =>
    simp only
    refine Tri.extract (φ := s.copying = false ∧ s.copied = false) (fun S _ h => (h.2.2.2 e rfl).2 hb) ?_
    rintro ⟨hs1, hs2⟩
    refine Tri.bind _ (((Tri.frameG
      (F := fun S : GSt K V => (Acc t T S ∧ S.CopyPair T.id N.id) ∧ FrozenAs T.id j s S)
      (tri_insertCopy (t := t) (N := N.id) (j := j) (s0 := T.id) (e := e) (sl := ⟨some e, s.copying, s.copied, true⟩)
        (resize := true) (T := N) rfl hs1 hs2 (fun _ => rfl) (fun _ => hb))
      (fun S S' h1 h2 h3 h4 => Inert.inert (C := C) (t := t)
        (P := fun S => (Acc t T S ∧ S.CopyPair T.id N.id) ∧ FrozenAs T.id j s S) S S' h1 h2 h3.1 h3.2.1 h4)).pre ?_)) ?_
    · intro S h hp
      refine ⟨⟨⟨hp.1.2.1, hp.1.2.2, ⟨?_, hp.2.2.1.2.1⟩, (hp.2.2.2 e rfl).1, Nat.le_refl _, ?_, ?_⟩, hp.2.1⟩,
        ⟨hp.1.1, hp.1.2.2⟩, hp.2.2.1⟩
      · exact hp.2.2.1.1.trans hs
      · exact fun _ => rfl
      · intro P h1 h2; omega
    · rintro (_ | ⟨T', i⟩)
      · refine Tri.false fun S _ h => ?_
        have := h.1.1; cases this
      · simp only
        refine Tri.bind (fun _ S => Acc t T S ∧ Done C t T.id N.id j S) ?_ (fun _ => ?_)
        rotate_left
        · haveI hst : Stable (rg K V C) t (fun S : GSt K V => Acc t T S ∧ Done C t T.id N.id j S) :=
            Stable.of_step fun S S' h1 h2 h3 h4 h => by
              have hp := Inert.inert (C := C) (t := t) (P := fun S => Acc t T S ∧ S.CopyPair T.id N.id) S S' h1 h2 h3
                h4.own0 ⟨h.1, h.2.1⟩
              exact ⟨hp.1, hp.2, doneCopy_mono h1 h.2.1 h3 (h4.cs _ _ h.2.2.owner) h.2.2⟩
          exact Tri.load _ (Mj.refl t _ _) (fun S h hp => hp.1.idx_len h hj) (fun _ _ _ h => h.2)
            fun _ _ _ hp _ => hp.2
        refine Tri.act (fun S h hp => ⟨hp.2.1.1.idx_len h hj, rfl⟩) ?_
        intro S r σ'' h hp he
        obtain ⟨⟨hpl, hmd⟩, ⟨ha, hpr⟩, hfz⟩ := hp
        have hsl : (⟨some e, true, true, s.borrowed⟩ : Slot K V) = { S.slot T.id j with copied := true } :=
          slot_ext (hfz.1.trans hs).symm hfz.2.1.symm rfl hfz.2.2.symm
        have hk : S.kslot T.id j e := hfz.1.trans hs
        by_cases hcd : S.copiedF T.id j
        · have hσ : σ'' = S.toSt := by
            have he' : σ'' = S.toSt.setSlot T.id j ⟨some e, true, true, s.borrowed⟩ := he
            rw [he', hsl]
            unfold St.setSlot
            have : (fun T' i' => if T' = T.id ∧ i' = j then { S.slot T.id j with copied := true } else S.slot T' i') = S.slot := by
              funext T' i'
              split
              · rename_i hh; obtain ⟨rfl, rfl⟩ := hh
                exact slot_ext rfl rfl (by unfold copiedF at hcd; exact hcd.symm) rfl
              · rfl
            rw [this]
          exact ⟨S, hσ.symm, h, Evo.refl S, fun t' _ => Own.refl t' S, Mj.refl t _ _ S, ha, hpr,
            .inl ⟨_, _, hpl, hmd, fun _ => hcd⟩⟩
        · have hinv := copiedSt_Inv h hb hpr hpl hmd hk hcd
          refine ⟨S.copiedSt T.id j, ?_, hinv, copiedSt_Evo, fun t' _ => copiedSt_Own,
            Mq.mj ⟨copiedSt_Evo, copiedSt_OwnQ⟩, ?_, ?_, ?_⟩
          · have he' : σ'' = S.toSt.setSlot T.id j ⟨some e, true, true, s.borrowed⟩ := he
            rw [he', hsl]; rfl
          · exact Inert.inert (C := C) (t := t) (P := Acc t T) S _ h hinv copiedSt_Evo
              (copiedSt_OwnQ (t := t)).toOwn0 ha
          · exact Inert.inert (C := C) (t := t) (P := fun S => S.CopyPair T.id N.id) S _ h hinv copiedSt_Evo
              (copiedSt_OwnQ (t := t)).toOwn0 hpr
          · refine .inl ⟨_, _, hpl, hmd, fun _ => ?_⟩
            unfold copiedF
            rw [copiedSt, slSt_slot, if_pos ⟨rfl, rfl⟩]

/-! ## Copying a chunk -/

/-- Part of the claimed chunk is copied. -/
def ChunkI (C : Cfg K) (t : Tid) (T N : Table) (start chunk : Nat) (j : Nat) (S : GSt K V) : Prop :=
  (Acc t T S ∧ Acc t N S ∧ S.CopyPair T.id N.id) ∧
  (∀ j', start ≤ j' → j' < start + j → Done C t T.id N.id j' S) ∧
  (∀ j', start + j ≤ j' → j' < start + chunk → j' < T.len → Claimed t N.id j' S)

def ChunkF (C : Cfg K) (t : Tid) (T N : Table) (start chunk : Nat) (j : Nat) (S : GSt K V) : Prop :=
  (Acc t T S ∧ Acc t N S ∧ S.CopyPair T.id N.id) ∧
  (∀ j', start ≤ j' → j' < start + j → Done C t T.id N.id j' S) ∧
  (∀ j', start + j + 1 ≤ j' → j' < start + chunk → j' < T.len → Claimed t N.id j' S)

theorem ChunkF.step {T N : Table} {start chunk j : Nat} {S S' : GSt K V} (h1 : S.Inv C) (h2 : S'.Inv C)
    (hm : Mj t N.id (start + j) S S') (h : ChunkF C t T N start chunk j S) : ChunkF C t T N start chunk j S' := by
  refine ⟨Inert.inert (C := C) (t := t) (P := fun S => Acc t T S ∧ Acc t N S ∧ S.CopyPair T.id N.id) S S' h1 h2 hm.1
    hm.2.1 h.1, fun j' g1 g2 => ?_, fun j' g1 g2 g3 => ?_⟩
  · have := h.2.1 j' g1 g2
    exact ⟨Inert.inert (C := C) (t := t) (P := fun S => S.CopyPair T.id N.id) S S' h1 h2 hm.1 hm.2.1 this.1,
      hm.done h1 this.1 (by omega) this.2⟩
  · have := h.2.2 j' g1 g2 g3
    exact (hm.2.2.1 _ _ (by omega) (by rw [show S.cs _ _ = _ from this]; rfl)).trans this

instance {T N : Table} {start chunk j : Nat} : Stable (rg K V C) t (ChunkF (V := V) C t T N start chunk j) :=
  Stable.of_step fun S S' h1 h2 h3 h4 h => h.step h1 h2 (Mq.mj ⟨h3, h4.ownQ⟩)

theorem tri_copyChunkBlocking [hA : SysA C Ap] (hb : C.inc = false) {T N : Table} {start chunk : Nat} :
    Tri (V := V) C t Ap (Mt t) (ChunkI C t T N start chunk 0) (copyChunkBlocking C T N start chunk)
      (fun r S => match r with
        | some n => ∀ j', start ≤ j' → j' < start + n → Done C t T.id N.id j' S
        | none => ∃ j, Marked t N.id j S) := by
  unfold copyChunkBlocking
  refine Tri.loop (ChunkI C t T N start chunk) ?_
  intro j
  refine Tri.ite (fun h1 => ?_) (fun h1 => Tri.ret fun S _ h => h.2.1)
  refine Tri.ite (fun h2 => ?_) (fun h2 => Tri.ret fun S _ h => h.2.1)
  refine Tri.bind (fun b S => (if b = true then Done C t T.id N.id (start + j) S else Marked t N.id (start + j) S) ∧
    ChunkF C t T N start chunk j S) ?_ ?_
  · refine Tri.guar ((Tri.frameG (F := ChunkF C t T N start chunk j) (tri_copyAtBlocking hb h2)
      (fun S S' g1 g2 g3 g4 => g4.step g1 g2 g3)).pre ?_) (fun _ _ h => h.mt)
    intro S _ h
    exact ⟨⟨h.1, h.2.2 _ (Nat.le_refl _) (by omega) h2⟩, h.1, h.2.1, fun j' g1 => h.2.2 j' (by omega)⟩
  · intro b
    refine Tri.ite (fun hbt => ?_) (fun hbf => ?_)
    · refine Tri.ret fun S _ h => ?_
      rw [if_pos hbt] at h
      refine ⟨h.2.1, fun j' g1 g2 => ?_, fun j' g1 => h.2.2.2 j' (by omega)⟩
      by_cases hj : j' = start + j
      · rw [hj]; exact h.1
      · exact h.2.2.1 j' g1 (by omega)
    · refine Tri.ret fun S _ h => ?_
      rw [if_neg hbf] at h
      exact ⟨_, h.1⟩

theorem tri_copyChunkIncremental [hA : SysA C Ap] (hb : C.inc = true) {T N : Table} {start chunk : Nat} :
    Tri (V := V) C t Ap (Mt t) (ChunkI C t T N start chunk 0) (copyChunkIncremental C T N start chunk)
      (fun n S => ∀ j', start ≤ j' → j' < start + n → Done C t T.id N.id j' S) := by
  unfold copyChunkIncremental
  refine Tri.loop (ChunkI C t T N start chunk) ?_
  intro j
  refine Tri.ite (fun h1 => ?_) (fun h1 => Tri.ret fun S _ h => h.2.1)
  refine Tri.ite (fun h2 => ?_) (fun h2 => Tri.ret fun S _ h => h.2.1)
  refine Tri.bind (fun b S => Done C t T.id N.id (start + j) S ∧ ChunkF C t T N start chunk j S) ?_ ?_
  · refine Tri.guar ((Tri.frameG (F := ChunkF C t T N start chunk j) (tri_copyAtIncremental hb h2)
      (fun S S' g1 g2 g3 g4 => g4.step g1 g2 g3)).pre ?_) (fun _ _ h => h.mt)
    intro S _ h
    exact ⟨⟨h.1, h.2.2 _ (Nat.le_refl _) (by omega) h2⟩, h.1, h.2.1, fun j' g1 => h.2.2 j' (by omega)⟩
  · intro b
    refine Tri.ret fun S _ h => ?_
    refine ⟨h.2.1, fun j' g1 g2 => ?_, fun j' g1 => h.2.2.2 j' (by omega)⟩
    by_cases hj : j' = start + j
    · rw [hj]; exact h.1
    · exact h.2.2.1 j' g1 (by omega)

end Papaya
