import Verif.Proof.TriBase

/-! # Triples of copying one slot -/

set_option linter.unusedSectionVars false
set_option linter.unusedVariables false

namespace Papaya

variable {K V : Type} [DecidableEq K]

open GSt

variable {C : Cfg K} {t : Tid} {Ap : PanicReason → GSt K V → Prop}

/-! ## Ownership assertions -/

def Claimed (t : Tid) (N j : Nat) (S : GSt K V) : Prop := S.cs N j = .claimed t
def Marked (t : Tid) (N j : Nat) (S : GSt K V) : Prop := S.cs N j = .marked t
def Placed (t : Tid) (N j T i : Nat) (S : GSt K V) : Prop := S.cs N j = .placed t T i

instance {N j : Nat} : Kept C t (Claimed (K := K) (V := V) t N j) :=
  ⟨fun S S' _ _ _ h4 h => (h4.cs N j (by rw [show S.cs N j = _ from h]; rfl)).trans h⟩
instance {N j : Nat} : Kept C t (Marked (K := K) (V := V) t N j) :=
  ⟨fun S S' _ _ _ h4 h => (h4.cs N j (by rw [show S.cs N j = _ from h]; rfl)).trans h⟩
instance {N j T i : Nat} : Kept C t (Placed (K := K) (V := V) t N j T i) :=
  ⟨fun S S' _ _ _ h4 h => (h4.cs N j (by rw [show S.cs N j = _ from h]; rfl)).trans h⟩

/-- Steps of the copy of slot `j` into table `N`. -/
def Mj (t : Tid) (N j : Nat) (S S' : GSt K V) : Prop :=
  Evo S S' ∧ Own0 t S S' ∧
    (∀ N' j', ¬ (N' = N ∧ j' = j) → (S.cs N' j').owner = some t → S'.cs N' j' = S.cs N' j') ∧
    (∀ id U b, S.tok id = .owned t U b → S'.tok id = .owned t U b)

theorem Mq.mj {N j : Nat} {S S' : GSt K V} (h : Mq t S S') : Mj t N j S S' :=
  ⟨h.1, h.2.toOwn0, fun N' j' _ ho => h.2.cs N' j' ho, h.2.tok⟩

theorem Mj.mt {N j : Nat} {S S' : GSt K V} (h : Mj t N j S S') : Mt t S S' := ⟨h.1, h.2.1⟩

theorem Mj.refl (t : Tid) (N j : Nat) (S : GSt K V) : Mj t N j S S := (Mq.refl t S).mj

theorem Tri.mj {α : Type} {P : GSt K V → Prop} {Q : α → GSt K V → Prop} {p : Prog K V α} {N j : Nat}
    (h : Tri C t Ap (Mq t) P p Q) : Tri C t Ap (Mj t N j) P p Q := h.guar fun _ _ h => h.mj

/-- The probed prefix of `T` does not contain `k`. -/
def DeadTo (C : Cfg K) (T : Table) (k : K) (n : Nat) (S : GSt K V) : Prop :=
  ∀ m, m < n → S.dead T.id (Probe.after (C.h1 k) T.mask m).i k

instance {T : Table} {k : K} {n : Nat} : Inert (V := V) C t (DeadTo C T k n) := by unfold DeadTo; infer_instance

theorem DeadTo.zero {T : Table} {k : K} {S : GSt K V} : DeadTo C T k 0 S := fun m h => by omega

theorem DeadTo.succ {T : Table} {k : K} {n : Nat} {S : GSt K V} (h : DeadTo C T k n S)
    (h' : S.dead T.id (Probe.after (C.h1 k) T.mask n).i k) : DeadTo C T k (n + 1) S := by
  intro m hm
  by_cases hn : m = n
  · rw [hn]; exact h'
  · exact h m (by omega)

theorem DeadTo.over {T : Table} {k : K} {n : Nat} {S : GSt K V} (ha : Acc t T S) (h : DeadTo C T k n S)
    (hn : T.limit < n) : S.over C T.id k := by
  intro m hm
  rw [← ha.after]
  rw [ha.limit] at hn
  exact h m (by omega)

theorem DeadTo.pos {T : Table} {k : K} {n : Nat} {S : GSt K V} (ha : Acc t T S) (h : DeadTo C T k n S) :
    ∀ m, m < n → S.dead T.id (S.pos C T.id k m) k := by
  intro m hm
  rw [← ha.after]; exact h m hm

theorem dead_of_nulled {S : GSt K V} {T i : Nat} {k : K} (hm : S.md T i ≠ EMPTY) (h : S.Nulled T i) : S.dead T i k :=
  ⟨hm, fun e hk => by unfold kslot at hk; rw [h.2] at hk; cases hk⟩

theorem dead_of_keyed {S : GSt K V} {T i : Nat} {k k' : K} (hm : S.md T i ≠ EMPTY) (h : S.Keyed T i k')
    (hne : k' ≠ k) : S.dead T i k :=
  ⟨hm, fun e hk => by rw [h.2 e hk]; exact hne⟩

theorem tri_loadMd {T : Table} {i : Nat} {P : GSt K V → Prop} {Gd : GSt K V → GSt K V → Prop} (hg : ∀ S, Gd S S)
    [Stable (rg K V C) t P] (hP : ∀ S, S.Inv C → P S → Acc t T S) (hi : i < T.len)
    (Q : Nat → GSt K V → Prop) (h : ∀ S, S.Inv C → P S → Q (S.md T.id i) S) :
    Tri C t Ap Gd P (A.loadMd T.id i) Q := by
  refine Tri.load _ hg (fun S h hp => (hP S h hp).idx_len h hi) (fun _ _ _ h => h.2) ?_
  intro S r hi hp he
  rw [he.1]; exact h S hi hp

theorem tri_loadSlot {T : Table} {i : Nat} {P : GSt K V → Prop} {Gd : GSt K V → GSt K V → Prop} (hg : ∀ S, Gd S S)
    [Stable (rg K V C) t P] (hP : ∀ S, S.Inv C → P S → Acc t T S) (hi : i < T.len)
    (Q : Slot K V → GSt K V → Prop) (h : ∀ S, S.Inv C → P S → Q (S.slot T.id i) S) :
    Tri C t Ap Gd P (A.loadSlot T.id i) Q := by
  refine Tri.load _ hg (fun S h hp => (hP S h hp).idx_len h hi) (fun _ _ _ h => h.2) ?_
  intro S r hi hp he
  rw [he.1]; exact h S hi hp

theorem Prot.ok {S : GSt K V} {e : Entry K V} (h : S.Inv C) (hp : S.Prot t e) : S.okAct (.deref e) := by
  obtain ⟨x, hx, _⟩ := hp.2.1
  exact ⟨(h.e.e0 _ _ hx).2, Prot.not_freed h hp⟩

theorem Prot.entOk {S : GSt K V} {e : Entry K V} (h : S.Inv C) (hp : S.Prot t e) : S.EntOk e.id := Prot.ok h hp

theorem Prot.entIs {S : GSt K V} {e : Entry K V} (h : S.Inv C) (hp : S.Prot t e) : S.EntIs e := ⟨Prot.ok h hp, hp.2.1⟩

theorem Acc.entOk {S : GSt K V} {T : Table} (h : S.Inv C) (ha : Acc t T S) {i : Nat} :
    ∀ e : Entry K V, S.kslot T.id i e → S.EntOk e.id := fun e hk => Prot.entOk h (ha.prot h hk)

/-- Comparing two table pointers. -/
theorem tri_sameTable {x y : Nat} {α : Type} {P : GSt K V → Prop} {Gd : GSt K V → GSt K V → Prop} (hg : ∀ S, Gd S S)
    [Stable (rg K V C) t P] {p q : Prog K V α} {Q : α → GSt K V → Prop} {Ap : PanicReason → GSt K V → Prop}
    (hP : ∀ S, S.Inv C → P S → S.TabOk x ∧ S.TabOk y)
    (hp : x = y → Tri C t Ap Gd P p Q) (hq : x ≠ y → Tri C t Ap Gd P q Q) :
    Tri C t Ap Gd P (A.sameTable x y >>= fun b => if b = true then p else q) Q := by
  refine Tri.bind (fun b S => b = decide (x = y) ∧ P S) ?_ fun b => ?_
  · exact Tri.load _ hg (fun S h hp => hP S h hp) (fun _ _ _ h => h.2) (fun _ _ _ hp he => ⟨he.1, hp⟩)
  · refine Tri.extract (φ := b = decide (x = y)) (fun S _ h => h.1) fun hb => ?_
    refine Tri.pre (P := P) ?_ fun S _ h => h.2
    refine Tri.ite (fun h => hp ?_) (fun h => hq ?_)
    · rw [hb] at h; exact of_decide_eq_true h
    · rw [hb] at h; exact fun h' => h (decide_eq_true h')

/-- Comparing two entry pointers. -/
theorem tri_sameEntry {x y : Nat} {α : Type} {P : GSt K V → Prop} {Gd : GSt K V → GSt K V → Prop} (hg : ∀ S, Gd S S)
    [Stable (rg K V C) t P] {p q : Prog K V α} {Q : α → GSt K V → Prop} {Ap : PanicReason → GSt K V → Prop}
    (hP : ∀ S, S.Inv C → P S → S.EntOk x ∧ S.EntOk y)
    (hp : x = y → Tri C t Ap Gd P p Q) (hq : x ≠ y → Tri C t Ap Gd P q Q) :
    Tri C t Ap Gd P (A.sameEntry x y >>= fun b => if b = true then p else q) Q := by
  refine Tri.bind (fun b S => b = decide (x = y) ∧ P S) ?_ fun b => ?_
  · exact Tri.load _ hg (fun S h hp => hP S h hp) (fun _ _ _ h => h.2) (fun _ _ _ hp he => ⟨he.1, hp⟩)
  · refine Tri.extract (φ := b = decide (x = y)) (fun S _ h => h.1) fun hb => ?_
    refine Tri.pre (P := P) ?_ fun S _ h => h.2
    refine Tri.ite (fun h => hp ?_) (fun h => hq ?_)
    · rw [hb] at h; exact of_decide_eq_true h
    · rw [hb] at h; exact fun h' => h (decide_eq_true h')

theorem tri_deref {e : Entry K V} {P : GSt K V → Prop} {Gd : GSt K V → GSt K V → Prop} (hg : ∀ S, Gd S S)
    [Stable (rg K V C) t P] (hP : ∀ S, S.Inv C → P S → S.Prot t e) :
    Tri C t Ap Gd P (A.deref e) (fun _ => P) :=
  Tri.load _ hg (fun S h hp => Prot.ok h (hP S h hp)) (fun _ _ _ h => h) (fun _ _ _ hp _ => hp)

/-! ## Copying an entry -/

/-- What is known while entry `e` of slot `(s0, j)` is being copied to `N`, and tables `N..T-1` were full. -/
def CopyCtx (C : Cfg K) (t : Tid) (s0 N j : Nat) (e : Entry K V) (T : Table) (S : GSt K V) : Prop :=
  Acc t T S ∧ S.CopyPair s0 N ∧ Frozen s0 j e S ∧ S.Prot t e ∧ N ≤ T.id ∧ (C.inc = false → T.id = N) ∧
    ∀ P, N ≤ P → P < T.id → S.over C P e.key

instance {s0 N j : Nat} {e : Entry K V} {T : Table} : Inert C t (CopyCtx C t s0 N j e T) := by
  unfold CopyCtx; infer_instance

theorem copy_noKey {S : GSt K V} {s0 N j : Nat} {e : Entry K V} {T : Table} (h : S.Inv C)
    (hc : CopyCtx C t s0 N j e T S) (hm : Marked t N j S) {i : Nat} {e' : Entry K V} (hk : S.kslot T.id i e') :
    e'.key ≠ e.key := by
  intro hke
  obtain ⟨ha, hpr, ⟨hk0, hcp⟩, _, hNT, hblk, _⟩ := hc
  have hm' : S.cs N j = .marked t := hm
  have hloc : S.loc N j = none := by unfold loc; rw [hm']; rfl
  rcases marked_src h hpr (fun l => by rw [hm']; simp) (kslot_idx h.s h.p hk0) with hs | ⟨hab, _, _⟩
  · subst hs
    have hlt : S.rt < T.id := by have := hpr.1; omega
    rcases h.p.f1 _ _ _ hk hlt with ⟨j', g1, _, g3⟩ | ⟨g1, g2⟩
    · have hj := kslot_unique h.p g1 hk0 hke
      rw [hj] at g3
      have : (if C.inc = true then S.rt + 1 else T.id) = N := by
        split
        · rename_i hi; exact (pair_inc h.s hi hpr).symm
        · rename_i hi; exact hblk (by simpa using hi)
      rw [this, hloc] at g3; cases g3
    · have hmv := passed_kslot h.p g2 hk0 hke.symm
      obtain ⟨T', i', g3, _⟩ := h.c.c5 g1 _ _ hk0 hmv.1
      rw [← pair_inc h.s g1 hpr, hloc] at g3; cases g3
  · have hi : C.inc = false := by
      cases hi : C.inc with
      | false => rfl
      | true => exact absurd hab (h.s.incab hi N)
    rw [hblk hi] at hk
    obtain ⟨j', g1, _, g3⟩ := h.c.c10 hi _ _ _ _ hpr hab hk
    have hj := kslot_unique h.p g1 hk0 hke
    rw [hj, hloc] at g3; cases g3

theorem placeSt_Own0 {S : GSt K V} {N j T i : Nat} {sl : Slot K V} : Own0 t S (S.placeSt t N j T i sl) :=
  Own0.quiet rfl rfl rfl rfl rfl rfl rfl rfl rfl rfl

theorem placeSt_Mj {S : GSt K V} {N j T i : Nat} {sl : Slot K V} (he : Evo S (S.placeSt t N j T i sl)) :
    Mj t N j S (S.placeSt t N j T i sl) :=
  ⟨he, placeSt_Own0, fun N' j' hn _ => if_neg hn, fun _ _ _ h => h⟩

/-- What is known about a slot that was found occupied. -/
def Found (t : Tid) (T i : Nat) (k : K) (s : Slot K V) (S : GSt K V) : Prop :=
  (s.ptr = none → S.Nulled T i) ∧ ∀ e', s.ptr = some e' → S.Keyed T i e'.key ∧ e'.key ≠ k ∧ S.Prot t e'

instance {T i : Nat} {k : K} {s : Slot K V} : Inert C t (Found t T i k s) := by
  unfold Found; infer_instance

theorem Found.dead {S : GSt K V} {T i : Nat} {k : K} {s : Slot K V} (h : Found t T i k s S) (hm : S.md T i ≠ EMPTY) :
    S.dead T i k := by
  cases hp : s.ptr with
  | none => exact dead_of_nulled hm (h.1 hp)
  | some e => exact dead_of_keyed hm (h.2 e hp).1 (h.2 e hp).2.1

theorem h2_ne (C : Cfg K) (k : K) : C.h2 k ≠ EMPTY := h2_ne_EMPTY _

theorem tri_insertCopy [hA : SysA C Ap] {s0 N j : Nat} {e : Entry K V} {sl : Slot K V} {resize : Bool} {T : Table}
    (hsl : sl.ptr = some e) (hsl1 : sl.copying = false) (hsl2 : sl.copied = false)
    (hsl3 : C.inc = true → sl.borrowed = true) (hres : resize = true → C.inc = true) :
    Tri C t Ap (Mj t N j) (fun S => CopyCtx C t s0 N j e T S ∧ Marked t N j S) (insertCopy C e sl resize T)
      (fun r S => match r with
        | some (T', i) => Placed t N j T'.id i S ∧ S.md T'.id i ≠ EMPTY
        | none => resize = false ∧ Marked t N j S) := by
  have hg := fun S : GSt K V => Mj.refl t N j S
  unfold insertCopy
  refine Tri.bind _ (tri_deref hg (fun S _ h => h.1.2.2.2.1)) ?_
  intro _
  refine Tri.loop (fun T S => CopyCtx C t s0 N j e T S ∧ Marked t N j S) ?_
  intro T
  refine Tri.bind (fun out S => match out with
      | some i => Placed t N j T.id i S ∧ S.md T.id i ≠ EMPTY
      | none => (CopyCtx C t s0 N j e T S ∧ Marked t N j S) ∧ S.over C T.id e.key) ?_ ?_
  · refine (Tri.loop (fun probe S => ∃ n, probe = Probe.after (C.h1 e.key) T.mask n ∧
      (CopyCtx C t s0 N j e T S ∧ Marked t N j S) ∧ DeadTo C T e.key n S) ?_).pre
      (fun S _ h => ⟨0, rfl, h, DeadTo.zero⟩)
    intro probe
    refine Tri.ex fun n => ?_
    refine Tri.extract (φ := probe = Probe.after (C.h1 e.key) T.mask n) (fun S _ h => h.1) ?_
    rintro rfl
    refine Tri.pre (P := fun S => (CopyCtx C t s0 N j e T S ∧ Marked t N j S) ∧ DeadTo C T e.key n S) ?_
      (fun S _ h => h.2)
    rw [after_len]
    refine Tri.extract (φ := (Probe.after (C.h1 e.key) T.mask n).i < T.len)
      (fun S h hp => hp.1.1.1.after_len h e.key n) fun hidx => ?_
    refine Tri.ite (fun hn => ?_) (fun hn => ?_)
    · refine Tri.bind (fun m S => ((CopyCtx C t s0 N j e T S ∧ Marked t N j S) ∧ DeadTo C T e.key n S) ∧
        (m ≠ EMPTY → S.dead T.id (Probe.after (C.h1 e.key) T.mask n).i e.key)) ?_ ?_
      · refine tri_loadMd hg (fun S _ h => h.1.1.1) hidx _ ?_
        intro S h hp
        exact ⟨hp, fun hm => ⟨hm, fun e' hk => copy_noKey h hp.1.1 hp.1.2 hk⟩⟩
      intro m
      refine Tri.ite (fun hm => ?_) (fun hm => ?_)
      · refine Tri.bind (fun r S => match r with
          | none => Placed t N j T.id (Probe.after (C.h1 e.key) T.mask n).i S ∧
              Acc t T S ∧ S.Keyed T.id (Probe.after (C.h1 e.key) T.mask n).i e.key
          | some found => Marked t N j S ∧ CopyCtx C t s0 N j e T S ∧ DeadTo C T e.key n S ∧
              Found t T.id (Probe.after (C.h1 e.key) T.mask n).i e.key found S) ?_ ?_
        · refine Tri.act (fun S h hp => ⟨hp.1.1.1.1.idx_len h hidx, hsl1, (fun _ h => by cases h), Acc.entOk h hp.1.1.1.1⟩) ?_
          intro S r σ'' h hp he
          obtain ⟨⟨⟨hc, hmk⟩, hd⟩, _⟩ := hp
          rcases he with ⟨hnull, rfl, rfl⟩ | ⟨hnull, rfl, rfl⟩
          · obtain ⟨ha, hpr, hfz, hprot, hNT, hblk, hov⟩ := hc
            have hev : Evo S (S.placeSt t N j T.id (Probe.after (C.h1 e.key) T.mask n).i sl) :=
              placeSt_Evo h hnull hmk (by intro h; rw [h] at hsl; cases hsl)
            have hinv : (S.placeSt t N j T.id (Probe.after (C.h1 e.key) T.mask n).i sl).Inv C :=
              placeSt_Inv (n := n) h hpr hmk hfz.1 hfz.2 hnull hNT ha.2.1 hblk hov (by rw [← ha.limit]; exact hn)
                (ha.after _ _).symm (hd.pos ha) hsl hsl1 hsl2 hsl3
            refine ⟨S.placeSt t N j T.id (Probe.after (C.h1 e.key) T.mask n).i sl, rfl, hinv, hev,
              fun t' ht => slSt_Own ht (by rw [show S.cs N j = _ from hmk]; rfl) (.inl rfl), placeSt_Mj hev, ?_, ?_, ?_⟩
            · show (if N = N ∧ j = j then _ else _) = _
              rw [if_pos ⟨rfl, rfl⟩]
            · exact Inert.inert (C := C) (t := t) S _ h hinv hev placeSt_Own0 ha
            · apply kslot_keyed
              show (if _ then _ else _ : Slot K V).ptr = _
              rw [if_pos ⟨rfl, rfl⟩]; exact hsl
          · refine ⟨S, rfl, h, Evo.refl S, fun t' _ => Own.refl t' S, hg S, hmk, hc, hd, ?_, ?_⟩
            · intro hp
              refine ⟨?_, hp⟩
              rcases hnull with hn | hn
              · exact hn
              · cases hn
            · intro e' hp
              exact ⟨kslot_keyed hp, copy_noKey h hc hmk hp, hc.1.prot h hp⟩
        · rintro (_ | found)
          · simp only
            refine Tri.bind (fun _ S => S.md T.id (Probe.after (C.h1 e.key) T.mask n).i ≠ EMPTY ∧
              Placed t N j T.id (Probe.after (C.h1 e.key) T.mask n).i S) ?_ (fun _ => Tri.ret fun S _ h => ⟨h.2, h.1⟩)
            exact (((tri_storeMd hidx (h2_ne C e.key)).frameQ
              (Placed t N j T.id (Probe.after (C.h1 e.key) T.mask n).i)).conseq
              (fun S h hp => ⟨⟨hp.2.1, MdOk.of_keyed hp.2.2⟩, hp.1⟩) (fun _ S _ h => ⟨h.1.1, h.2⟩)).mj
          · simp only
            refine Tri.bind (fun m S => (Marked t N j S ∧ CopyCtx C t s0 N j e T S ∧ DeadTo C T e.key n S ∧
              Found t T.id (Probe.after (C.h1 e.key) T.mask n).i e.key found S) ∧
              MdOk C T.id (Probe.after (C.h1 e.key) T.mask n).i m S ∧ m ≠ EMPTY) ?_ ?_
            · cases hf : found.ptr with
              | none => exact Tri.ret fun S _ h => ⟨h, MdOk.of_nulled (h.2.2.2.1 hf), TOMBSTONE_ne_EMPTY⟩
              | some e' =>
                simp only
                refine Tri.bind _ (tri_deref hg (fun S _ h => (h.2.2.2.2 e' hf).2.2)) ?_
                intro _
                exact Tri.ret fun S _ h => ⟨h, MdOk.of_keyed (h.2.2.2.2 e' hf).1, h2_ne C _⟩
            intro m
            refine Tri.extract (φ := m ≠ EMPTY) (fun S _ h => h.2.2) fun hme => ?_
            refine Tri.bind (fun m' S => ((Marked t N j S ∧ CopyCtx C t s0 N j e T S ∧ DeadTo C T e.key n S ∧
              Found t T.id (Probe.after (C.h1 e.key) T.mask n).i e.key found S) ∧
              MdOk C T.id (Probe.after (C.h1 e.key) T.mask n).i m S) ∧
              (m' ≠ EMPTY → S.md T.id (Probe.after (C.h1 e.key) T.mask n).i ≠ EMPTY)) ?_ ?_
            · refine tri_loadMd hg (fun S _ h => h.1.2.1.1) hidx _ ?_
              intro S h hp
              exact ⟨⟨hp.1, hp.2.1⟩, fun h => h⟩
            intro m'
            refine Tri.ite (fun _ => ?_) (fun hm' => ?_)
            · refine Tri.bind (fun _ S => S.md T.id (Probe.after (C.h1 e.key) T.mask n).i ≠ EMPTY ∧
                (Marked t N j S ∧ CopyCtx C t s0 N j e T S ∧ DeadTo C T e.key n S ∧
                Found t T.id (Probe.after (C.h1 e.key) T.mask n).i e.key found S)) ?_ ?_
              · exact (((tri_storeMd hidx hme).frameQ
                  (fun S => Marked t N j S ∧ CopyCtx C t s0 N j e T S ∧ DeadTo C T e.key n S ∧
                    Found t T.id (Probe.after (C.h1 e.key) T.mask n).i e.key found S)).conseq
                  (fun S h hp => ⟨⟨hp.1.1.2.1.1, hp.1.2⟩, hp.1.1⟩) (fun _ S _ h => ⟨h.1.1, h.2⟩)).mj
              · intro _
                exact Tri.ret fun S _ h => ⟨n + 1, rfl, ⟨h.2.2.1, h.2.1⟩, h.2.2.2.1.succ (h.2.2.2.2.dead h.1)⟩
            · exact Tri.ret fun S _ h => ⟨n + 1, rfl, ⟨h.1.1.2.1, h.1.1.1⟩,
                h.1.1.2.2.1.succ (h.1.1.2.2.2.dead (h.2 hm'))⟩
      · exact Tri.ret fun S _ h => ⟨n + 1, rfl, h.1.1, h.1.2.succ (h.2 hm)⟩
    · exact Tri.ret fun S _ h => ⟨h.1, h.2.over h.1.1.1 (by omega)⟩
  · rintro (_ | i)
    · simp only
      refine Tri.ite (fun hr => ?_) (fun hr => ?_)
      · have hi := hres hr
        refine Tri.bind (fun T' S => CopyCtx C t s0 N j e T' S ∧ Marked t N j S) ?_ (fun _ => Tri.ret fun S _ h => h)
        refine (((tri_getOrAllocNext (capacity := none) (by simp)).frameQ
          (fun S => (CopyCtx C t s0 N j e T S ∧ Marked t N j S) ∧ S.over C T.id e.key)).conseq
          (fun S h hp => ⟨⟨hp.1.1.1, fun h => by rw [hi] at h; cases h⟩, hp⟩) ?_).mj
        rintro T' S h ⟨⟨ha', hid⟩, ⟨⟨ha, hpr, hfz, hprot, hNT, hblk, hov⟩, hmk⟩, hovT⟩
        refine ⟨⟨ha', hpr, hfz, hprot, by omega, fun h => (by rw [hi] at h; cases h), ?_⟩, hmk⟩
        intro P h1 h2
        by_cases hP : P = T.id
        · rw [hP]; exact hovT
        · exact hov P h1 (by omega)
      · exact Tri.ret fun S _ h => ⟨by simpa using hr, h.1.2⟩
    · exact Tri.ret fun S _ h => h

end Papaya
