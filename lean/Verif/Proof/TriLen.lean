import Verif.Proof.TriIter
import Mathlib.Algebra.BigOperators.Group.Finset.Basic
import Mathlib.Algebra.BigOperators.Group.Finset.Piecewise

/-! # `len` -/

set_option linter.unusedSectionVars false
set_option linter.unusedVariables false

namespace Papaya

variable {K V : Type} [DecidableEq K]

open GSt

variable {C : Cfg K} {t : Tid} {Ap : PanicReason → GSt K V → Prop} {S S' : GSt K V}

/-- The payments made to the counters start with `p0`. -/
def PaysFrom (p0 : List (Tid × Int)) (S : GSt K V) : Prop := p0 <+: S.pays

instance firmPays {p0 : List (Tid × Int)} : Firm (V := V) C t (PaysFrom (K := K) p0) :=
  ⟨fun S S' h1 h2 h3 h4 h => List.IsPrefix.trans h h4.pays⟩

instance {p0 : List (Tid × Int)} : Inert (V := V) C t (PaysFrom (K := K) p0) := Firm.toInert

/-- The shard to which `u` pays. -/
def Cfg.shd (C : Cfg K) (u : Tid) : Nat := C.shardOf u % (C.shards + 1)

/-- `x` is the sum of what the threads of the shards below `j` have paid, each at some time since the payments `p0`. -/
def SumTo (sh : Tid → Nat) (j : Nat) (p0 : List (Tid × Int)) (x : Int) (S : GSt K V) : Prop :=
  ∃ q : Tid → List (Tid × Int), (∀ u, p0 <+: q u ∧ q u <+: S.pays) ∧
    ∀ F : Finset Tid, (∀ p ∈ S.pays, p.1 ∈ F) → x = ∑ u ∈ F, if sh u < j then netPays u (q u) else 0

/-- `x` is the sum of what the threads have paid, each at some time since the payments `p0`. -/
def SumAt (p0 : List (Tid × Int)) (x : Int) (S : GSt K V) : Prop :=
  ∃ q : Tid → List (Tid × Int), (∀ u, p0 <+: q u ∧ q u <+: S.pays) ∧
    ∀ F : Finset Tid, (∀ p ∈ S.pays, p.1 ∈ F) → x = ∑ u ∈ F, netPays u (q u)

/-- `n` is the length computed from payments made since `p0`. -/
def LenIs (p0 : List (Tid × Int)) (n : Nat) (S : GSt K V) : Prop := ∃ x : Int, n = x.toNat ∧ SumAt p0 x S

theorem SumTo.mono {sh : Tid → Nat} {j : Nat} {p0 : List (Tid × Int)} {x : Int} (h : SumTo sh j p0 x S)
    (hp : S.pays <+: S'.pays) : SumTo sh j p0 x S' := by
  obtain ⟨q, h1, h2⟩ := h
  exact ⟨q, fun u => ⟨(h1 u).1, (h1 u).2.trans hp⟩, fun F hF => h2 F fun p hm => hF p (hp.subset hm)⟩

theorem LenIs.mono {p0 : List (Tid × Int)} {n : Nat} (h : LenIs p0 n S) (hp : S.pays <+: S'.pays) : LenIs p0 n S' := by
  obtain ⟨x, h0, q, h1, h2⟩ := h
  exact ⟨x, h0, q, fun u => ⟨(h1 u).1, (h1 u).2.trans hp⟩, fun F hF => h2 F fun p hm => hF p (hp.subset hm)⟩

theorem LenIs.from {p0 : List (Tid × Int)} {n : Nat} (h : LenIs p0 n S) : PaysFrom p0 S := by
  obtain ⟨x, _, q, h1, _⟩ := h
  exact (h1 0).1.trans (h1 0).2

instance {p0 : List (Tid × Int)} {n : Nat} : Inert (V := V) C t (LenIs (K := K) p0 n) :=
  ⟨fun S S' h1 h2 h3 h4 h => h.mono h4.own1.pays⟩

instance {sh : Tid → Nat} {p0 : List (Tid × Int)} {j : Nat} {x : Int} : Inert (V := V) C t (SumTo (K := K) sh j p0 x) :=
  ⟨fun S S' h1 h2 h3 h4 h => h.mono h4.own1.pays⟩

/-- The payments to one shard, by thread. -/
theorem shard_finset (sh : Tid → Nat) (j : Nat) (F : Finset Tid) (l : List (Tid × Int)) (h : ∀ p ∈ l, p.1 ∈ F) :
    ((l.filter fun p => sh p.1 = j).map Prod.snd).sum = ∑ u ∈ F, if sh u = j then netPays u l else 0 := by
  induction l with
  | nil => simp [netPays]
  | cons p l ih =>
    have ih := ih fun p hp => h p (List.mem_cons_of_mem _ hp)
    have h2 : ∀ u, (if sh u = j then netPays u (p :: l) else 0) =
        (if p.1 = u then (if sh p.1 = j then p.2 else 0) else 0) + if sh u = j then netPays u l else 0 := by
      intro u
      unfold netPays
      by_cases hp : p.1 = u
      · subst hp
        by_cases hj : sh p.1 = j <;> simp [hj]
      · simp [hp]
    simp only [h2]
    rw [Finset.sum_add_distrib, Finset.sum_ite_eq, if_pos (h p (by simp)), ← ih]
    by_cases hj : sh p.1 = j <;> simp [hj]

theorem tri_lenIs {p0 : List (Tid × Int)} {Gd : GSt K V → GSt K V → Prop} (hg : ∀ S, Gd S S) :
    Tri C t Ap Gd (PaysFrom p0) (len C) (fun n S => LenIs p0 n S) := by
  unfold len
  refine Tri.bind (fun x S => SumTo C.shd (C.shards + 1) p0 x S) ?_ ?_
  · refine Tri.pre (P := fun S => (0 : Nat) ≤ C.shards + 1 ∧ SumTo C.shd 0 p0 (0 : Int) S) ?_
      fun S _ h => ⟨by omega, fun _ => p0, fun u => ⟨List.prefix_refl _, h⟩, fun F _ => by simp⟩
    refine Tri.loop (s := ((0 : Nat), (0 : Int))) (fun (x : Nat × Int) S => x.1 ≤ C.shards + 1 ∧
      SumTo C.shd x.1 p0 x.2 S) ?_
    rintro ⟨j, acc⟩
    refine Tri.ite (fun hj => ?_) (fun hj => ?_)
    · refine Tri.bind (fun x S => SumTo C.shd (j + 1) p0 (acc + x) S) ?_ ?_
      · refine Tri.load _ hg (fun _ _ _ => trivial) (fun _ _ _ h => h.2) ?_
        intro S x h hp he
        obtain ⟨q, h1, h2⟩ := hp.2
        simp only at h2
        have hq : ∀ u, p0 <+: S.pays := fun u => (h1 u).1.trans (h1 u).2
        refine ⟨fun u => if C.shd u = j then S.pays else q u, fun u => ?_, fun F hF => ?_⟩
        · simp only
          split
          · exact ⟨hq u, List.prefix_refl _⟩
          · exact h1 u
        · simp only
          have h3 : x = S.shard j := he.1
          rw [h2 F hF, h3, h.n.2 j, show ((S.pays.filter fun p => C.shardOf p.1 % (C.shards + 1) = j).map Prod.snd).sum =
            ∑ u ∈ F, if C.shd u = j then netPays u S.pays else 0 from shard_finset C.shd j F S.pays hF, ← Finset.sum_add_distrib]
          refine Finset.sum_congr rfl fun u _ => ?_
          by_cases e1 : C.shd u = j
          · rw [if_neg (by show ¬ C.shd u < j; omega), if_pos e1, if_pos (by omega), if_pos e1]; simp
          · by_cases e2 : C.shd u < j
            · rw [if_pos e2, if_neg e1, if_pos (by omega), if_neg e1]; simp
            · rw [if_neg e2, if_neg e1, if_neg (by omega)]; simp
      · intro x
        exact Tri.ret fun S _ h => ⟨by show j + 1 ≤ _; omega, h⟩
    · refine Tri.ret fun S h hp => ?_
      have hj' : j = C.shards + 1 := by have := hp.1; simp only at this; omega
      subst hj'
      exact hp.2
  · intro x
    refine Tri.ret fun S _ h => ⟨x, rfl, ?_⟩
    obtain ⟨q, h1, h2⟩ := h
    refine ⟨q, h1, fun F hF => (h2 F hF).trans (Finset.sum_congr rfl fun u _ => if_pos (Nat.mod_lt _ (by omega)))⟩

end Papaya
