import Mathlib.Tactic.Ring
import Mathlib.Tactic.Linarith
import Mathlib.Data.Nat.Prime.Basic
import Mathlib.Data.Nat.Bitwise
import Mathlib.Data.Nat.ModEq
import Mathlib.Data.Finset.Card
import Mathlib.Data.Finset.Range

/-! Model of `src/raw/probe.rs`. -/

namespace Papaya

/-- `struct Probe` — src/raw/probe.rs:3-8. -/
structure Probe where
  /-- current index -/
  i : Nat
  /-- current length of the probe sequence -/
  len : Nat
deriving DecidableEq, Repr

/-- `Probe::start` — src/raw/probe.rs:13-18 (`hash & mask`). -/
def Probe.start (hash mask : Nat) : Probe := { i := hash &&& mask, len := 0 }

/-- `Probe::next` — src/raw/probe.rs:22-25. -/
def Probe.next (p : Probe) (mask : Nat) : Probe :=
  { i := (p.i + (p.len + 1)) &&& mask, len := p.len + 1 }

/-- The probe state after `n` calls of `next`. Not in the code: used to state properties. -/
def Probe.after (hash mask : Nat) : Nat → Probe
  | 0 => Probe.start hash mask
  | n + 1 => (Probe.after hash mask n).next mask

/-- `usize::leading_zeros` on a 64-bit target. -/
def clz64 (n : Nat) : Nat := if n = 0 then 64 else 63 - Nat.log2 n

/-- `probe::limit` — src/raw/probe.rs:33-36. (Only called with a non-zero capacity; for `0` the
Rust subtraction would underflow.) -/
def limit (capacity : Nat) : Nat := 5 * (64 - clz64 capacity - 1)

/-- `usize::next_power_of_two`: the least power of two `≥ n`. -/
def nextPowerOfTwo (n : Nat) : Nat := if n ≤ 1 then 1 else 2 ^ (Nat.log2 (n - 1) + 1)

/-- `probe::entries_for` — src/raw/probe.rs:39-43; `none` is the `capacity overflow` panic of
`checked_mul`. (`next_power_of_two` itself cannot overflow here: its argument is `≤ (2^64-1)/6`.) -/
def entriesFor (capacity : Nat) : Option Nat :=
  if capacity * 8 < 2 ^ 64 then some (nextPowerOfTwo (capacity * 8 / 6)) else none

/-- `usize::is_power_of_two`. -/
def isPow2 (n : Nat) : Prop := ∃ a, n = 2 ^ a

/-- Index probed at step `n`, in closed form. -/
def tri (n : Nat) : Nat := n * (n + 1) / 2

theorem tri_succ (n : Nat) : tri (n + 1) = tri n + (n + 1) := by
  unfold tri
  have h : (n + 1) * (n + 1 + 1) = n * (n + 1) + 2 * (n + 1) := by ring
  rw [h, Nat.add_mul_div_left _ _ (by decide)]

theorem two_tri (n : Nat) : 2 * tri n = n * (n + 1) := by
  induction n with
  | zero => rfl
  | succ n ih => rw [tri_succ]; ring_nf at *; omega

theorem land_mask (x a : Nat) : x &&& (2 ^ a - 1) = x % 2 ^ a := Nat.and_two_pow_sub_one_eq_mod x a

theorem after_len (hash mask n : Nat) : (Probe.after hash mask n).len = n := by
  induction n with
  | zero => rfl
  | succ n ih => simp [Probe.after, Probe.next, ih]

theorem after_i (hash a n : Nat) :
    (Probe.after hash (2 ^ a - 1) n).i = (hash + tri n) % 2 ^ a := by
  induction n with
  | zero => simp [Probe.after, Probe.start, tri]
  | succ n ih =>
    simp only [Probe.after, Probe.next, after_len, land_mask, ih, tri_succ]
    rw [Nat.mod_add_mod, Nat.add_assoc]

theorem tri_inj_mod {a n m : Nat} (hn : n < 2 ^ a) (hm : m < 2 ^ a)
    (h : tri n % 2 ^ a = tri m % 2 ^ a) : n = m := by
  by_contra hne
  wlog hlt : m < n generalizing n m with H
  · exact H hm hn h.symm (Ne.symm hne) (by omega)
  have htm : tri m ≤ tri n := by
    have h1 := two_tri n; have h2 := two_tri m
    have : m * (m + 1) ≤ n * (n + 1) := Nat.mul_le_mul (by omega) (by omega)
    omega
  have hdvd : 2 ^ a ∣ tri n - tri m := Nat.dvd_of_mod_eq_zero (Nat.sub_mod_eq_zero_of_mod_eq h)
  have hprod : 2 * (tri n - tri m) = (n - m) * (n + m + 1) := by
    obtain ⟨d, rfl⟩ : ∃ d, n = m + d := ⟨n - m, by omega⟩
    have h1 := two_tri (m + d); have h2 := two_tri m
    have h3 : m + d - m = d := by omega
    rw [Nat.mul_sub, h1, h2, h3]
    have : (m + d) * (m + d + 1) = m * (m + 1) + d * (m + d + m + 1) := by ring
    rw [this]; omega
  have hd2 : 2 ^ (a + 1) ∣ (n - m) * (n + m + 1) := by
    rw [← hprod, pow_succ, mul_comm]; exact Nat.mul_dvd_mul_left 2 hdvd
  have hpar : (n - m) % 2 = 1 ∨ (n + m + 1) % 2 = 1 := by omega
  rcases hpar with ho | ho
  · have hc : Nat.Coprime (2 ^ (a + 1)) (n - m) :=
      Nat.Coprime.pow_left _ ((Nat.coprime_primes_iff_odd ho))
    have := Nat.le_of_dvd (by omega) (hc.dvd_of_dvd_mul_left hd2)
    rw [pow_succ] at this; omega
  · have hc : Nat.Coprime (2 ^ (a + 1)) (n + m + 1) :=
      Nat.Coprime.pow_left _ ((Nat.coprime_primes_iff_odd ho))
    have := Nat.le_of_dvd (by omega) (hc.dvd_of_dvd_mul_right hd2)
    rw [pow_succ] at this; omega
where
  Nat.coprime_primes_iff_odd {x : Nat} (h : x % 2 = 1) : Nat.Coprime 2 x := by
    rw [Nat.coprime_two_left]; exact Nat.odd_iff.2 h

theorem limit_pow2 {a : Nat} (ha : a < 64) : limit (2 ^ a) = 5 * a := by
  have h : (2 : Nat) ^ a ≠ 0 := by positivity
  unfold limit clz64
  rw [if_neg h, Nat.log2_two_pow]
  omega

theorem nextPowerOfTwo_pow2 (n : Nat) : isPow2 (nextPowerOfTwo n) := by
  unfold nextPowerOfTwo isPow2
  split
  · exact ⟨0, rfl⟩
  · exact ⟨_, rfl⟩

theorem nextPowerOfTwo_ge (n : Nat) : n ≤ nextPowerOfTwo n := by
  unfold nextPowerOfTwo
  split
  · assumption
  · have : n - 1 < 2 ^ (Nat.log2 (n - 1) + 1) := Nat.lt_log2_self
    omega

theorem nextPowerOfTwo_least {n a : Nat} (h : n ≤ 2 ^ a) : nextPowerOfTwo n ≤ 2 ^ a := by
  unfold nextPowerOfTwo
  split
  · exact Nat.one_le_two_pow
  · rename_i h1
    apply Nat.pow_le_pow_right (by decide)
    have h2 : n - 1 ≠ 0 := by omega
    have h3 : n - 1 < 2 ^ a := by omega
    exact (Nat.log2_lt h2).2 h3

end Papaya
