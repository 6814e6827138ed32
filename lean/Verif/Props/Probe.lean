import Verif.Pure.Probe
import Verif.Pure.Meta

/-! Property theorems C16, C17, C18 (see /verif/properties.jsonl). -/

namespace Papaya

/-- C16. In-bounds for every hash, every power-of-two capacity, every step. -/
theorem C16_probe_in_bounds (hash a n : Nat) :
    (Probe.after hash (2 ^ a - 1) n).i < 2 ^ a := by
  rw [after_i]; exact Nat.mod_lt _ (by positivity)

/-- C16. Closed form of the probed index. -/
theorem C16_probe_closed_form (hash a n : Nat) :
    (Probe.after hash (2 ^ a - 1) n).i = (hash + n * (n + 1) / 2) % 2 ^ a := after_i hash a n

/-- C16. The first `capacity` probes never visit a slot twice. -/
theorem C16_probe_distinct (hash a n m : Nat) (hn : n < 2 ^ a) (hm : m < 2 ^ a)
    (h : (Probe.after hash (2 ^ a - 1) n).i = (Probe.after hash (2 ^ a - 1) m).i) : n = m := by
  rw [after_i, after_i] at h
  apply tri_inj_mod hn hm
  have h' : (hash + tri n) ≡ (hash + tri m) [MOD 2 ^ a] := h
  exact Nat.ModEq.add_left_cancel' hash h'

/-- C16. The first `capacity` probes visit every slot. -/
theorem C16_probe_covers (hash a i : Nat) (hi : i < 2 ^ a) :
    ∃ n < 2 ^ a, (Probe.after hash (2 ^ a - 1) n).i = i := by
  have hinj : Set.InjOn (fun n => (Probe.after hash (2 ^ a - 1) n).i)
      (Finset.range (2 ^ a) : Finset Nat) := by
    intro n hn m hm h
    exact C16_probe_distinct hash a n m (by simpa using hn) (by simpa using hm) h
  have himg : (Finset.range (2 ^ a)).image (fun n => (Probe.after hash (2 ^ a - 1) n).i)
      = Finset.range (2 ^ a) := by
    apply Finset.eq_of_subset_of_card_le
    · intro x hx
      simp only [Finset.mem_image, Finset.mem_range] at *
      obtain ⟨n, _, rfl⟩ := hx
      exact C16_probe_in_bounds hash a n
    · rw [Finset.card_image_of_injOn hinj]
  have : i ∈ (Finset.range (2 ^ a)).image (fun n => (Probe.after hash (2 ^ a - 1) n).i) := by
    rw [himg]; simpa using hi
  simpa using this

/-- C16. For every table whose capacity fits `isize` and every probe the implementation performs
(`len ≤ limit`), the sum `self.i + self.len` computed by `Probe::next` does not overflow. -/
theorem C16_probe_no_overflow (hash a n : Nat) (ha : a < 63) (hn : n ≤ limit (2 ^ a)) :
    (Probe.after hash (2 ^ a - 1) n).i + (n + 1) < 2 ^ 64 := by
  have h1 := C16_probe_in_bounds hash a n
  rw [limit_pow2 (by omega)] at hn
  have h2 : (2 : Nat) ^ a ≤ 2 ^ 62 := Nat.pow_le_pow_right (by decide) (by omega)
  omega

example : (Probe.after 29 (2 ^ 5 - 1) 3).i = 3 := by decide
example : (3 : Nat) ≤ limit (2 ^ 5) := by decide

/-- C17. `limit(2^a) = 5a`. -/
theorem C17_limit (a : Nat) (ha : a < 64) : limit (2 ^ a) = 5 * a := limit_pow2 ha

/-- C17. `entries_for` panics exactly on overflow of `capacity * 8`. -/
theorem C17_entries_for_panics_iff (c : Nat) : entriesFor c = none ↔ 2 ^ 64 ≤ c * 8 := by
  unfold entriesFor; split <;> simp <;> omega

/-- C17. `entries_for` returns a power of two, at least `c * 8 / 6` and at least `c`, and less than
twice the least power of two that would do; it always fits in a `usize`. -/
theorem C17_entries_for (c n : Nat) (h : entriesFor c = some n) :
    isPow2 n ∧ c * 8 / 6 ≤ n ∧ c ≤ n ∧ (∀ a, c * 8 / 6 ≤ 2 ^ a → n ≤ 2 ^ a) ∧ n < 2 ^ 64 := by
  unfold entriesFor at h
  split at h
  · rename_i hc
    simp only [Option.some.injEq] at h
    subst h
    have hge := nextPowerOfTwo_ge (c * 8 / 6)
    refine ⟨nextPowerOfTwo_pow2 _, hge, by omega, fun a ha => nextPowerOfTwo_least ha, ?_⟩
    have : c * 8 / 6 ≤ 2 ^ 62 := by omega
    have := nextPowerOfTwo_least this
    omega
  · simp at h

example : entriesFor 100 = some 256 := by decide

/-- C18. The metadata byte of a hash is never one of the two markers. -/
theorem C18_h2_not_marker (hash : UInt64) :
    h2 hash < 0x80 ∧ h2 hash ≠ EMPTY ∧ h2 hash ≠ TOMBSTONE :=
  ⟨h2_lt hash, h2_ne_EMPTY hash, h2_ne_TOMBSTONE hash⟩

/-- C18. A metadata mismatch proves that the keys differ (for every hash function). -/
theorem C18_meta_mismatch {K : Type} (hash : K → UInt64) (a b : K)
    (h : h2 (hash a) ≠ h2 (hash b)) : a ≠ b := by
  rintro rfl; exact h rfl

example : h2 (0xffffffffffffffff : UInt64) = 0x7f := by decide

end Papaya
