import Verif.Pure.Layout

/-! Property theorem C20: table layout. -/

namespace Papaya.Layout

/-- C20. For every padded length whose true size fits the address space, the metadata byte and the 8 bytes of the
entry pointer of every slot lie inside the allocation, after the header. -/
theorem C20_in_bounds (H len i : Nat) (hfit : H + 9 * len < 2 ^ 64) (hi : i < len) :
    H ≤ metaOff H i ∧ metaOff H i + 1 ≤ layoutSize H len ∧
    H ≤ entryOff H len i ∧ entryOff H len i + 8 ≤ layoutSize H len := by
  unfold metaOff entryOff layoutSize wrap
  rw [Nat.mod_eq_of_lt (a := 1 * len) (by omega), Nat.mod_eq_of_lt (a := 8 * len) (by omega),
    Nat.mod_eq_of_lt (a := H + 1 * len) (by omega), Nat.mod_eq_of_lt (by omega)]
  omega

/-- C20. Distinct cells of a table never overlap: metadata bytes of different slots, entry pointers of different
slots, a metadata byte and an entry pointer. -/
theorem C20_disjoint (H len i j : Nat) (hi : i < len) :
    (i ≠ j → metaOff H i ≠ metaOff H j) ∧
    (i < j → entryOff H len i + 8 ≤ entryOff H len j) ∧
    (metaOff H i + 1 ≤ entryOff H len j) := by
  unfold metaOff entryOff; omega

/-- C20. Entry pointers are 8-aligned, for every requested power-of-two length, if the allocation and the header
size are (the header contains pointers). -/
theorem C20_aligned (base H a i : Nat) (hb : 8 ∣ base) (hH : 8 ∣ H) :
    8 ∣ base + entryOff H (paddedLen (2 ^ a)) i := by
  have : 8 ∣ paddedLen (2 ^ a) := by
    unfold paddedLen
    rcases Nat.lt_or_ge a 3 with h | h
    · have : 2 ^ a ≤ 2 ^ 3 := Nat.pow_le_pow_right (by decide) (by omega)
      rw [Nat.max_eq_right (by omega)]
    · have h8 : 2 ^ 3 ≤ 2 ^ a := Nat.pow_le_pow_right (by decide) h
      rw [Nat.max_eq_left (by omega)]
      exact Nat.pow_dvd_pow 2 h
  unfold entryOff
  exact Nat.dvd_add hb (Nat.dvd_add (Nat.dvd_add hH this) (Nat.dvd_mul_right 8 i))

/-- C20. `dealloc` recomputes exactly the layout `alloc` used. -/
theorem C20_dealloc_same_layout (H len : Nat) :
    layoutSize H (lenOf (mask len)) = layoutSize H (paddedLen len) := by
  have : lenOf (mask len) = paddedLen len := by
    unfold lenOf mask paddedLen
    have : 8 ≤ max len 8 := Nat.le_max_right _ _
    omega
  rw [this]

/-- C20, limit of the claim: the hypothesis `hfit` of `C20_in_bounds` is not checked by the code. For a table of
2^61 slots (which passes the `isize::MAX` assertion of `get_or_alloc_next`) the size computation wraps in release
builds, `Layout::from_size_align` accepts the result and the first entry pointer lies outside the allocation
(in practice such an allocation request fails). -/
theorem C20_wraps_at_2_61 (H : Nat) (hH : H ≤ 2 ^ 20) :
    2 ^ 61 ≤ 2 ^ 63 - 1 ∧ layoutOk 128 (layoutSize H (2 ^ 61)) ∧
    layoutSize H (2 ^ 61) < entryOff H (2 ^ 61) 0 + 8 := by
  have hs : layoutSize H (2 ^ 61) = H + 2 ^ 61 := by
    unfold layoutSize wrap
    rw [Nat.mod_eq_of_lt (a := 1 * 2 ^ 61) (by omega), show (8 * 2 ^ 61) % 2 ^ 64 = 0 by decide,
      Nat.mod_eq_of_lt (a := H + 1 * 2 ^ 61) (by omega), Nat.mod_eq_of_lt (by omega)]
    omega
  refine ⟨by decide, ?_, ?_⟩
  · unfold layoutOk; rw [hs]; omega
  · unfold entryOff; rw [hs]; omega

example : (128 : Nat) + 9 * 64 < 2 ^ 64 ∧ 63 < 64 := by decide
example : metaOff 128 63 + 1 ≤ layoutSize 128 64 ∧ entryOff 128 64 63 + 8 = layoutSize 128 64 := by decide

end Papaya.Layout
