import Verif.Model.Ops

/-! Property theorems C27 and C28 on the capacity policy (the theorems about all reachable states are in
`Verif/Props/Chain.lean`). -/

namespace Papaya

theorem isPow2B_iff (n : Nat) : isPow2B n = true ↔ isPow2 n := by
  unfold isPow2B isPow2
  constructor
  · intro h
    simp only [bne_iff_ne, ne_eq, Bool.and_eq_true, beq_iff_eq] at h
    exact ⟨_, h.2.symm⟩
  · rintro ⟨a, rfl⟩
    simp

theorem shl_one (n : Nat) : n <<< 1 = 2 * n := by rw [Nat.shiftLeft_eq]; ring
theorem shr_one (n : Nat) : n >>> 1 = n / 2 := by rw [Nat.shiftRight_eq_div_pow]
theorem shr_three (n : Nat) : n >>> 3 = n / 8 := by rw [Nat.shiftRight_eq_div_pow]

/-- C28. The decision of `get_or_alloc_next`: at least half full ⇒ doubled; at most one eighth full ⇒ halved but not
below the requested capacity; otherwise unchanged. -/
theorem C28_policy (c cur active : Nat) (h8 : 8 ≤ cur) :
    (nextCapacity c cur active = 2 * cur ↔ (cur / 2 ≤ active ∨ (active ≤ cur / 8 ∧ c = 2 * cur))) ∧
    (cur / 8 < active → active < cur / 2 → nextCapacity c cur active = cur) ∧
    (active ≤ cur / 8 → nextCapacity c cur active = max c (cur / 2)) := by
  unfold nextCapacity
  rw [shl_one, shr_one, shr_three]
  refine ⟨?_, ?_, ?_⟩
  · split
    · simp_all
    · split
      · constructor
        · intro h
          right
          refine ⟨by assumption, ?_⟩
          rcases Nat.le_total c (cur / 2) with hc | hc
          · rw [Nat.max_eq_right hc] at h; omega
          · rw [Nat.max_eq_left hc] at h; exact h
        · rintro (h | ⟨_, h⟩)
          · omega
          · rw [h]; exact Nat.max_eq_left (by omega)
      · constructor
        · intro h; omega
        · rintro (h | h)
          · omega
          · omega
  · intro h1 h2
    rw [if_neg (by omega), if_neg (by omega)]
  · intro h
    rw [if_neg (by omega), if_pos h]

/-- C28. One decision never leaves the bounds: the result is at least the requested capacity if the current table
is, and is one of double, same, half (the last two only if not below the requested capacity). -/
theorem C28_bounds (a b active : Nat) (hc : 2 ^ a ≤ 2 ^ b) :
    2 ^ a ≤ nextCapacity (2 ^ a) (2 ^ b) active ∧
    (nextCapacity (2 ^ a) (2 ^ b) active = 2 * 2 ^ b ∨ nextCapacity (2 ^ a) (2 ^ b) active = 2 ^ b ∨
      nextCapacity (2 ^ a) (2 ^ b) active = 2 ^ b / 2) := by
  unfold nextCapacity
  rw [shl_one, shr_one, shr_three]
  split
  · exact ⟨by omega, .inl rfl⟩
  · split
    · refine ⟨Nat.le_max_left _ _, ?_⟩
      rcases Nat.lt_or_ge a b with h | h
      · right; right
        have : b = (b - 1) + 1 := by omega
        have h2 : 2 ^ b / 2 = 2 ^ (b - 1) := by rw [this, Nat.pow_succ]; simp
        rw [h2]
        exact Nat.max_eq_right (Nat.pow_le_pow_right (by decide) (by omega))
      · right; left
        have : a = b := by
          have := (Nat.pow_le_pow_iff_right (a := 2) (by decide)).1 hc
          omega
        subst this
        exact Nat.max_eq_left (by omega)
    · exact ⟨hc, .inr (.inl rfl)⟩

theorem nextCapacity_pow2 {c n : Nat} (active : Nat) (hc : isPow2 c) (hn : isPow2 n) (h8 : 8 ≤ n) :
    isPow2 (nextCapacity c n active) := by
  obtain ⟨a, rfl⟩ := hc
  obtain ⟨b, rfl⟩ := hn
  unfold nextCapacity
  rw [shl_one, shr_one, shr_three]
  have hb : 1 ≤ b := by
    by_contra h
    have : b = 0 := by omega
    subst this; simp at h8
  have hb' : b = (b - 1) + 1 := by omega
  have h2 : 2 ^ b / 2 = 2 ^ (b - 1) := by rw [hb', Nat.pow_succ]; simp
  split
  · exact ⟨b + 1, by rw [Nat.pow_succ]; ring⟩
  · split
    · rw [h2]
      rcases Nat.le_total (2 ^ a) (2 ^ (b - 1)) with h | h
      · exact ⟨_, Nat.max_eq_right h⟩
      · exact ⟨_, Nat.max_eq_left h⟩
    · exact ⟨b, rfl⟩

/-- C27, the part that holds, for one decision: if the requested capacity is a power of two (or 0, which the code treats
as 1), the next capacity chosen for any table and any number of elements is a power of two, so the assertion of
`Table::alloc` holds. (For whole executions: `C27_no_shrink_panic_partial`. The full claim is false: `C27_false`.) -/
theorem C27_next_capacity_pow2_partial (C : Cfg Nat) (b active : Nat) (hb : 3 ≤ b)
    (hC : C.capacity = 0 ∨ isPow2 C.capacity) :
    isPow2 (nextCapacity C.initialCapacity (2 ^ b) active) := by
  refine nextCapacity_pow2 active ?_ ⟨b, rfl⟩ ?_
  · unfold Cfg.initialCapacity
    rcases hC with h | ⟨a, h⟩
    · exact ⟨0, by simp [h]⟩
    · refine ⟨a, ?_⟩
      rw [if_neg, h]
      rw [h]; positivity
  · calc 8 = 2 ^ 3 := rfl
      _ ≤ 2 ^ b := Nat.pow_le_pow_right (by decide) hb

/-- C27 is false for other capacities: a map created by `with_capacity(5)` has a table of 8 slots; when it is full of
tombstones (no element), the chosen next capacity is 5. -/
theorem C27_false_pure : entriesFor 5 = some 8 ∧ nextCapacity 5 8 0 = 5 ∧ ¬ isPow2 5 := by
  refine ⟨by decide, by decide, ?_⟩
  rw [← isPow2B_iff]; decide

example : nextCapacity 16 64 40 = 128 ∧ nextCapacity 16 64 20 = 64 ∧ nextCapacity 16 64 3 = 32 := by decide

end Papaya
