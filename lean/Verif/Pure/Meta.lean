import Mathlib.Tactic.Ring

/-! Model of `mod meta` — src/raw/mod.rs:2808-2840 (64-bit target). -/

namespace Papaya

/-- `meta::EMPTY` — src/raw/mod.rs:2812. -/
def EMPTY : Nat := 0x80

/-- `meta::TOMBSTONE` — src/raw/mod.rs:2815. -/
def TOMBSTONE : Nat := 0xff

/-- `meta::h1` — src/raw/mod.rs:2819-2821. -/
def h1 (hash : UInt64) : Nat := hash.toNat

/-- `meta::h2` — src/raw/mod.rs:2825-2839: `(hash >> (8*8-7)) & 0x7f`. -/
def h2 (hash : UInt64) : Nat := (hash.toNat >>> (8 * 8 - 7)) &&& 0x7f

theorem h2_lt (hash : UInt64) : h2 hash < 0x80 := by
  unfold h2
  exact Nat.lt_of_le_of_lt Nat.and_le_right (by decide)

theorem h2_ne_EMPTY (hash : UInt64) : h2 hash ≠ EMPTY := by
  have := h2_lt hash; unfold EMPTY; omega

theorem h2_ne_TOMBSTONE (hash : UInt64) : h2 hash ≠ TOMBSTONE := by
  have := h2_lt hash; unfold TOMBSTONE; omega

theorem TOMBSTONE_ne_EMPTY : TOMBSTONE ≠ EMPTY := by decide

end Papaya
