import Mathlib.Data.Nat.Basic
import Mathlib.Tactic.Ring

/-! Model of the memory layout of a table — src/raw/alloc.rs (64-bit target). -/

namespace Papaya.Layout

/-- `usize` arithmetic wraps modulo 2^64 in release builds. -/
def wrap (n : Nat) : Nat := n % 2 ^ 64

/-- The size computed by `Table::layout` — src/raw/alloc.rs:213-219; `H` is `size_of::<TableLayout<T>>()`, a `u8` has
size 1 and an `AtomicPtr` size 8. Arithmetic as in release builds. -/
def layoutSize (H len : Nat) : Nat := wrap (wrap (H + wrap (1 * len)) + wrap (8 * len))

/-- `Layout::from_size_align(size, align)` succeeds: the size rounded up to the alignment is at most
`isize::MAX`. -/
def layoutOk (align size : Nat) : Prop := size ≤ 2 ^ 63 - align

/-- Offset of `Table::meta(i)` — src/raw/alloc.rs:133-141. -/
def metaOff (H i : Nat) : Nat := H + i

/-- Offset of `Table::entry(i)` — src/raw/alloc.rs:149-158. -/
def entryOff (H len i : Nat) : Nat := H + len + 8 * i

/-- `Table::alloc` pads the length — src/raw/alloc.rs:63. -/
def paddedLen (len : Nat) : Nat := max len 8

/-- `mask` stored by `Table::alloc` — src/raw/alloc.rs:64. -/
def mask (len : Nat) : Nat := paddedLen len - 1

/-- `Table::len` as recomputed from the mask, used by `dealloc` — src/raw/alloc.rs:162-164, 201. -/
def lenOf (mask : Nat) : Nat := mask + 1

end Papaya.Layout
