import Verif.Model.State
import Mathlib.Data.BitVec

/-! Model of `src/raw/utils/tagged.rs` and the tag constants of `src/raw/mod.rs:131-167` on 64-bit machine words, and
the correspondence between words and the abstract `Slot` used by the concurrent model. -/

namespace Papaya.Tagged

abbrev Word := BitVec 64

/-- `Entry::COPYING` — src/raw/mod.rs:136. -/
def COPYING : Word := 0b001#64
/-- `Entry::COPIED` — src/raw/mod.rs:144. -/
def COPIED : Word := 0b010#64
/-- `Entry::BORROWED` — src/raw/mod.rs:152. -/
def BORROWED : Word := 0b100#64
/-- `<Entry as Unpack>::MASK` — src/raw/mod.rs:155-158. -/
def MASK : Word := ~~~(COPYING ||| COPIED ||| BORROWED)
/-- `Entry::TOMBSTONE` — src/raw/mod.rs:160-167. -/
def TOMB : Word := COPIED

/-- `struct Tagged` — src/raw/utils/tagged.rs:44-50. -/
structure Ptr where
  raw : Word
  ptr : Word

/-- `unpack` — src/raw/utils/tagged.rs:32-40. -/
def unpack (w : Word) : Ptr := { raw := w, ptr := w &&& MASK }
/-- `untagged` — src/raw/utils/tagged.rs:54-59. -/
def untagged (w : Word) : Ptr := { raw := w, ptr := w }
/-- `Tagged::tag` — src/raw/utils/tagged.rs:67-69. -/
def Ptr.tag (t : Ptr) : Word := t.raw &&& ~~~MASK
/-- `Tagged::map_tag` — src/raw/utils/tagged.rs:73-78. -/
def Ptr.mapTag (t : Ptr) (f : Word → Word) : Ptr := { raw := f t.raw, ptr := t.ptr }
/-- `AtomicPtrFetchOps::fetch_or` — src/raw/utils/tagged.rs:96-125 (the value stored). -/
def fetchOr (w v : Word) : Word := w ||| v

/-- An 8-aligned address. -/
abbrev Aligned (p : Word) : Prop := p &&& 7#64 = 0#64
/-- A word that only has tag bits. -/
abbrev IsTag (t : Word) : Prop := t &&& ~~~7#64 = 0#64

theorem MASK_eq : MASK = ~~~7#64 := by decide

theorem and_mask_of_aligned {p : Word} (h : Aligned p) : p &&& MASK = p := by
  rw [MASK_eq]
  have : p &&& (7#64 ||| ~~~7#64) = p := by
    have : (7#64 ||| ~~~7#64) = BitVec.allOnes 64 := by decide
    rw [this, BitVec.and_allOnes]
  rw [BitVec.and_or_distrib_left] at this
  unfold Aligned at h
  rw [h] at this
  simpa using this

theorem tag_and_mask {t : Word} (h : IsTag t) : t &&& MASK = 0#64 := by
  rw [MASK_eq]; exact h

theorem tag_and_nmask {t : Word} (h : IsTag t) : t &&& ~~~MASK = t := by
  rw [MASK_eq]
  have h7 : (~~~(~~~7#64)) = 7#64 := by decide
  rw [h7]
  have : t &&& (7#64 ||| ~~~7#64) = t := by
    have : (7#64 ||| ~~~7#64) = BitVec.allOnes 64 := by decide
    rw [this, BitVec.and_allOnes]
  rw [BitVec.and_or_distrib_left] at this
  unfold IsTag at h
  rw [h] at this
  simpa using this

theorem aligned_nmask {p : Word} (h : Aligned p) : p &&& ~~~MASK = 0#64 := by
  rw [MASK_eq]
  have h7 : (~~~(~~~7#64)) = 7#64 := by decide
  rw [h7]; exact h

theorem or_and_distrib (a b c : Word) : (a ||| b) &&& c = (a &&& c) ||| (b &&& c) := by
  rw [BitVec.and_comm, BitVec.and_or_distrib_left, BitVec.and_comm c a, BitVec.and_comm c b]

/-- The word of a tag combination. -/
def tagBits (copying copied borrowed : Bool) : Word :=
  (if copying then COPYING else 0#64) ||| (if copied then COPIED else 0#64) |||
    (if borrowed then BORROWED else 0#64)

theorem tagBits_isTag (a b c : Bool) : IsTag (tagBits a b c) := by
  cases a <;> cases b <;> cases c <;> decide

theorem tagBits_inj {a b c a' b' c' : Bool} (h : tagBits a b c = tagBits a' b' c') :
    a = a' ∧ b = b' ∧ c = c' := by
  revert h
  cases a <;> cases b <;> cases c <;> cases a' <;> cases b' <;> cases c' <;> decide

/-- The address part of an abstract slot. -/
def ptrWord {K V : Type} (addr : Nat → Word) (s : Slot K V) : Word :=
  match s.ptr with
  | none => 0#64
  | some e => addr e.id

/-- The machine word of an abstract slot, for a placement `addr` of the entries in memory. -/
def enc {K V : Type} (addr : Nat → Word) (s : Slot K V) : Word :=
  ptrWord addr s ||| tagBits s.copying s.copied s.borrowed

/-- A legal placement: aligned, non-null, different entries at different addresses. -/
structure Placement (addr : Nat → Word) : Prop where
  aligned : ∀ i, Aligned (addr i)
  nonnull : ∀ i, addr i ≠ 0#64
  inj : ∀ i j, addr i = addr j → i = j

/-- The alignment of `#[repr(C)] struct Entry { key: K, value: V }` — src/raw/mod.rs:122-129: the maximum of the
alignments of the fields (nothing in the declaration raises it to 8). -/
def entryAlign (alignK alignV : Nat) : Nat := max alignK alignV

/-- What `Box::into_raw(Box::new(entry))` may return according to the contract of Rust's allocation API — used at
src/raw/mod.rs:447, 1367: a non-null address that is a multiple of the alignment of `Entry`; for a zero-sized
`Entry` no allocation takes place and the pointer is `NonNull::dangling()`, whose address is the alignment. -/
def BoxAddr (alignK alignV sizeK sizeV : Nat) (p : Word) : Prop :=
  p ≠ 0#64 ∧ entryAlign alignK alignV ∣ p.toNat ∧
    (sizeK + sizeV = 0 → p.toNat = entryAlign alignK alignV)

end Papaya.Tagged
