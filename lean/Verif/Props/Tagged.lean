import Verif.Pure.Tagged

/-! Property theorem C19: tagged pointers. -/

namespace Papaya.Tagged

/-- C19. Packing an aligned address with any tag and unpacking it gives back the address and the tag. -/
theorem C19_roundtrip (p t : Word) (hp : Aligned p) (ht : IsTag t) :
    (unpack (p ||| t)).ptr = p ∧ (unpack (p ||| t)).tag = t ∧ (unpack (p ||| t)).raw = p ||| t := by
  refine ⟨?_, ?_, rfl⟩
  · show (p ||| t) &&& MASK = p
    rw [or_and_distrib, and_mask_of_aligned hp, tag_and_mask ht]; simp
  · show (p ||| t) &&& ~~~MASK = t
    rw [or_and_distrib, aligned_nmask hp, tag_and_nmask ht]; simp

/-- C19. `fetch_or` with a tag changes only the tag: the address is kept, the tag becomes the union. -/
theorem C19_fetch_or (w t : Word) (ht : IsTag t) :
    (unpack (fetchOr w t)).ptr = (unpack w).ptr ∧
    (unpack (fetchOr w t)).tag = (unpack w).tag ||| t := by
  constructor
  · show (w ||| t) &&& MASK = w &&& MASK
    rw [or_and_distrib, tag_and_mask ht]; simp
  · show (w ||| t) &&& ~~~MASK = (w &&& ~~~MASK) ||| t
    rw [or_and_distrib, tag_and_nmask ht]

/-- C19. No entry word, whatever its tag, can be confused with null or the tombstone (tagged or not): its
address part is non-null, theirs is null. -/
theorem C19_not_null (p t u : Word) (hp : Aligned p) (h0 : p ≠ 0#64) (ht : IsTag t) (hu : IsTag u) :
    p ||| t ≠ 0#64 ∧ p ||| t ≠ TOMB ||| u := by
  have key : ∀ w : Word, w &&& MASK = 0#64 → p ||| t ≠ w := by
    intro w hw h
    have := (C19_roundtrip p t hp ht).1
    change (p ||| t) &&& MASK = p at this
    rw [h, hw] at this
    exact h0 this.symm
  refine ⟨key _ (by simp), key _ ?_⟩
  rw [or_and_distrib, tag_and_mask hu]
  decide

/-- C19. Words and abstract slots correspond one to one (for any placement of the entries, on slots of entries
determined by their address): comparing words, as a CAS does, is comparing slots. -/
theorem C19_enc_inj {K V : Type} {addr : Nat → Word} (h : Placement addr) (s s' : Slot K V)
    (hu : ∀ e e', s.ptr = some e → s'.ptr = some e' → e.id = e'.id → e = e')
    (he : enc addr s = enc addr s') : s = s' := by
  have hal0 : Aligned (0#64) := by decide
  have A : ∀ s : Slot K V, Aligned (ptrWord addr s) := by
    intro s; unfold ptrWord; split
    · exact hal0
    · exact h.aligned _
  have r1 := C19_roundtrip _ _ (A s) (tagBits_isTag s.copying s.copied s.borrowed)
  have r2 := C19_roundtrip _ _ (A s') (tagBits_isTag s'.copying s'.copied s'.borrowed)
  unfold enc at he
  rw [he] at r1
  have hp := r1.1.symm.trans r2.1
  have ht := r1.2.1.symm.trans r2.2.1
  obtain ⟨h1, h2, h3⟩ := tagBits_inj ht
  obtain ⟨p, a, b, c⟩ := s
  obtain ⟨p', a', b', c'⟩ := s'
  simp only at h1 h2 h3 hp hu
  subst h1; subst h2; subst h3
  have : p = p' := by
    cases p with
    | none => cases p' with
      | none => rfl
      | some e' => exact absurd hp.symm (h.nonnull _)
    | some e => cases p' with
      | none => exact absurd hp (h.nonnull _)
      | some e' => exact congrArg some (hu e e' rfl rfl (h.inj _ _ hp))
  rw [this]

/-- C19. The word operations of the implementation are the slot operations of the model: null and tombstone,
untagged pointers, `unpack().ptr` null test, `fetch_or(COPYING)`, tagging with `BORROWED`, with
`COPYING | COPIED`. -/
theorem C19_enc_ops {K V : Type} (addr : Nat → Word) (s : Slot K V) (e : Entry K V) :
    enc addr (Slot.null : Slot K V) = 0#64 ∧
    enc addr (Slot.tombstone : Slot K V) = TOMB ∧
    enc addr (Slot.untagged e) = (untagged (addr e.id)).raw ∧
    fetchOr (enc addr s) COPYING = enc addr { s with copying := true } ∧
    ((unpack (enc addr s)).mapTag (· ||| BORROWED)).raw = enc addr { s with borrowed := true } ∧
    ((unpack (enc addr s)).mapTag (· ||| (COPYING ||| COPIED))).raw
      = enc addr { s with copying := true, copied := true } := by
  refine ⟨by simp [enc, ptrWord, Slot.null, tagBits], by simp [enc, ptrWord, Slot.tombstone, tagBits, TOMB],
    by simp [enc, ptrWord, Slot.untagged, tagBits, untagged], ?_, ?_, ?_⟩
  all_goals
    obtain ⟨p, a, b, c⟩ := s
    simp only [enc, ptrWord, fetchOr, unpack, Ptr.mapTag]
    rw [BitVec.or_assoc]
    congr 1
    cases a <;> cases b <;> cases c <;> decide

/-- C19. The tag tests of the implementation read the corresponding bit. -/
theorem C19_enc_tests {K V : Type} {addr : Nat → Word} (h : Placement addr) (s : Slot K V) :
    ((unpack (enc addr s)).ptr = 0#64 ↔ s.ptr = none) ∧
    ((unpack (enc addr s)).tag &&& COPYING ≠ 0#64 ↔ s.copying = true) ∧
    ((unpack (enc addr s)).tag &&& COPIED ≠ 0#64 ↔ s.copied = true) ∧
    ((unpack (enc addr s)).tag &&& BORROWED ≠ 0#64 ↔ s.borrowed = true) := by
  have hal0 : Aligned (0#64) := by decide
  have A : Aligned (ptrWord addr s) := by
    unfold ptrWord; split
    · exact hal0
    · exact h.aligned _
  have r := C19_roundtrip _ _ A (tagBits_isTag s.copying s.copied s.borrowed)
  unfold enc
  rw [r.1, r.2.1]
  refine ⟨?_, ?_⟩
  · unfold ptrWord
    cases s.ptr with
    | none => simp
    | some e => simp [h.nonnull]
  · generalize s.copying = a
    generalize s.copied = b
    generalize s.borrowed = c
    cases a <;> cases b <;> cases c <;> decide

/-- C43, the part that holds: if the key or the value type has an alignment that is a multiple of 8 (both
alignments being powers of two), every address `Box::new` may return leaves the tag bits free. -/
theorem C43_tag_bits_free_partial (a b sk sv : Nat) (h : 8 ≤ 2 ^ a ∨ 8 ≤ 2 ^ b) (p : Word)
    (hp : BoxAddr (2 ^ a) (2 ^ b) sk sv p) : Aligned p := by
  obtain ⟨_, hd, _⟩ := hp
  have h8 : 8 ∣ entryAlign (2 ^ a) (2 ^ b) := by
    have key : ∀ c, 8 ≤ 2 ^ c → 8 ∣ 2 ^ c := by
      intro c hc
      have : 3 ≤ c := by
        by_contra hlt
        have : 2 ^ c ≤ 2 ^ 2 := Nat.pow_le_pow_right (by decide) (by omega)
        omega
      exact Nat.pow_dvd_pow 2 this
    unfold entryAlign
    rcases Nat.le_total (2 ^ a) (2 ^ b) with hab | hab
    · rw [Nat.max_eq_right hab]; apply key; omega
    · rw [Nat.max_eq_left hab]; apply key; omega
  have h8p : 8 ∣ p.toNat := dvd_trans h8 hd
  show p &&& 7#64 = 0#64
  apply BitVec.eq_of_toNat_eq
  rw [BitVec.toNat_and]
  have : (7#64).toNat = 2 ^ 3 - 1 := rfl
  rw [this, Nat.and_two_pow_sub_one_eq_mod]
  simpa using Nat.mod_eq_zero_of_dvd h8p

/-- C43 is false of the code as written: for `HashSet<()>` / `HashMap<(), ()>` the entry is zero-sized, the only
address `Box::new` may return is 1, and the implementation reads it as the null pointer tagged `COPYING`. -/
theorem C43_false_zero_sized :
    ∃ p : Word, BoxAddr 1 1 0 0 p ∧ (∀ q, BoxAddr 1 1 0 0 q → q = p) ∧
      (unpack p).ptr = 0#64 ∧ (unpack p).tag = COPYING := by
  refine ⟨1#64, ⟨by decide, by decide, by decide⟩, ?_, by decide, by decide⟩
  rintro q ⟨_, _, h⟩
  exact BitVec.eq_of_toNat_eq (by rw [h rfl]; rfl)

/-- C43 is false of the code as written: for `HashSet<u32>` (alignment 4, size 4) an address 4 modulo 8 is allowed and
is read as a different address with the `BORROWED` bit set. -/
theorem C43_false_small_alignment :
    ∃ p : Word, BoxAddr 4 1 4 0 p ∧ (unpack p).ptr ≠ p ∧ (unpack p).tag = BORROWED := by
  refine ⟨0x1004#64, ⟨by decide, by decide, by decide⟩, by decide, by decide⟩

example : BoxAddr (2 ^ 3) (2 ^ 0) 24 1 (0x7f0000001238#64) := ⟨by decide, by decide, by decide⟩

/-- A concrete placement exists (non-vacuity), for the first 2^60 allocations. -/
example : Aligned (0x7f00_0000_1238#64) ∧ (0x7f00_0000_1238#64) ≠ 0#64 ∧ IsTag (COPYING ||| COPIED) := by
  refine ⟨?_, ?_, ?_⟩ <;> decide

end Papaya.Tagged
