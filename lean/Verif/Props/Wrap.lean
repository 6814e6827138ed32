import Verif.Proof.Wrap
import Verif.Exec.Wrap
import Verif.Spec.Memory

/-! # C61: the counters of a copy never wrap around

The counters are `usize`. As long as there are not too many concurrent operations, compared to the chunk size, the system with
wrap-around and the one with unbounded counters — to which all other theorems refer — are the same. With a huge chunk size they are
not, and the map breaks. -/

set_option linter.unusedSectionVars false
set_option linter.unusedVariables false

namespace Papaya

variable {K V : Type} [DecidableEq K] {C : Cfg K} {n m : Nat} {ps ps' : PSt K V}

/-- The largest number of slots claimed at once (4096 in blocking mode). -/
abbrev Mode.largest (mode : Mode) : Nat :=
  match mode with
  | .blocking => 4096
  | .incremental chunk => chunk

/-- C61: with at most `n` operations at a time and tables of at most `m` slots, the counters of a copy are less than
`m + n · chunk`. -/
theorem C61_bounded (hm : 0 < m) (h : NatReach C n m ps) (T : Nat) :
    ps.mem.claim T < m + n * C.mode.largest ∧ ps.mem.copied T < m + n * C.mode.largest := by
  have h1 := h.claimInv.bound T ∅ (by simp)
  have h2 : C.maxChunk = C.mode.largest := rfl
  rw [h2] at h1
  simp only [Finset.card_empty, Nat.zero_mul, Nat.add_zero] at h1
  have h3 : ps.mem.copied T ≤ ps.mem.claim T := by
    obtain ⟨S, g, hS, _⟩ := h.reach.pinv 0
    have h4 := hS.2.1.c.c6 T
    have h5 : S.nCounted T ≤ S.claim T := by
      unfold GSt.nCounted
      exact (Finset.card_filter_le _ _).trans (by simp)
    rw [← hS.1]
    omega
  omega

/-- C61, the positive part: if `m + n · chunk ≤ 2 ^ 64`, no counter ever wraps around: whatever is reached with 64-bit counters is reached
with unbounded ones, and conversely. So all other theorems hold of the system with 64-bit counters. -/
theorem C61_no_wrap_partial (hm : 0 < m) (hb : m + n * C.mode.largest ≤ 2 ^ 64) : ModReach C n m ps ↔ NatReach C n m ps := by
  have key : ∀ ps : PSt K V, NatReach C n m ps → ps.wrap = ps := fun ps h => by
    have h1 : ∀ T, ps.mem.claim T % wordSize = ps.mem.claim T := fun T =>
      Nat.mod_eq_of_lt ((C61_bounded hm h T).1.trans_le hb)
    have h2 : ∀ T, ps.mem.copied T % wordSize = ps.mem.copied T := fun T =>
      Nat.mod_eq_of_lt ((C61_bounded hm h T).2.trans_le hb)
    show ({ ps with mem := { ps.mem with claim := _, copied := _ } } : PSt K V) = ps
    simp only [h1, h2]
  constructor
  · intro h
    induction h with
    | init h hs => exact .init h hs
    | step _ hs hm ih =>
      have := NatReach.step ih hs hm
      rw [key _ this]; exact this
  · intro h
    induction h with
    | init h hs => exact .init h hs
    | step h' hs hm ih =>
      have := ModReach.step ih hs hm
      rwa [key _ (NatReach.step h' hs hm)] at this

/-- … and they are reachable in the sense of the other theorems. -/
theorem C61_no_wrap_reach_partial (hm : 0 < m) (hb : m + n * C.mode.largest ≤ 2 ^ 64) (h : ModReach C n m ps) : Reach C ps :=
  ((C61_no_wrap_partial hm hb).1 h).reach

/-- Blocking mode: less than `2 ^ 51` concurrent operations and tables of at most `2 ^ 60` slots suffice. -/
theorem C61_blocking (hc : C.mode = .blocking) (hn : n < 2 ^ 51) (h : ModReach C n (2 ^ 60) ps) : Reach C ps := by
  refine C61_no_wrap_reach_partial (by decide) ?_ h
  rw [hc]
  show 2 ^ 60 + n * 4096 ≤ 2 ^ 64
  omega

/-- A map with chunks of 5 slots. -/
def cfgFive : Cfg Nat := ⟨fun k => UInt64.ofNat (k * 0x9E3779B97F4A7C15), .incremental 5, 1, 1, fun t => t, 0, 0, 0, fun _ => true⟩

/-- The hypotheses are met: two helpers have claimed 10 slots of a table that has only 8. -/
example : ∃ ps : PSt Nat Nat, ModReach cfgFive 3 32 ps ∧ 32 + 3 * cfgFive.mode.largest ≤ 2 ^ 64 ∧ ps.mem.cap 0 = 8 ∧ ps.mem.claim 1 = 10 ∧
    Reach cfgFive ps := by
  have h : ((modMap cfgFive 3 32 [.pin 0, .pin 1, .pin 2, .call 0 (.insert 0 7), .fin 0 100, .call 0 (.reserve 20), .go 0 23, .call 1 (.reserve 20),
    .go 1 14, .go 0 1, .go 1 1]).any fun ps => decide (ps.mem.cap 0 = 8) && decide (ps.mem.claim 1 = 10)) = true := by decide +kernel
  obtain ⟨ps, h1, h2⟩ := (Option.any_eq_true _ _).1 h
  simp only [Bool.and_eq_true, decide_eq_true_eq] at h2
  have hb : 32 + 3 * cfgFive.mode.largest ≤ 2 ^ 64 := by decide
  exact ⟨ps, modMap_reach h1, hb, h2.1, h2.2, C61_no_wrap_reach_partial (by decide) hb (modMap_reach h1)⟩

/-- A map with incremental resizing and a huge chunk size, created with 8 slots. -/
def cfgHuge : Cfg Nat := ⟨fun k => UInt64.ofNat (k * 0x9E3779B97F4A7C15), .incremental (2 ^ 63), 1, 1, fun t => t, 0, 0, 0, fun _ => true⟩

/-- A key is inserted. Guards 0 and 1 start helping and both claim a chunk; the counter is 0 again. Guard 2 claims the same slots again. -/
def hugeCmds : List (Cmd Nat Nat) :=
  [.pin 0, .pin 1, .pin 2, .call 0 (.insert 0 7), .fin 0 100, .call 0 (.reserve 20), .go 0 23, .call 1 (.reserve 20), .go 1 14, .go 0 1,
    .go 1 1, .go 0 2, .call 2 (.reserve 20), .go 2 17, .fin 0 100, .fin 2 100, .fin 1 100]

def derefB (t : Tid) (ps : PSt Nat Nat) : Bool :=
  match ps.th t with
  | .run _ (.act (.deref e) _) => ps.mem.freed e.id
  | _ => false

/-- C61, the negative part: with chunks of `2 ^ 63` slots and three threads, a counter wraps around, an entry is copied twice, and after it
is removed and freed, `get` reads the freed memory. -/
theorem C61_false : ∃ C : Cfg Nat, C.mode = .incremental (2 ^ 63) ∧ ∃ ps : PSt Nat Nat, ModReach C 3 32 ps ∧
    ∃ t c e k, ps.th t = .run c (.act (.deref e) k) ∧ ps.mem.freed e.id = true := by
  have h : ((modMap cfgHuge 3 32 (hugeCmds ++ [.call 0 (.remove 0), .fin 0 100, .unpin 0, .unpin 1, .unpin 2, .freeEntry 0, .pin 0,
    .call 0 (.get 0), .go 0 7])).any (derefB 0)) = true := by decide +kernel
  obtain ⟨ps, h1, h2⟩ := (Option.any_eq_true _ _).1 h
  refine ⟨cfgHuge, rfl, ps, modMap_reach h1, 0, ?_⟩
  unfold derefB at h2
  split at h2
  · exact ⟨_, _, _, by assumption, h2⟩
  · cases h2

/-- The last calls were `remove 0` and `get 0`, and both returned an entry. -/
def gotB (ps : PSt Nat Nat) : Bool :=
  match ps.hist.reverse with
  | .ret o4 (.get k4) r' :: .inv o3 (.get k3) :: .ret o2 (.remove k2) r :: .inv o1 (.remove k1) :: _ =>
    decide (o4 = o3) && decide (o2 = o1) && decide (k1 = 0) && decide (k2 = 0) && decide (k3 = 0) && decide (k4 = 0) && Option.isSome r &&
      Option.isSome r'
  | _ => false

/-- C61, the negative part: and a removed key is still found. -/
theorem C61_false_result : ∃ C : Cfg Nat, C.mode = .incremental (2 ^ 63) ∧ ∃ ps : PSt Nat Nat, ModReach C 3 32 ps ∧
    ∃ (hist : List (HEv Nat Nat)) (o o' : OpId) (e e' : Entry Nat Nat), ps.hist = hist ++ [.inv o (.remove 0), .ret o (.remove 0) (some e),
      .inv o' (.get 0), .ret o' (.get 0) (some e')] := by
  have h : ((modMap cfgHuge 3 32 (hugeCmds ++ [.call 0 (.remove 0), .fin 0 100, .call 0 (.get 0), .fin 0 100])).any gotB) = true := by
    decide +kernel
  obtain ⟨ps, h1, h2⟩ := (Option.any_eq_true _ _).1 h
  refine ⟨cfgHuge, rfl, ps, modMap_reach h1, ?_⟩
  unfold gotB at h2
  split at h2
  · rename_i o4 k4 r' o3 k3 o2 k2 r o1 k1 l hl
    simp only [Bool.and_eq_true, decide_eq_true_eq] at h2
    obtain ⟨⟨⟨⟨⟨⟨⟨rfl, rfl⟩, rfl⟩, rfl⟩, rfl⟩, rfl⟩, h3⟩, h4⟩ := h2
    obtain ⟨e, rfl⟩ := Option.isSome_iff_exists.1 h3
    obtain ⟨e', rfl⟩ := Option.isSome_iff_exists.1 h4
    refine ⟨l.reverse, o2, o4, e, e', ?_⟩
    rw [← List.reverse_reverse ps.hist, hl]
    simp
  · cases h2

end Papaya
