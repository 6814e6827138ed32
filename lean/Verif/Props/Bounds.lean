import Verif.Pure.Bounds

/-! Property theorem C41. -/

namespace Papaya.Bounds

/-- C41 for `HashMap`: whenever the bounds allow sharing, sharing is sound for keys and values; same for moving. -/
theorem C41_map_partial (K V S : Ty) :
    (mapSync K V S = true → sharedUseSound K ∧ sharedUseSound V) ∧
    (mapSend K V S = true → moveSound K ∧ moveSound V) := by
  unfold mapSync mapSend sharedUseSound moveSound
  simp only [Bool.and_eq_true]
  tauto

/-- C41 for moving a `HashSet`. -/
theorem C41_set_send_partial (K S : Ty) : setSend K S = true → moveSound K := by
  unfold setSend moveSound; simp only [Bool.and_eq_true]; tauto

/-- C41 is false for sharing a `HashSet`: a key type that is `Sync` but not `Send` is accepted although elements are
inserted by one thread and dropped by another. -/
theorem C41_false_set_sync : ∃ K S : Ty, setSync K S = true ∧ ¬ sharedUseSound K :=
  ⟨⟨false, true⟩, ⟨true, true⟩, by decide, by unfold sharedUseSound; decide⟩

example : mapSync ⟨true, true⟩ ⟨true, true⟩ ⟨true, true⟩ = true := by decide

end Papaya.Bounds
