import Verif.Proof.Stall

/-! # What operations do while a slot in an incremental resize is never released

`lostSys H HN i`: the root is the table `H`, its successor is `HN`; slot `i` of `H` is never marked as copied, and the slots counted as
copied are never all the slots of `H`. Whoever wants to finish the resize waits. -/

set_option linter.unusedSectionVars false
set_option linter.unusedVariables false

namespace Papaya

variable {K V : Type}

/-- The possible results of the actions in this situation. -/
def Act.lostRes (H HN : Table) (i : Nat) : {β : Type} → Act K V β → β → Prop
  | _, .loadRoot, r => r = some H
  | _, .loadNext T, r => T = H.id → r = some HN
  | _, .loadStatus T, r => T = HN.id → r = .pending
  | _, .parkStatus T, _ => T ≠ HN.id
  | _, .parkSlot T j, _ => ¬ (T = H.id ∧ j = i)
  | _, .loadCopied T, r => T = HN.id → r ≠ H.len
  | _, .addCopied T n _, r => T = HN.id → r + n ≠ H.len
  | _, _, _ => True

def lostSys (K V : Type) (H HN : Table) (i : Nat) : ObsSys K V := ⟨fun _ => True, fun a r => a.lostRes H HN i r, fun _ => True⟩

variable {C : Cfg K} {α β γ : Type} {H HN : Table} {i : Nat}

/-- The operation never ends. -/
abbrev Hangs (H HN : Table) (i : Nat) {α : Type} (p : Prog K V α) : Prop := Obs' (lostSys K V H HN i) p fun _ => False

theorem lost_any {p : Prog K V α} : Obs' (lostSys K V H HN i) p fun _ => True := by
  intro n
  induction n generalizing p with
  | zero => cases p <;> trivial
  | succ n ih =>
    cases p with
    | ret x => trivial
    | panic w => trivial
    | act a k => exact ⟨trivial, fun r _ => ih⟩
    | iter body s k => exact ih

theorem lost_panic {w : PanicReason} {Q : α → Prop} : Obs' (lostSys K V H HN i) (.panic w : Prog K V α) Q :=
  Obs'.panic (D := lostSys K V H HN i) trivial

theorem lost_promote {n : Nat} : Obs' (lostSys K V H HN i) (tryPromote H HN n) fun r => r = false := by
  unfold tryPromote
  refine Obs'.bind (fun r => r ≠ H.len) ?_ fun r hr => ?_
  · split
    · exact Obs'.step trivial fun r hr => .ret (hr rfl)
    · exact Obs'.act trivial fun r h => h rfl
  · rw [if_neg hr]
    exact .ret rfl

theorem lost_helpInc {n : Nat} : Hangs (K := K) (V := V) H HN i (helpCopyIncremental C n true) := by
  unfold helpCopyIncremental
  refine Obs'.step trivial fun r hr => ?_
  obtain rfl : r = some H := hr
  refine Obs'.step trivial fun r hr => ?_
  obtain rfl : r = some HN := hr rfl
  refine Obs'.bind (fun _ => False) ?_ fun _ h => h.elim
  refine Obs'.loop (fun _ => True) trivial fun _ _ => ?_
  refine Obs'.bind _ lost_promote fun r hr => ?_
  subst hr
  rw [if_neg (by decide)]
  refine Obs'.bind (fun r => r = CopyOut.brk) ?_ fun r hr => ?_
  · refine Obs'.loop (fun _ => True) trivial fun _ _ => ?_
    refine Obs'.bind _ lost_any fun c _ => ?_
    split
    · exact .ret rfl
    · refine Obs'.bind _ lost_any fun st _ => ?_
      refine Obs'.bind _ lost_any fun m _ => ?_
      refine Obs'.bind _ lost_promote fun r hr => ?_
      subst hr
      rw [if_neg (by decide)]
      exact .ret trivial
  subst hr
  rw [if_pos rfl]
  refine Obs'.bind (fun _ => False) ?_ fun _ h => h.elim
  refine Obs'.loop (fun _ => True) trivial fun m _ => ?_
  refine Obs'.step trivial fun r hr => ?_
  obtain rfl : r = .pending := hr rfl
  dsimp only
  split
  · exact .ret trivial
  · exact Obs'.step trivial fun r hr => (hr rfl).elim

variable (hb : C.mode ≠ .blocking)
include hb

theorem lost_helpCopy {T : Table} : Hangs (K := K) (V := V) H HN i (helpCopy C true T) := by
  unfold helpCopy
  split
  · exact absurd ‹_› hb
  · exact Obs'.bind _ lost_helpInc fun _ h => h.elim

theorem lost_linearize : Hangs (K := K) (V := V) H HN i (linearize C H) := by
  have hinc : C.inc = true := by unfold Cfg.inc; cases h : C.mode <;> first | rfl | exact absurd h hb
  unfold linearize
  rw [if_pos hinc]
  refine Obs'.loop (fun T => T = H) rfl fun T hT => ?_
  subst hT
  refine Obs'.step trivial fun r hr => ?_
  obtain rfl : r = some HN := hr rfl
  exact Obs'.bind _ (lost_helpCopy hb) fun _ h => h.elim

theorem lost_iter {lim : Option Nat} : Hangs H HN i (iterUpTo C lim : Prog K V _) := by
  unfold iterUpTo
  refine Obs'.step trivial fun r hr => ?_
  obtain rfl : r = some H := hr
  exact Obs'.bind _ (lost_linearize hb) fun _ h => h.elim

theorem lost_clear : Hangs H HN i (clear C : Prog K V Unit) := by
  unfold clear
  refine Obs'.step trivial fun r hr => ?_
  obtain rfl : r = some H := hr
  refine Obs'.loop (fun T => T = H) rfl fun T hT => ?_
  subst hT
  exact Obs'.bind _ (lost_linearize hb) fun _ h => h.elim

theorem lost_retain {f : Closure (K × V) Bool} : Hangs H HN i (retain C f) := by
  unfold retain
  refine Obs'.step trivial fun r hr => ?_
  obtain rfl : r = some H := hr
  refine Obs'.loop (fun s => s.1 = H) rfl fun s hs => ?_
  obtain ⟨T, st⟩ := s
  obtain rfl : T = H := hs
  exact Obs'.bind _ (lost_linearize hb) fun _ h => h.elim

theorem lost_reserve {n : Nat} (hn : H.len < n) : Hangs (V := V) H HN i (reserve C n : Prog K V Unit) := by
  unfold reserve
  refine Obs'.bind (fun T => T = H) (Obs'.step trivial fun r hr => ?_) fun T hT => ?_
  · obtain rfl : r = some H := hr
    exact .ret rfl
  subst hT
  refine Obs'.loop (fun T' => T' = T) rfl fun T' hT => ?_
  subst hT
  refine Obs'.bind _ lost_any fun m _ => ?_
  split
  · split
    · exact lost_panic
    · rename_i c hc
      have h1 : m + n ≤ c := by
        unfold entriesFor at hc
        split at hc
        · have := nextPowerOfTwo_ge ((m + n) * 8 / 6)
          cases hc; omega
        · cases hc
      rw [if_neg (by omega)]
      refine Obs'.bind _ lost_any fun _ _ => ?_
      exact Obs'.bind _ (lost_helpCopy hb) fun _ h => h.elim
  · exact lost_panic

/-- The operations that finish all resizes before they return. -/
theorem lost_finishing [DecidableEq K] {c : Call K V} (hc : c = .iter ∨ (∃ n, c = .iterTake n) ∨ c = .clear ∨ (∃ f, c = .retain f) ∨
    ∃ n, H.len < n ∧ c = .reserve n) : Hangs H HN i (c.prog C) := by
  rcases hc with rfl | ⟨n, rfl⟩ | rfl | ⟨f, rfl⟩ | ⟨n, hn, rfl⟩
  · exact lost_iter hb
  · exact lost_iter hb
  · exact lost_clear hb
  · exact lost_retain hb
  · exact lost_reserve hb hn

end Papaya
