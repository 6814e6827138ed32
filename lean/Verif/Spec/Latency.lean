import Verif.Spec.Progress

/-! # How much of a resize an operation does

A slot of the old table is moved by marking it (`fetch_or(COPYING)`) and copying its entry, if any, to the new table. -/

namespace Papaya

variable {K V : Type} [DecidableEq K]

/-- The next action of the operation of guard `t` marks a slot as being moved (the first action of `copy_at_slot_*`). -/
def Moving (ps : PSt K V) (t : Tid) : Prop :=
  ∃ (c : Call K V) (T i : Nat) (k : Slot K V → Prog K V c.Res), ps.th t = .run c (.act (.fetchOrCopying T i) k)

/-- An execution in which guard `t` starts moving `n` slots. -/
inductive MovesBy (C : Cfg K) (t : Tid) : Nat → PSt K V → PSt K V → Prop
  | refl {ps} : MovesBy C t 0 ps ps
  | move {n ps q ps'} (h : MovesBy C t n ps q) (hm : Moving q t) (hs : OwnStep C t q ps') : MovesBy C t (n + 1) ps ps'
  | other {n ps q ps'} (h : MovesBy C t n ps q) (hs : Step C q ps') (hn : ¬ (Moving q t ∧ OwnStep C t q ps')) : MovesBy C t n ps ps'

/-- How many slots a call may move in incremental mode with the given chunk size; `none`: any number. -/
def Call.moveBound (chunk : Nat) : Call K V → Option Nat
  | .insert _ _ | .tryInsert _ _ | .getOrInsert _ _ | .remove _ | .removeIf _ _ => some chunk
  | .get _ | .containsKey _ | .len | .isEmpty => some 0
  | .compute _ _ | .update _ _ | .updateOrInsert _ _ _ | .updateOrInsertWith _ _ _ | .tryInsertWith _ _ | .getOrInsertWith _ _ => some 0
  | .clear | .retain _ | .iter | .iterTake _ | .reserve _ => none

end Papaya
