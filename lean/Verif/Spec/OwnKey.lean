import Verif.Spec.Deadlock
import Verif.Spec.Stall
import Verif.Spec.Solo

/-! # What an operation on one key waits for -/

namespace Papaya

variable {K V : Type}

/-- The operation of guard `t` is waiting for the mutex under which the successor of table `T` is allocated. -/
def WaitsLock (ps : PSt K V) (t : Tid) (T : Nat) : Prop := ∃ c k, ps.th t = .run c (.act (.lockWait T) k)

/-- An entry of the key `k` is being copied: its slot is frozen, and the copy is not complete. -/
def St.CopyingKey (σ : St K V) (k : K) : Prop :=
  ∃ T i e, (σ.slot T i).ptr = some e ∧ e.key = k ∧ (σ.slot T i).copying = true ∧ (σ.slot T i).copied = false

/-- Some slot of some table has an entry of the key `k` (current, or left behind by a copy). -/
def St.Stores (σ : St K V) (k : K) : Prop := ∃ T i e, (σ.slot T i).ptr = some e ∧ e.key = k

/-- Some operation holds a mutex under which the successor of a table is allocated. -/
def St.Allocating (σ : St K V) : Prop := ∃ T t, σ.lock T = .held t

end Papaya
