import Verif.Model.Pool

/-! # A blocking resize whose copier is gone -/

namespace Papaya

variable {K V : Type}

/-- No operation is running: every guard is idle, dropped, or its operation was abandoned (by a panic of the user's `Hash`, or because its
thread was killed). -/
def Unattended (ps : PSt K V) : Prop := ∀ t c p, ps.th t ≠ .run c p

/-- The table in use is `s`; it is being copied to the table `N`; every slot has been claimed by some copier (`claim`), but they have not
all been reported as copied (`copied`), and the resize is neither promoted nor aborted. -/
structure Orphaned (ps : PSt K V) (s N : Nat) : Prop where
  root : ps.mem.root = some s
  next : ps.mem.next s = some N
  status : ps.mem.status N = .pending
  claimed : ps.mem.cap s ≤ ps.mem.claim N
  missing : ps.mem.copied N ≠ ps.mem.cap s

/-- The operation of guard `t` is waiting for the end of the resize towards the table `N`. -/
def WaitsFor (ps : PSt K V) (t : Tid) (N : Nat) : Prop := ∃ c k, ps.th t = .run c (.act (.parkStatus N) k)

/-- Slot `i` of the table in use `s` has been frozen for the copy of its entry `e` to the next table (incremental resizing), but the
entry has neither been placed in another table nor has the slot been released. (The key of `e` is hashed by the copier in this state.) -/
structure FrozenSlot (ps : PSt K V) (s i : Nat) (e : Entry K V) : Prop where
  root : ps.mem.root = some s
  entry : (ps.mem.slot s i).ptr = some e
  copying : (ps.mem.slot s i).copying = true
  copied : (ps.mem.slot s i).copied = false
  alone : ∀ T j, (ps.mem.slot T j).ptr = some e → T = s

/-- The state after the operation of guard `t` has been abandoned. -/
def PSt.kill (ps : PSt K V) (t : Tid) : PSt K V := { ps with th := setTh ps.th t .gone }

/-- The operation of guard `t` is waiting for the copy of slot `i` of table `s`. -/
def WaitsSlot (ps : PSt K V) (t : Tid) (s i : Nat) : Prop := ∃ c k, ps.th t = .run c (.act (.parkSlot s i) k)

/-- The operations that complete all resizes in progress before they return: `iter`, `clear`, `retain`, and a reservation for more than `n`
elements. -/
def FinishesResize (n : Nat) : Call K V → Prop
  | .iter | .iterTake _ | .clear | .retain _ => True
  | .reserve m => n < m
  | _ => False

end Papaya
