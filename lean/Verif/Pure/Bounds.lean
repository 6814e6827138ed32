import Mathlib.Data.Bool.Basic
import Mathlib.Tactic.Tauto

/-! Auto-trait bounds — src/map.rs:15-36, src/set.rs:19-25. -/

namespace Papaya.Bounds

/-- The two auto traits of a Rust type. -/
structure Ty where
  send : Bool
  sync : Bool
deriving DecidableEq

/-- `unsafe impl<K: Send, V: Send, S: Send> Send for HashMap<K, V, S>` — src/map.rs:23. -/
def mapSend (K V S : Ty) : Bool := K.send && V.send && S.send
/-- `unsafe impl<K: Send + Sync, V: Send + Sync, S: Sync> Sync for HashMap<K, V, S>` — src/map.rs:36. -/
def mapSync (K V S : Ty) : Bool := (K.send && K.sync) && (V.send && V.sync) && S.sync
/-- `unsafe impl<K: Send, S: Send> Send for HashSet<K, S>` — src/set.rs:24. -/
def setSend (K S : Ty) : Bool := K.send && S.send
/-- `unsafe impl<K: Sync, S: Sync> Sync for HashSet<K, S>` — src/set.rs:25. -/
def setSync (K S : Ty) : Bool := K.sync && S.sync

/-- What a thread can do to an element of type `T` through a shared reference `&Map`: borrow an element put there by
another thread (`get`, needs `T: Sync`) and move its own element in, to be dropped by another thread (`insert`,
reclamation; needs `T: Send`). Sound iff both auto traits hold. -/
def sharedUseSound (T : Ty) : Prop := T.send = true ∧ T.sync = true

/-- What moving a whole map to another thread does to an element: it moves. -/
def moveSound (T : Ty) : Prop := T.send = true

end Papaya.Bounds
