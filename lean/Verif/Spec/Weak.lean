import Verif.Model.Weak
import Verif.Spec.Solo

/-! # What is claimed about executions on weakly ordered memory -/

namespace Papaya

variable {K V : Type}

namespace View

/-- The table at `T` has been initialised, as far as a thread with this view can tell. -/
def HasTab (W : View K V) (T : Nat) : Prop := ∃ H, W.tab H ∧ H.id = T

/-- Likewise, and `i` is one of its indices. -/
def HasIx (W : View K V) (T i : Nat) : Prop := ∃ H, W.tab H ∧ H.id = T ∧ i < H.len

/-- Likewise for the entry that `s` points to, if any. -/
def HasPtr (W : View K V) (s : Slot K V) : Prop := ∀ e, s.ptr = some e → W.ent e

end View

/-- Everything that the action accesses has been initialised before (the initialisation happens before it), indices are
within bounds, and so has everything whose address it writes to shared memory or hands over to the collector. -/
def Act.Visible (W : View K V) : {β : Type} → Act K V β → Prop
  | _, .loadRoot => True
  | _, .peekRoot => True
  | _, .casRootInit _ => True
  | _, .loadNext T => W.HasTab T
  | _, .tryLock T => W.HasTab T
  | _, .lockWait T => W.HasTab T
  | _, .unlock T => W.HasTab T
  | _, .poison T => W.HasTab T
  | _, .storeNext T _ => W.HasTab T
  | _, .loadMd T i => W.HasIx T i
  | _, .storeMd T i _ => W.HasIx T i
  | _, .loadSlot T i => W.HasIx T i
  | _, .cas _ T i _ new => W.HasIx T i ∧ W.HasPtr new
  | _, .casNew _ T i _ _ _ => W.HasIx T i
  | _, .fetchOrCopying T i => W.HasIx T i
  | _, .storeSlot T i s => W.HasIx T i ∧ W.HasPtr s
  | _, .loadStatus T => W.HasTab T
  | _, .parkStatus T => W.HasTab T
  | _, .parkSlot T i => W.HasIx T i
  | _, .unparkStatus T => W.HasTab T
  | _, .unparkSlot T i => W.HasIx T i
  | _, .storeStatus T _ => W.HasTab T
  | _, .loadClaim T => W.HasTab T
  | _, .addClaim T _ _ => W.HasTab T
  | _, .loadCopied T => W.HasTab T
  | _, .addCopied T _ _ => W.HasTab T
  | _, .casRoot T N => W.HasTab T ∧ W.HasTab N
  | _, .sameTable _ _ => True
  | _, .sameEntry _ _ => True
  | _, .deref e => W.ent e
  | _, .retire e => W.ent e
  | _, .retireTable T => W.HasTab T
  | _, .pushDeferred T e => W.HasTab T ∧ W.ent e
  | _, .loadShard _ => True
  | _, .addCount _ => True

/-- As long as its inputs satisfy `A`, the closure's answers satisfy `B`. -/
def Closure.Maps {I O : Type} (f : Closure I O) (A : I → Prop) (B : I → O → Prop) : Prop :=
  ∃ J : f.S → Prop, J f.init ∧ ∀ s i s' o, J s → A i → f.call s i = .ok (s', o) → J s' ∧ B i o

/-- The operation supplies only values `v` for key `k` that satisfy `D k v`; those it computes with a closure do if the
values it passes to the closure do. -/
def Call.Keeps (D : K → V → Prop) : Call K V → Prop
  | .insert k v | .tryInsert k v | .getOrInsert k v => D k v
  | .tryInsertWith k f | .getOrInsertWith k f => f.Maps (fun _ => True) fun _ v => D k v
  | .update k f => f.Maps (D k) fun _ v => D k v
  | .updateOrInsert k u v => u.Maps (D k) (fun _ v => D k v) ∧ D k v
  | .updateOrInsertWith k u f => u.Maps (D k) (fun _ v => D k v) ∧ f.Maps (fun _ => True) fun _ v => D k v
  | .compute k f => f.Maps (fun i => ∀ kv, i = some kv → kv.1 = k ∧ D k kv.2) fun _ o => ∀ v, o = .insert v → D k v
  | _ => True

end Papaya
