import Verif.Spec.Contents

/-! # Specification: memory safety

What each atomic action requires of the memory it accesses. -/

namespace Papaya

variable {K V : Type}

/-- Table `T` is allocated and has not been freed. -/
def St.TableAlive (σ : St K V) (T : Nat) : Prop := T < σ.nTabs ∧ σ.tabFreed T = false

/-- The allocation of the entry exists and has not been freed. -/
def St.EntryAlive (σ : St K V) (e : Entry K V) : Prop := e.id < σ.nIds ∧ σ.freed e.id = false

/-- The entry has been handed to the collector, directly or through the deferred list of a table. -/
def St.HandedOver (σ : St K V) (x : Nat) : Prop := σ.retired x = true ∨ ∃ P, ∃ e ∈ σ.deferred P, e.id = x

/-- The action touches only live memory, in bounds, and retires nothing twice or too early; pointers are compared only if
both are null or point to live memory. -/
def Act.Safe (σ : St K V) : {β : Type} → Act K V β → Prop
  | _, .loadRoot => True
  | _, .peekRoot => True
  | _, .casRootInit _ => True
  | _, .loadNext T => σ.TableAlive T
  | _, .tryLock T => σ.TableAlive T
  | _, .lockWait T => σ.TableAlive T
  | _, .unlock T => σ.TableAlive T
  | _, .poison T => σ.TableAlive T
  | _, .storeNext T _ => σ.TableAlive T
  | _, .loadMd T i => σ.TableAlive T ∧ i < σ.cap T
  | _, .storeMd T i _ => σ.TableAlive T ∧ i < σ.cap T
  | _, .loadSlot T i => σ.TableAlive T ∧ i < σ.cap T
  | _, .cas _ T i exp _ => σ.TableAlive T ∧ i < σ.cap T ∧ (∀ e, exp.ptr = some e → σ.EntryAlive e) ∧
      ∀ e, (σ.slot T i).ptr = some e → σ.EntryAlive e
  | _, .casNew _ T i exp _ _ => σ.TableAlive T ∧ i < σ.cap T ∧ (∀ e, exp.ptr = some e → σ.EntryAlive e) ∧
      ∀ e, (σ.slot T i).ptr = some e → σ.EntryAlive e
  | _, .fetchOrCopying T i => σ.TableAlive T ∧ i < σ.cap T
  | _, .storeSlot T i _ => σ.TableAlive T ∧ i < σ.cap T
  | _, .loadStatus T => σ.TableAlive T
  | _, .parkStatus T => σ.TableAlive T
  | _, .parkSlot T i => σ.TableAlive T ∧ i < σ.cap T
  | _, .unparkStatus T => σ.TableAlive T
  | _, .unparkSlot T i => σ.TableAlive T ∧ i < σ.cap T
  | _, .storeStatus T _ => σ.TableAlive T
  | _, .loadClaim T => σ.TableAlive T
  | _, .addClaim T _ _ => σ.TableAlive T
  | _, .loadCopied T => σ.TableAlive T
  | _, .addCopied T _ _ => σ.TableAlive T
  | _, .casRoot T _ => σ.TableAlive T ∧ ∀ r, σ.root = some r → σ.TableAlive r
  | _, .sameTable T T' => σ.TableAlive T ∧ σ.TableAlive T'
  | _, .sameEntry x y => (x < σ.nIds ∧ σ.freed x = false) ∧ y < σ.nIds ∧ σ.freed y = false
  | _, .deref e => σ.EntryAlive e
  -- not freed, not yet handed over, and only tables before the root still point to it
  | _, .retire e => σ.freed e.id = false ∧ ¬ σ.HandedOver e.id ∧ ∀ T i, σ.Ptr T i e → T < σ.rootIx
  | _, .retireTable T => σ.TableAlive T ∧ σ.tabRetired T = false ∧ T < σ.rootIx
  -- likewise, but tables up to `T` may still point to it: it will be freed with `T`
  | _, .pushDeferred T e => σ.TableAlive T ∧ σ.freed e.id = false ∧ ¬ σ.HandedOver e.id ∧ ∀ T' i, σ.Ptr T' i e → T' ≤ T
  | _, .loadShard _ => True
  | _, .addCount _ => True

end Papaya
