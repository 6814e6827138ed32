import Verif.Model.Own

/-! # Vocabulary for the ownership of keys and values (C64) -/

namespace Papaya

variable {K V : Type}

/-- The values a closure passed to `compute` has returned in a sequence of calls, in order. -/
def madeVals {R : Type} (calls : List (Option (K × V) × Operation V R)) : List V :=
  calls.flatMap fun c =>
    match c.2 with
    | .insert v => [v]
    | .remove => []
    | .abort _ => []

/-- The entry that `compute` says it has put into the map. -/
def Compute.published {R : Type} : Compute K V R → List (Entry K V)
  | .inserted e => [e]
  | .updated _ new => [new]
  | .removed _ => []
  | .aborted _ _ => []

/-- The entry that `insert` or `try_insert` says it has put into the map. -/
def InsRes.published : InsRes K V → List (Entry K V)
  | .inserted e => [e]
  | .replaced _ new => [new]
  | .error _ _ => []

/-- The value that `insert` or `try_insert` hands back to its caller. -/
def InsRes.handedBack : InsRes K V → List V
  | .inserted _ => []
  | .replaced _ _ => []
  | .error _ v => [v]

/-- The calls that are made by way of `compute`, with the closure that is passed to it — src/raw/mod.rs:1390-1506. -/
inductive Call.Computes [DecidableEq K] : Call K V → (R : Type) → K → Closure (Option (K × V)) (Operation V R) → Prop
  | compute {R : Type} (k : K) (f : Closure (Option (K × V)) (Operation V R)) : Computes (.compute k f) R k f
  | tryInsertWith (k : K) (f : Closure Unit V) : Computes (.tryInsertWith k f) V k (tryInsertClosure f)
  | getOrInsertWith (k : K) (f : Closure Unit V) : Computes (.getOrInsertWith k f) V k (tryInsertClosure f)
  | update (k : K) (f : Closure V V) : Computes (.update k f) Unit k (updateClosure f)
  | updateOrInsertWith (k : K) (u : Closure V V) (f : Closure Unit V) :
      Computes (.updateOrInsertWith k u f) Unit k (updateOrInsertClosure u f)
  | updateOrInsert (k : K) (u : Closure V V) (v : V) :
      Computes (.updateOrInsert k u v) Unit k (updateOrInsertClosure u (Closure.pure fun _ => v))

end Papaya
