import Verif.Model.Pool
import Mathlib.Logic.Function.Basic

/-! # Several maps: guards and the maps they are used with

A guard belongs to a collector, a collector to one map (`Collector` is moved into the map and is not `Clone`); `ι` names
the collectors and their maps. A collector without a map is one whose map is not used. Any guard can be passed to any
method of any map. -/

namespace Papaya

/-- A guard: the collector that created it, and its number there. -/
structure Guard (ι : Type) where
  coll : ι
  t : Tid

/-- `HashMapRef`, `HashSetRef` — src/map.rs:1268-1271, src/set.rs:713-716. -/
structure MapRef (ι : Type) where
  map : ι
  guard : Guard ι

/-- The method has a parameter `guard: &impl Guard`: all but `len` and `is_empty` — src/map.rs:370-1072. -/
def Call.takesGuard {K V : Type} : Call K V → Bool
  | .len | .isEmpty => false
  | _ => true

/-- `verify` — src/raw/mod.rs:262-274: `assert_eq!(*guard.collector(), self.collector)`. -/
def verify {ι : Type} [DecidableEq ι] (self : ι) (g : Guard ι) : Bool := decide (g.coll = self)

/-- The methods of `HashMap` and `HashSet` that begin with `self.raw.verify(guard)`, directly or because they call such a
method first — src/map.rs:426 `contains_key`, 454 `get`, 484 `get_key_value`, 513 `insert`, 548 `try_insert` (612
`get_or_insert`), 591 `try_insert_with`, 641 `get_or_insert_with`, 679 `update`, 746 `update_or_insert_with` (711
`update_or_insert`), 804 `compute`, 830 `remove`, 860 `remove_entry`, 899 `remove_if`, 924 `reserve`, 946 `clear`, 975
`retain`, 1005 `iter` (1037 `keys`, 1069 `values`); src/set.rs:372, 399, 430, 459, 487, 509, 540, 569. -/
def Call.verifies {K V : Type} : Call K V → Bool
  | .get _ => true
  | .containsKey _ => true
  | .insert _ _ => true
  | .tryInsert _ _ => true
  | .tryInsertWith _ _ => true
  | .getOrInsert _ _ => true
  | .getOrInsertWith _ _ => true
  | .update _ _ => true
  | .updateOrInsert _ _ _ => true
  | .updateOrInsertWith _ _ _ => true
  | .compute _ _ => true
  | .remove _ => true
  | .removeIf _ _ => true
  | .reserve _ => true
  | .clear => true
  | .retain _ => true
  | .iter => true
  | .iterTake _ => true
  | .len => false
  | .isEmpty => false

variable {ι : Type} [DecidableEq ι] {K V : ι → Type} [∀ i, DecidableEq (K i)]

/-- A call made by the user. -/
structure Attempt (ι : Type) where
  map : ι
  guard : Guard ι
  /-- it panicked with "Attempted to access map with incorrect guard" -/
  rejected : Bool

/-- State of a system of maps. -/
structure MSt (ι : Type) (K V : ι → Type) : Type 1 where
  maps : (i : ι) → PSt (K i) (V i)
  /-- the pinned references created so far -/
  refs : List (MapRef ι)
  /-- the calls made so far -/
  calls : List (Attempt ι)

/-- The operation `c` starts to run with guard number `t`. -/
def PSt.start {K V : Type} [DecidableEq K] (C : Cfg K) (t : Tid) (c : Call K V) (ps : PSt K V) : PSt K V :=
  { ps with
    th := setTh ps.th t (.run c (c.prog C))
    seq := fun u => if u = t then ps.seq t + 1 else ps.seq u
    hist := ps.hist ++ [.inv (t, ps.seq t + 1) c] }

/-- The operation `c` of map `i` runs with the guard `g`. -/
def MSt.run (C : (i : ι) → Cfg (K i)) (i : ι) (g : Guard ι) (c : Call (K i) (V i)) (ms : MSt ι K V) : MSt ι K V :=
  { ms with maps := Function.update ms.maps i ((ms.maps i).start (C i) g.t c), calls := ms.calls ++ [⟨i, g, false⟩] }

/-- A method of `HashMap` or `HashSet` is called: `verify` first. -/
def MSt.call (C : (i : ι) → Cfg (K i)) (i : ι) (g : Guard ι) (c : Call (K i) (V i)) (ms : MSt ι K V) : MSt ι K V :=
  if c.verifies && !verify i g then { ms with calls := ms.calls ++ [⟨i, g, true⟩] } else ms.run C i g c

/-- `pin` — src/map.rs:315-320, src/set.rs:261-266: the reference gets a new guard of this map. -/
def MSt.pin (i : ι) (t : Tid) (ms : MSt ι K V) : MSt ι K V :=
  { ms with
    maps := Function.update ms.maps i { ms.maps i with mem := (ms.maps i).mem.pin t, th := setTh (ms.maps i).th t .idle }
    refs := ms.refs ++ [⟨i, ⟨i, t⟩⟩] }

/-- One step of the system. -/
inductive MStep (C : (i : ι) → Cfg (K i)) : MSt ι K V → MSt ι K V → Prop
  /-- a step of one map other than a call: a guard is created or dropped, an operation goes on, returns, panics, is
  abandoned, the collector frees something -/
  | inner {ms} (i : ι) {q : PSt (K i) (V i)} (h : Step (C i) (ms.maps i) q) (hn : ∀ o c, q.hist ≠ (ms.maps i).hist ++ [.inv o c]) :
      MStep C ms { ms with maps := Function.update ms.maps i q }
  /-- `map.pin()` -/
  | pin {ms} (i : ι) (t : Tid) (h : (ms.maps i).th t = .out) : MStep C ms (ms.pin i t)
  /-- a method of map `i` is called with any guard that exists and is not in use -/
  | call {ms} (i : ι) (g : Guard ι) (c : Call (K i) (V i)) (hg : (ms.maps g.coll).th g.t = .idle) (hwf : c.WF)
      (hl : c.takesGuard = false → g.coll = i) : MStep C ms (ms.call C i g c)
  /-- a method of a pinned reference is called: no check — src/map.rs:1273-1547 -/
  | callRef {ms} (r : MapRef ι) (hr : r ∈ ms.refs) (c : Call (K r.map) (V r.map))
      (hg : (ms.maps r.guard.coll).th r.guard.t = .idle) (hwf : c.WF) : MStep C ms (ms.run C r.map r.guard c)

/-- The reachable states. -/
inductive MReach (C : (i : ι) → Cfg (K i)) : MSt ι K V → Prop
  | init {ms} (h : ∀ i, IsInit (C i) (ms.maps i)) (hr : ms.refs = []) (hc : ms.calls = []) : MReach C ms
  | step {ms ms'} (h : MReach C ms) (hs : MStep C ms ms') : MReach C ms'

end Papaya
