import Verif.Spec.Quiet

/-! # Specification: calls executed alone -/

namespace Papaya

variable {K V : Type} [DecidableEq K]

/-- Between `ps` and `ps'` the operation `c` is called (call number `o`) and no other call is running or is
made: all earlier calls have ended. -/
structure Solo (C : Cfg K) (ps ps' : PSt K V) (o : OpId) (c : Call K V) : Prop where
  reach : Reach C ps
  steps : Steps C ps ps'
  quiet : ∀ o' c', HEv.inv o' c' ∈ ps.hist → Ended ps.hist o'
  fresh : HEv.inv o c ∉ ps.hist
  called : HEv.inv o c ∈ ps'.hist
  others : ∀ o' c', HEv.inv o' c' ∈ ps'.hist → HEv.inv o' c' ∉ ps.hist → o' = o

/-- The whole probe sequence of a key (`limit n + 1` slots of the only table, which has `n`) is occupied, the capacity chosen for the next
table is the same, and the allocation succeeds. -/
structure Crowded (C : Cfg K) (n : Nat) (ps : PSt K V) : Prop where
  /-- blocking resizing, a constant hash function -/
  mode : C.mode = .blocking
  hash : ∀ k k', C.hash k = C.hash k'
  /-- the table has `n` slots, and such a table can be allocated -/
  table : ps.mem.root = some 0 ∧ ps.mem.nTabs = 1 ∧ ps.mem.cap 0 = n
  size : 8 ≤ n ∧ n ≤ isizeMax ∧ isPow2B n = true ∧ C.layoutOk n = true ∧ ps.mem.lock 0 ≠ .poisoned
  /-- as many keys as a probe sequence is long -/
  keys : HasKeys ps.mem (limit n + 1)
  /-- neither growing nor shrinking -/
  same : nextCapacity C.initialCapacity n (((List.range (C.shards + 1)).map ps.mem.shard).sum).toNat = n

/-- The keys do not fit into the probe sequence of one table, all tables have `n` slots, the capacity chosen for the next table is the
same, and the allocation succeeds. -/
structure Overfull (C : Cfg K) (n : Nat) (ps : PSt K V) : Prop where
  /-- incremental resizing, a constant hash function -/
  mode : C.mode ≠ .blocking
  hash : ∀ k k', C.hash k = C.hash k'
  /-- the tables have `n` slots, and such a table can be allocated -/
  tables : ps.mem.root ≠ none ∧ ∀ T, T < ps.mem.nTabs → ps.mem.cap T = n
  size : 8 ≤ n ∧ n ≤ isizeMax ∧ isPow2B n = true ∧ C.layoutOk n = true ∧ ∀ T, ps.mem.lock T ≠ .poisoned
  /-- more keys than a probe sequence is long -/
  keys : ∃ m, HasKeys ps.mem m ∧ limit n + 1 < m
  /-- neither growing nor shrinking -/
  same : nextCapacity C.initialCapacity n (((List.range (C.shards + 1)).map ps.mem.shard).sum).toNat = n

/-- The operations that finish all pending resizes before they return: iteration, `clear`, `retain`, and `reserve`, if the
reservation needs more than `n` slots. -/
def Finishing (C : Cfg K) (n : Nat) (σ : St K V) : Call K V → Prop
  | .iter | .iterTake _ | .clear | .retain _ => True
  | .reserve a => ∃ c, entriesFor ((((List.range (C.shards + 1)).map σ.shard).sum).toNat + a) = some c ∧ n < c
  | _ => False

/-- No resize is pending: there is no table after the root table (or no table at all). -/
def NoResize (σ : St K V) : Prop := ∀ r, σ.root = some r → σ.next r = none

/-- One of the slots probed for the key `k` in the root table is free, or has this key. -/
def HasRoom (C : Cfg K) (k : K) (σ : St K V) : Prop :=
  ∀ r, σ.root = some r → ∃ n, n ≤ limit (σ.cap r) ∧ ∃ i, i = (Probe.after (C.h1 k) (σ.cap r - 1) n).i ∧
    (σ.slot r i = Slot.null ∨ ∃ e, (σ.slot r i).ptr = some e ∧ e.key = k)

/-- The operations that never insert a key. -/
def Call.neverInserts : Call K V → Prop
  | .get _ | .containsKey _ | .update _ _ | .remove _ | .removeIf _ _ | .clear | .retain _ | .iter | .iterTake _ | .len | .isEmpty => True
  | .compute _ f => ∀ s s' v, f.call s none ≠ .ok (s', .insert v)
  | _ => False

/-! ## Counting the steps of an operation that runs alone -/

/-- This result is not a spurious failure: a (weak) compare-exchange fails only if the slot has another value than the expected one. -/
def NoSpurious (σ : St K V) : {β : Type} → Act K V β → β → Prop
  | _, .cas _ T i exp _, r => r ≠ none → σ.slot T i ≠ exp
  | _, .casNew _ T i exp _ _, r => (∃ s, r = .inr s) → σ.slot T i ≠ exp
  | _, _, _ => True

/-- Guard `t` executes one step of its current operation. Unless `spurious` is true, weak compare-exchanges do not fail spuriously. -/
inductive SoloStep (C : Cfg K) (t : Tid) (spurious : Bool) : PSt K V → PSt K V → Prop
  /-- an atomic action -/
  | act {ps} {c : Call K V} {β : Type} {a : Act K V β} {k : β → Prog K V c.Res} {r : β} {σ : St K V}
      (h : ps.th t = .run c (.act a k)) (he : Exec C t a ps.mem r σ) (hs : spurious = false → NoSpurious ps.mem a r) :
      SoloStep C t spurious ps { ps with mem := σ, th := setTh ps.th t (.run c (k r)) }
  /-- a loop is entered or repeated -/
  | loop {ps} {c : Call K V} {β σ : Type} {body : σ → Prog K V (σ ⊕ β)} {s : σ} {k : β → Prog K V c.Res}
      (h : ps.th t = .run c (.iter body s k)) :
      SoloStep C t spurious ps { ps with th := setTh ps.th t (.run c (Prog.unfoldIter body s k)) }
  /-- the operation returns -/
  | ret {ps} {c : Call K V} {r : c.Res} (h : ps.th t = .run c (.ret r)) :
      SoloStep C t spurious ps { ps with
        th := setTh ps.th t .idle
        held := fun u => if u = t then c.refs r ++ ps.held t else ps.held u
        hist := ps.hist ++ [.ret (t, ps.seq t) c r] }
  /-- the operation panics -/
  | panic {ps} {c : Call K V} {why : PanicReason} (h : ps.th t = .run c (.panic why)) :
      SoloStep C t spurious ps { ps with
        th := setTh ps.th t .idle
        hist := ps.hist ++ [.panic (t, ps.seq t) c why] }

/-- These are steps of the system. -/
theorem SoloStep.step {C : Cfg K} {t : Tid} {b : Bool} {ps ps' : PSt K V} (h : SoloStep C t b ps ps') : Step C ps ps' := by
  cases h with
  | act h he _ => exact .act t h he
  | loop h => exact .loop t h
  | ret h => exact .ret t h
  | panic h => exact .panic t h

/-- Guard `t` executes `n` steps of its current operation, and nothing else happens. -/
inductive SoloRun (C : Cfg K) (t : Tid) (spurious : Bool) : Nat → PSt K V → PSt K V → Prop
  | refl {ps} : SoloRun C t spurious 0 ps ps
  | step {n ps q ps'} (hs : SoloStep C t spurious ps q) (h : SoloRun C t spurious n q ps') : SoloRun C t spurious (n + 1) ps ps'

/-- In `ps`, guard `t` calls `c`; this is the state right after the call. -/
def PSt.call (C : Cfg K) (ps : PSt K V) (t : Tid) (c : Call K V) : PSt K V :=
  { ps with
    th := setTh ps.th t (.run c (c.prog C))
    seq := fun u => if u = t then ps.seq t + 1 else ps.seq u
    hist := ps.hist ++ [.inv (t, ps.seq t + 1) c] }

/-- Called in `ps` by guard `t` and executed alone, the operation `c` takes a bounded number of steps, it is never stuck, and in the
end it has returned or panicked. -/
def EndsAlone (C : Cfg K) (t : Tid) (spurious : Bool) (ps : PSt K V) (c : Call K V) : Prop :=
  ∃ N, ∀ n ps', SoloRun C t spurious n (ps.call C t c) ps' → n ≤ N ∧
    ((∃ q, SoloStep C t spurious ps' q) ∨
      (∃ r, ps'.hist = (ps.call C t c).hist ++ [.ret (t, ps.seq t + 1) c r]) ∨
      (∃ w, ps'.hist = (ps.call C t c).hist ++ [.panic (t, ps.seq t + 1) c w]))

/-- The key of an operation on a single key. -/
def Call.key? : Call K V → Option K
  | .get k | .containsKey k | .insert k _ | .tryInsert k _ | .tryInsertWith k _ | .getOrInsert k _ | .getOrInsertWith k _ | .update k _
  | .updateOrInsert k _ _ | .updateOrInsertWith k _ _ | .compute k _ | .remove k | .removeIf k _ => some k
  | .clear | .retain _ | .iter | .iterTake _ | .len | .isEmpty | .reserve _ => none

end Papaya
