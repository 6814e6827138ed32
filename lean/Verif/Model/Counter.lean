import Verif.Model.Wrap

/-! # The shards of the length counter are 64-bit words

`Counter` (src/raw/utils/counter.rs:12) is an array of `AtomicIsize`: `fetch_add` and `fetch_sub` wrap around at `2 ^ 63`, and
`Counter::sum` (45-53) adds up `isize`s, which panics (debug builds) or wraps around (release builds) on overflow. In `Step` the
shards are unbounded integers. Here is the system in which they are words, for comparing the two. -/

namespace Papaya

variable {K V : Type}

/-- The shards, reduced to `isize` (two's complement, 64-bit targets) — `AtomicIsize::fetch_add`, src/raw/mod.rs:414, 786, 1074,
1183, 1615, 1772. -/
def PSt.wrapShards (ps : PSt K V) : PSt K V :=
  { ps with mem := { ps.mem with shard := fun j => (ps.mem.shard j).bmod (2 ^ 64) } }

variable [DecidableEq K]

/-- `ex 0, …, ex n` is an execution with unbounded shards, from the creation of the map on. -/
def IsExec (C : Cfg K) (n : Nat) (ex : Nat → PSt K V) : Prop := IsInit C (ex 0) ∧ ∀ i, i < n → Step C (ex i) (ex (i + 1))

/-- … with shards that are words. -/
def IsWordExec (C : Cfg K) (n : Nat) (ex : Nat → PSt K V) : Prop :=
  IsInit C (ex 0) ∧ ∀ i, i < n → ∃ q, Step C (ex i) q ∧ ex (i + 1) = q.wrapShards

end Papaya
