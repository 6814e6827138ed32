import Verif.Model.Pool

/-! # The counters of a copy are 64-bit words

`State::claim` and `State::copied` (src/raw/mod.rs:53, 57) are `AtomicUsize`: `fetch_add` wraps around at `2 ^ 64` silently. In
`Step` they are unbounded. Here is the system with the wrap-around, for comparing the two. -/

namespace Papaya

variable {K V : Type}

/-- One more than the largest `usize` (64-bit targets). -/
def wordSize : Nat := 2 ^ 64

/-- The counters of all tables, reduced to words — src/raw/mod.rs:2043 and 2220 (`claim.fetch_add`), 2457 (`copied.fetch_add`). -/
def PSt.wrap (ps : PSt K V) : PSt K V :=
  { ps with mem := { ps.mem with
      claim := fun T => ps.mem.claim T % wordSize
      copied := fun T => ps.mem.copied T % wordSize } }

variable [DecidableEq K]

/-- At most `n` operations are under way, and no table has more than `m` slots. -/
def Small (n m : Nat) (ps : PSt K V) : Prop :=
  (∃ s : List Tid, s.length ≤ n ∧ ∀ t c p, ps.th t = .run c p → t ∈ s) ∧ ∀ T, T < ps.mem.nTabs → ps.mem.cap T ≤ m

/-- The states reachable with counters that wrap around, never more than `n` operations at a time and tables of at most `m` slots. -/
inductive ModReach (C : Cfg K) (n m : Nat) : PSt K V → Prop
  | init {ps} (h : IsInit C ps) (hs : Small n m ps) : ModReach C n m ps
  | step {ps ps'} (h : ModReach C n m ps) (hs : Step C ps ps') (hm : Small n m ps') : ModReach C n m ps'.wrap

/-- Likewise with unbounded counters. -/
inductive NatReach (C : Cfg K) (n m : Nat) : PSt K V → Prop
  | init {ps} (h : IsInit C ps) (hs : Small n m ps) : NatReach C n m ps
  | step {ps ps'} (h : NatReach C n m ps) (hs : Step C ps ps') (hm : Small n m ps') : NatReach C n m ps'

end Papaya
