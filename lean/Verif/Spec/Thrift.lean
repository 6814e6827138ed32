import Verif.Spec.Quiet

/-! # Specification: a map that never has many keys, changed by one call at a time -/

namespace Papaya

variable {K V : Type} [DecidableEq K]

/-- Operations that only look at the map (`iter` may have to finish a resize). -/
def Call.looks : Call K V → Prop
  | .get _ | .containsKey _ | .len | .isEmpty => True
  | _ => False

/-- No call that may write is running. -/
def OnlyLooks (ps : PSt K V) : Prop := ∀ t c p, ps.th t = .run c p → c.looks

/-- In this state of the system the map is in careful hands: at most `N` keys between the calls, at most one call that may write at a
time (lookups may be running), none of them abandoned, and nobody reserves more than `M` slots. -/
structure WithinLimits (N M : Nat) (ps : PSt K V) : Prop where
  single : ∀ t t' c c' p p', ps.th t = .run c p → ps.th t' = .run c' p' → ¬ c.looks → ¬ c'.looks → t = t'
  alive : ∀ t, ps.th t ≠ .gone
  few : OnlyLooks ps → ∀ n, HasKeys ps.mem n → n ≤ N
  reserved : ∀ t a p, ps.th t = .run (.reserve a) p → ∀ n c, n ≤ N → entriesFor (n + a) = some c → c ≤ M

/-- The executions that have always been like that. -/
inductive OneByOne (C : Cfg K) (N M : Nat) : PSt K V → Prop
  | init {ps} (h : IsInit C ps) (hf : WithinLimits N M ps) : OneByOne C N M ps
  | step {ps ps'} (h : OneByOne C N M ps) (hs : Step C ps ps') (hf : WithinLimits N M ps') : OneByOne C N M ps'

end Papaya
