import Verif.Model.Pool

/-! # Guards used by several operations at the same time

In `Verif/Model/Pool.lean` a guard runs one operation at a time. A guard is only borrowed by the operations: an
`OwnedGuard` can be shared between threads, an iterator can be interleaved with other calls made with the same guard
(`for (k, _) in map.iter(&guard) { map.remove(k, &guard) }`), a closure can call the map with the guard that was passed to
`compute`: the operations take `guard: &impl Guard` (src/map.rs:315-365 `pin`, `pin_owned`, `guard`, `owned_guard`;
src/raw/mod.rs:249-274 `guard`, `owned_guard`, `verify`; src/raw/utils/mod.rs:15-60 `MapGuard`). Here the operations are executed in call slots, `gd t` is the guard used in slot `t`, and any number of slots
use the same guard. -/

namespace Papaya

variable {K V : Type}

/-- State of the whole system. -/
structure SSt (K V : Type) : Type 1 where
  /-- shared memory; `pinned`, `blockers` and `tabBlockers` are about guards -/
  mem : St K V
  /-- the call slots: `out` when free -/
  th : Tid → Th K V
  /-- number of operations started in each slot -/
  seq : Tid → Nat
  /-- references handed out and still usable: those obtained with the guard since it was created -/
  held : Tid → List (Entry K V)
  hist : List (HEv K V)

variable [DecidableEq K]

/-- One step of the system. -/
inductive SStep (C : Cfg K) (gd : Tid → Tid) : SSt K V → SSt K V → Prop
  /-- guard `g` is created -/
  | pin {ss} (g) (h : ss.mem.pinned g = false) : SStep C gd ss { ss with mem := ss.mem.pin g }
  /-- guard `g` is dropped: no operation borrows it any more; operations that stopped in the middle (an iterator that was
  dropped, say) do not matter -/
  | unpin {ss} (g) (h : ∀ t c p, gd t = g → ss.th t ≠ .run c p) :
      SStep C gd ss { ss with mem := ss.mem.unpin g, held := fun u => if u = g then [] else ss.held u }
  /-- an operation stops forever, or is cancelled -/
  | abandon {ss} (t) {c p} (h : ss.th t = .run c p) : SStep C gd ss { ss with th := setTh ss.th t .gone }
  /-- an operation is called with the guard of the slot -/
  | inv {ss} (t) (c : Call K V) (h : ss.th t = .out) (hg : ss.mem.pinned (gd t) = true) (hwf : c.WF) :
      SStep C gd ss { ss with
        th := setTh ss.th t (.run c (c.prog C))
        seq := fun u => if u = t then ss.seq t + 1 else ss.seq u
        hist := ss.hist ++ [.inv (t, ss.seq t + 1) c] }
  /-- an atomic action of an operation -/
  | act {ss} (t) {c : Call K V} {β : Type} {a : Act K V β} {k : β → Prog K V c.Res} {r : β} {σ : St K V}
      (h : ss.th t = .run c (.act a k)) (he : Exec C t a ss.mem r σ) :
      SStep C gd ss { ss with mem := σ, th := setTh ss.th t (.run c (k r)) }
  /-- an operation goes through a loop -/
  | loop {ss} (t) {c : Call K V} {β σ : Type} {body : σ → Prog K V (σ ⊕ β)} {s : σ} {k : β → Prog K V c.Res}
      (h : ss.th t = .run c (.iter body s k)) :
      SStep C gd ss { ss with th := setTh ss.th t (.run c (Prog.unfoldIter body s k)) }
  /-- an operation returns: the references it returns live as long as the guard -/
  | ret {ss} (t) {c : Call K V} {r : c.Res} (h : ss.th t = .run c (.ret r)) :
      SStep C gd ss { ss with
        th := setTh ss.th t .out
        held := fun g => if g = gd t then c.refs r ++ ss.held g else ss.held g
        hist := ss.hist ++ [.ret (t, ss.seq t) c r] }
  /-- an operation panics -/
  | panic {ss} (t) {c : Call K V} {why : PanicReason} (h : ss.th t = .run c (.panic why)) :
      SStep C gd ss { ss with th := setTh ss.th t .out, hist := ss.hist ++ [.panic (t, ss.seq t) c why] }
  /-- the collector frees an entry that has been retired, once no guard that was active then is left -/
  | freeEntry {ss} (x : Nat) (h1 : ss.mem.retired x = true) (h2 : ∀ g, ss.mem.blockers x g = false)
      (h3 : ss.mem.freed x = false) : SStep C gd ss { ss with mem := ss.mem.freeEntry x }
  /-- likewise for a table -/
  | freeTable {ss} (T : Nat) (h1 : ss.mem.tabRetired T = true) (h2 : ∀ g, ss.mem.tabBlockers T g = false)
      (h3 : ss.mem.tabFreed T = false) : SStep C gd ss { ss with mem := ss.mem.freeTable T }

/-- The state right after the creation of the map. -/
def SInit (C : Cfg K) (ss : SSt K V) : Prop :=
  initSt C = some ss.mem ∧ ss.th = (fun _ => .out) ∧ ss.seq = (fun _ => 0) ∧ ss.held = (fun _ => []) ∧ ss.hist = []

/-- The reachable states. -/
inductive SReach (C : Cfg K) (gd : Tid → Tid) : SSt K V → Prop
  | init {ss} (h : SInit C ss) : SReach C gd ss
  | step {ss ss'} (h : SReach C gd ss) (hs : SStep C gd ss ss') : SReach C gd ss'

end Papaya
