import Verif.Model.Shared

/-! # Addresses

In `Verif/Model/State.lean` an allocation is a fresh number, and pointers are compared by comparing these numbers. Here
every allocation gets an address: the allocator (`Box::new`, src/raw/mod.rs:447, 1367-1370; `Table::alloc`,
src/raw/alloc.rs:59-100) may return the address of memory that has been freed, and all the comparisons made by the map —
the compare-and-swaps on the entries of a table (src/raw/mod.rs:891-897, 961-967, 1057-1062, 1166-1171, 2393-2399) and on
the root table (2472-2475), and the `==` on raw pointers (1303, 2470, 2594, 2613) — compare addresses (and tag bits). A slot still remembers the allocation
that its pointer was derived from, but only its address can be observed by comparing; dereferencing it is another
matter: `Act.Safe` says that the allocation is alive.

The other accesses are those of `Exec`. The allocation of an entry is merged with the compare-and-swap that publishes
it, as in `Verif/Model/State.lean`: an entry that is allocated earlier keeps its address for itself in the meantime. -/

namespace Papaya

variable {K V : Type}

/-- What a slot contains: the address of the entry, or null, and the tag bits. -/
def Slot.word (ad : Nat → Nat) (s : Slot K V) : Option Nat × Bool × Bool × Bool :=
  (s.ptr.map fun e => ad e.id, s.copying, s.copied, s.borrowed)

/-- Semantics of the actions when entry `x` is at address `ad x` and table `T` at address `tad T`. -/
def ExecAd (C : Cfg K) (t : Tid) (ad tad : Nat → Nat) : {β : Type} → Act K V β → St K V → β → St K V → Prop
  | _, .cas weak T i exp new, σ, r, σ' =>
      ((σ.slot T i).word ad = exp.word ad ∧ r = none ∧ σ' = σ.setSlot T i new) ∨
      (((σ.slot T i).word ad ≠ exp.word ad ∨ weak = true) ∧ r = some (σ.slot T i) ∧ σ' = σ)
  | _, .casNew weak T i exp k v, σ, r, σ' =>
      ((σ.slot T i).word ad = exp.word ad ∧ r = .inl ⟨σ.nIds, k, v⟩ ∧
        σ' = { σ.setSlot T i (Slot.untagged ⟨σ.nIds, k, v⟩) with nIds := σ.nIds + 1 }) ∨
      (((σ.slot T i).word ad ≠ exp.word ad ∨ weak = true) ∧ r = .inr (σ.slot T i) ∧ σ' = σ)
  | _, .casRoot T N, σ, r, σ' =>
      (σ.root.map tad = some (tad T) ∧ r = true ∧ σ' = { σ with root := some N }) ∨
      (σ.root.map tad ≠ some (tad T) ∧ r = false ∧ σ' = σ)
  | _, .sameTable T T', σ, r, σ' => r = decide (tad T = tad T') ∧ σ' = σ
  | _, .sameEntry x y, σ, r, σ' => r = decide (ad x = ad y) ∧ σ' = σ
  | _, a, σ, r, σ' => Exec C t a σ r σ'

/-- State of the whole system, with the addresses of the entries and of the tables. -/
structure ASt (K V : Type) : Type 1 where
  ss : SSt K V
  ad : Nat → Nat
  tad : Nat → Nat

/-- Contract of the allocator, for entries (`n` allocations before, `n'` after): what has been allocated does not move,
and what has just been allocated does not overlap anything else that is allocated and not freed. -/
def AllocOk (n n' : Nat) (freed : Nat → Bool) (ad ad' : Nat → Nat) : Prop :=
  (∀ x, x < n → ad' x = ad x) ∧
  ∀ x, n ≤ x → x < n' → ∀ y, y < n' → y ≠ x → freed y = false → ad' y ≠ ad' x

variable [DecidableEq K]

/-- One step of the system: `SStep`, but the comparisons compare addresses. -/
inductive AStep (C : Cfg K) (gd : Tid → Tid) : ASt K V → ASt K V → Prop
  | pin {ss ad tad} (g) (h : ss.mem.pinned g = false) :
      AStep C gd ⟨ss, ad, tad⟩ ⟨{ ss with mem := ss.mem.pin g }, ad, tad⟩
  | unpin {ss ad tad} (g) (h : ∀ t c p, gd t = g → ss.th t ≠ .run c p) :
      AStep C gd ⟨ss, ad, tad⟩
        ⟨{ ss with mem := ss.mem.unpin g, held := fun u => if u = g then [] else ss.held u }, ad, tad⟩
  | abandon {ss ad tad} (t) {c p} (h : ss.th t = .run c p) :
      AStep C gd ⟨ss, ad, tad⟩ ⟨{ ss with th := setTh ss.th t .gone }, ad, tad⟩
  | inv {ss ad tad} (t) (c : Call K V) (h : ss.th t = .out) (hg : ss.mem.pinned (gd t) = true) (hwf : c.WF) :
      AStep C gd ⟨ss, ad, tad⟩ ⟨{ ss with
        th := setTh ss.th t (.run c (c.prog C))
        seq := fun u => if u = t then ss.seq t + 1 else ss.seq u
        hist := ss.hist ++ [.inv (t, ss.seq t + 1) c] }, ad, tad⟩
  /-- an atomic action; if it allocates, the allocator chooses the address -/
  | act {ss ad tad ad' tad'} (t) {c : Call K V} {β : Type} {a : Act K V β} {k : β → Prog K V c.Res} {r : β} {σ : St K V}
      (h : ss.th t = .run c (.act a k)) (he : ExecAd C t ad tad a ss.mem r σ)
      (hx : AllocOk ss.mem.nIds σ.nIds σ.freed ad ad') (hT : AllocOk ss.mem.nTabs σ.nTabs σ.tabFreed tad tad') :
      AStep C gd ⟨ss, ad, tad⟩ ⟨{ ss with mem := σ, th := setTh ss.th t (.run c (k r)) }, ad', tad'⟩
  | loop {ss ad tad} (t) {c : Call K V} {β σ : Type} {body : σ → Prog K V (σ ⊕ β)} {s : σ} {k : β → Prog K V c.Res}
      (h : ss.th t = .run c (.iter body s k)) :
      AStep C gd ⟨ss, ad, tad⟩ ⟨{ ss with th := setTh ss.th t (.run c (Prog.unfoldIter body s k)) }, ad, tad⟩
  | ret {ss ad tad} (t) {c : Call K V} {r : c.Res} (h : ss.th t = .run c (.ret r)) :
      AStep C gd ⟨ss, ad, tad⟩ ⟨{ ss with
        th := setTh ss.th t .out
        held := fun g => if g = gd t then c.refs r ++ ss.held g else ss.held g
        hist := ss.hist ++ [.ret (t, ss.seq t) c r] }, ad, tad⟩
  | panic {ss ad tad} (t) {c : Call K V} {why : PanicReason} (h : ss.th t = .run c (.panic why)) :
      AStep C gd ⟨ss, ad, tad⟩
        ⟨{ ss with th := setTh ss.th t .out, hist := ss.hist ++ [.panic (t, ss.seq t) c why] }, ad, tad⟩
  | freeEntry {ss ad tad} (x : Nat) (h1 : ss.mem.retired x = true) (h2 : ∀ g, ss.mem.blockers x g = false)
      (h3 : ss.mem.freed x = false) : AStep C gd ⟨ss, ad, tad⟩ ⟨{ ss with mem := ss.mem.freeEntry x }, ad, tad⟩
  | freeTable {ss ad tad} (T : Nat) (h1 : ss.mem.tabRetired T = true) (h2 : ∀ g, ss.mem.tabBlockers T g = false)
      (h3 : ss.mem.tabFreed T = false) : AStep C gd ⟨ss, ad, tad⟩ ⟨{ ss with mem := ss.mem.freeTable T }, ad, tad⟩

/-- The reachable states. The addresses before the first allocation do not matter. -/
inductive AReach (C : Cfg K) (gd : Tid → Tid) : ASt K V → Prop
  | init {as} (h : SInit C as.ss) : AReach C gd as
  | step {as as'} (h : AReach C gd as) (hs : AStep C gd as as') : AReach C gd as'

end Papaya
