import Verif.Model.State

/-! # Programs: sequences of atomic actions with unbounded loops -/

namespace Papaya

/-- Reasons for which the implementation panics. -/
inductive PanicReason
  /-- `unreachable!()` -/
  | unreachableCode
  /-- `Option::unwrap` on `None` -/
  | unwrapNone
  /-- `assert!(len.is_power_of_two())` — src/raw/alloc.rs:60 -/
  | notPowerOfTwo
  /-- "`HashMap` exceeded maximum capacity" — src/raw/mod.rs:1971-1974 -/
  | maxCapacity
  /-- `Layout::from_size_align(..).unwrap()` — src/raw/alloc.rs:218 -/
  | layoutOverflow
  /-- `state.allocating.lock().unwrap()` on a poisoned mutex — src/raw/mod.rs:1930 -/
  | poisonedLock
  /-- "capacity overflow" — src/raw/probe.rs:41, src/raw/mod.rs:996 -/
  | capacityOverflow
  /-- "Cannot remove `None` entry." — src/raw/mod.rs:1566, 1599, 1811, 1841 -/
  | removeNone
  /-- a panic raised by a user closure -/
  | user
deriving DecidableEq, Repr

/-- Panics that allocating a table may cause — src/raw/mod.rs:1887-1982, src/raw/alloc.rs:59-100. The assertion that
the length is a power of two may fail only if the requested initial capacity is not a power of two. -/
def SysPanic {K : Type} (C : Cfg K) (r : PanicReason) : Prop :=
  (r = .notPowerOfTwo ∧ ¬ isPow2 C.initialCapacity) ∨ r = .maxCapacity ∨
    (r = .layoutOverflow ∧ ∃ n, C.layoutOk n = false) ∨ r = .poisonedLock

/-- The panics of table allocation, whether possible or not. -/
def AllocPanic (r : PanicReason) : Prop :=
  r = .notPowerOfTwo ∨ r = .maxCapacity ∨ r = .layoutOverflow ∨ r = .poisonedLock

/-- Programs over the shared memory: return, one atomic action, a Rust `loop` (state `σ`, body returns either the
next state or the result of the loop), a panic. -/
inductive Prog (K V : Type) : Type → Type 1
  | ret {α : Type} (a : α) : Prog K V α
  | act {α β : Type} (a : Act K V β) (k : β → Prog K V α) : Prog K V α
  | iter {α β σ : Type} (body : σ → Prog K V (σ ⊕ β)) (s : σ) (k : β → Prog K V α) : Prog K V α
  | panic {α : Type} (r : PanicReason) : Prog K V α

namespace Prog

variable {K V : Type}

/-- Sequential composition. -/
def bind {α γ : Type} : Prog K V α → (α → Prog K V γ) → Prog K V γ
  | .ret a, f => f a
  | .act a k, f => .act a fun x => (k x).bind f
  | .iter body s k, f => .iter body s fun x => (k x).bind f
  | .panic r, _ => .panic r

instance : Monad (Prog K V) where
  pure := Prog.ret
  bind := Prog.bind

/-- Unfolding a loop once. -/
def unfoldIter {α β σ : Type} (body : σ → Prog K V (σ ⊕ β)) (s : σ) (k : β → Prog K V α) : Prog K V α :=
  (body s).bind fun x =>
    match x with
    | .inl s' => .iter body s' k
    | .inr b => k b

/-- `loop { .. }` -/
def loop {σ β : Type} (s : σ) (body : σ → Prog K V (σ ⊕ β)) : Prog K V β := .iter body s .ret

/-- One action. -/
def prim {β : Type} (a : Act K V β) : Prog K V β := .act a .ret

@[simp] theorem pure_eq {α : Type} (a : α) : (pure a : Prog K V α) = .ret a := rfl
@[simp] theorem bind_eq {α γ : Type} (p : Prog K V α) (f : α → Prog K V γ) : (p >>= f) = p.bind f := rfl

@[simp] theorem ret_bind {α γ : Type} (a : α) (f : α → Prog K V γ) : (Prog.ret a).bind f = f a := rfl
@[simp] theorem panic_bind {α γ : Type} (r : PanicReason) (f : α → Prog K V γ) :
    (Prog.panic r : Prog K V α).bind f = .panic r := rfl

end Prog

/-- A Rust `FnMut` closure: a captured state and a function that may also panic. -/
structure Closure (I O : Type) where
  S : Type
  init : S
  call : S → I → Except PanicReason (S × O)

/-- A closure during an operation: its captured state and, recorded for the specifications, the calls made so far
with their answers. -/
structure Closure.Tr {I O : Type} (f : Closure I O) where
  st : f.S
  calls : List (I × O)

/-- The closure as it is passed to the operation. -/
def Closure.start {I O : Type} (f : Closure I O) : f.Tr := ⟨f.init, []⟩

/-- What can be reached by calling the closure repeatedly. -/
inductive Closure.Run {I O : Type} (f : Closure I O) : f.Tr → Prop
  | start : f.Run f.start
  | call {s st' i o} : f.Run s → f.call s.st i = .ok (st', o) → f.Run ⟨st', s.calls ++ [(i, o)]⟩

/-- `calls` is a sequence of calls and answers of the closure, from its initial state on. -/
def Closure.Made {I O : Type} (f : Closure I O) (calls : List (I × O)) : Prop := ∃ st, f.Run ⟨st, calls⟩

/-- The closure answers `o` to `i` in some sequence of calls. -/
def Closure.Says {I O : Type} (f : Closure I O) (i : I) (o : O) : Prop := ∃ calls, f.Made calls ∧ (i, o) ∈ calls

/-- What a `FnOnce() -> V` closure returns when it is called. -/
def Gives {V : Type} (f : Closure Unit V) (v : V) : Prop := ∃ s, f.call f.init () = .ok (s, v)

/-- A stateless closure. -/
def Closure.pure {I O : Type} (g : I → O) : Closure I O := ⟨Unit, (), fun s i => .ok (s, g i)⟩

theorem Closure.pure_made {I O : Type} {g : I → O} {calls : List (I × O)} (h : (Closure.pure g).Made calls)
    {i : I} {o : O} (hm : (i, o) ∈ calls) : o = g i := by
  obtain ⟨st, h⟩ := h
  generalize hs : (⟨st, calls⟩ : (Closure.pure g).Tr) = s at h
  induction h generalizing st calls with
  | start => cases hs; cases hm
  | call h hc ih =>
    rename_i s st' i' o'
    cases hs
    rcases List.mem_append.1 hm with h1 | h1
    · exact ih h1 s.st rfl
    · rw [List.mem_singleton] at h1
      cases h1
      cases hc; rfl

/-- Calling a closure from a program; a panic of the closure is a panic of the operation. -/
def Closure.invoke {K V I O : Type} (f : Closure I O) (s : f.Tr) (i : I) : Prog K V (f.Tr × O) :=
  match f.call s.st i with
  | .ok (st, o) => .ret (⟨st, s.calls ++ [(i, o)]⟩, o)
  | .error r => .panic r

/-! The actions as one-step programs. -/
namespace A
variable {K V : Type}
abbrev loadRoot  : Prog K V (Option Table) := .prim (.loadRoot )
abbrev peekRoot : Prog K V (Option Nat) := .prim .peekRoot
abbrev casRootInit (cap : Nat) : Prog K V Table := .prim (.casRootInit cap)
abbrev loadNext (T : Nat) : Prog K V (Option Table) := .prim (.loadNext T)
abbrev tryLock (T : Nat) : Prog K V Bool := .prim (.tryLock T)
abbrev lockWait (T : Nat) : Prog K V Bool := .prim (.lockWait T)
abbrev unlock (T : Nat) : Prog K V Unit := .prim (.unlock T)
abbrev poison (T : Nat) : Prog K V Unit := .prim (.poison T)
abbrev storeNext (T cap : Nat) : Prog K V Table := .prim (.storeNext T cap)
abbrev loadMd (T i : Nat) : Prog K V Nat := .prim (.loadMd T i)
abbrev storeMd (T i m : Nat) : Prog K V Unit := .prim (.storeMd T i m)
abbrev loadSlot (T i : Nat) : Prog K V (Slot K V) := .prim (.loadSlot T i)
abbrev cas (weak : Bool) (T i : Nat) (exp new : Slot K V) : Prog K V (Option (Slot K V)) := .prim (.cas weak T i exp new)
abbrev casNew (weak : Bool) (T i : Nat) (exp : Slot K V) (k : K) (v : V) : Prog K V (Entry K V ⊕ Slot K V) := .prim (.casNew weak T i exp k v)
abbrev fetchOrCopying (T i : Nat) : Prog K V (Slot K V) := .prim (.fetchOrCopying T i)
abbrev storeSlot (T i : Nat) (s : Slot K V) : Prog K V Unit := .prim (.storeSlot T i s)
abbrev loadStatus (T : Nat) : Prog K V Status := .prim (.loadStatus T)
abbrev parkStatus (T : Nat) : Prog K V Unit := .prim (.parkStatus T)
abbrev parkSlot (T i : Nat) : Prog K V Unit := .prim (.parkSlot T i)
abbrev unparkStatus (T : Nat) : Prog K V Unit := .prim (.unparkStatus T)
abbrev unparkSlot (T i : Nat) : Prog K V Unit := .prim (.unparkSlot T i)
abbrev storeStatus (T : Nat) (s : Status) : Prog K V Unit := .prim (.storeStatus T s)
abbrev loadClaim (T : Nat) : Prog K V Nat := .prim (.loadClaim T)
abbrev addClaim (T n : Nat) (src : Table) : Prog K V Nat := .prim (.addClaim T n src)
abbrev loadCopied (T : Nat) : Prog K V Nat := .prim (.loadCopied T)
abbrev addCopied (T n : Nat) (src : Table) : Prog K V Nat := .prim (.addCopied T n src)
abbrev casRoot (T N : Nat) : Prog K V Bool := .prim (.casRoot T N)
abbrev sameTable (T T' : Nat) : Prog K V Bool := .prim (.sameTable T T')
abbrev sameEntry (x y : Nat) : Prog K V Bool := .prim (.sameEntry x y)
abbrev deref (e : Entry K V) : Prog K V Unit := .prim (.deref e)
abbrev retire (e : Entry K V) : Prog K V Unit := .prim (.retire e)
abbrev retireTable (T : Nat) : Prog K V Unit := .prim (.retireTable T)
abbrev pushDeferred (T : Nat) (e : Entry K V) : Prog K V Unit := .prim (.pushDeferred T e)
abbrev loadShard (j : Nat) : Prog K V Int := .prim (.loadShard j)
abbrev addCount (d : Int) : Prog K V Unit := .prim (.addCount d)
end A

end Papaya
