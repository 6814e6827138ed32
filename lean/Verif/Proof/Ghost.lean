import Verif.Proof.Logic
import Verif.Model.Ops

/-! # Ghost state, global invariant and rely

The ghost state records the history of linearization events (`log`), which operation created which entry, the
progress of every copy, who owns the right to retire a removed entry, … It does not exist in the code: it is chosen by
the proofs. -/

namespace Papaya

variable {K V : Type}

/-- A linearization event: at one instant operation `op` changed the entry of `key` from `old` to `new`. -/
structure Ev (K V : Type) where
  op : OpId
  key : K
  old : Option (Entry K V)
  new : Option (Entry K V)

/-- What an operation may do: whether it may change the map several times (`clear`, `retain`), and which changes. -/
structure OpI (K V : Type) where
  multi : Bool
  eff : K → Option (Entry K V) → Option (Entry K V) → Prop

/-- What is known about an allocated entry: its creator and, if it was published in an empty slot, where. -/
structure EInfo (K V : Type) where
  entry : Entry K V
  op : OpId
  home : Option (Nat × Nat)

/-- Progress of the copy of one slot into a given table. -/
inductive CS
  | idle
  | claimed (t : Tid)
  | marked (t : Tid)
  | placed (t : Tid) (T i : Nat)
  | counted (loc : Option (Nat × Nat))
  | lost

def CS.loc : CS → Option (Nat × Nat)
  | .placed _ T i => some (T, i)
  | .counted l => l
  | _ => none

def CS.owner : CS → Option Tid
  | .claimed t => some t
  | .marked t => some t
  | .placed t _ _ => some t
  | _ => none

def CS.isCounted : CS → Bool
  | .counted _ => true
  | _ => false

/-- Who is responsible for retiring an entry. `owned t U early`: thread `t` unlinked it, it can only remain in tables
before `U`; `early`: table `U` was not yet the root then. -/
inductive Tok
  | live
  | owned (t : Tid) (U : Nat) (early : Bool)
  | retired (U : Nat)
  | deferred (P : Nat)

/-- The physical state together with the ghost state. -/
structure GSt (K V : Type) extends St K V where
  log : List (Ev K V)
  seq : Tid → Nat
  invPos : Tid → Nat
  rInv : Tid → Nat
  ops : OpId → OpI K V
  info : Nat → Option (EInfo K V)
  cs : Nat → Nat → CS
  demLog : Nat → List (Ev K V)
  nextLog : Nat → List (Ev K V)
  tok : Nat → Tok
  tabTok : Nat → Option Tid
  pr : Tid → Nat
  pays : List (Tid × Int)

section Abs
variable [DecidableEq K]

/-- The abstract map described by a log. -/
def absS : List (Ev K V) → (K → Option (Entry K V)) → K → Option (Entry K V)
  | [], m => m
  | ev :: l, m => absS l fun k => if k = ev.key then ev.new else m k

def abs (l : List (Ev K V)) : K → Option (Entry K V) := absS l fun _ => none

/-- `k` was associated with `x` after some prefix of the log of length at least `p`. -/
def Seen (p : Nat) (log : List (Ev K V)) (k : K) (x : Option (Entry K V)) : Prop :=
  ∃ l, l <+: log ∧ p ≤ l.length ∧ abs l k = x

end Abs

/-- Number of insertions minus number of removals. -/
def Ev.delta (ev : Ev K V) : Int :=
  match ev.old, ev.new with
  | none, some _ => 1
  | some _, none => -1
  | _, _ => 0

def net (t : Tid) (l : List (Ev K V)) : Int := ((l.filter fun ev => ev.op.1 = t).map Ev.delta).sum
def netPays (t : Tid) (l : List (Tid × Int)) : Int := ((l.filter fun p => p.1 = t).map Prod.snd).sum

namespace GSt

variable (C : Cfg K) (S : GSt K V)

def rt : Nat := S.root.getD 0
def kslot (T i : Nat) (e : Entry K V) : Prop := (S.slot T i).ptr = some e
def aborted (T : Nat) : Prop := S.status T = .aborted
def wasRoot (T : Nat) : Prop := T < S.nTabs ∧ T ≤ S.rt ∧ ¬ S.aborted T
def copying (T i : Nat) : Prop := (S.slot T i).copying = true
def copiedF (T i : Nat) : Prop := (S.slot T i).copied = true
/-- index probed at step `n` for key `k` -/
def pos (T : Nat) (k : K) (n : Nat) : Nat := (Probe.after (C.h1 k) (S.cap T - 1) n).i
def lim (T : Nat) : Nat := limit (S.cap T)
/-- slot `i` of `T` will never hold key `k` (again) -/
def dead (T i : Nat) (k : K) : Prop := S.md T i ≠ EMPTY ∧ ∀ e, S.kslot T i e → e.key ≠ k
/-- `k` can never be (again) in table `T` -/
def over (T : Nat) (k : K) : Prop := ∀ n ≤ S.lim T, S.dead T (S.pos C T k n) k
/-- slot moved to the next table -/
def moved (T i : Nat) : Prop := S.copiedF T i ∧ S.md T i ≠ EMPTY
def passed (T : Nat) (k : K) : Prop := S.over C T k ∨ ∃ i e, S.kslot T i e ∧ e.key = k ∧ S.moved T i
def hid (T : Nat) (e : Entry K V) : Prop := S.rt < T ∧ ∃ j, S.kslot S.rt j e ∧ ¬ S.moved S.rt j
def vis (T i : Nat) (e : Entry K V) : Prop :=
  S.rt ≤ T ∧ ¬ S.aborted T ∧ S.kslot T i e ∧ ¬ S.hid T e ∧ ¬ S.moved T i
def Live (k : K) (e : Entry K V) : Prop := ∃ T i, S.vis T i e ∧ S.md T i ≠ EMPTY ∧ e.key = k
def CopyPair (s N : Nat) : Prop :=
  s < N ∧ N < S.nTabs ∧ S.wasRoot s ∧ ∀ P, s < P → P < N → S.aborted P
def logged (e : Entry K V) : Prop := ∃ ev ∈ S.log, ev.new = some e
def loc (N j : Nat) : Option (Nat × Nat) := (S.cs N j).loc
def nCounted (N : Nat) : Nat := ((Finset.range (S.claim N)).filter fun j => (S.cs N j).isCounted).card

/-- shape of the chain of tables -/
structure InvS : Prop where
  none : S.root = none → S.nTabs = 0 ∧ C.capacity = 0
  some : ∀ r, S.root = some r → r < S.nTabs ∧ ¬ S.aborted r
  next : ∀ T, T < S.nTabs → S.next T = if T + 1 < S.nTabs then Option.some (T + 1) else Option.none
  cap : ∀ T, T < S.nTabs → isPow2 (S.cap T) ∧ 8 ≤ S.cap T ∧ C.initialCapacity ≤ S.cap T
  out : ∀ T, S.nTabs ≤ T → (∀ i, S.slot T i = Slot.null) ∧ (∀ i, S.md T i = EMPTY) ∧ (∀ i, S.cs T i = .idle) ∧
    S.claim T = 0 ∧ S.copied T = 0 ∧ S.status T = .pending ∧ S.lock T = .free ∧ S.deferred T = [] ∧
    S.tabRetired T = false ∧ S.tabFreed T = false ∧ S.tabTok T = Option.none
  prom : ∀ T, S.status T = .promoted → T ≤ S.rt ∧ T < S.nTabs
  incab : C.inc = true → ∀ T, ¬ S.aborted T
  blkab : C.inc = false → ∀ T, S.rt < T → T + 1 < S.nTabs → S.aborted T

/-- slots and metadata -/
structure InvP : Prop where
  p1 : ∀ T i, S.slot T i = Slot.null → S.md T i = EMPTY
  p2 : ∀ T i e, S.kslot T i e → S.md T i = EMPTY ∨ S.md T i = C.h2 e.key
  p3 : ∀ T i e, S.kslot T i e → ∃ x, S.info e.id = some x ∧ x.entry = e
  p4 : ∀ T i e, S.kslot T i e → ∃ n, n ≤ S.lim T ∧ S.pos C T e.key n = i ∧
    ∀ m, m < n → S.dead T (S.pos C T e.key m) e.key
  p5 : ∀ T i, S.copying T i → S.wasRoot T ∧ T + 1 < S.nTabs
  p7 : ∀ T i e, S.kslot T i e → S.copiedF T i → C.inc = true ∧ S.copying T i
  b1 : C.inc = true → ∀ T i T' j e, S.kslot T i e → S.kslot T' j e → T < T' → (S.slot T' j).borrowed = true
  f1 : ∀ T i e, S.kslot T i e → S.rt < T →
    (∃ j, S.kslot S.rt j e ∧ S.copying S.rt j ∧ S.loc (if C.inc = true then S.rt + 1 else T) j = some (T, i)) ∨
      (C.inc = true ∧ S.passed C S.rt e.key)
  f2 : C.inc = true → ∀ T i e, S.kslot T i e → ∀ P, S.rt < P → P < T → S.over C P e.key

/-- progress of copies -/
structure InvC : Prop where
  c1 : ∀ N j, S.claim N ≤ j → S.cs N j = .idle
  c2 : ∀ N j, S.cs N j ≠ .idle → ∃ s, S.CopyPair s N ∧ j < S.cap s
  c3 : ∀ s N j l, S.cs N j = .counted l → S.CopyPair s N → S.copying s j ∧ ∀ e, S.kslot s j e →
    (C.inc = true → S.copiedF s j) ∧ ∃ T' i', l = some (T', i') ∧ S.md T' i' ≠ EMPTY
  c4 : ∀ s N j T' i', S.loc N j = some (T', i') → S.CopyPair s N → ∃ e, S.kslot s j e ∧ S.copying s j ∧ N ≤ T' ∧
    T' < S.nTabs ∧ (C.inc = false → T' = N) ∧
    (s = S.rt → ¬ (C.inc = true ∧ S.moved s j) → S.kslot T' i' e)
  c5 : C.inc = true → ∀ j e, S.kslot S.rt j e → S.copiedF S.rt j →
    ∃ T' i', S.loc (S.rt + 1) j = some (T', i') ∧ S.md T' i' ≠ EMPTY
  c6 : ∀ N, S.copied N = S.nCounted N
  c7 : ∀ N, S.aborted N → ∃ j, S.cs N j = .lost
  c8 : ∀ s N j, S.CopyPair s N → S.wasRoot N → j < S.cap s → ∃ l, S.cs N j = .counted l
  c9 : C.inc = true → ∀ s N j, S.CopyPair s N → (S.cs N j = .idle ∨ ∃ t, S.cs N j = .claimed t) → ¬ S.copying s j
  c10 : C.inc = false → ∀ s N i e, S.CopyPair s N → S.aborted N → S.kslot N i e →
    ∃ j, S.kslot s j e ∧ S.copying s j ∧ S.loc N j = some (N, i)

section
variable [DecidableEq K]

/-- the event `ev` after the log `l` is well formed -/
structure EvOk (l : List (Ev K V)) (ev : Ev K V) : Prop where
  old : ev.old = abs l ev.key
  seq : ev.op.2 ≤ S.seq ev.op.1
  eff : (S.ops ev.op).eff ev.key ev.old ev.new
  pos : ∀ t, ev.op = (t, S.seq t) → S.invPos t ≤ l.length
  new : ∀ e, ev.new = some e → ∃ x, S.info e.id = some x ∧ x.entry = e ∧ x.op = ev.op ∧ e.key = ev.key ∧
    (∀ ev' ∈ l, ev'.new ≠ some e) ∧ (x.home ≠ none → ev.old = none) ∧ (S.ops ev.op).multi = false

/-- the events and their operations -/
structure InvE : Prop where
  e0 : ∀ id x, S.info id = some x → x.entry.id = id ∧ id < S.nIds
  e1 : ∀ l ev, l ++ [ev] <+: S.log → S.EvOk l ev
  e2 : S.log.Pairwise fun a b => a.op = b.op → (S.ops a.op).multi = true
  e3 : ∀ id x, S.info id = some x → ¬ S.logged x.entry → ∀ ev ∈ S.log, ev.op ≠ x.op
  e4 : ∀ id id' x x', S.info id = some x → S.info id' = some x' → x.op = x'.op → id = id'
  e5 : ∀ id x, S.info id = some x → x.op.2 ≤ S.seq x.op.1 ∧ (S.ops x.op).multi = false
  e6 : ∀ t, S.invPos t ≤ S.log.length

/-- the log and the abstract map -/
structure InvL : Prop where
  a : ∀ k e, abs S.log k = some e ↔ S.Live k e
  u1 : ∀ id x, S.info id = some x → ¬ S.logged x.entry → ∃ T i, x.home = some (T, i) ∧ S.kslot T i x.entry ∧
    S.md T i = EMPTY ∧ S.rt ≤ T ∧ ¬ S.aborted T ∧ (S.ops x.op).eff x.entry.key none (some x.entry)
  u2 : ∀ T i e, S.kslot T i e → S.md T i = EMPTY → S.rt ≤ T → ¬ S.aborted T → ¬ S.hid T e →
    ¬ S.logged e ∧ ∃ x, S.info e.id = some x ∧ x.home = some (T, i)
  u3 : ∀ id x T i T' j, S.info id = some x → x.home = some (T, i) → S.kslot T' j x.entry → T < T' ∨ (T' = T ∧ j = i)
  d1 : ∀ T, S.wasRoot T → T < S.rt → S.demLog T <+: S.log
  d2 : ∀ t T, S.wasRoot T → T < S.rt → S.rInv t ≤ T → S.invPos t ≤ (S.demLog T).length
  d3 : ∀ t, S.rInv t ≤ S.rt ∧ S.pr t ≤ S.rInv t
  d4 : ∀ T, T + 1 < S.nTabs → S.nextLog T <+: S.log
  l1 : ∀ T k, S.wasRoot T → T < S.rt → abs (S.demLog T) k ≠ none →
    (C.inc = true ∧ S.over C T k) ∨ ∃ i e, S.kslot T i e ∧ e.key = k ∧ S.md T i ≠ EMPTY
  l2 : C.inc = false → ∀ T i e, S.wasRoot T → T < S.rt → S.kslot T i e →
    ∃ l, S.demLog T <+: l ∧ l <+: S.log ∧ abs l e.key = some e
  n1 : C.inc = true → ∀ T i e, S.wasRoot T → S.kslot T i e → S.copiedF T i → (S.md T i ≠ EMPTY ∨ T < S.rt) →
    ∃ l, S.nextLog T <+: l ∧ l <+: S.log ∧ abs l e.key = some e

/-- memory reclamation -/
structure InvM : Prop where
  m1 : ∀ T i e U, S.kslot T i e →
    ((∃ t b, S.tok e.id = .owned t U b) ∨ S.tok e.id = .retired U ∨ (∃ P, U = P + 1 ∧ S.tok e.id = .deferred P)) → T < U
  own : ∀ id t U b, S.tok id = .owned t U b → (b = false → U ≤ S.rt) ∧ (C.inc = false → U ≤ S.rt ∧ S.wasRoot U)
  m2 : ∀ id, S.retired id = true ↔ ∃ U, S.tok id = .retired U
  m3 : ∀ id U t, S.tok id = .retired U → U ≤ S.rt ∧ (C.inc = false → S.wasRoot U) ∧
    (S.pinned t = true → S.blockers id t = true ∨ U ≤ S.pr t)
  m4 : ∀ P t, S.tabRetired P = true → P < S.rt ∧ S.tabTok P = none ∧
    (S.pinned t = true → S.tabBlockers P t = true ∨ P < S.pr t)
  m4' : ∀ P t, S.tabTok P = some t → P < S.rt
  m5 : ∀ id, S.freed id = true → (S.retired id = true ∧ ∀ t, S.blockers id t = false) ∨
    (∃ P, S.tok id = .deferred P ∧ S.tabFreed P = true)
  m6 : ∀ P, S.tabFreed P = true → S.tabRetired P = true ∧ ∀ t, S.tabBlockers P t = false
  m7 : ∀ id P, S.tok id = .deferred P ↔ ∃ e ∈ S.deferred P, e.id = id
  m7' : ∀ P, ((S.deferred P).map Entry.id).Nodup
  m8 : ∀ id x, S.info id = some x → (S.tok id = .live ↔ ¬ S.logged x.entry ∨ abs S.log x.entry.key = some x.entry)
  m9 : ∀ id, S.info id = none → S.tok id = .live
  m10 : ∀ id P, S.tok id = .deferred P → C.inc = true

/-- counters -/
def InvN : Prop :=
  ((List.range (C.shards + 1)).map S.shard).sum = (S.pays.map Prod.snd).sum ∧
  ∀ j, S.shard j = ((S.pays.filter fun p => C.shardOf p.1 % (C.shards + 1) = j).map Prod.snd).sum

structure Inv : Prop where
  s : S.InvS C
  p : S.InvP C
  c : S.InvC C
  e : S.InvE
  l : S.InvL C
  m : S.InvM C
  n : S.InvN C

end

/-- Thread `t` may use entry `e`. -/
def Prot (t : Tid) (e : Entry K V) : Prop :=
  S.pinned t = true ∧ (∃ x, S.info e.id = some x ∧ x.entry = e) ∧
  match S.tok e.id with
  | .live => True
  | .owned _ U b => b = true → S.pr t < U
  | .retired _ => S.blockers e.id t = true
  | .deferred P => S.pr t ≤ P

end GSt

/-- What any step may do to the progress of copies: cells leave the state `idle` when they are claimed, and only then;
all the cells claimed of the source table do; a cell is lost when the copy is aborted. -/
structure CsEvo (S S' : GSt K V) : Prop where
  idle : ∀ N j, S.cs N j = .idle → S'.cs N j = .idle ∨ (S.claim N ≤ j ∧ j < S'.claim N)
  nidle : ∀ N j, S.cs N j ≠ .idle → S'.cs N j ≠ .idle
  fresh : ∀ N j, S.claim N ≤ j → j < S'.claim N → ∃ s, S'.CopyPair s N ∧ (j < S'.cap s → S'.cs N j ≠ .idle)
  lost : ∀ N j, S'.cs N j = .lost → S.cs N j = .lost ∨ S'.aborted N

theorem CsEvo.same {S S' : GSt K V} (h : S'.cs = S.cs) (h' : S'.claim = S.claim) : CsEvo S S' :=
  ⟨fun N j g => .inl (by rw [h]; exact g), fun N j g => by rw [h]; exact g, fun N j g1 g2 => by rw [h'] at g2; omega,
    fun N j g => .inl (by rw [h] at g; exact g)⟩

/-- Cell `j` of the copy to `N` changes, and was claimed already. -/
theorem CsEvo.upd {S S' : GSt K V} {N j : Nat} (h : ∀ N' j', ¬ (N' = N ∧ j' = j) → S'.cs N' j' = S.cs N' j')
    (h1 : S.cs N j ≠ .idle) (h2 : S'.cs N j ≠ .idle) (h3 : S'.cs N j = .lost → S'.aborted N) (h' : S'.claim = S.claim) :
    CsEvo S S' := by
  refine ⟨fun N' j' g => ?_, fun N' j' g => ?_, fun N j g1 g2 => by rw [h'] at g2; omega, fun N' j' g => ?_⟩
  · by_cases hN : N' = N ∧ j' = j
    · obtain ⟨rfl, rfl⟩ := hN; exact absurd g h1
    · rw [h _ _ hN]; exact .inl g
  · by_cases hN : N' = N ∧ j' = j
    · obtain ⟨rfl, rfl⟩ := hN; exact h2
    · rw [h _ _ hN]; exact g
  · by_cases hN : N' = N ∧ j' = j
    · obtain ⟨rfl, rfl⟩ := hN; exact .inr (h3 g)
    · rw [h _ _ hN] at g; exact .inl g

/-- What any step may do to the state. -/
structure Evo [DecidableEq K] (S S' : GSt K V) : Prop where
  root : ∀ r, S.root = some r → ∃ r', S'.root = some r' ∧ r ≤ r'
  nTabs : S.nTabs ≤ S'.nTabs
  cap : ∀ T, T < S.nTabs → S'.cap T = S.cap T
  aborted : ∀ T, S.aborted T → S'.aborted T
  wasRoot : ∀ T, S.wasRoot T → S'.wasRoot T
  md : ∀ T i, S.md T i ≠ EMPTY → S'.md T i ≠ EMPTY
  key : ∀ T i e, S.kslot T i e → ((S'.slot T i).ptr = none ∧ abs S'.log e.key = none) ∨
    ∃ e', S'.kslot T i e' ∧ e'.key = e.key
  null : ∀ T i, S.slot T i ≠ Slot.null → (S.slot T i).ptr = none → (S'.slot T i).ptr = none
  nnull : ∀ T i, S.slot T i ≠ Slot.null → S'.slot T i ≠ Slot.null
  frozen : ∀ T i, S.copying T i → (S'.slot T i).ptr = (S.slot T i).ptr ∧ S'.copying T i ∧
    (S'.slot T i).borrowed = (S.slot T i).borrowed
  copied : ∀ T i e, S.kslot T i e → S.copiedF T i → S'.copiedF T i
  log : S.log <+: S'.log
  dem : ∀ T, S.wasRoot T → T < S.rt → S'.demLog T = S.demLog T
  nlog : ∀ T, T + 1 < S.nTabs → S'.nextLog T = S.nextLog T
  nlog' : ∀ T, S.nTabs ≤ T + 1 → T + 1 < S'.nTabs → S.log <+: S'.nextLog T
  info : ∀ id x, S.info id = some x → S'.info id = some x
  ops : ∀ o : OpId, o.2 ≤ S.seq o.1 → S'.ops o = S.ops o
  seq : ∀ t, S.seq t ≤ S'.seq t
  counted : ∀ N j l, S.cs N j = .counted l → S'.cs N j = .counted l
  lost : ∀ N j, S.cs N j = .lost → S'.cs N j = .lost
  claim : ∀ N, S.claim N ≤ S'.claim N
  prom : ∀ T, S.status T = .promoted → S'.status T = .promoted
  ev : CsEvo S S'

/-- What a step of another thread leaves alone for thread `t`. -/
structure Own (t : Tid) (S S' : GSt K V) : Prop where
  seq : S'.seq t = S.seq t
  invPos : S'.invPos t = S.invPos t
  rInv : S'.rInv t = S.rInv t
  pr : S'.pr t = S.pr t
  pinned : S'.pinned t = S.pinned t
  cs : ∀ N j, (S.cs N j).owner = some t → S'.cs N j = S.cs N j
  cs' : ∀ N j, (S'.cs N j).owner = some t → S'.cs N j = S.cs N j
  lock : ∀ T, S.lock T = .held t → S'.lock T = .held t ∧ S'.next T = S.next T
  lock' : ∀ T, S'.lock T = .held t → S.lock T = .held t
  info : ∀ id x, S'.info id = some x → x.op.1 = t → S.info id = some x
  evs : ∀ ev, ev ∈ S'.log.drop S.log.length → ev.op.1 = t → ev.old = none ∧
    ∃ e x, ev.new = some e ∧ S.info e.id = some x ∧ x.entry = e ∧ x.op = ev.op ∧ ¬ S.logged e
  pays : ∃ l, S'.pays = S.pays ++ l ∧ ∀ p ∈ l, p.1 ≠ t
  tok : ∀ id U b, S.tok id = .owned t U b → S'.tok id = .owned t U b
  tok' : ∀ id U b, S'.tok id = .owned t U b → S.tok id = .owned t U b
  tabTok : ∀ T, S.tabTok T = some t ↔ S'.tabTok T = some t
  prot : ∀ e, S.Prot t e → S'.Prot t e

/-- The part of `Own` that the thread itself keeps while it helps resizing or retires entries. -/
structure Own0 (t : Tid) (S S' : GSt K V) : Prop where
  seq : S'.seq t = S.seq t
  invPos : S'.invPos t = S.invPos t
  rInv : S'.rInv t = S.rInv t
  pr : S'.pr t = S.pr t
  pinned : S'.pinned t = S.pinned t
  info : ∀ id x, S'.info id = some x → x.op.1 = t → S.info id = some x
  evs : ∀ ev, ev ∈ S'.log.drop S.log.length → ev.op.1 = t → ev.old = none ∧
    ∃ e x, ev.new = some e ∧ S.info e.id = some x ∧ x.entry = e ∧ x.op = ev.op ∧ ¬ S.logged e
  pays : ∃ l, S'.pays = S.pays ++ l ∧ ∀ p ∈ l, p.1 ≠ t
  tok' : ∀ id U b, S'.tok id = .owned t U b → S.tok id = .owned t U b
  prot : ∀ e, S.Prot t e → S'.Prot t e

theorem Own.own0 {t : Tid} {S S' : GSt K V} (h : Own t S S') : Own0 t S S' :=
  ⟨h.seq, h.invPos, h.rInv, h.pr, h.pinned, h.info, h.evs, h.pays, h.tok', h.prot⟩

end Papaya
