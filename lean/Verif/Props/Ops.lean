import Verif.Props.Lin
import Verif.Exec.Demo

/-! # What each operation does (C02–C08, C42)

Consequences of linearizability, spelled out for each operation. -/

set_option linter.unusedSectionVars false
set_option linter.unusedVariables false

namespace Papaya

variable {K V : Type} [DecidableEq K]

variable {C : Cfg K} {t : Tid} {ps ps' : PSt K V} {hist : List (HEv K V)} {L : List (Item K V)} {m m' : AMap K V}
  {x : Item K V}

/-- At one instant of the call `o` the map changes from `m1` to `m2` (equal if the call changes nothing): nothing that
comes before that instant in the linearization was called after `o` ended, nothing that comes after it ended
before `o` was called. -/
def EffectAt (hist : List (HEv K V)) (L : List (Item K V)) (o : OpId) (m1 m2 : AMap K V) : Prop :=
  ∃ L1 x L2, L = L1 ++ x :: L2 ∧ x.opId? = some o ∧ SeqRun AMap.empty L1 m1 ∧ x.Apply m1 m2 ∧
    (∀ y ∈ L1, ¬ Precedes hist o y.id) ∧ ∀ y ∈ L2, ¬ Precedes hist y.id o

theorem not_precedes_self (hwf : WFH hist) (o : OpId) : ¬ Precedes hist o o := by
  rintro ⟨H1, H2, h1, h2, c', h3⟩
  obtain ⟨e, h2, he⟩ := h2.mem
  exact hwf.inv_first h1 h3 _ h2 he

theorem EffectAt.during (hwf : WFH hist) {o : OpId} {m1 m2 : AMap K V} (h : EffectAt hist L o m1 m2)
    {P : AMap K V → Prop} (hP : P m1) : During hist L o P := by
  obtain ⟨L1, x, L2, h1, h2, h3, h4, h5, h6⟩ := h
  refine ⟨L1, x :: L2, m1, h1, h5, ?_, h3, hP⟩
  intro y hy
  rcases List.mem_cons.1 hy with rfl | hy
  · rw [opId?_eq h2]; exact not_precedes_self hwf o
  · exact h6 y hy

theorem SeqRun.split {m m' : AMap K V} {A B : List (Item K V)} (h : SeqRun m (A ++ B) m') :
    ∃ m1, SeqRun m A m1 ∧ SeqRun m1 B m' := by
  induction A generalizing m with
  | nil => exact ⟨m, .nil, h⟩
  | cons x A ih =>
    cases h with
    | cons hx hr =>
      obtain ⟨m1, h1, h2⟩ := ih hr
      exact ⟨m1, .cons hx h1, h2⟩

/-- Every completed atomic call takes effect, with its result, at one instant between its call and its response. -/
theorem Linearization.effect (h : Linearization hist L m) {o : OpId} {c : Call K V} {r : c.Res}
    (hr : HEv.ret o c r ∈ hist) (hc : c.atomic = true) : ∃ m1 m2, EffectAt hist L o m1 m2 ∧ SpecOp c m1 r m2 := by
  obtain ⟨L1, L2, hL⟩ := List.append_of_mem (h.complete o c r hr hc)
  have hl := h.legal
  rw [hL] at hl
  obtain ⟨m1, h1, h2⟩ := hl.split
  cases h2 with
  | @cons _ m2 _ _ _ hx h3 =>
    have ho := h.order
    rw [hL, List.pairwise_append] at ho
    refine ⟨m1, m2, ⟨L1, _, L2, hL, rfl, h1, hx, ?_, ?_⟩, hx⟩
    · exact fun y hy => ho.2.2 y hy _ List.mem_cons_self
    · exact fun y hy => (List.pairwise_cons.1 ho.2.1).1 y hy

theorem at_some {m : AMap K V} {k : K} {x : K × V} : m.at k = some x ↔ x.1 = k ∧ m k = some x.2 := by
  unfold AMap.at
  rw [Option.map_eq_some_iff]
  constructor
  · rintro ⟨v, h1, rfl⟩; exact ⟨rfl, h1⟩
  · rintro ⟨rfl, h⟩; exact ⟨x.2, h, rfl⟩

theorem at_none {m : AMap K V} {k : K} : m.at k = none ↔ m k = none := by
  unfold AMap.at; exact Option.map_eq_none_iff

theorem kv_at {m : AMap K V} {k : K} {r : Option (Entry K V)} (h : Option.map Entry.kv r = m.at k) :
    (∀ e, r = some e → e.key = k ∧ m k = some e.val) ∧ (r = none → m k = none) := by
  constructor
  · rintro e rfl
    exact at_some.1 h.symm
  · rintro rfl
    exact at_none.1 h.symm

/-- **C02** `get` (also `get_key_value`) and `contains_key` return what the map contained at some instant of the call. -/
theorem C02_get (h : Reach C ps) : ∃ L m, Linearization ps.hist L m ∧
    (∀ o k r, HEv.ret o (.get k) r ∈ ps.hist →
      (∀ e, r = some e → e.key = k ∧ During ps.hist L o fun m => m k = some e.val) ∧
      (r = none → During ps.hist L o fun m => m k = none)) ∧
    (∀ o k r, HEv.ret o (.containsKey k) r ∈ ps.hist →
      During ps.hist L o fun m => r = (m k).isSome) := by
  obtain ⟨L, m, hL, _⟩ := C01_linearizable h
  have hwf := C01_history_wf h
  refine ⟨L, m, hL, ?_, ?_⟩
  · intro o k r hr
    obtain ⟨m1, m2, h1, h2, rfl⟩ := hL.effect hr rfl
    obtain ⟨h3, h4⟩ := kv_at h2
    exact ⟨fun e he => ⟨(h3 e he).1, h1.during hwf (h3 e he).2⟩, fun he => h1.during hwf (h4 he)⟩
  · intro o k r hr
    obtain ⟨m1, m2, h1, h2, rfl⟩ := hL.effect hr rfl
    exact h1.during hwf h2

-- `get` of a key that is being moved by an unfinished resize
example : ∃ ps r, Reach cfgI ps ∧ HEv.ret (1, 1) (.get 5 : Call Nat Nat) r ∈ ps.hist ∧ r.map Entry.kv = some (5, 50) ∧
    ps.mem.root = some 0 ∧ ps.mem.next 0 = some 1 := by
  obtain ⟨ps, r, h1, h2, h3, h4⟩ := scene (c := .get 5) trivial
    (fun | .get _, r => Option.map Entry.kv r == some (5, 50) | _, _ => false) (by decide +kernel)
  exact ⟨ps, r, h1, h2, by simpa using h3, h4⟩

/-- **C02** A key that is present during the whole call is found, a key that is absent during the whole call is not. -/
theorem C02_get_stable (h : Reach C ps) : ∃ L m, Linearization ps.hist L m ∧
    ∀ o k r, HEv.ret o (.get k) r ∈ ps.hist →
      ((¬ During ps.hist L o fun m => m k = none) → ∃ e, r = some e) ∧
      ((¬ During ps.hist L o fun m => m k ≠ none) → r = none) ∧
      ∀ v, (¬ During ps.hist L o fun m => m k ≠ some v) → ∃ e, r = some e ∧ e.key = k ∧ e.val = v := by
  obtain ⟨L, m, hL, h1, _⟩ := C02_get h
  refine ⟨L, m, hL, fun o k r hr => ?_⟩
  obtain ⟨h2, h3⟩ := h1 o k r hr
  cases r with
  | none =>
    refine ⟨fun h => absurd (h3 rfl) h, fun _ => rfl, fun v h => ?_⟩
    obtain ⟨L1, L2, m', g1, g2, g3, g4, g5⟩ := h3 rfl
    exact absurd ⟨L1, L2, m', g1, g2, g3, g4, by show m' k ≠ _; rw [show m' k = none from g5]; simp⟩ h
  | some e =>
    obtain ⟨h4, L1, L2, m', g1, g2, g3, g4, g5⟩ := h2 e rfl
    have g5 : m' k = some e.val := g5
    refine ⟨fun _ => ⟨e, rfl⟩, fun h => ?_, fun v h => ⟨e, rfl, h4, ?_⟩⟩
    · exact absurd ⟨L1, L2, m', g1, g2, g3, g4, by show m' k ≠ _; rw [g5]; simp⟩ h
    · by_contra hv
      exact h ⟨L1, L2, m', g1, g2, g3, g4, by show m' k ≠ _; rw [g5]; simpa using hv⟩

/-- **C03** `insert` is an atomic put that returns the previous value. -/
theorem C03_insert (h : Reach C ps) : ∃ L m, Linearization ps.hist L m ∧
    ∀ o k v r, HEv.ret o (.insert k v) r ∈ ps.hist → ∃ m1, EffectAt ps.hist L o m1 (m1.put k (some v)) ∧
      (∀ e, r = some e → e.key = k ∧ m1 k = some e.val) ∧ (r = none → m1 k = none) := by
  obtain ⟨L, m, hL, _⟩ := C01_linearizable h
  refine ⟨L, m, hL, fun o k v r hr => ?_⟩
  obtain ⟨m1, m2, h1, h2, rfl⟩ := hL.effect hr rfl
  exact ⟨m1, h1, kv_at h2⟩

-- replacing, in the middle of a resize, a value that has already been moved to the next table
example : ∃ ps r, Reach cfgI ps ∧ HEv.ret (1, 1) (.insert 0 5 : Call Nat Nat) r ∈ ps.hist ∧ r.map Entry.kv = some (0, 0) ∧
    ps.mem.root = some 0 ∧ ps.mem.next 0 = some 1 := by
  obtain ⟨ps, r, h1, h2, h3, h4⟩ := scene (c := .insert 0 5) trivial
    (fun | .insert _ _, r => Option.map Entry.kv r == some (0, 0) | _, _ => false) (by decide +kernel)
  exact ⟨ps, r, h1, h2, by simpa using h3, h4⟩

/-- **C04** `try_insert` inserts if the key is absent; otherwise it changes nothing, reports the current entry and
gives the value back. -/
theorem C04_tryInsert (h : Reach C ps) : ∃ L m, Linearization ps.hist L m ∧
    ∀ o k v r, HEv.ret o (.tryInsert k v) r ∈ ps.hist → ∃ m1,
      match r with
      | .inl e => m1 k = none ∧ EffectAt ps.hist L o m1 (m1.put k (some v)) ∧ e.key = k ∧ e.val = v
      | .inr (e, v') => m1 k = some e.val ∧ e.key = k ∧ v' = v ∧ EffectAt ps.hist L o m1 m1 := by
  obtain ⟨L, m, hL, _⟩ := C01_linearizable h
  refine ⟨L, m, hL, fun o k v r hr => ?_⟩
  obtain ⟨m1, m2, h1, h2⟩ := hL.effect hr rfl
  refine ⟨m1, ?_⟩
  rcases r with e | ⟨e, v'⟩
  · obtain ⟨h3, h4, rfl⟩ := h2
    exact ⟨h3, h1, congrArg Prod.fst h4, congrArg Prod.snd h4⟩
  · obtain ⟨h3, rfl, rfl⟩ := h2
    obtain ⟨h4, h5⟩ := at_some.1 h3
    exact ⟨h5, h4, rfl, h1⟩

-- both outcomes, in the middle of a resize
example : (∃ ps e, Reach cfgI ps ∧ HEv.ret (1, 1) (.tryInsert 100 5 : Call Nat Nat) (.inl e) ∈ ps.hist) ∧
    ∃ ps e, Reach cfgI ps ∧ HEv.ret (1, 1) (.tryInsert 3 5 : Call Nat Nat) (.inr (e, 5)) ∈ ps.hist ∧ e.kv = (3, 30) := by
  constructor
  · obtain ⟨ps, r, h1, h2, h3, _⟩ := scene (c := .tryInsert 100 5) trivial
      (fun | .tryInsert _ _, .inl _ => true | _, _ => false) (by decide +kernel)
    rcases r with e | ⟨e, v⟩
    · exact ⟨ps, e, h1, h2⟩
    · cases h3
  · obtain ⟨ps, r, h1, h2, h3, _⟩ := scene (c := .tryInsert 3 5) trivial
      (fun | .tryInsert _ _, .inr (e, v) => e.kv == (3, 30) && v == 5 | _, _ => false) (by decide +kernel)
    rcases r with e | ⟨e, v⟩
    · cases h3
    · simp only [Bool.and_eq_true, beq_iff_eq] at h3
      obtain ⟨h4, rfl⟩ := h3
      exact ⟨ps, e, h1, h2, h4⟩

/-- **C05** `remove` and `remove_if` remove exactly the entry they report. -/
theorem C05_remove (h : Reach C ps) : ∃ L m, Linearization ps.hist L m ∧
    (∀ o k r, HEv.ret o (.remove k) r ∈ ps.hist → ∃ m1, EffectAt ps.hist L o m1 (m1.put k none) ∧
      (∀ e, r = some e → e.key = k ∧ m1 k = some e.val) ∧ (r = none → m1 k = none)) ∧
    ∀ o k f r, HEv.ret o (.removeIf k f) r ∈ ps.hist → f.Made r.calls ∧ ∃ m1,
      match r.out with
      | .absent => m1 k = none ∧ EffectAt ps.hist L o m1 m1
      | .removed e => e.key = k ∧ m1 k = some e.val ∧ ((e.key, e.val), true) ∈ r.calls ∧
          EffectAt ps.hist L o m1 (m1.put k none)
      | .kept e => e.key = k ∧ m1 k = some e.val ∧ ((e.key, e.val), false) ∈ r.calls ∧ EffectAt ps.hist L o m1 m1 := by
  obtain ⟨L, m, hL, _⟩ := C01_linearizable h
  refine ⟨L, m, hL, fun o k r hr => ?_, fun o k f r hr => ?_⟩
  · obtain ⟨m1, m2, h1, h2, rfl⟩ := hL.effect hr rfl
    exact ⟨m1, h1, kv_at h2⟩
  · obtain ⟨m1, m2, h1, h2, h3⟩ := hL.effect hr rfl
    refine ⟨h2, m1, ?_⟩
    obtain ⟨calls, out⟩ := r
    cases out with
    | absent => obtain ⟨h4, rfl⟩ := h3; exact ⟨h4, h1⟩
    | removed e =>
      obtain ⟨h4, h5, rfl⟩ := h3
      obtain ⟨h6, h7⟩ := at_some.1 h4
      exact ⟨h6, h7, h5, h1⟩
    | kept e =>
      obtain ⟨h4, h5, rfl⟩ := h3
      obtain ⟨h6, h7⟩ := at_some.1 h4
      exact ⟨h6, h7, h5, h1⟩

-- removing an entry that the resize has not reached yet; a `remove_if` that keeps it
example : (∃ ps r, Reach cfgI ps ∧ HEv.ret (1, 1) (.remove 3 : Call Nat Nat) r ∈ ps.hist ∧ r.map Entry.kv = some (3, 30)) ∧
    ∃ ps r, Reach cfgI ps ∧ HEv.ret (1, 1) (.removeIf 3 (.pure fun _ => false) : Call Nat Nat) r ∈ ps.hist ∧
      r.calls = [((3, 30), false)] := by
  constructor
  · obtain ⟨ps, r, h1, h2, h3, _⟩ := scene (c := .remove 3) trivial
      (fun | .remove _, r => Option.map Entry.kv r == some (3, 30) | _, _ => false) (by decide +kernel)
    exact ⟨ps, r, h1, h2, by simpa using h3⟩
  · obtain ⟨ps, r, h1, h2, h3, _⟩ := scene (c := .removeIf 3 (.pure fun _ => false)) pure_wf
      (fun | .removeIf _ _, r => r.calls == [((3, 30), false)] | _, _ => false) (by decide +kernel)
    exact ⟨ps, r, h1, h2, by simpa using h3⟩

/-- **C06** `compute` is an atomic read-modify-write: at one instant the current entry is the argument of a call made to
the closure, and the map is changed as the answer of this call says. -/
theorem C06_compute (h : Reach C ps) : ∃ L m, Linearization ps.hist L m ∧
    ∀ (R : Type) o k (f : Closure (Option (K × V)) (Operation V R)) r, HEv.ret o (.compute k f) r ∈ ps.hist →
      f.Made r.calls ∧ ∃ m1,
      match r.out with
      | .inserted e => m1 k = none ∧ e.key = k ∧ (none, .insert e.val) ∈ r.calls ∧
          EffectAt ps.hist L o m1 (m1.put k (some e.val))
      | .updated old new => old.key = k ∧ m1 k = some old.val ∧ new.key = k ∧
          (some (k, old.val), .insert new.val) ∈ r.calls ∧ EffectAt ps.hist L o m1 (m1.put k (some new.val))
      | .removed e => e.key = k ∧ m1 k = some e.val ∧ (some (k, e.val), .remove) ∈ r.calls ∧
          EffectAt ps.hist L o m1 (m1.put k none)
      | .aborted a _ => ((m1 k).map fun v => (k, v), .abort a) ∈ r.calls ∧ EffectAt ps.hist L o m1 m1 := by
  obtain ⟨L, m, hL, _⟩ := C01_linearizable h
  refine ⟨L, m, hL, fun R o k f r hr => ?_⟩
  obtain ⟨m1, m2, h1, h2, _, h3⟩ := hL.effect hr rfl
  refine ⟨h2, m1, ?_⟩
  obtain ⟨calls, out⟩ := r
  cases out with
  | inserted e => obtain ⟨h4, h5, h6, rfl⟩ := h3; exact ⟨h4, h5, h6, h1⟩
  | updated old new =>
    obtain ⟨h4, h5, h6, rfl⟩ := h3
    obtain ⟨h7, h8⟩ := at_some.1 h4
    refine ⟨h7, h8, h5, ?_, h1⟩
    have : old.kv = (k, old.val) := Prod.ext h7 rfl
    rw [← this]; exact h6
  | removed e =>
    obtain ⟨h4, h6, rfl⟩ := h3
    obtain ⟨h7, h8⟩ := at_some.1 h4
    refine ⟨h7, h8, ?_, h1⟩
    have : e.kv = (k, e.val) := Prod.ext h7 rfl
    rw [← this]; exact h6
  | aborted a s =>
    obtain ⟨_, h4, rfl⟩ := h3
    exact ⟨h4, h1⟩

/-- Test: the closure was called, and the outcome is `inserted` (0), `updated` (1), `removed` (2), `aborted` (3). -/
private def outIs (n : Nat) : (c : Call Nat Nat) → c.Res → Bool
  | .compute _ _, r => r.calls.length == 1 && n == (match r.out with
    | .inserted _ => 0 | .updated _ _ => 1 | .removed _ => 2 | .aborted _ _ => 3)
  | _, _ => false

-- `compute` that replaces, removes, inserts in the middle of a resize
example : (∃ ps r, Reach cfgI ps ∧
      HEv.ret (1, 1) (.compute (R := Nat) 0 (.pure fun _ => .insert 7) : Call Nat Nat) r ∈ ps.hist) ∧
    (∃ ps r, Reach cfgI ps ∧ HEv.ret (1, 1) (.compute (R := Nat) 3 (.pure fun _ => .remove) : Call Nat Nat) r ∈ ps.hist) ∧
    ∃ ps r, Reach cfgI ps ∧
      HEv.ret (1, 1) (.compute (R := Nat) 99 (.pure fun _ => .insert 1) : Call Nat Nat) r ∈ ps.hist := by
  refine ⟨?_, ?_, ?_⟩
  · obtain ⟨ps, r, h1, h2, _⟩ := scene (c := .compute (R := Nat) 0 (.pure fun _ => .insert 7)) pure_wf (outIs 1)
      (by decide +kernel)
    exact ⟨ps, r, h1, h2⟩
  · obtain ⟨ps, r, h1, h2, _⟩ := scene (c := .compute (R := Nat) 3 (.pure fun _ => .remove)) pure_wf (outIs 2)
      (by decide +kernel)
    exact ⟨ps, r, h1, h2⟩
  · obtain ⟨ps, r, h1, h2, _⟩ := scene (c := .compute (R := Nat) 99 (.pure fun _ => .insert 1)) pure_wf (outIs 0)
      (by decide +kernel)
    exact ⟨ps, r, h1, h2⟩

/-- **C07** Once the closure passed to `compute` has answered `Insert` to `None`, it is not called with `None` again in the
same call of `compute`, however often the operation is retried — whether `compute` returns, or panics because of the
closure (`Call.MayPanic`, `Closure.PanicsOnce`). -/
theorem C07_compute_once (h : Reach C ps) {R : Type} {o : OpId} {k : K} {f : Closure (Option (K × V)) (Operation V R)} :
    (∀ r, HEv.ret o (.compute k f) r ∈ ps.hist →
      r.calls.Pairwise fun a b => ∀ v, a = (none, .insert v) → b.1 ≠ none) ∧
    (HEv.panic o (.compute k f) .user ∈ ps.hist → ∃ s i, f.Run s ∧
      (s.calls.Pairwise fun a b => ∀ v, a = (none, .insert v) → b.1 ≠ none) ∧
      (i = none → ∀ v, (none, .insert v) ∉ s.calls) ∧ f.call s.st i = .error .user) := by
  refine ⟨fun r hr => ?_, fun hp => ?_⟩
  · obtain ⟨L, m, hL, _⟩ := C01_linearizable h
    obtain ⟨m1, m2, h1, h2, h3, h4⟩ := hL.effect hr rfl
    exact h3
  · rcases C09_panics h hp with h1 | ⟨_, h1⟩ | ⟨h1, _⟩
    · rcases h1 with ⟨h, _⟩ | h | ⟨h, _⟩ | h <;> cases h
    · exact h1
    · cases h1

/-- A closure that panics when it is given a value. -/
private def panicky : Closure (Option (Nat × Nat)) (Operation Nat Nat) where
  S := Unit
  init := ()
  call s i := match i with
    | none => .ok (s, .insert 1)
    | some _ => .error .user

private theorem panicky_wf : panicky.WF := by
  intro s i r h
  cases i with
  | none => cases h
  | some x => cases h; rfl

-- two calls of `compute` race for the same absent key: guard 0 has called its closure with `None` when guard 1 inserts
-- the key, so the closure of guard 0 is called again, with a value, and panics
example : ∃ ps, Reach cfgB ps ∧ HEv.panic (0, 1) (.compute 5 panicky : Call Nat Nat) .user ∈ ps.hist := by
  obtain ⟨ps, ps', h1, h2, _, _, h3⟩ := demo_panic (C := cfgB) (V := Nat) (l1 := [.pin 0, .pin 1]) (t := 0) (n := 1) (w := .user)
    (c := .compute 5 panicky) (l2 := [.go 0 4, .call 1 (.insert 5 50), .fin 1 500, .fin 0 500]) panicky_wf
    (P1 := fun _ => true) (P2 := fun _ => true) (by decide +kernel) (by decide +kernel)
  exact ⟨ps', h1.steps h2, h3⟩

/-- **C07** The initialisers of `try_insert_with`, `get_or_insert_with` and `update_or_insert_with` (`FnOnce`) are called at
most once: a value that is inserted is the answer of the first call made to the initialiser, a panic of the initialiser is
that of its first call, and the `unwrap` that would fail on a second call never does. -/
theorem C07_initialiser_once (h : Reach C ps) {o : OpId} {c : Call K V} {f : Closure Unit V}
    (hc : (∃ k, c = .tryInsertWith k f) ∨ (∃ k, c = .getOrInsertWith k f) ∨
      ∃ k u, c = .updateOrInsertWith k u f ∧ ∀ s i, u.call s i ≠ .error .user) :
    (∀ w, HEv.panic o c w ∈ ps.hist → w ≠ .unwrapNone) ∧
    (HEv.panic o c .user ∈ ps.hist → f.call f.init () = .error .user) := by
  refine ⟨fun w hw => (mayPanic_ne (C09_panics h hw)).2, fun hw => ?_⟩
  have hs : ¬ SysPanic C .user := by rintro (⟨h, _⟩ | h | ⟨h, _⟩ | h) <;> cases h
  have h1 := C09_panics h hw
  rcases hc with ⟨k, rfl⟩ | ⟨k, rfl⟩ | ⟨k, u, rfl, hu⟩
  · rcases h1 with h1 | ⟨_, h1⟩
    · exact absurd h1 hs
    · exact h1
  · rcases h1 with h1 | ⟨_, h1⟩
    · exact absurd h1 hs
    · exact h1
  · rcases h1 with h1 | ⟨_, h1 | h1⟩
    · exact absurd h1 hs
    · obtain ⟨s, i, _, h1⟩ := h1
      exact absurd h1 (hu _ _)
    · exact h1

-- an initialiser that panics
example : ∃ ps, Reach cfgB ps ∧
    HEv.panic (0, 1) (.tryInsertWith 5 ⟨Unit, (), fun _ _ => .error .user⟩ : Call Nat Nat) .user ∈ ps.hist := by
  obtain ⟨ps, ps', h1, h2, _, _, h3⟩ := demo_panic (C := cfgB) (V := Nat) (l1 := [.pin 0]) (t := 0) (n := 1) (w := .user)
    (c := .tryInsertWith 5 ⟨Unit, (), fun _ _ => .error .user⟩) (l2 := [.fin 0 500]) (by intro s i r h; cases h; rfl)
    (P1 := fun _ => true) (P2 := fun _ => true) (by decide +kernel) (by decide +kernel)
  exact ⟨ps', h1.steps h2, h3⟩

/-- **C08** `update`, `get_or_insert(_with)`, `try_insert_with`, `update_or_insert(_with)`: atomic, as documented. No
update is lost: the closure was applied to the value that was current at the instant of the replacement. -/
theorem C08_derived (h : Reach C ps) : ∃ L m, Linearization ps.hist L m ∧
    (∀ o k f r, HEv.ret o (.update k f) r ∈ ps.hist → f.Made r.calls ∧ ∃ m1,
      match r.out with
      | none => m1 k = none ∧ EffectAt ps.hist L o m1 m1
      | some e => e.key = k ∧ ∃ old, m1 k = some old ∧ (old, e.val) ∈ r.calls ∧
          EffectAt ps.hist L o m1 (m1.put k (some e.val))) ∧
    (∀ o k v r, HEv.ret o (.getOrInsert k v) r ∈ ps.hist → ∃ m1, Entry.key r = k ∧
      ((m1 k = some (Entry.val r) ∧ EffectAt ps.hist L o m1 m1) ∨
       (m1 k = none ∧ Entry.val r = v ∧ EffectAt ps.hist L o m1 (m1.put k (some v))))) ∧
    (∀ o k f r, HEv.ret o (.getOrInsertWith k f) r ∈ ps.hist → ∃ m1, Entry.key r = k ∧
      ((m1 k = some (Entry.val r) ∧ EffectAt ps.hist L o m1 m1) ∨
       (m1 k = none ∧ Gives f (Entry.val r) ∧ EffectAt ps.hist L o m1 (m1.put k (some (Entry.val r)))))) ∧
    (∀ o k f r, HEv.ret o (.tryInsertWith k f) r ∈ ps.hist → ∃ m1,
      match r with
      | .inl e => e.key = k ∧ m1 k = none ∧ Gives f e.val ∧ EffectAt ps.hist L o m1 (m1.put k (some e.val))
      | .inr e => e.key = k ∧ m1 k = some e.val ∧ EffectAt ps.hist L o m1 m1) ∧
    (∀ o k u v r, HEv.ret o (.updateOrInsert k u v) r ∈ ps.hist → u.Made r.calls ∧ r.out.key = k ∧ ∃ m1,
      EffectAt ps.hist L o m1 (m1.put k (some r.out.val)) ∧
      (m1 k = none → r.out.val = v) ∧ ∀ old, m1 k = some old → (old, r.out.val) ∈ r.calls) ∧
    (∀ o k u f r, HEv.ret o (.updateOrInsertWith k u f) r ∈ ps.hist → u.Made r.calls ∧ r.out.key = k ∧ ∃ m1,
      EffectAt ps.hist L o m1 (m1.put k (some r.out.val)) ∧
      (m1 k = none → Gives f r.out.val) ∧ ∀ old, m1 k = some old → (old, r.out.val) ∈ r.calls) := by
  obtain ⟨L, m, hL, _⟩ := C01_linearizable h
  refine ⟨L, m, hL, fun o k f r hr => ?_, fun o k v r hr => ?_, fun o k f r hr => ?_, fun o k f r hr => ?_,
    fun o k u v r hr => ?_, fun o k u f r hr => ?_⟩
  · obtain ⟨m1, m2, h1, h2, h3⟩ := hL.effect hr rfl
    refine ⟨h2, m1, ?_⟩
    obtain ⟨calls, out⟩ := r
    cases out with
    | none => obtain ⟨h4, rfl⟩ := h3; exact ⟨h4, h1⟩
    | some e => obtain ⟨h4, old, h5, h6, rfl⟩ := h3; exact ⟨h4, old, h5, h6, h1⟩
  · obtain ⟨m1, m2, h1, h2⟩ := hL.effect hr rfl
    rcases h2 with ⟨h2, h6⟩ | ⟨h2, h3, rfl⟩
    · obtain ⟨h4, h5⟩ := at_some.1 h2
      rw [h6] at h1
      exact ⟨m1, h4, .inl ⟨h5, h1⟩⟩
    · exact ⟨m1, congrArg Prod.fst h3, .inr ⟨h2, congrArg Prod.snd h3, h1⟩⟩
  · obtain ⟨m1, m2, h1, h2⟩ := hL.effect hr rfl
    rcases h2 with ⟨h2, h6⟩ | ⟨h2, h3, h4, rfl⟩
    · obtain ⟨h4, h5⟩ := at_some.1 h2
      rw [h6] at h1
      exact ⟨m1, h4, .inl ⟨h5, h1⟩⟩
    · exact ⟨m1, h3, .inr ⟨h2, h4, h1⟩⟩
  · obtain ⟨m1, m2, h1, h2⟩ := hL.effect hr rfl
    refine ⟨m1, ?_⟩
    rcases r with e | e
    · obtain ⟨h3, h4, h5, rfl⟩ := h2
      exact ⟨h4, h3, h5, h1⟩
    · obtain ⟨h3, rfl⟩ := h2
      obtain ⟨h4, h5⟩ := at_some.1 h3
      exact ⟨h4, h5, h1⟩
  · obtain ⟨m1, m2, h1, h2, h3, rfl, h4⟩ := hL.effect hr rfl
    refine ⟨h2, h3, m1, h1, fun h5 => ?_, fun old h5 => ?_⟩
    · rw [h5] at h4; exact h4
    · rw [h5] at h4; exact h4
  · obtain ⟨m1, m2, h1, h2, h3, rfl, h4⟩ := hL.effect hr rfl
    refine ⟨h2, h3, m1, h1, fun h5 => ?_, fun old h5 => ?_⟩
    · rw [h5] at h4; exact h4
    · rw [h5] at h4; exact h4

-- `update` and `update_or_insert_with` in the middle of a resize
example : (∃ ps r, Reach cfgI ps ∧ HEv.ret (1, 1) (.update 0 (.pure fun v => v + 1) : Call Nat Nat) r ∈ ps.hist ∧
      r.out.map Entry.kv = some (0, 1)) ∧
    ∃ ps r, Reach cfgI ps ∧
      HEv.ret (1, 1) (.updateOrInsertWith 77 (.pure fun v => v + 1) (.pure fun _ => 6) : Call Nat Nat) r ∈ ps.hist ∧
      r.out.kv = (77, 6) := by
  constructor
  · obtain ⟨ps, r, h1, h2, h3, _⟩ := scene (c := .update 0 (.pure fun v => v + 1)) pure_wf
      (fun | .update _ _, r => r.out.map Entry.kv == some (0, 1) | _, _ => false) (by decide +kernel)
    exact ⟨ps, r, h1, h2, by simpa using h3⟩
  · obtain ⟨ps, r, h1, h2, h3, _⟩ := scene (c := .updateOrInsertWith 77 (.pure fun v => v + 1) (.pure fun _ => 6))
      ⟨pure_wf, pure_wf⟩ (fun | .updateOrInsertWith _ _ _, r => r.out.kv == (77, 6) | _, _ => false) (by decide +kernel)
    exact ⟨ps, r, h1, h2, by simpa using h3⟩

theorem apply_writes (h : x.Apply m m') {k : K} (hne : m k ≠ m' k) : x.call.Writes k := by
  cases x with
  | op o c r => exact specOp_writes h hne
  | del o c y =>
    obtain ⟨h1, h2, rfl⟩ := h
    cases c <;> first | trivial | exact False.elim h1

/-- The map is not changed at `k` by items that do not write `k`. -/
theorem SeqRun.same {A : List (Item K V)} (h : SeqRun m A m') {k : K} (hw : ∀ x ∈ A, ¬ x.call.Writes k) : m' k = m k := by
  induction h with
  | nil => rfl
  | @cons m m1 m2 x L hx hr ih =>
    rw [ih fun y hy => hw y (List.mem_cons_of_mem _ hy)]
    by_contra hne
    exact hw x List.mem_cons_self (apply_writes hx (Ne.symm hne))

/-- Two calls that do not overlap take effect in the order in which they are made. -/
theorem Linearization.order_effect (h : Linearization hist L m) (hwf : WFH hist) {a b : OpId} {ca cb : Call K V} {ra : ca.Res}
    {rb : cb.Res} (ha : HEv.ret a ca ra ∈ hist) (hb : HEv.ret b cb rb ∈ hist) (hca : ca.atomic = true)
    (hcb : cb.atomic = true) (hp : Precedes hist a b) :
    ∃ L1 L2 L3 m1 m2 m3 m4, L = L1 ++ .op a ca ra :: L2 ++ .op b cb rb :: L3 ∧ SeqRun AMap.empty L1 m1 ∧
      SpecOp ca m1 ra m2 ∧ SeqRun m2 L2 m3 ∧ SpecOp cb m3 rb m4 ∧ SeqRun m4 L3 m := by
  obtain ⟨L1, R, hL⟩ := List.append_of_mem (h.complete a ca ra ha hca)
  have hbm := h.complete b cb rb hb hcb
  rw [hL] at hbm
  have ho := h.order
  rw [hL, List.pairwise_append] at ho
  rcases List.mem_append.1 hbm with hb1 | hb1
  · exact absurd hp (ho.2.2 _ hb1 _ List.mem_cons_self)
  rcases List.mem_cons.1 hb1 with hb1 | hb1
  · injection hb1 with h1
    rw [h1] at hp
    exact absurd hp (not_precedes_self hwf _)
  obtain ⟨L2, L3, rfl⟩ := List.append_of_mem hb1
  have hl := h.legal
  rw [hL] at hl
  obtain ⟨m1, h1, h2⟩ := hl.split
  cases h2 with
  | @cons _ m2 _ _ _ h3 h4 =>
    obtain ⟨m3, h5, h6⟩ := h4.split
    cases h6 with
    | @cons _ m4 _ _ _ h7 h8 => exact ⟨L1, L2, L3, m1, m2, m3, m4, by rw [hL]; simp, h1, h3, h5, h7, h8⟩

/-- **C42** Two calls made one after the other (by the same thread, or otherwise ordered) take effect in this order;
so two successive reads never observe the history of a key going backwards. -/
theorem C42_program_order (h : Reach C ps) : ∃ L m, Linearization ps.hist L m ∧
    ∀ a b ca cb ra rb, HEv.ret a ca ra ∈ ps.hist → HEv.ret b cb rb ∈ ps.hist → ca.atomic = true → cb.atomic = true →
      Precedes ps.hist a b →
      ∃ L1 L2 L3 m1 m2 m3 m4, L = L1 ++ .op a ca ra :: L2 ++ .op b cb rb :: L3 ∧ SeqRun AMap.empty L1 m1 ∧
        SpecOp ca m1 ra m2 ∧ SeqRun m2 L2 m3 ∧ SpecOp cb m3 rb m4 ∧ SeqRun m4 L3 m := by
  obtain ⟨L, m, hL, _⟩ := C01_linearizable h
  exact ⟨L, m, hL, fun a b ca cb ra rb ha hb hca hcb hp => hL.order_effect (C01_history_wf h) ha hb hca hcb hp⟩

/-- **C42** Read your writes: if every other call that may write `k` returned before `a` was called or was called after
`b` returned, then `b` finds for `k` exactly what `a` left. -/
theorem C42_read_your_writes (h : Reach C ps) : ∃ L m, Linearization ps.hist L m ∧
    ∀ a b ca cb ra rb (k : K), HEv.ret a ca ra ∈ ps.hist → HEv.ret b cb rb ∈ ps.hist → ca.atomic = true → cb.atomic = true →
      Precedes ps.hist a b →
      (∀ o c, HEv.inv o c ∈ ps.hist → c.Writes k → o = a ∨ o = b ∨ Precedes ps.hist o a ∨ Precedes ps.hist b o) →
      ∃ m1 m2 m3 m4, EffectAt ps.hist L a m1 m2 ∧ SpecOp ca m1 ra m2 ∧ SpecOp cb m3 rb m4 ∧ m3 k = m2 k := by
  obtain ⟨L, m, hL, _⟩ := C01_linearizable h
  have hwf := C01_history_wf h
  refine ⟨L, m, hL, fun a b ca cb ra rb k ha hb hca hcb hp hw => ?_⟩
  obtain ⟨L1, L2, L3, m1, m2, m3, m4, h1, h2, h3, h4, h5, h6⟩ := hL.order_effect hwf ha hb hca hcb hp
  have ho := hL.order
  rw [h1, List.append_assoc, List.pairwise_append] at ho
  obtain ⟨_, ho2, ho3⟩ := ho
  rw [List.cons_append, List.pairwise_cons] at ho2
  have ho4 := (List.pairwise_append.1 ho2.2).2.2
  refine ⟨m1, m2, m3, m4, ⟨L1, .op a ca ra, L2 ++ .op b cb rb :: L3, by rw [h1]; simp, rfl, h2, h3, ?_, ho2.1⟩, h3, h5, ?_⟩
  · exact fun y hy => ho3 y hy (.op a ca ra) (by simp)
  · refine h4.same fun x hx hwx => ?_
    have hxL : x ∈ L := by rw [h1]; simp [hx]
    -- an item of `a` or `b` can only be the operation itself
    have honce : ∀ o' c' r', HEv.ret o' c' r' ∈ ps.hist → c'.atomic = true → x.id = o' → x.opId? = some o' := by
      intro o' c' r' hr' hc' hid
      cases x with
      | op o'' c'' r'' => exact congrArg some hid
      | del o'' c'' y =>
        exfalso
        obtain ⟨A, B, hAB⟩ := List.append_of_mem hxL
        have hl := hL.legal
        rw [hAB] at hl
        obtain ⟨_, _, hl⟩ := hl.split
        cases hl with
        | cons hx' _ =>
          have hc := hwf.inv_unique (hL.called _ hxL) (by rw [hid]; exact hwf.ret_inv' hr')
          have hc : c'' = c' := hc
          subst hc
          have := hx'.1
          cases c'' <;> first | exact False.elim this | cases hc'
    have hn := hL.once
    rw [h1] at hn
    simp only [List.filterMap_append, List.filterMap_cons, Item.opId?] at hn
    rcases hw _ _ (hL.called x hxL) hwx with h7 | h7 | h7 | h7
    · have h8 := honce _ _ _ ha hca h7
      have h9 : a ∈ L2.filterMap Item.opId? := List.mem_filterMap.2 ⟨x, hx, h8⟩
      rw [List.append_assoc, List.nodup_append] at hn
      have := hn.2.1
      rw [List.cons_append, List.nodup_cons] at this
      exact this.1 (List.mem_append_left _ h9)
    · have h8 := honce _ _ _ hb hcb h7
      have h9 : b ∈ L2.filterMap Item.opId? := List.mem_filterMap.2 ⟨x, hx, h8⟩
      rw [List.nodup_append] at hn
      exact hn.2.2 b (by simp [h9]) b (by simp) rfl
    · exact ho2.1 x (List.mem_append_left _ hx) h7
    · exact ho4 x hx (.op b cb rb) (by simp) h7

/-- **C42** For instance, a thread that has inserted a key finds its own value. -/
theorem C42_insert_get (h : Reach C ps) {a b : OpId} {k : K} {v : V} {ra : Option (Entry K V)} {rb : Option (Entry K V)}
    (ha : HEv.ret a (.insert k v) ra ∈ ps.hist) (hb : HEv.ret b (.get k) rb ∈ ps.hist) (hp : Precedes ps.hist a b)
    (hw : ∀ o c, HEv.inv o c ∈ ps.hist → c.Writes k → o = a ∨ Precedes ps.hist o a ∨ Precedes ps.hist b o) :
    ∃ e, rb = some e ∧ e.key = k ∧ e.val = v := by
  obtain ⟨L, m, _, h1⟩ := C42_read_your_writes h
  obtain ⟨m1, m2, m3, m4, _, h3, h4, h5⟩ := h1 a b (.insert k v) (.get k) ra rb k ha hb rfl rfl hp fun o c h2 h3 => by
    rcases hw o c h2 h3 with h | h | h
    · exact .inl h
    · exact .inr (.inr (.inl h))
    · exact .inr (.inr (.inr h))
  have h6 : m3 k = some v := by rw [h5, h3.2]; exact if_pos rfl
  obtain ⟨h7, h8⟩ := kv_at h4.1
  cases rb with
  | none => rw [h8 rfl] at h6; cases h6
  | some e =>
    obtain ⟨h9, h10⟩ := h7 e rfl
    rw [h10] at h6
    exact ⟨e, rfl, h9, Option.some.inj h6⟩

-- insert, then get by the same guard, in the middle of a resize; the other calls write other keys, or ended before
example : ∃ ps ra rb, Reach cfgI ps ∧ HEv.ret (1, 1) (.insert 0 5 : Call Nat Nat) ra ∈ ps.hist ∧
    HEv.ret (1, 2) (.get 0 : Call Nat Nat) rb ∈ ps.hist ∧ Precedes ps.hist (1, 1) (1, 2) ∧
    ∀ o c, HEv.inv o c ∈ ps.hist → c.Writes 0 → o = (1, 1) ∨ Precedes ps.hist o (1, 1) ∨ Precedes ps.hist (1, 2) o := by
  obtain ⟨ps, ps', rb, h1, h2, _, h3, _, _, h4, _⟩ := demo_ret (C := cfgI) (V := Nat)
    (l1 := midResize 66 ++ [.call 1 (.insert 0 5), .fin 1 5000]) (l2 := [.fin 1 5000]) (t := 1) (n := 2)
    (P1 := fun _ => true) (c := .get 0) trivial (Q := fun _ _ => true)
    (P2 := fun ps => (ps.hist.any (HEv.retTest (1, 1) fun | .insert k v, _ => k == 0 && v == 5 | _, _ => false)) &&
      (precedesB ps.hist (1, 1) (1, 2) && ps.hist.all fun ev => match ev with
        | .inv o c => !writesB 0 c || (o == (1, 1) || precedesB ps.hist o (1, 1))
        | _ => true)) (by decide +kernel) (by decide +kernel)
  simp only [Bool.and_eq_true] at h3
  obtain ⟨h5, h6, h7⟩ := h3
  obtain ⟨c, ra, h8, h9⟩ := ret_of_test h5
  cases c <;> first | cases h9 | skip
  rename_i k v
  simp only [Bool.and_eq_true, beq_iff_eq] at h9
  obtain ⟨rfl, rfl⟩ := h9
  refine ⟨ps', ra, rb, h1.steps h2, h8, h4, precedesB_iff h6, fun o c ho hc => ?_⟩
  have := List.all_eq_true.1 h7 _ ho
  simp only [writesB_of hc, Bool.not_true, Bool.false_or, Bool.or_eq_true, beq_iff_eq] at this
  rcases this with h | h
  · exact .inl h
  · exact .inr (.inl (precedesB_iff h))

end Papaya
