import Verif.Props.Own
import Verif.Exec.Demo
import Verif.Props.Ops

/-! # C64: examples -/

set_option linter.unusedSectionVars false
set_option linter.unusedVariables false

namespace Papaya

variable {K V : Type} [DecidableEq K] {F α β σ : Type}

theorem OM.bind_ok {m : OM K V F α} {g : α → OM K V F β} {h h₁ h' : F} {q : List (Entry K V)} {a : α} {o : Out β}
    (h1 : m h [] h₁ (.ok a)) (h2 : g a h₁ q h' o) : (m >>= g) h q h' o :=
  .inl ⟨[], q, h₁, a, h1, h2, rfl⟩

theorem OM.bind_panic {m : OM K V F α} {g : α → OM K V F β} {h h' : F} {q : List (Entry K V)} {r : PanicReason}
    (h1 : m h q h' (.panic r)) : (m >>= g) h q h' (.panic r) := .inr (.inl ⟨r, h1, rfl⟩)

theorem OM.prim_ok {a : Act K V α} {x : α} (h1 : a.May x) (h2 : a.pub x = []) (h : F) :
    (OM.sh (Prog.prim a) : OM K V F α) h [] h (.ok x) :=
  ⟨rfl, .inl ⟨x, ⟨x, [], h1, by rw [h2]; rfl, rfl, rfl⟩, rfl⟩⟩

/-- A closure that inserts 7 if there is no entry, and panics otherwise. -/
def noSecond : Closure (Option (Nat × Nat)) (Operation Nat Unit) where
  S := Unit
  init := ()
  call := fun _ i => match i with
    | none => .ok ((), .insert 7)
    | some _ => .error .user

/-- Another thread publishes an entry for key 5 first; the closure is called again and panics: the value 7 is dropped, but the
key 5 is lost together with the allocation (`LazyEntry` has no destructor). -/
theorem compute_leak : ∃ fr : CFrame Nat Nat Unit noSecond,
    Own.compute cfgB (CFrame.new noSecond 5) [] fr (.panic .user) ∧
    fr.deadVals = [7] ∧ fr.deadKeys = [] ∧ fr.box = .mine 5 none := by
  let fr : CFrame Nat Nat Unit noSecond := ⟨⟨(), [(none, .insert 7)]⟩, some 7, none, .init, .mine 5 none, [], []⟩
  refine ⟨fr.dropState.dropEntry, ⟨fr.dropState, OM.bind_panic ⟨fr, ?_, rfl⟩, rfl⟩, ?_⟩
  · refine OM.bind_ok (a := .inl ⟨0, 7, 7⟩) (OM.bind_ok (OM.prim_ok (a := .loadRoot) (x := some ⟨0, 7, 7⟩) (by simp [Act.May]) (by simp [Act.pub]) _) ⟨rfl, rfl, rfl⟩) ?_
    refine OM.bind_ok ⟨rfl, rfl, rfl⟩ (.panic (OM.bind_panic (.panic ?_)))
    dsimp only
    rw [if_pos (by decide)]
    refine OM.bind_ok (OM.prim_ok (a := .loadMd _ _) (x := EMPTY) (by simp [Act.May]) (by simp [Act.pub]) _) ?_
    rw [if_pos rfl]
    refine OM.bind_ok (a := .insert 7) (OM.bind_ok ⟨rfl, rfl, rfl⟩ ⟨rfl, rfl, rfl⟩) ?_
    refine OM.bind_ok ⟨rfl, rfl, rfl⟩ (OM.bind_ok ⟨rfl, rfl, rfl⟩ ?_)
    refine OM.bind_ok (a := .found (.value ⟨0, 5, 8⟩ ⟨some ⟨0, 5, 8⟩, false, false, false⟩)) ⟨.inl ⟨_, ?_, rfl⟩, rfl⟩ ?_
    · refine ⟨.inr ⟨some ⟨0, 5, 8⟩, false, false, false⟩, [], trivial, rfl, (), [], trivial, rfl, 1, [], trivial, rfl, ?_⟩
      exact ⟨rfl, rfl⟩
    · refine OM.bind_ok ⟨rfl, rfl, rfl⟩ (OM.bind_ok (OM.bind_ok ⟨rfl, rfl, rfl⟩ ⟨rfl, rfl, rfl⟩) ?_)
      refine OM.bind_ok (OM.prim_ok (a := .deref _) (x := ()) (by simp [Act.May]) (by simp [Act.pub]) _) (OM.bind_ok ⟨rfl, rfl, rfl⟩ ?_)
      refine .panic (OM.bind_panic (OM.bind_ok ⟨rfl, rfl, rfl⟩ (OM.bind_ok (OM.prim_ok (a := .deref _) (x := ()) (by simp [Act.May]) (by simp [Act.pub]) _) ⟨rfl, rfl, rfl⟩)))
  · exact ⟨rfl, rfl, rfl⟩

/-- A closure that inserts 7 if there is no entry, and increments the value otherwise. -/
def bump7 : Closure (Option (Nat × Nat)) (Operation Nat Unit) where
  S := Unit
  init := ()
  call := fun _ i => match i with
    | none => .ok ((), .insert 7)
    | some (_, v) => .ok ((), .insert (v + 1))

theorem bump7_wf : bump7.WF := by
  intro s i r h
  rcases i with _ | ⟨a, b⟩ <;> cases h

-- guard 0 has offered 7 for key 5 when guard 1 inserts 50; it then replaces 50 by 51. Before it returns: 7 has been dropped,
-- 51 and the key are in the map.
example : ∃ (ps : PSt Nat Nat) (k : Nat) (R : Type) (f : Closure (Option (Nat × Nat)) (Operation Nat R)) (r : (Call.compute k f).Res),
    Reach cfgB ps ∧ ps.th 0 = .run (.compute k f) (.ret r) ∧ k = 5 ∧ madeVals r.calls = [7, 51] ∧
    ∃ o n, r.out = .updated o n ∧ o.val = 50 ∧ n.val = 51 ∧
      ∃ fr : CFrame Nat Nat R f, Own.compute cfgB (CFrame.new f k) [n] fr (.ok r.out) ∧ fr.deadVals = [7] ∧ fr.deadKeys = [] := by
  obtain ⟨ps, _, h1, h2⟩ := demo_run (C := cfgB) (V := Nat)
    (l := [.pin 0, .pin 1, .call 0 (.compute 5 bump7) bump7_wf, .go 0 4, .call 1 (.insert 5 50), .fin 1 500, .go 0 8])
    (P := fun ps => match ps.th 0 with
      | .run (.compute k _) (.ret r) => k == 5 && (decide (madeVals r.calls = [7, 51]) &&
          match r.out with
          | .updated o n => o.val == 50 && (n.val == 51 && n.key == 5)
          | _ => false)
      | _ => false) (by decide +kernel)
  split at h2
  · rename_i R k f r ht
    simp only [Bool.and_eq_true, beq_iff_eq, decide_eq_true_eq] at h2
    obtain ⟨hk, hm, h2⟩ := h2
    split at h2
    · rename_i o n ho
      simp only [Bool.and_eq_true, beq_iff_eq] at h2
      obtain ⟨pubs, fr, h3, h4⟩ := C64_compute_of_system cfgB h1 ht
      obtain ⟨h5, h6, h7, h8⟩ := C64_compute_returns cfgB h3
      rw [ho] at h5
      subst h5
      refine ⟨ps, k, R, f, r, h1, ht, hk, hm, o, n, ho, h2.1, h2.2.1, fr, h3, ?_, ?_⟩
      · rw [h4, hm] at h6
        have h9 : ([7, 51] : List Nat).Perm ([51] ++ fr.deadVals) := by
          have := h6
          simpa [Compute.published, h2.2.1] using this
        have h10 : ([51, 7] : List Nat).Perm (51 :: fr.deadVals) := (List.Perm.swap 7 51 []).trans h9
        exact List.perm_singleton.1 (List.perm_cons _ |>.1 h10).symm
      · have h9 := congrArg List.length h7
        simp only [Compute.published, List.length_append, List.length_map, List.length_cons, List.length_nil] at h9
        exact List.eq_nil_of_length_eq_zero (by omega)
    · cases h2
  · cases h2

-- a `try_insert` that finds the key occupied, about to return: the value is handed back and the key is dropped
example : ∃ (ps : PSt Nat Nat) (k v : Nat) (r : (Call.tryInsert k v : Call Nat Nat).Res) (cur : Entry Nat Nat),
    Reach cfgB ps ∧ ps.th 0 = .run (.tryInsert k v) (.ret r) ∧ r = .inr (cur, 7) ∧ k = 5 ∧ cur.val = 50 ∧
      ∃ fr, Own.insert cfgB k v false ⟨.none, []⟩ [] fr (.ok (.error cur 7)) ∧ fr.deadKeys = [5] := by
  obtain ⟨ps, _, h1, h2⟩ := demo_run (C := cfgB) (V := Nat)
    (l := [.pin 0, .pin 1, .call 0 (.insert 5 50), .fin 0 500, .call 0 (.tryInsert 5 7), .go 0 6])
    (P := fun ps => match ps.th 0 with
      | .run (.tryInsert k v) (.ret r) =>
          match r with
          | .inr (e, w) => k == 5 && (e.val == 50 && w == 7)
          | .inl _ => false
      | _ => false) (by decide +kernel)
  split at h2
  · rename_i k v r ht
    split at h2
    · rename_i e w
      simp only [Bool.and_eq_true, beq_iff_eq] at h2
      obtain ⟨rfl, hv, rfl⟩ := h2
      obtain ⟨pubs, fr, r', h3, rfl⟩ := C64_tryInsert_of_system cfgB h1 ht
      rcases C64_insert cfgB h3 with ⟨r', hr, rfl, h5, h6, _⟩ | ⟨why, hr, _⟩
      · cases hr
        refine ⟨ps, 5, v, _, e, h1, ht, rfl, rfl, hv, fr, h3, ?_⟩
        simpa [InsRes.published] using h6.symm
      · cases hr
    · cases h2
  · cases h2

end Papaya
