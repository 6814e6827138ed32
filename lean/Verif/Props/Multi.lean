import Verif.Model.Multi
import Verif.Props.Memory

/-! # Guards of other maps are rejected (C35) -/

set_option linter.unusedSectionVars false
set_option linter.unusedVariables false

namespace Papaya

variable {ι : Type} [DecidableEq ι] {K V : ι → Type} [∀ i, DecidableEq (K i)]
variable {C : (i : ι) → Cfg (K i)} {ms ms' : MSt ι K V}

theorem verifies_iff {K V : Type} {c : Call K V} : c.verifies = c.takesGuard := by cases c <;> rfl

theorem start_reach {K V : Type} [DecidableEq K] {C : Cfg K} {ps : PSt K V} {t : Tid} {c : Call K V} (h : Reach C ps)
    (ht : ps.th t = .idle) (hwf : c.WF) : Reach C (ps.start C t c) := h.step (.inv t c ht hwf)

theorem run_reach {i : ι} {g : Guard ι} {c : Call (K i) (V i)} (h : ∀ j, Reach (C j) (ms.maps j))
    (hg : (ms.maps g.coll).th g.t = .idle) (hwf : c.WF) (hi : g.coll = i) : ∀ j, Reach (C j) ((ms.run C i g c).maps j) := by
  intro j
  subst hi
  by_cases hj : j = g.coll
  · subst hj
    simp only [MSt.run, Function.update_self]
    exact start_reach (h _) hg hwf
  · simp only [MSt.run, Function.update_of_ne hj]
    exact h j

theorem call_cases {i : ι} {g : Guard ι} {c : Call (K i) (V i)} :
    (c.takesGuard = true ∧ g.coll ≠ i ∧ ms.call C i g c = { ms with calls := ms.calls ++ [⟨i, g, true⟩] }) ∨
    ((c.takesGuard = false ∨ g.coll = i) ∧ ms.call C i g c = ms.run C i g c) := by
  unfold MSt.call verify
  rw [verifies_iff]
  by_cases h1 : g.coll = i
  · right; exact ⟨.inr h1, by simp [h1]⟩
  · cases h2 : c.takesGuard with
    | false => right; exact ⟨.inl rfl, by simp⟩
    | true => left; exact ⟨rfl, h1, by simp [h1]⟩

theorem mreach_inv (h : MReach C ms) : (∀ i, Reach (C i) (ms.maps i)) ∧ (∀ r ∈ ms.refs, r.guard.coll = r.map) ∧
    ∀ a ∈ ms.calls, a.rejected = true ↔ a.guard.coll ≠ a.map := by
  induction h with
  | init h hr hc => exact ⟨fun i => .init (h i), by simp [hr], by simp [hc]⟩
  | step h hs ih =>
    obtain ⟨h1, h2, h3⟩ := ih
    cases hs with
    | inner i hst hn =>
      refine ⟨fun j => ?_, h2, h3⟩
      by_cases hj : j = i
      · subst hj; simpa using (h1 j).step hst
      · simpa [hj] using h1 j
    | pin i t ht =>
      refine ⟨fun j => ?_, ?_, h3⟩
      · by_cases hj : j = i
        · subst hj; simpa [MSt.pin] using (h1 j).step (.pin t ht)
        · simpa [MSt.pin, hj] using h1 j
      · intro r hr
        rcases List.mem_append.1 hr with hr | hr
        · exact h2 r hr
        · rw [List.mem_singleton.1 hr]
    | call i g c hg hwf hl =>
      rcases call_cases (C := C) (i := i) (g := g) (c := c) with ⟨h4, h5, h6⟩ | ⟨h4, h6⟩
      · rw [h6]
        refine ⟨h1, h2, fun a ha => ?_⟩
        rcases List.mem_append.1 ha with ha | ha
        · exact h3 a ha
        · rw [List.mem_singleton.1 ha]; simpa using h5
      · have hi : g.coll = i := h4.elim hl id
        rw [h6]
        refine ⟨run_reach h1 hg hwf hi, h2, fun a ha => ?_⟩
        rcases List.mem_append.1 ha with ha | ha
        · exact h3 a ha
        · rw [List.mem_singleton.1 ha]; simpa using hi
    | callRef r hr c hg hwf =>
      refine ⟨run_reach h1 hg hwf (h2 r hr), h2, fun a ha => ?_⟩
      rcases List.mem_append.1 ha with ha | ha
      · exact h3 a ha
      · rw [List.mem_singleton.1 ha]; simpa using h2 r hr

/-- **C35** In every execution of any number of maps, with guards passed to methods in any way, a call panics with the
message about an incorrect guard exactly if the guard was created by the collector of another map. -/
theorem C35_rejected_iff (h : MReach C ms) : ∀ a ∈ ms.calls, a.rejected = true ↔ a.guard.coll ≠ a.map :=
  (mreach_inv h).2.2

/-- **C35** A call with a guard of another map changes nothing: all maps, their memory and their guards are as before. A
call with a guard of the map is carried out. -/
theorem C35_verified (i : ι) (g : Guard ι) (c : Call (K i) (V i)) (hc : c.takesGuard = true) :
    (g.coll ≠ i → (ms.call C i g c).maps = ms.maps) ∧
    (g.coll = i → HEv.inv (g.t, (ms.maps i).seq g.t + 1) c ∈ ((ms.call C i g c).maps i).hist) := by
  rcases call_cases (ms := ms) (C := C) (i := i) (g := g) (c := c) with ⟨_, h5, h6⟩ | ⟨h4, h6⟩
  · exact ⟨fun _ => by rw [h6], fun h => absurd h h5⟩
  · refine ⟨fun h => ?_, fun _ => ?_⟩
    · rcases h4 with h4 | h4
      · rw [hc] at h4; cases h4
      · exact absurd h4 h
    · rw [h6]
      simp [MSt.run, PSt.start]

/-- **C35** Consequently each map of the system behaves as if it was alone: its states are those reachable with its own
guards, so that all theorems about one map hold for it. -/
theorem C35_isolated (h : MReach C ms) (i : ι) : Reach (C i) (ms.maps i) := (mreach_inv h).1 i

/-- **C35** In particular, whatever guards are passed to whatever maps, no freed memory is accessed and all references
handed out are valid. -/
theorem C35_memory_safe (h : MReach C ms) (i : ι) (t : Tid) :
    (∀ (c : Call (K i) (V i)) (β : Type) (a : Act (K i) (V i) β) k, (ms.maps i).th t = .run c (.act a k) → a.Safe (ms.maps i).mem) ∧
    ∀ e ∈ (ms.maps i).held t, (ms.maps i).mem.EntryAlive e :=
  ⟨fun _ _ _ _ ht => C21_memory_safe (C35_isolated h i) ht, fun _ he => C21_refs_valid (C35_isolated h i) he⟩

-- two maps, a guard of the first; it is rejected by the second and accepted by the first
example : ∃ ms : MSt Bool (fun _ => Nat) (fun _ => Nat), MReach (fun _ => cfgB) ms ∧
    ms.calls = [⟨true, ⟨false, 0⟩, true⟩, ⟨false, ⟨false, 0⟩, false⟩] ∧ (ms.maps true).hist = [] ∧
    ∃ c p, (ms.maps false).th 0 = .run c p := by
  obtain ⟨ps, h0, _⟩ : ∃ ps, initPSt (V := Nat) cfgB = some ps ∧ True := by
    have : (initPSt (V := Nat) cfgB).isSome = true := by decide +kernel
    obtain ⟨ps, h⟩ := Option.isSome_iff_exists.1 this
    exact ⟨ps, h, trivial⟩
  have hi : IsInit cfgB ps := by
    simp only [initPSt, Option.map_eq_some_iff] at h0
    obtain ⟨σ, h1, rfl⟩ := h0
    exact ⟨h1, rfl, rfl, rfl, rfl⟩
  let ms0 : MSt Bool (fun _ => Nat) (fun _ => Nat) := ⟨fun _ => ps, [], []⟩
  have r0 : MReach (fun _ => cfgB) ms0 := .init (fun _ => hi) rfl rfl
  have hout : ∀ t, ps.th t = .out := fun t => by rw [hi.2.1]
  have r1 := r0.step (.pin false 0 (hout 0))
  have r2 := r1.step (.call true ⟨false, 0⟩ (.get 5) (by simp [MSt.pin, setTh]) trivial (by intro h; cases h))
  have r3 := r2.step (.call false ⟨false, 0⟩ (.get 5) (by simp [MSt.pin, MSt.call, Call.verifies, verify, setTh]) trivial
    (by intro h; cases h))
  refine ⟨_, r3, rfl, ?_, .get 5, Call.prog cfgB (.get 5), ?_⟩
  · exact hi.2.2.2.2
  · simp [MSt.pin, MSt.call, MSt.run, Call.verifies, verify, setTh, PSt.start]

end Papaya
