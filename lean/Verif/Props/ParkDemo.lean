import Verif.Props.Park
import Verif.Exec.Park
import Verif.Exec.Abort

/-! # Parking: concrete executions (C55, C56, C57), and the counterexample to C26 -/

set_option linter.unusedSectionVars false
set_option linter.unusedVariables false

namespace Papaya

variable {K V : Type} [DecidableEq K] {C : Cfg K} {x x' : KSt K V} {ps : PSt K V} {t u v : Tid} {a : PKey}

/-- Guards that have been used are in the history. -/
theorem used_bound (hr : soundB ps = true) (h : Reach C ps) (h1 : ps.th t ≠ .out) (h2 : ps.th t ≠ .idle) : t < tidBound := by
  simp only [soundB, Bool.and_eq_true, List.all_eq_true, List.mem_range] at hr
  obtain ⟨S, g, ⟨_, _, _, _, _, g6⟩, _⟩ := h.pinv 1
  obtain ⟨⟨c, hc⟩, _⟩ := g6.pend t h1 h2
  exact of_decide_eq_true (hr.2 _ hc)

theorem sound_of_test (h : Reach C ps) (hr : soundB ps = true) : Sound ps := by
  have hr' := hr
  simp only [soundB, Bool.and_eq_true, List.all_eq_true, List.mem_range] at hr'
  refine ⟨fun t hg => ?_, fun o c w hm => by simpa using hr'.2 _ hm⟩
  have := hr'.1 t (used_bound hr h (by rw [hg]; simp) (by rw [hg]; simp))
  rw [hg] at this; cases this

def blockedB (x : KSt K V) (t : Tid) (a : PKey) : Bool :=
  (match x.ps.th t with | .run _ _ => true | _ => false) && (match x.pk t with | .p4 b _ => b == a | _ => false) && !x.token t

theorem blocked_of_test (h : blockedB x t a = true) : x.Blocked t a := by
  simp only [blockedB, Bool.and_eq_true, Bool.not_eq_true'] at h
  obtain ⟨⟨h1, h2⟩, h3⟩ := h
  refine ⟨?_, ?_, h3⟩
  · split at h1
    · rename_i c p hr; exact ⟨c, p, hr⟩
    · cases h1
  · split at h2
    · rename_i b id hq; rw [beq_iff_eq] at h2; rw [← h2]; exact ⟨id, hq⟩
    · cases h2

theorem Blocked.stuck (h : x.Blocked t a) : ¬ KCanMove C x t := by
  rintro ⟨x', hs⟩
  obtain ⟨_, ⟨id, hq⟩, ht⟩ := h
  cases hs <;> (try (rename_i h1; rw [hq] at h1; cases h1; done)) <;> simp_all

/-- Only guard `t` is running. -/
def onlyB (x : KSt K V) (t : Tid) : Bool :=
  (List.range tidBound).all fun u => decide (u = t) || match x.ps.th u with | .run _ _ => false | _ => true

theorem only_of_test (hr : soundB x.ps = true) (h : Reach C x.ps) (ho : onlyB x t = true) (hu : Running x.ps u) : u = t := by
  obtain ⟨c, p, hu⟩ := hu
  simp only [onlyB, List.all_eq_true, List.mem_range, Bool.or_eq_true, decide_eq_true_eq] at ho
  rcases ho u (used_bound hr h (by rw [hu]; simp) (by rw [hu]; simp)) with h1 | h1
  · exact h1
  · rw [hu] at h1; cases h1

/-- Guard 0 copies the slot of key 0, guard 1 wants to replace that entry and is blocked; then guard 0 executes `n` steps. -/
def parkDemo (n : Nat) : List (Cmd Nat Nat) := midResize 57 ++ [.call 1 (.insert 0 90) trivial, .go 1 100, .go 0 n]

-- C56: guard 1 is blocked in `thread::park()` while guard 0 copies (incremental mode)
example : ∃ x : KSt Nat Nat, KReach cfgI x ∧ Sound x.ps ∧ Running x.ps 1 ∧ ¬ KCanMove cfgI x 1 ∧ x.Blocked 1 (.slot 0 0) ∧
    ¬ (PKey.slot 0 0).Done x.ps.mem := by
  obtain ⟨x, h1, _, h2⟩ := kdemo (C := cfgI) (l := parkDemo 0)
    (P := fun x => soundB x.ps && (blockedB x 1 (.slot 0 0) && !(x.ps.mem.slot 0 0).copied)) (by decide +kernel)
  simp only [Bool.and_eq_true, Bool.not_eq_true'] at h2
  have hb := blocked_of_test h2.2.1
  exact ⟨x, h1, sound_of_test h1.inv.1 h2.1, hb.1, Blocked.stuck hb, hb, by simp [PKey.Done, h2.2.2]⟩

-- C55: the entry has been copied, and guard 0 has not yet called `unpark`
example : ∃ x : KSt Nat Nat, KReach cfgI x ∧ Sound x.ps ∧ x.Blocked 1 (.slot 0 0) ∧ (PKey.slot 0 0).Done x.ps.mem := by
  obtain ⟨x, h1, _, h2⟩ := kdemo (C := cfgI) (l := parkDemo 4)
    (P := fun x => soundB x.ps && (blockedB x 1 (.slot 0 0) && (x.ps.mem.slot 0 0).copied)) (by decide +kernel)
  simp only [Bool.and_eq_true] at h2
  exact ⟨x, h1, sound_of_test h1.inv.1 h2.1, blocked_of_test h2.2.1, h2.2.2⟩

-- C55, blocking mode: the new table has been promoted
example : ∃ x : KSt Nat Nat, KReach cfgB x ∧ Sound x.ps ∧ x.Blocked 1 (.status 1) ∧ (PKey.status 1).Done x.ps.mem := by
  obtain ⟨x, h1, _, h2⟩ := kdemo (C := cfgB) (l := midResize 60 ++ [.call 1 (.insert 9 90) trivial, .go 1 100, .go 0 64])
    (P := fun x => soundB x.ps && (blockedB x 1 (.status 1) && x.ps.mem.status 1 == .promoted)) (by decide +kernel)
  simp only [Bool.and_eq_true, beq_iff_eq] at h2
  exact ⟨x, h1, sound_of_test h1.inv.1 h2.1, blocked_of_test h2.2.1, h2.2.2⟩

-- C55_unparker_unparks: guard 0 has removed guard 1 from the map and is about to unpark it
example : ∃ x : KSt Nat Nat, KReach cfgI x ∧ Waking x 0 1 ∧ x.Blocked 1 (.slot 0 0) := by
  obtain ⟨x, h1, _, h2⟩ := kdemo (C := cfgI) (l := parkDemo 7)
    (P := fun x => (match x.pk 0 with | .u2 _ l => l == [1] | _ => false) &&
      ((match x.ps.th 0 with | .run _ _ => true | _ => false) && blockedB x 1 (.slot 0 0))) (by decide +kernel)
  simp only [Bool.and_eq_true] at h2
  obtain ⟨h2, h3, h4⟩ := h2
  refine ⟨x, h1, ⟨?_, ?_⟩, blocked_of_test h4⟩
  · split at h3
    · rename_i c p hr; exact ⟨c, p, hr⟩
    · cases h3
  · split at h2
    · rename_i a l hq
      rw [beq_iff_eq] at h2
      exact ⟨a, l, .inl hq, by rw [h2]; simp⟩
    · cases h2

-- C55_woken_returns: guard 1 has been unparked
example : ∃ (x : KSt Nat Nat) (c : Call Nat Nat) (p : Prog Nat Nat c.Res) (id : Nat), KReach cfgI x ∧ x.ps.th 1 = .run c p ∧
    x.pk 1 = .p4 (.slot 0 0) id ∧ x.token 1 = true ∧ ¬ x.registered (.slot 0 0) id ∧ (PKey.slot 0 0).Done x.ps.mem := by
  obtain ⟨x, h1, _, h2⟩ := kdemo (C := cfgI) (l := parkDemo 9)
    (P := fun x => (match x.pk 1 with | .p4 b id => b == .slot 0 0 && !x.registeredB (.slot 0 0) id | _ => false) &&
      ((match x.ps.th 1 with | .run _ _ => true | _ => false) && (x.token 1 && (x.ps.mem.slot 0 0).copied))) (by decide +kernel)
  simp only [Bool.and_eq_true] at h2
  obtain ⟨h2, h3, h4, h5⟩ := h2
  split at h3
  · rename_i c p hr
    split at h2
    · rename_i b id hq
      simp only [Bool.and_eq_true, beq_iff_eq, Bool.not_eq_true'] at h2
      refine ⟨x, c, p, id, h1, hr, by rw [hq, h2.1], h4, fun h => ?_, h5⟩
      rw [KSt.registeredB_iff.2 h] at h2; cases h2.2
    · cases h2
  · cases h3

/-- The execution of `Verif/Exec/Abort.lean`; before the copy is aborted, guard 2 comes and waits for its end. -/
def abortParkCmds : List (Cmd Nat Nat) :=
  [.pin 0, .pin 1, .pin 2] ++
  ((List.range 31).flatMap fun k => [.call 0 (.insert k 0), .fin 0 500]) ++
  (((List.range 31).drop 8).flatMap fun k => [.call 0 (.remove k), .fin 0 500]) ++
  [.call 0 (.insert 99 0), .go 0 115] ++
  (freeSlots.flatMap fun i => [.call 1 (.insert (100 + i) 0), .fin 1 500]) ++
  [.go 0 100, .call 2 (.insert 98 0), .go 2 300, .fin 0 3000]

/-- **C26** is false of the code: there is an execution without crashes or panics after which a single operation is running, an
`insert`; it is blocked in `park`, waiting for the end of a resize that was aborted long ago (a later one has been finished), and it
stays there forever — whatever is called from then on, and however often `thread::park` returns spuriously. -/
theorem C26_false_system : ∃ (C : Cfg Nat) (x : KSt Nat Nat) (t : Tid), KReach C x ∧ Sound x.ps ∧ x.Blocked t (.status 1) ∧
    x.ps.mem.status 1 = .aborted ∧ x.ps.mem.root = some 2 ∧ (∀ u, Running x.ps u → u = t) ∧
    ∀ x', KRun C x x' → x'.ps.th t = .gone ∨ (Running x'.ps t ∧ (x'.pk t).key = some (.status 1)) := by
  obtain ⟨x, h1, _, h2⟩ := kdemo (C := cfgA) (l := abortParkCmds)
    (P := fun x => soundB x.ps && (blockedB x 2 (.status 1) && (x.ps.mem.status 1 == .aborted && (x.ps.mem.root == some 2 &&
      onlyB x 2)))) (by decide +kernel)
  simp only [Bool.and_eq_true, beq_iff_eq] at h2
  obtain ⟨h2, h3, h4, h5, h6⟩ := h2
  have hb := blocked_of_test h3
  have hs := sound_of_test h1.inv.1 h2
  have ho : ∀ u, Running x.ps u → u = 2 := fun u hu => only_of_test h2 h1.inv.1 h6 hu
  refine ⟨cfgA, x, 2, h1, hs, hb, h4, h5, ho, fun x' hr => ?_⟩
  rcases C26_blocked_forever h1 hs.1 hb h4 (fun v hv => hv.ne hb (ho v hv.1)) hr with h7 | ⟨h7, id, h8 | h8⟩
  · exact .inl h7
  · exact .inr ⟨h7, by rw [h8]; rfl⟩
  · exact .inr ⟨h7, by rw [h8]; rfl⟩

end Papaya
