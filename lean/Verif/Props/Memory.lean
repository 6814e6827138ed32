import Verif.Spec.Memory
import Verif.Proof.PInv
import Verif.Exec.Demo

/-! # Memory safety (C21, C22) -/

set_option linter.unusedSectionVars false
set_option linter.unusedVariables false

namespace Papaya

variable {K V : Type} [DecidableEq K]

open GSt

variable {C : Cfg K} {t : Tid} {ps ps' : PSt K V}

theorem okAct_safe {S : GSt K V} {β : Type} {a : Act K V β} (h : S.okAct a) : a.Safe S.toSt := by
  have key : ∀ {e : Entry K V}, S.retired e.id = false → (∀ P, ∀ e' ∈ S.deferred P, e'.id ≠ e.id) →
      ¬ S.toSt.HandedOver e.id := by
    rintro e h1 h2 (h3 | ⟨P, e', h3, h4⟩)
    · rw [h1] at h3; cases h3
    · exact h2 P e' h3 h4
  cases a with
  | retire e => exact ⟨h.1, key h.2.1 h.2.2.1, h.2.2.2⟩
  | cas _ T i _ new => exact ⟨h.1.1, h.1.2, fun e he => (h.2.2.1 e he).1, h.2.2.2⟩
  | casNew _ T i _ _ _ => exact ⟨h.1.1, h.1.2, fun e he => (h.2.1 e he).1, h.2.2⟩
  | storeSlot T i s => exact h.1
  | parkStatus T => exact h.1
  | parkSlot T i => exact h.1
  | unparkStatus T => exact h.1
  | unparkSlot T i => exact h
  | addClaim T n s => exact h.1
  | addCopied T n s => exact h.1
  | casRoot T N => exact ⟨h.1, h.2.1⟩
  | storeStatus T s => exact h.1
  | retireTable T => exact ⟨h.1, h.2.1, h.2.2.1⟩
  | pushDeferred T e => exact ⟨h.1, h.2.1, key h.2.2.1 h.2.2.2.1, h.2.2.2.2⟩
  | _ => exact h

/-- **C21** Every atomic action that any operation is about to perform, in any reachable state (whatever the other
guards do, have done, or have left unfinished), accesses only tables and entries that are allocated and not freed,
within bounds; retirements are not repeated. -/
theorem C21_memory_safe (h : Reach C ps) {c : Call K V} {β : Type} {a : Act K V β} {k : β → Prog K V c.Res}
    (ht : ps.th t = .run c (.act a k)) : a.Safe ps.mem := by
  obtain ⟨S, g, ⟨g1, g2, g3, g4, g5, g6⟩, _⟩ := h.pinv 1
  have h7 := g4 t
  rw [ht] at h7
  rw [← g1]
  exact okAct_safe (h7 S g2 ((rg K V C).refl t S)).1

-- guard 1 is about to dereference an entry that guard 0 has just removed and handed to the collector
example : ∃ ps : PSt Nat Nat, Reach cfgB ps ∧ (∃ c e k, ps.th 1 = .run c (.act (.deref e) k) ∧ e.id = 3) ∧
    ps.mem.retired 3 = true := by
  obtain ⟨ps, _, h1, h2⟩ := demo_run (C := cfgB) (V := Nat)
    (l := fill 5 ++ [.call 1 (.get 3) trivial, .go 1 5, .call 0 (.remove 3) trivial, .fin 0 500])
    (P := fun ps => ps.mem.retired 3 && match ps.th 1 with
      | .run _ (.act (.deref e) _) => e.id == 3
      | _ => false) (by decide +kernel)
  rw [Bool.and_eq_true] at h2
  obtain ⟨h2, h3⟩ := h2
  split at h3
  · rename_i c e k hth
    exact ⟨ps, h1, ⟨c, e, k, hth, beq_iff_eq.1 h3⟩, h2⟩
  · cases h3

/-- **C21** A reference obtained with a guard stays valid as long as the guard is alive. -/
theorem C21_refs_valid (h : Reach C ps) {e : Entry K V} (he : e ∈ ps.held t) : ps.mem.EntryAlive e := by
  obtain ⟨S, g, ⟨g1, g2, g3, g4, g5, g6⟩, _⟩ := h.pinv 1
  have := g5.1 t e he
  rw [← g1]
  obtain ⟨x, hx, _⟩ := this.2.1
  exact ⟨(g2.e.e0 _ _ hx).2, Prot.not_freed g2 this⟩

-- guard 1 keeps a reference to an entry that has been removed and retired; guard 0 has been dropped since
example : ∃ (ps : PSt Nat Nat) (e : Entry Nat Nat), Reach cfgB ps ∧ e ∈ ps.held 1 ∧ ps.mem.retired e.id = true ∧
    ps.mem.pinned 0 = false := by
  obtain ⟨ps, _, h1, h2⟩ := demo_run (C := cfgB) (V := Nat)
    (l := fill 5 ++ [.call 1 (.get 3) trivial, .fin 1 500, .call 0 (.remove 3) trivial, .fin 0 500, .unpin 0])
    (P := fun ps => decide ((⟨3, 3, 30⟩ : Entry Nat Nat) ∈ ps.held 1) && (ps.mem.retired 3 && !ps.mem.pinned 0)) (by decide +kernel)
  simp only [Bool.and_eq_true, decide_eq_true_eq, Bool.not_eq_true'] at h2
  exact ⟨ps, ⟨3, 3, 30⟩, h1, h2⟩

/-- **C21** Nothing that the map binds has been freed. -/
theorem C21_bound_alive (h : Reach C ps) {e : Entry K V} (he : ps.mem.Binds e) : ps.mem.EntryAlive e ∧ ¬ ps.mem.HandedOver e.id := by
  obtain ⟨S, g, ⟨g1, g2, g3, g4, g5, g6⟩, _⟩ := h.pinv 1
  rw [← g1] at he ⊢
  obtain ⟨T, i, h1, h2, h3, h4, h5, h6⟩ := he
  have hl : S.Live e.key e := ⟨T, i, ⟨h1, h2, h3, h6, h5⟩, h4, rfl⟩
  obtain ⟨x, hx, hxe⟩ := g2.p.p3 T i e h3
  have htok : S.tok e.id = .live := by
    rw [g2.m.m8 _ _ hx, hxe]
    exact .inr ((g2.l.a _ _).2 hl)
  have hnr : ¬ S.retired e.id = true := by
    intro hr
    obtain ⟨U, hU⟩ := (g2.m.m2 _).1 hr
    rw [htok] at hU; cases hU
  refine ⟨⟨(g2.e.e0 _ _ hx).2, ?_⟩, ?_⟩
  · show S.freed e.id = false
    cases hf : S.freed e.id with
    | false => rfl
    | true =>
      rcases g2.m.m5 _ hf with ⟨hr, _⟩ | ⟨P, hP, _⟩
      · exact absurd hr hnr
      · rw [htok] at hP; cases hP
  · rintro (hr | hP)
    · exact hnr hr
    · obtain ⟨P, hP⟩ := hP
      rw [(g2.m.m7 _ P).2 hP] at htok; cases htok

/-- **C22** When the collector may free a table, none of the entries it frees with it has been freed or retired
otherwise, and none is freed twice. -/
theorem C22_freeTable_once (h : Reach C ps) {T : Nat} (h1 : ps.mem.tabRetired T = true) (h3 : ps.mem.tabFreed T = false) :
    ((ps.mem.deferred T).map Entry.id).Nodup ∧ ∀ e ∈ ps.mem.deferred T, ps.mem.freed e.id = false ∧
      ps.mem.retired e.id = false ∧ ∀ P, P ≠ T → ∀ e' ∈ ps.mem.deferred P, e'.id ≠ e.id := by
  obtain ⟨S, g, ⟨g1, g2, g3, g4, g5, g6⟩, _⟩ := h.pinv 1
  rw [← g1] at h1 h3 ⊢
  refine ⟨g2.m.m7' T, fun e he => ?_⟩
  have htok : S.tok e.id = .deferred T := (g2.m.m7 _ T).2 ⟨e, he, rfl⟩
  refine ⟨?_, ?_, ?_⟩
  · show S.freed e.id = false
    cases hf : S.freed e.id with
    | false => rfl
    | true =>
      rcases g2.m.m5 _ hf with ⟨hr, _⟩ | ⟨P, hP, hP'⟩
      · obtain ⟨U, hU⟩ := (g2.m.m2 _).1 hr
        rw [htok] at hU; cases hU
      · rw [htok] at hP; cases hP
        have h3 : S.tabFreed T = false := h3
        rw [h3] at hP'; cases hP'
  · show S.retired e.id = false
    cases hf : S.retired e.id with
    | false => rfl
    | true =>
      obtain ⟨U, hU⟩ := (g2.m.m2 _).1 hf
      rw [htok] at hU; cases hU
  · intro P hP e' he' hid
    have := (g2.m.m7 _ P).2 ⟨e', he', hid⟩
    rw [htok] at this; cases this
    exact hP rfl

-- an entry replaced in the new table during a resize is deferred on the old table, which is then retired
example : ∃ ps : PSt Nat Nat, Reach cfgI ps ∧ ps.mem.tabRetired 0 = true ∧ ps.mem.tabFreed 0 = false ∧
    (∀ t, ps.mem.tabBlockers 0 t = false) ∧ ⟨0, 0, 0⟩ ∈ ps.mem.deferred 0 := by
  obtain ⟨ps, h0, h1, h2⟩ := demo_run (C := cfgI) (V := Nat)
    (l := midResize 66 ++ [.call 1 (.insert 0 5) trivial, .fin 1 500, .fin 0 500, .call 1 .iter trivial, .fin 1 5000, .unpin 0, .unpin 1])
    (P := fun ps => ps.mem.tabRetired 0 && (!ps.mem.tabFreed 0 && (noBlocker (ps.mem.tabBlockers 0) &&
      decide ((⟨0, 0, 0⟩ : Entry Nat Nat) ∈ ps.mem.deferred 0)))) (by decide +kernel)
  simp only [Bool.and_eq_true, decide_eq_true_eq, Bool.not_eq_true'] at h2
  exact ⟨ps, h1, h2.1, h2.2.1, noBlocker_all h2.2.2.1 fun t ht => (((runMap_ok h0).2 t ht).2 0).2, h2.2.2.2⟩

/-- **C22** A retired entry is in no deferred list: the collector frees it only once. -/
theorem C22_freeEntry_once (h : Reach C ps) {x : Nat} (h1 : ps.mem.retired x = true) :
    ∀ P, ∀ e ∈ ps.mem.deferred P, e.id ≠ x := by
  obtain ⟨S, g, ⟨g1, g2, g3, g4, g5, g6⟩, _⟩ := h.pinv 1
  rw [← g1] at h1 ⊢
  rintro P e he rfl
  obtain ⟨U, hU⟩ := (g2.m.m2 _).1 h1
  rw [(g2.m.m7 _ P).2 ⟨e, he, rfl⟩] at hU; cases hU

/-- **C22** Only entries that were handed over are freed, and an entry that has been handed over is not bound. -/
theorem C22_freed_handed (h : Reach C ps) {x : Nat} (h1 : ps.mem.freed x = true) : ps.mem.HandedOver x := by
  obtain ⟨S, g, ⟨g1, g2, g3, g4, g5, g6⟩, _⟩ := h.pinv 1
  rw [← g1] at h1 ⊢
  rcases g2.m.m5 _ h1 with ⟨hr, _⟩ | ⟨P, hP, _⟩
  · exact .inl hr
  · exact .inr ⟨P, (g2.m.m7 _ P).1 hP⟩

-- the collector frees the table of the previous example, hence the entry deferred on it, and an entry retired directly
example : ∃ ps : PSt Nat Nat, Reach cfgI ps ∧ ps.mem.freed 0 = true ∧ ps.mem.freed 4 = true ∧ ps.mem.tabFreed 0 = true := by
  obtain ⟨ps, h0, h1, h2⟩ := demo_run (C := cfgI) (V := Nat)
    (l := midResize 66 ++ [.call 1 (.insert 0 5) trivial, .fin 1 500, .fin 0 500, .call 1 .iter trivial, .fin 1 5000, .call 1 (.remove 4) trivial,
      .fin 1 500, .unpin 0, .unpin 1, .freeTable 0, .freeEntry 4])
    (P := fun ps => ps.mem.freed 0 && (ps.mem.freed 4 && ps.mem.tabFreed 0)) (by decide +kernel)
  simp only [Bool.and_eq_true] at h2
  exact ⟨ps, h1, h2⟩

/-- **C22** No leak: once every call has returned or panicked, every entry ever allocated is bound by the map or has been handed to
the collector — not both. -/
theorem C22_no_leak (h : Reach C ps) (hd : ∀ o c, HEv.inv o c ∈ ps.hist → Ended ps.hist o) {x : Nat}
    (hx : x < ps.mem.nIds) :
    (∃ e, e.id = x ∧ ps.mem.Binds e ∧ ¬ ps.mem.HandedOver x) ∨
    (ps.mem.HandedOver x ∧ ¬ ∃ e, e.id = x ∧ ps.mem.Binds e) := by
  by_cases hb : ∃ e, e.id = x ∧ ps.mem.Binds e
  · obtain ⟨e, rfl, he⟩ := hb
    exact .inl ⟨e, rfl, he, (C21_bound_alive h he).2⟩
  refine .inr ⟨?_, hb⟩
  obtain ⟨S, g, ⟨g1, g2, g3, g4, g5, g6⟩, hf, _⟩ := h.pinv 1
  rw [← g1] at hx hb ⊢
  obtain ⟨y, hy⟩ := Option.ne_none_iff_exists'.1 (hf x hx)
  have hid : y.entry.id = x := (g2.e.e0 _ _ hy).1
  have hnl : S.tok x ≠ .live := by
    intro hl
    rcases (g2.m.m8 _ _ hy).1 hl with h1 | h1
    · -- its creator has not returned
      have h2 := g6.unl _ _ hy h1
      have h3 := (g2.e.e5 _ _ hy).1
      by_cases h0 : 0 < y.op.2
      · obtain ⟨c, hc⟩ := g6.i2 _ h0 h3
        exact h2 (hd _ _ hc)
      · obtain ⟨T, i, _, _, _, _, _, h4⟩ := g2.l.u1 _ _ hy h1
        have : y.op = (y.op.1, 0) := Prod.ext rfl (by simp; omega)
        rw [this] at h4
        exact g6.i0 _ _ _ _ h4
    · obtain ⟨T, i, ⟨h2, h3, h4, h5, h6⟩, h7, _⟩ := (g2.l.a _ _).1 h1
      exact hb ⟨y.entry, hid, T, i, h2, h3, h4, h7, h6, h5⟩
  cases htok : S.tok x with
  | live => exact absurd htok hnl
  | owned t U b =>
    exfalso
    have h7 := g4 t
    by_cases h1 : ps.th t = .out
    · rw [h1] at h7; exact h7.1 _ _ _ htok
    · by_cases h2 : ps.th t = .idle
      · rw [h2] at h7; exact h7.2.1 _ _ _ htok
      · obtain ⟨⟨c, h8⟩, h9⟩ := g6.pend t h1 h2
        exact h9 (hd _ _ h8)
  | retired U => exact .inl ((g2.m.m2 _).2 ⟨U, htok⟩)
  | deferred P => exact .inr ⟨P, (g2.m.m7 _ P).1 htok⟩

-- all calls have ended; 11 entries have been allocated, of which some are bound and some handed over
example : ∃ ps : PSt Nat Nat, Reach cfgI ps ∧ (∀ o c, HEv.inv o c ∈ ps.hist → Ended ps.hist o) ∧ 4 < ps.mem.nIds ∧
    ps.mem.retired 4 = true ∧ 8 < ps.mem.nIds := by
  obtain ⟨ps, h0, h1, h2⟩ := demo_run (C := cfgI) (V := Nat) (l := fill 9 ++ [.call 1 (.remove 4) trivial, .fin 1 500])
    (P := fun ps => (ps.hist.all fun ev => match ev with
      | .inv o _ => ps.hist.any (HEv.endTest o)
      | _ => true) && (decide (4 < ps.mem.nIds) && (ps.mem.retired 4 && decide (8 < ps.mem.nIds)))) (by decide +kernel)
  simp only [Bool.and_eq_true, decide_eq_true_eq] at h2
  exact ⟨ps, h1, fun o c h => ended_of_test (List.all_eq_true.1 h2.1 _ h), h2.2⟩

end Papaya
