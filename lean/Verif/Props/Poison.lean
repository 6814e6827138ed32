import Verif.Proof.Poison
import Verif.Props.Panics

/-! # C45: a poisoned lock has a cause -/

set_option linter.unusedSectionVars false
set_option linter.unusedVariables false

namespace Papaya

variable {K V : Type} [DecidableEq K] {C : Cfg K}

/-- A call has panicked, or is about to panic, because a table could not be allocated; or a call has been abandoned. -/
def AllocTrouble (ps : PSt K V) : Prop :=
  (∃ o c w, AllocFailed w ∧ HEv.panic o c w ∈ ps.hist) ∨ (∃ t c w, AllocFailed w ∧ ps.th t = .run c (.panic w)) ∨
    ∃ t, ps.th t = .gone

theorem exec_poisoned {t : Tid} {β : Type} {a : Act K V β} {σ σ' : St K V} {r : β} (h : Exec C t a σ r σ') {T : Nat}
    (hp : σ'.lock T = .poisoned) : σ.lock T = .poisoned ∨ a.poisons := by
  by_cases hq : a.poisons
  · exact .inr hq
  left
  cases a <;> first
    | exact (hq trivial).elim
    | (simp only [Exec] at h
       repeat' split at h
       all_goals first
         | (obtain ⟨h1, h2⟩ := h; first | (subst h1; simpa [St.allocTable, St.setSlot] using hp) | (subst h2; simpa [St.allocTable, St.setSlot] using hp))
         | (subst h; simpa [St.setMd, St.setSlot, St.retireEntry] using hp)
         | (rcases h with ⟨h1, h2, rfl⟩ | ⟨h1, h2, rfl⟩ <;> first | exact hp | skip))
  all_goals
    simp only [St.allocTable] at hp
    split at hp
    · cases hp
    · exact hp

/-- What holds in every reachable state. -/
structure PoisonInv (ps : PSt K V) : Prop where
  run : ∀ t c p, ps.th t = .run c p → p.Clean ∨ (p = .panic .poisonedLock ∧ AllocTrouble ps)
  lock : ∀ T, ps.mem.lock T = .poisoned → AllocTrouble ps
  hist : ∀ o c, HEv.panic o c .poisonedLock ∈ ps.hist → AllocTrouble ps

theorem AllocTrouble.mono {ps ps' : PSt K V} (h : AllocTrouble ps) (h1 : ∀ x ∈ ps.hist, x ∈ ps'.hist)
    (h2 : ∀ t c w, ps.th t = .run c (.panic w) → ps'.th t = .run c (.panic w) ∨ ps'.th t = .gone ∨ ∃ o, HEv.panic o c w ∈ ps'.hist)
    (h3 : ∀ t, ps.th t = .gone → ps'.th t = .gone) : AllocTrouble ps' := by
  rcases h with ⟨o, c, w, hw, h⟩ | ⟨t, c, w, hw, h⟩ | ⟨t, h⟩
  · exact .inl ⟨o, c, w, hw, h1 _ h⟩
  · rcases h2 t c w h with h4 | h4 | ⟨o, h4⟩
    · exact .inr (.inl ⟨t, c, w, hw, h4⟩)
    · exact .inr (.inr ⟨t, h4⟩)
    · exact .inl ⟨o, c, w, hw, h4⟩
  · exact .inr (.inr ⟨t, h3 t h⟩)

theorem poisonInv {ps : PSt K V} (h : Reach C ps) : PoisonInv ps := by
  induction h with
  | init h =>
    obtain ⟨h1, h2, _, _, h5⟩ := h
    refine ⟨fun t c p ht => ?_, fun T hT => ?_, fun o c hc => ?_⟩
    · rw [h2] at ht; cases ht
    · exfalso
      unfold initSt at h1
      split at h1
      · rw [← Option.some.inj h1] at hT; cases hT
      · obtain ⟨n, _, hn⟩ := Option.map_eq_some_iff.1 h1
        rw [← hn] at hT
        simp [St.allocTable] at hT
    · rw [h5] at hc; cases hc
  | @step ps ps' hr hs ih =>
    have key : ∀ t, (∀ u, u ≠ t → ps'.th u = ps.th u) → (∀ x ∈ ps.hist, x ∈ ps'.hist) → (ps.th t = .gone → ps'.th t = .gone) →
        (∀ c w, ps.th t = .run c (.panic w) → ps'.th t = .run c (.panic w) ∨ ps'.th t = .gone ∨ ∃ o, HEv.panic o c w ∈ ps'.hist) →
        AllocTrouble ps → AllocTrouble ps' := by
      intro t h1 h2 h3 h4 h
      refine h.mono h2 (fun u c w hu => ?_) (fun u hu => ?_)
      · by_cases hut : u = t
        · subst hut; exact h4 c w hu
        · exact .inl ((h1 u hut).trans hu)
      · by_cases hut : u = t
        · subst hut; exact h3 hu
        · exact (h1 u hut).trans hu
    have oth : ∀ (t : Tid) (x : Th K V) u, u ≠ t → setTh ps.th t x u = ps.th u := fun t x u hu => by simp [setTh, hu]
    have same : ∀ (t : Tid) (x : Th K V), setTh ps.th t x t = x := fun t x => by simp [setTh]
    cases hs with
    | pin t h =>
      have hm : AllocTrouble ps → AllocTrouble _ := key t (oth t _) (fun _ h => h) (fun h' => by rw [h] at h'; cases h')
        (fun c w h' => by rw [h] at h'; cases h')
      refine ⟨fun u c p hu => ?_, fun T hT => hm (ih.lock T hT), fun o c hc => hm (ih.hist o c hc)⟩
      by_cases hut : u = t
      · subst hut; replace hu := (same u _).symm.trans hu; cases hu
      · replace hu := (oth t _ u hut).symm.trans hu
        exact (ih.run u c p hu).imp id fun h => ⟨h.1, hm h.2⟩
    | unpin t h =>
      have hm : AllocTrouble ps → AllocTrouble _ := key t (oth t _) (fun _ h => h) (fun h' => by rw [h] at h'; cases h')
        (fun c w h' => by rw [h] at h'; cases h')
      refine ⟨fun u c p hu => ?_, fun T hT => hm (ih.lock T hT), fun o c hc => hm (ih.hist o c hc)⟩
      by_cases hut : u = t
      · subst hut; replace hu := (same u _).symm.trans hu; cases hu
      · replace hu := (oth t _ u hut).symm.trans hu
        exact (ih.run u c p hu).imp id fun h => ⟨h.1, hm h.2⟩
    | abandon t h =>
      have hm : AllocTrouble { ps with th := setTh ps.th t .gone } := .inr (.inr ⟨t, same t _⟩)
      refine ⟨fun u c p hu => ?_, fun T hT => hm, fun o c hc => hm⟩
      by_cases hut : u = t
      · subst hut; replace hu := (same u _).symm.trans hu; cases hu
      · replace hu := (oth t _ u hut).symm.trans hu
        exact (ih.run u c p hu).imp id fun h => ⟨h.1, hm⟩
    | release t h =>
      have hm : AllocTrouble { ps with mem := ps.mem.unpin t, held := fun u => if u = t then [] else ps.held u } := .inr (.inr ⟨t, h⟩)
      exact ⟨fun u c p hu => (ih.run u c p hu).imp id fun h => ⟨h.1, hm⟩, fun T hT => hm, fun o c hc => hm⟩
    | inv t c h hwf =>
      have hm : AllocTrouble ps → AllocTrouble _ := key t (oth t _) (fun _ h => List.mem_append_left _ h) (fun h' => by rw [h] at h'; cases h')
        (fun c w h' => by rw [h] at h'; cases h')
      refine ⟨fun u c' p hu => ?_, fun T hT => hm (ih.lock T hT), fun o c hc => ?_⟩
      · by_cases hut : u = t
        · subst hut
          replace hu := (same u _).symm.trans hu
          cases hu
          exact .inl (clean_call C _ hwf)
        · replace hu := (oth t _ u hut).symm.trans hu
          exact (ih.run u c' p hu).imp id fun h => ⟨h.1, hm h.2⟩
      · rcases List.mem_append.1 hc with hc | hc
        · exact hm (ih.hist o c hc)
        · cases List.mem_singleton.1 hc
    | @act t c β a k r σ h he =>
      have hcl : (Prog.act a k).Clean := (ih.run t _ _ h).resolve_right fun h => by cases h.1
      have hm : AllocTrouble ps → AllocTrouble { ps with mem := σ, th := setTh ps.th t (.run c (k r)) } :=
        key t (oth t _) (fun _ h => h) (fun h' => by rw [h] at h'; cases h') (fun c w h' => by rw [h] at h'; cases h')
      refine ⟨fun u c' p hu => ?_, fun T hT => ?_, fun o c hc => hm (ih.hist o c hc)⟩
      · by_cases hut : u = t
        · subst hut
          replace hu := (same u _).symm.trans hu
          cases hu
          rcases hcl.1 r with h1 | ⟨h1, h2⟩
          · exact .inl h1
          · refine .inr ⟨h2, hm ?_⟩
            cases a with
            | lockWait T =>
              rcases he with ⟨_, hr, _⟩ | ⟨hl, _, _⟩
              · subst hr; exact h1.elim
              · exact ih.lock T hl
            | _ => exact h1.elim
        · replace hu := (oth t _ u hut).symm.trans hu
          exact (ih.run u c' p hu).imp id fun h => ⟨h.1, hm h.2⟩
      · rcases exec_poisoned he hT with h1 | h1
        · exact hm (ih.lock T h1)
        · obtain ⟨w, hw, hk⟩ := hcl.2 h1 r
          refine .inr (.inl ⟨t, c, w, hw, ?_⟩)
          rw [← hk]; exact same t _
    | @loop t c β σ body s k h =>
      have hcl : (Prog.iter body s k).Clean := (ih.run t _ _ h).resolve_right fun h => by cases h.1
      have hm : AllocTrouble ps → AllocTrouble { ps with th := setTh ps.th t (.run c (Prog.unfoldIter body s k)) } :=
        key t (oth t _) (fun _ h => h) (fun h' => by rw [h] at h'; cases h') (fun c w h' => by rw [h] at h'; cases h')
      refine ⟨fun u c' p hu => ?_, fun T hT => hm (ih.lock T hT), fun o c hc => hm (ih.hist o c hc)⟩
      by_cases hut : u = t
      · subst hut
        replace hu := (same u _).symm.trans hu
        cases hu
        exact .inl hcl.unfold
      · replace hu := (oth t _ u hut).symm.trans hu
        exact (ih.run u c' p hu).imp id fun h => ⟨h.1, hm h.2⟩
    | ret t h =>
      have hm : AllocTrouble ps → AllocTrouble _ := key t (oth t _) (fun _ h => List.mem_append_left _ h) (fun h' => by rw [h] at h'; cases h')
        (fun c w h' => by rw [h] at h'; cases h')
      refine ⟨fun u c' p hu => ?_, fun T hT => hm (ih.lock T hT), fun o c hc => ?_⟩
      · by_cases hut : u = t
        · subst hut; replace hu := (same u _).symm.trans hu; cases hu
        · replace hu := (oth t _ u hut).symm.trans hu
          exact (ih.run u c' p hu).imp id fun h => ⟨h.1, hm h.2⟩
      · rcases List.mem_append.1 hc with hc | hc
        · exact hm (ih.hist o c hc)
        · cases List.mem_singleton.1 hc
    | @panic t c why h =>
      have hm : AllocTrouble ps → AllocTrouble { ps with th := setTh ps.th t .idle, hist := ps.hist ++ [.panic (t, ps.seq t) c why] } :=
        key t (oth t _) (fun _ h => List.mem_append_left _ h) (fun h' => by rw [h] at h'; cases h')
        (fun c w h' => by rw [h] at h'; cases h'; exact .inr (.inr ⟨_, List.mem_append_right _ (List.mem_singleton.2 rfl)⟩))
      refine ⟨fun u c' p hu => ?_, fun T hT => hm (ih.lock T hT), fun o c' hc => ?_⟩
      · by_cases hut : u = t
        · subst hut; replace hu := (same u _).symm.trans hu; cases hu
        · replace hu := (oth t _ u hut).symm.trans hu
          exact (ih.run u c' p hu).imp id fun h => ⟨h.1, hm h.2⟩
      · rcases List.mem_append.1 hc with hc | hc
        · exact hm (ih.hist o c' hc)
        · cases List.mem_singleton.1 hc
          rcases ih.run t _ _ h with h1 | h1
          · exact (h1 rfl).elim
          · exact hm h1.2
    | freeEntry x h1 h2 h3 => exact ⟨ih.run, ih.lock, ih.hist⟩
    | freeTable x h1 h2 h3 => exact ⟨ih.run, ih.lock, ih.hist⟩

/-- **C45** (what is left of it). A call panics because of a poisoned lock only if another call has panicked, or is about to, because
a table could not be allocated (too large, or not a power of two), or if a call has been abandoned half-way. And the failed call has
not changed the contents of the map (C44). -/
theorem C45_cause_partial {ps : PSt K V} (h : Reach C ps) {o : OpId} {c : Call K V} (hp : HEv.panic o c .poisonedLock ∈ ps.hist) :
    (∃ o' c' w, HEv.panic o' c' w ∈ ps.hist ∧ (w = .layoutOverflow ∨ w = .maxCapacity ∨ w = .notPowerOfTwo)) ∨
    (∃ t c' w, ps.th t = .run c' (.panic w) ∧ (w = .layoutOverflow ∨ w = .maxCapacity ∨ w = .notPowerOfTwo)) ∨
    ∃ t, ps.th t = .gone := by
  rcases (poisonInv h).hist o c hp with ⟨o, c, w, h1, h2⟩ | ⟨t, c, w, h1, h2⟩ | h1
  · exact .inl ⟨o, c, w, h2, h1⟩
  · exact .inr (.inl ⟨t, c, w, h2, h1⟩)
  · exact .inr (.inr h1)

-- the hypothesis is met: `C45_false`, where the cause is the failed reservation
example : ∃ ps : PSt Nat Nat, Reach cfgR ps ∧ HEv.panic (0, 1) (.reserve (2 ^ 59)) .layoutOverflow ∈ ps.hist ∧
    ∃ o c, HEv.panic o c .poisonedLock ∈ ps.hist := C45_false

end Papaya
