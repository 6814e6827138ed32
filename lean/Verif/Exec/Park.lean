import Verif.Proof.Park
import Verif.Exec.Demo
import Mathlib.Data.Multiset.Sort

/-! # Running the model with parkers

The scheduler of `Verif/Exec/Run.lean`, for the model of `Verif/Model/Park.lean`; whatever it reaches is reachable. -/

set_option linter.unusedSectionVars false
set_option linter.unusedVariables false

namespace Papaya

variable {K V : Type} [DecidableEq K] [DecidableEq V] {C : Cfg K}

theorem stepFn_own {t : Tid} {ps ps' : PSt K V} (h : stepFn C t ps = some ps') : OwnStep C t ps ps' := by
  unfold stepFn at h
  split at h
  · rename_i c β a k hth
    rw [Option.map_eq_some_iff] at h
    obtain ⟨⟨r, σ⟩, h1, h2⟩ := h
    cases h2
    exact .act hth (execFn_sound h1)
  · rename_i hth; cases h; exact .loop hth
  · rename_i hth; cases h; exact .ret hth
  · rename_i hth; cases h; exact .panic hth
  · cases h

def PKey.shouldParkB (σ : St K V) : PKey → Bool
  | .status T => σ.status T == .pending
  | .slot T i => !(σ.slot T i).copied

theorem PKey.shouldParkB_iff {σ : St K V} {a : PKey} : a.shouldParkB σ = true ↔ a.shouldPark σ := by
  cases a <;> simp [PKey.shouldParkB, PKey.shouldPark]

def KSt.registeredB (x : KSt K V) (a : PKey) (id : Nat) : Bool := decide (∃ r ∈ x.reg, r.a = a ∧ r.id = id)

theorem KSt.registeredB_iff {x : KSt K V} {a : PKey} {id : Nat} : x.registeredB a id = true ↔ x.registered a id := by
  simp [KSt.registeredB, KSt.registered]

/-- The threads registered for the key. -/
def KSt.waiters (x : KSt K V) (a : PKey) : List Tid := ((x.reg.filter fun r => r.a = a).val.map PkReg.t).sort (· ≤ ·)

theorem KSt.waiters_perm {x : KSt K V} {a : PKey} : ((x.reg.filter fun r => r.a = a).toList.map PkReg.t).Perm (x.waiters a) := by
  rw [← Multiset.coe_eq_coe]
  unfold KSt.waiters
  rw [Multiset.sort_eq, ← Multiset.map_coe, Finset.coe_toList]

/-- One step of guard `t`. -/
def kstepFn (C : Cfg K) (t : Tid) (x : KSt K V) : Option (KSt K V) :=
  match x.ps.th t with
  | .run c p =>
    match x.pk t with
    | .norm =>
      match p.parkKey, p.unparkKey with
      | some a, _ => some (x.go t (.p0 a))
      | none, some a => some (x.go t (.u0 a))
      | none, none => (stepFn C t x.ps).map fun ps' => { x with ps := ps' }
    | .p0 a => some ((x.addPending a.tab 1).go t (.p1 a))
    | .p1 a => some ({ x with
        count := fun T => if T = a.tab then x.count a.tab + 1 else x.count T
        reg := Insert.insert (⟨a, x.count a.tab + 1, t⟩ : PkReg) x.reg }.go t (.p2 a (x.count a.tab + 1)))
    | .p2 a id => some (x.go t (if a.shouldParkB x.ps.mem then .p4 a id else .p3 a id))
    | .p3 a id =>
      if x.registeredB a id then some ({ x with reg := x.reg.filter fun r => ¬ (r.a = a ∧ r.id = id) }.go t (.p3b a))
      else p.after.map fun p' => (x.resume t c p').go t .norm
    | .p3b a => p.after.map fun p' => ((x.addPending a.tab (-1)).resume t c p').go t .norm
    | .p4 a id =>
      if x.token t then some ({ x with token := fun u => if u = t then false else x.token u }.go t (.p5 a id)) else none
    | .p5 a id => if x.registeredB a id then some (x.go t (.p4 a id)) else some (x.go t (.p6 a))
    | .p6 a => if a.shouldParkB x.ps.mem then some (x.go t (.p0 a)) else p.after.map fun p' => (x.resume t c p').go t .norm
    | .u0 a => if x.pending a.tab = 0 then p.after.map fun p' => (x.resume t c p').go t .norm else some (x.go t (.u1 a))
    | .u1 a => some ({ x with reg := x.reg.filter fun r => ¬ r.a = a }.go t (.u2 a (x.waiters a)))
    | .u2 a l => some ((x.addPending a.tab (-l.length)).go t (.u3 a l))
    | .u3 a (u :: l) => some ({ x with token := fun w => if w = u then true else x.token w }.go t (.u3 a l))
    | .u3 _ [] => p.after.map fun p' => (x.resume t c p').go t .norm
  | _ => none

theorem kstepFn_sound {t : Tid} {x x' : KSt K V} (h : kstepFn C t x = some x') : PkStep C t x x' := by
  unfold kstepFn at h
  split at h
  swap
  · cases h
  rename_i c p hr
  split at h
  · rename_i hq
    split at h
    · cases h; exact .callPark hr hq (by assumption)
    · cases h; exact .callUnpark hr hq (by assumption)
    · rename_i h1 h2
      rw [Option.map_eq_some_iff] at h
      obtain ⟨ps', h3, h4⟩ := h
      cases h4
      refine .pool (stepFn_own h3) hq fun c' p' hr' => ?_
      rw [hr] at hr'; cases hr'; exact ⟨h1, h2⟩
  · cases h; exact .announce hr (by assumption)
  · cases h; exact .register hr (by assumption)
  · rename_i hq
    cases h
    split
    · rename_i hc; exact .checkTrue hr hq (PKey.shouldParkB_iff.1 hc)
    · rename_i hc; exact .checkFalse hr hq fun h => hc (PKey.shouldParkB_iff.2 h)
  · rename_i hq
    split at h
    · rename_i hc; cases h; exact .removeSome hr hq (KSt.registeredB_iff.1 hc)
    · rename_i hc
      rw [Option.map_eq_some_iff] at h
      obtain ⟨p', h3, h4⟩ := h
      cases h4; exact .removeNone hr hq (fun h => hc (KSt.registeredB_iff.2 h)) h3
  · rename_i hq
    rw [Option.map_eq_some_iff] at h
    obtain ⟨p', h3, h4⟩ := h
    cases h4; exact .retract hr hq h3
  · rename_i hq
    split at h
    · rename_i hc; cases h; exact .wake hr hq hc
    · cases h
  · rename_i hq
    split at h
    · rename_i hc; cases h; exact .still hr hq (KSt.registeredB_iff.1 hc)
    · rename_i hc; cases h; exact .woken hr hq fun h => hc (KSt.registeredB_iff.2 h)
  · rename_i hq
    split at h
    · rename_i hc; cases h; exact .finalTrue hr hq (PKey.shouldParkB_iff.1 hc)
    · rename_i hc
      rw [Option.map_eq_some_iff] at h
      obtain ⟨p', h3, h4⟩ := h
      cases h4; exact .finalFalse hr hq (fun h => hc (PKey.shouldParkB_iff.2 h)) h3
  · rename_i hq
    split at h
    · rename_i hc
      rw [Option.map_eq_some_iff] at h
      obtain ⟨p', h3, h4⟩ := h
      cases h4; exact .unparkNone hr hq hc h3
    · rename_i hc; cases h; exact .unparkSome hr hq hc
  · cases h; exact .take _ hr (by assumption) KSt.waiters_perm
  · cases h; exact .subtract hr (by assumption)
  · cases h; exact .wakeOne hr (by assumption)
  · rename_i hq
    rw [Option.map_eq_some_iff] at h
    obtain ⟨p', h3, h4⟩ := h
    cases h4; exact .unparkDone hr hq h3

/-- Let guard `t` execute up to `n` steps, until it is blocked or its operation has returned. -/
def kgoFn (C : Cfg K) (t : Tid) : Nat → KSt K V → KSt K V
  | 0, x => x
  | n + 1, x =>
    match kstepFn C t x with
    | some x' => kgoFn C t n x'
    | none => x

/-- Commands. `go` and `fin` run until the operation returns, or is blocked, or the fuel is exhausted. -/
def kcmdFn (C : Cfg K) (x : KSt K V) : Cmd K V → Option (KSt K V)
  | .go t n => some (kgoFn C t n x)
  | .fin t n => some (kgoFn C t n x)
  | c => (cmdFn C x.ps c).map fun ps' => { x with ps := ps' }

def krunCmds (C : Cfg K) : List (Cmd K V) → KSt K V → Option (KSt K V)
  | [], x => some x
  | c :: l, x => (kcmdFn C x c).bind (krunCmds C l)

/-- Nobody is parked. -/
def KSt.start (ps : PSt K V) : KSt K V := ⟨ps, fun _ => 0, fun _ => 0, ∅, fun _ => false, fun _ => .norm⟩

def krun (C : Cfg K) (l : List (Cmd K V)) : Option (KSt K V) := (initPSt C).bind fun ps => krunCmds C l (.start ps)

theorem kgoFn_sound {t : Tid} {n : Nat} {x : KSt K V} (hb : x.ps.mem.Bounded) :
    KSteps C x (kgoFn C t n x) ∧ (kgoFn C t n x).ps.mem.Bounded := by
  induction n generalizing x with
  | zero => exact ⟨.refl, hb⟩
  | succ n ih =>
    unfold kgoFn
    split
    · rename_i x' h
      have h1 := kstepFn_sound h
      have h2 : x'.ps.mem.Bounded := by
        unfold kstepFn at h
        split at h
        swap
        · cases h
        split at h <;> (try split at h) <;> (try rw [Option.map_eq_some_iff] at h; obtain ⟨y, h3, h4⟩ := h; cases h4) <;> (try cases h) <;>
          first | exact hb | exact stepFn_bounded (by assumption) hb
      obtain ⟨h3, h4⟩ := ih h2
      exact ⟨.head (.own t h1) h3, h4⟩
    · exact ⟨.refl, hb⟩

theorem kcmdFn_sound {x x' : KSt K V} {c : Cmd K V} (h : kcmdFn C x c = some x') (hb : x.ps.mem.Bounded) :
    KSteps C x x' ∧ x'.ps.mem.Bounded := by
  have set_ne : ∀ {th : Tid → Th K V} {u w : Tid} {y : Th K V} {c p}, th w = .run c p → (∀ c p, th u ≠ .run c p) →
      setTh th u y w = .run c p := by
    intro th u w y c p h1 h2
    rw [setTh_ne (fun h => h2 c p (by rw [← h]; exact h1))]; exact h1
  have env : ∀ {c : Cmd K V} {ps' : PSt K V}, cmdFn C x.ps c = some ps' → (∀ t n, c ≠ .go t n ∧ c ≠ .fin t n) →
      KSteps C x { x with ps := ps' } ∧ ps'.mem.Bounded := by
    intro c ps' h1 h2
    refine ⟨?_, (cmdFn_steps h1 hb).2⟩
    cases c with
    | go t n => exact absurd rfl (h2 t n).1
    | fin t n => exact absurd rfl (h2 t n).2
    | pin t =>
      unfold cmdFn at h1; dsimp only at h1; split at h1
      · rename_i h3
        split at h1
        · cases h1
          exact .single (.env (.pin t h3) fun u c p hu => .inl (set_ne hu (by rw [h3]; simp)))
        · cases h1
      · cases h1
    | unpin t =>
      unfold cmdFn at h1; dsimp only at h1; split at h1
      · rename_i h3
        cases h1
        exact .single (.env (.unpin t h3) fun u c p hu => .inl (set_ne hu (by rw [h3]; simp)))
      · cases h1
    | call t c hc =>
      unfold cmdFn at h1; dsimp only at h1; split at h1
      · rename_i h3
        cases h1
        exact .single (.env (.inv t c h3 hc) fun u c p hu => .inl (set_ne hu (by rw [h3]; simp)))
      · cases h1
    | abandon t =>
      unfold cmdFn at h1; dsimp only at h1; split at h1
      · rename_i h3
        cases h1
        refine .single (.env (.abandon t h3) fun u c p hu => ?_)
        by_cases hut : u = t
        · subst hut; exact .inr setTh_same
        · exact .inl ((setTh_ne hut).trans hu)
      · cases h1
    | release t =>
      unfold cmdFn at h1; dsimp only at h1; split at h1
      · rename_i h3
        cases h1
        exact .single (.env (.release t h3) fun u c p hu => .inl hu)
      · cases h1
    | freeEntry y =>
      unfold cmdFn at h1; dsimp only at h1; split at h1
      · rename_i h3
        cases h1
        exact .single (.env (.freeEntry y h3.1 (noBlocker_all h3.2.1 fun t ht => ((hb t ht).2 y).1) h3.2.2) fun u c p hu => .inl hu)
      · cases h1
    | freeTable T =>
      unfold cmdFn at h1; dsimp only at h1; split at h1
      · rename_i h3
        cases h1
        exact .single (.env (.freeTable T h3.1 (noBlocker_all h3.2.1 fun t ht => ((hb t ht).2 T).2) h3.2.2) fun u c p hu => .inl hu)
      · cases h1
  cases c with
  | go t n => cases h; exact kgoFn_sound hb
  | fin t n => cases h; exact kgoFn_sound hb
  | _ =>
    rw [show kcmdFn C x _ = (cmdFn C x.ps _).map fun ps' => { x with ps := ps' } from rfl, Option.map_eq_some_iff] at h
    obtain ⟨ps', h1, h2⟩ := h
    cases h2
    exact env h1 fun t n => ⟨by simp, by simp⟩

theorem krunCmds_sound {l : List (Cmd K V)} {x x' : KSt K V} (h : krunCmds C l x = some x') (hb : x.ps.mem.Bounded) :
    KSteps C x x' := by
  induction l generalizing x with
  | nil => cases h; exact .refl
  | cons c l ih =>
    simp only [krunCmds, Option.bind_eq_some_iff] at h
    obtain ⟨y, h1, h2⟩ := h
    have h3 := kcmdFn_sound h1 hb
    exact h3.1.trans (ih h2 h3.2)

theorem KReach.steps' {x x' : KSt K V} (h : KReach C x) (hs : KSteps C x x') : KReach C x' := by
  induction hs with
  | refl => exact h
  | tail _ hs ih => exact .step ih hs

/-- Whatever the scheduler reaches is reachable. -/
theorem krun_reach {l : List (Cmd K V)} {x : KSt K V} (h : krun C l = some x) : KReach C x := by
  simp only [krun, initPSt, Option.bind_eq_some_iff, Option.map_eq_some_iff] at h
  obtain ⟨_, ⟨σ, h1, rfl⟩, h2⟩ := h
  exact KReach.steps' (.init ⟨⟨h1, rfl, rfl, rfl, rfl⟩, fun _ => rfl, rfl, fun _ => rfl⟩) (krunCmds_sound h2 (initSt_bounded h1))

/-- The kernel evaluates the scheduler, and a test of what it has reached. -/
theorem kdemo {l : List (Cmd K V)} {P : KSt K V → Bool} (h : ((krun C l).map P) = some true) :
    ∃ x : KSt K V, KReach C x ∧ krun C l = some x ∧ P x = true := by
  rw [Option.map_eq_some_iff] at h
  obtain ⟨x, h1, h2⟩ := h
  exact ⟨x, krun_reach h1, h1, h2⟩

end Papaya
