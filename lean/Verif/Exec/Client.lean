import Verif.Exec.Demo
import Verif.Model.Client
import Verif.Props.Seq

/-! # Running clients

An executable interpreter for `Client`, used to exhibit concrete executions of the code on top of the map. -/

set_option linter.unusedSectionVars false
set_option linter.unusedVariables false

namespace Papaya

variable {ι K V α : Type} [DecidableEq K] [DecidableEq V] [DecidableEq ι]

/-- Running an operation to its end. -/
def progFn (C : Cfg K) (t : Tid) : Nat → Prog K V α → St K V → Option (α × St K V)
  | 0, _, _ => none
  | _ + 1, .ret a, σ => some (a, σ)
  | _ + 1, .panic _, _ => none
  | n + 1, .act a k, σ => (execFn C t a σ).bind fun x => progFn C t n (k x.1) x.2
  | n + 1, .iter body s k, σ => progFn C t n (Prog.unfoldIter body s k) σ

/-- Creating guard `t` if it does not exist. -/
def pinFn (t : Tid) (ps : PSt K V) : PSt K V :=
  match ps.th t with
  | .out => { ps with mem := ps.mem.pin t, th := setTh ps.th t .idle }
  | _ => ps

/-- Calling an operation with guard `t`, which is created if necessary. -/
def callFn (C : Cfg K) (t : Tid) (fuel : Nat) (c : Call K V) (qs : PSt K V) : Option (c.Res × PSt K V) :=
  let ps := pinFn t qs
  match ps.th t with
  | .idle =>
    (progFn C t fuel (c.prog C) ps.mem).map fun x => (x.1, {
      mem := x.2
      th := setTh ps.th t .idle
      seq := fun u => if u = t then ps.seq t + 1 else ps.seq u
      held := fun u => if u = t then c.refs x.1 ++ ps.held t else ps.held u
      hist := ps.hist ++ [.inv (t, ps.seq t + 1) c] ++ [.ret (t, ps.seq t + 1) c x.1] })
  | _ => none

/-- Running a client. -/
def Client.runFn (C : ι → Cfg K) (t : Tid) (fuel : Nat) : Client ι K V α → (ι → PSt K V) → Option (α × (ι → PSt K V))
  | .ret a, ps => some (a, ps)
  | .call i c k, ps => (callFn (C i) t fuel c (ps i)).bind fun x => runFn C t fuel (k x.1) (Function.update ps i x.2)

/-- All calls of the client have well-formed closures. -/
def Client.WF : Client ι K V α → Prop
  | .ret _ => True
  | .call _ c k => c.WF ∧ ∀ r, (k r).WF

theorem setTh_setTh {th : Tid → Th K V} {t : Tid} {a b : Th K V} : setTh (setTh th t a) t b = setTh th t b := by
  funext u
  unfold setTh
  split <;> rfl

theorem progFn_steps {C : Cfg K} {t : Tid} {c : Call K V} {r : c.Res} {σ' : St K V} {n : Nat} {p : Prog K V c.Res}
    {ps : PSt K V} (h : progFn C t n p ps.mem = some (r, σ')) (hth : ps.th t = .run c p) :
    Steps C ps { ps with mem := σ', th := setTh ps.th t (.run c (.ret r)) } := by
  induction n generalizing p ps with
  | zero => cases h
  | succ n ih =>
    cases p with
    | ret a =>
      cases h
      have : setTh ps.th t (.run c (.ret r)) = ps.th := by
        funext u
        unfold setTh
        split
        · rename_i hu; rw [hu, hth]
        · rfl
      rw [this]
    | panic => cases h
    | act a k =>
      simp only [progFn, Option.bind_eq_some_iff] at h
      obtain ⟨⟨x, σ⟩, h1, h2⟩ := h
      have := ih (ps := { ps with mem := σ, th := setTh ps.th t (.run c (k x)) }) h2 (by simp [setTh])
      simp only [setTh_setTh] at this
      exact .head (.act t hth (execFn_sound h1)) this
    | iter body s k =>
      have := ih (ps := { ps with th := setTh ps.th t (.run c (Prog.unfoldIter body s k)) }) h (by simp [setTh])
      simp only [setTh_setTh] at this
      exact .head (.loop t hth) this

theorem callFn_steps {C : Cfg K} {t : Tid} {fuel : Nat} {c : Call K V} {ps q : PSt K V} {r : c.Res}
    (h : callFn C t fuel c ps = some (r, q)) (hwf : c.WF) :
    Steps C ps q ∧ q.hist = ps.hist ++ [.inv (t, ps.seq t + 1) c] ++ [.ret (t, ps.seq t + 1) c r] := by
  have hp : Steps C ps (pinFn t ps) ∧ (pinFn t ps).hist = ps.hist ∧ (pinFn t ps).seq = ps.seq := by
    unfold pinFn
    split
    · rename_i h1; exact ⟨.single (.pin t h1), rfl, rfl⟩
    · exact ⟨.refl, rfl, rfl⟩
  unfold callFn at h
  rw [← hp.2.1, ← hp.2.2]
  suffices Steps C (pinFn t ps) q ∧ q.hist = (pinFn t ps).hist ++ [.inv (t, (pinFn t ps).seq t + 1) c] ++
      [.ret (t, (pinFn t ps).seq t + 1) c r] from ⟨hp.1.trans this.1, this.2⟩
  clear hp
  generalize pinFn t ps = ps0 at h
  dsimp only at h
  split at h
  · rename_i h1
    rw [Option.map_eq_some_iff] at h
    obtain ⟨x, hx, h2⟩ := h
    cases h2
    refine ⟨?_, rfl⟩
    have s1 := Step.inv (C := C) t c h1 hwf
    have s2 := progFn_steps (C := C) (t := t) (c := c) (r := x.1) (σ' := x.2) (n := fuel) (p := c.prog C)
      (ps := { ps0 with
        th := setTh ps0.th t (.run c (c.prog C))
        seq := fun u => if u = t then ps0.seq t + 1 else ps0.seq u
        hist := ps0.hist ++ [.inv (t, ps0.seq t + 1) c] }) hx (by simp [setTh])
    have s3 := Step.ret (C := C) (ps := { ps0 with
        mem := x.2
        th := setTh (setTh ps0.th t (.run c (c.prog C))) t (.run c (.ret x.1))
        seq := fun u => if u = t then ps0.seq t + 1 else ps0.seq u
        hist := ps0.hist ++ [.inv (t, ps0.seq t + 1) c] }) t (c := c) (r := x.1) (by simp [setTh])
    have := Relation.ReflTransGen.tail (.head s1 s2) s3
    simp only [setTh_setTh, if_true] at this
    exact this
  · cases h

theorem callFn_alone {C : Cfg K} {t : Tid} {fuel : Nat} {c : Call K V} {ps q : PSt K V} {r : c.Res}
    (h : callFn C t fuel c ps = some (r, q)) (hr : Reach C ps) (hq : NoWriter ps.hist) (hwf : c.WF) :
    Alone C ps q (t, ps.seq t + 1) c ∧ HEv.ret (t, ps.seq t + 1) c r ∈ q.hist ∧ NoWriter q.hist := by
  have hst := callFn_steps h hwf
  obtain ⟨h1, h2⟩ := hst
  have hA : Alone C ps q (t, ps.seq t + 1) c := by
    refine ⟨hr, h1, hq, ?_, by rw [h2]; simp, fun o' c' h3 h4 => ?_⟩
    · intro hc
      obtain ⟨S, g, ⟨_, _, _, _, _, g6⟩, _⟩ := (hr.steps h1).pinv 1
      refine g6.wf.inv_first (o := (t, ps.seq t + 1)) (c := c) (A := ps.hist)
        (B := [.inv (t, ps.seq t + 1) c] ++ [.ret (t, ps.seq t + 1) c r]) (by rw [h2, List.append_assoc]) (by simp) _ hc rfl
    · rw [h2] at h3
      simp only [List.append_assoc, List.mem_append, List.mem_cons] at h3
      rcases h3 with h3 | h3 | h3
      · exact absurd h3 h4
      · simp at h3; exact .inl h3.1
      · simp at h3
  have hret : HEv.ret (t, ps.seq t + 1) c r ∈ q.hist := by rw [h2]; simp
  exact ⟨hA, hret, hA.noWriter (Ended.ret hret)⟩

/-- What the interpreter computes is an execution of the client. -/
theorem Client.runFn_runs {C : ι → Cfg K} {t : Tid} {fuel : Nat} {p : Client ι K V α} {ps ps' : ι → PSt K V} {a : α}
    (h : p.runFn C t fuel ps = some (a, ps')) (hwf : p.WF) (hr : ∀ i, Reach (C i) (ps i))
    (hq : ∀ i, NoWriter (ps i).hist) : p.Runs C ps a ps' := by
  induction p generalizing ps with
  | ret => cases h; exact .ret
  | call i c k ih =>
    simp only [Client.runFn, Option.bind_eq_some_iff] at h
    obtain ⟨⟨r, q⟩, h1, h2⟩ := h
    obtain ⟨a1, a2, a3⟩ := callFn_alone h1 (hr i) (hq i) hwf.1
    refine .call a1 a2 (ih r h2 (hwf.2 r) (fun j => ?_) fun j => ?_)
    · by_cases hj : j = i
      · subst hj; simpa using (hr j).steps a1.steps
      · simpa [hj] using hr j
    · by_cases hj : j = i
      · subst hj; simpa using a3
      · simpa [hj] using hq j

/-- Two maps, the scheduler has executed `l i` on map `i`. -/
def startFn (C : Bool → Cfg K) (l : Bool → List (Cmd K V)) : Option (Bool → PSt K V) :=
  (runMap (C false) (l false)).bind fun a => (runMap (C true) (l true)).map fun b i => cond i b a

/-- Running a client on these two maps. -/
def clientFn (C : Bool → Cfg K) (t : Tid) (fuel : Nat) (l : Bool → List (Cmd K V)) (p : Client Bool K V α) :
    Option (α × (Bool → PSt K V)) :=
  (startFn C l).bind fun ps => if quietB (ps false).hist && quietB (ps true).hist then p.runFn C t fuel ps else none

theorem demo_client {C : Bool → Cfg K} {t : Tid} {fuel : Nat} {l : Bool → List (Cmd K V)} {p : Client Bool K V α}
    {P : α × (Bool → PSt K V) → Bool} (hwf : p.WF) (h : (clientFn C t fuel l p).any P = true) :
    ∃ ps a ps', (∀ i, runMap (C i) (l i) = some (ps i)) ∧ p.Runs C ps a ps' ∧ P (a, ps') = true := by
  obtain ⟨⟨a, ps'⟩, h1, h2⟩ := (Option.any_eq_true _ _).1 h
  simp only [clientFn, startFn, Option.bind_eq_some_iff, Option.map_eq_some_iff] at h1
  obtain ⟨ps, ⟨x, hx, y, hy, rfl⟩, h3⟩ := h1
  split at h3
  · rename_i hq
    rw [Bool.and_eq_true] at hq
    have hrun : ∀ i, runMap (C i) (l i) = some (cond i y x) := fun i => by cases i <;> assumption
    refine ⟨_, a, ps', hrun, Client.runFn_runs h3 hwf (fun i => runMap_reach (hrun i)) fun i => ?_, h2⟩
    cases i
    · exact quietB_iff hq.1
    · exact quietB_iff hq.2
  · cases h3

/-- The client `p`, then return `b`. -/
def Client.andRet {β : Type} (b : β) : Client ι K V Unit → Client ι K V β
  | .ret _ => .ret b
  | .call i c k => .call i c fun r => Client.andRet b (k r)

theorem Client.WF.andRet {β : Type} {b : β} {p : Client ι K V Unit} (h : p.WF) : (Client.andRet b p).WF := by
  cases p with
  | ret => trivial
  | call i c k => exact ⟨h.1, fun r => (h.2 r).andRet⟩

theorem Client.Runs.andRet {C : ι → Cfg K} {ps ps' : ι → PSt K V} {β : Type} {b x : β} {p : Client ι K V Unit}
    (h : (Client.andRet b p).Runs C ps x ps') : p.Runs C ps () ps' ∧ x = b := by
  induction p generalizing ps with
  | ret => cases h; exact ⟨.ret, rfl⟩
  | call i c k ih =>
    cases h with
    | call h1 h2 h3 =>
      obtain ⟨h4, h5⟩ := ih _ h3
      exact ⟨.call h1 h2 h4, h5⟩

theorem runMap_nil {C : Cfg K} {ps : PSt K V} (h : runMap C [] = some ps) : IsInit C ps := by
  simp only [runMap, initPSt, runCmds, Option.bind_eq_some_iff, Option.map_eq_some_iff] at h
  obtain ⟨_, ⟨σ, h1, rfl⟩, h2⟩ := h
  cases h2
  exact ⟨h1, rfl, rfl, rfl, rfl⟩

theorem inserts_wf {i : ι} {l : List (K × V)} : (Client.inserts i l).WF := by
  induction l with
  | nil => trivial
  | cons x l ih => exact ⟨trivial, fun _ => ih⟩

theorem allEq_wf {i : ι} {veq : V → V → Bool} {l : List (Entry K V)} : (Client.allEq i veq l).WF := by
  induction l with
  | nil => trivial
  | cons x l ih =>
    refine ⟨trivial, fun r => ?_⟩
    dsimp only
    split
    · exact ih
    · trivial

theorem eq_wf {i j : ι} {veq : V → V → Bool} : (Client.eq i j veq : Client ι K V Bool).WF := by
  refine ⟨trivial, fun n => ⟨trivial, fun n' => ?_⟩⟩
  dsimp only
  split
  · exact ⟨trivial, fun _ => allEq_wf⟩
  · trivial

end Papaya
