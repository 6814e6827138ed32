import Verif.Model.Pool

/-! # Running the model

An executable scheduler for the model, used to exhibit concrete executions: `runCmds` follows a list of commands, and
whatever it reaches is reachable (`runCmds_reach`). It resolves the nondeterminism of weak CAS (no spurious failures);
it is not part of the model itself. -/

set_option linter.unusedSectionVars false
set_option linter.unusedVariables false

namespace Papaya

variable {K V : Type} [DecidableEq K] [DecidableEq V]

/-- Executing an action; `none` if it blocks. -/
def execFn (C : Cfg K) (t : Tid) : {β : Type} → Act K V β → St K V → Option (β × St K V)
  | _, .loadRoot, σ => some (σ.root.map σ.handle, σ)
  | _, .peekRoot, σ => some (σ.root, σ)
  | _, .casRootInit cap, σ =>
    match σ.root with
    | none =>
      let σ' : St K V := { σ.allocTable cap .promoted with root := some σ.nTabs }
      some (σ'.handle σ.nTabs, σ')
    | some T => some (σ.handle T, σ)
  | _, .loadNext T, σ => some ((σ.next T).map σ.handle, σ)
  | _, .tryLock T, σ =>
    if σ.lock T = .free then some (true, { σ with lock := fun T' => if T' = T then .held t else σ.lock T' })
    else some (false, σ)
  | _, .lockWait T, σ =>
    match σ.lock T with
    | .free => some (true, { σ with lock := fun T' => if T' = T then .held t else σ.lock T' })
    | .poisoned => some (false, σ)
    | .held _ => none
  | _, .unlock T, σ => some ((), { σ with lock := fun T' => if T' = T then .free else σ.lock T' })
  | _, .poison T, σ => some ((), { σ with lock := fun T' => if T' = T then .poisoned else σ.lock T' })
  | _, .storeNext T cap, σ =>
    let σ' : St K V := { σ.allocTable cap .pending with
              next := fun T' => if T' = T then some σ.nTabs else if T' = σ.nTabs then none else σ.next T' }
    some (σ'.handle σ.nTabs, σ')
  | _, .loadMd T i, σ => some (σ.md T i, σ)
  | _, .storeMd T i m, σ => some ((), σ.setMd T i m)
  | _, .loadSlot T i, σ => some (σ.slot T i, σ)
  | _, .cas _ T i exp new, σ =>
    if σ.slot T i = exp then some (none, σ.setSlot T i new) else some (some (σ.slot T i), σ)
  | _, .casNew _ T i exp k v, σ =>
    if σ.slot T i = exp then
      some (.inl ⟨σ.nIds, k, v⟩, { σ.setSlot T i (Slot.untagged ⟨σ.nIds, k, v⟩) with nIds := σ.nIds + 1 })
    else some (.inr (σ.slot T i), σ)
  | _, .fetchOrCopying T i, σ => some (σ.slot T i, σ.setSlot T i { σ.slot T i with copying := true })
  | _, .storeSlot T i s, σ => some ((), σ.setSlot T i s)
  | _, .loadStatus T, σ => some (σ.status T, σ)
  | _, .parkStatus T, σ => if σ.status T = .pending then none else some ((), σ)
  | _, .parkSlot T i, σ => if (σ.slot T i).copied = true then some ((), σ) else none
  | _, .unparkStatus _, σ => some ((), σ)
  | _, .unparkSlot _ _, σ => some ((), σ)
  | _, .storeStatus T s, σ => some ((), { σ with status := fun T' => if T' = T then s else σ.status T' })
  | _, .loadClaim T, σ => some (σ.claim T, σ)
  | _, .addClaim T n _, σ => some (σ.claim T, { σ with claim := fun T' => if T' = T then σ.claim T + n else σ.claim T' })
  | _, .loadCopied T, σ => some (σ.copied T, σ)
  | _, .addCopied T n _, σ =>
    some (σ.copied T, { σ with copied := fun T' => if T' = T then σ.copied T + n else σ.copied T' })
  | _, .casRoot T N, σ => if σ.root = some T then some (true, { σ with root := some N }) else some (false, σ)
  | _, .sameTable T T', σ => some (decide (T = T'), σ)
  | _, .sameEntry x y, σ => some (decide (x = y), σ)
  | _, .deref _, σ => some ((), σ)
  | _, .retire e, σ => some ((), σ.retireEntry e)
  | _, .retireTable T, σ =>
    some ((), { σ with
              tabRetired := fun x => if x = T then true else σ.tabRetired x
              tabBlockers := fun x u => if x = T then σ.pinned u else σ.tabBlockers x u })
  | _, .pushDeferred T e, σ =>
    some ((), { σ with deferred := fun T' => if T' = T then e :: σ.deferred T else σ.deferred T' })
  | _, .loadShard j, σ => some (σ.shard j, σ)
  | _, .addCount d, σ =>
    some ((), { σ with shard := fun j => if j = C.shardOf t % (C.shards + 1) then σ.shard j + d else σ.shard j })

theorem execFn_sound {C : Cfg K} {t : Tid} {β : Type} {a : Act K V β} {σ : St K V} {r : β} {σ' : St K V}
    (h : execFn C t a σ = some (r, σ')) : Exec C t a σ r σ' := by
  cases a <;> simp only [execFn, Exec] at h ⊢
  all_goals try (split at h)
  all_goals simp only [Option.some.injEq, Prod.mk.injEq, reduceCtorEq] at h
  all_goals (obtain ⟨h1, h2⟩ := h; first | subst h1 | skip; subst h2)
  all_goals simp_all

/-- One step of guard `t`: an action, a loop, the response, the panic. -/
def stepFn (C : Cfg K) (t : Tid) (ps : PSt K V) : Option (PSt K V) :=
  match ps.th t with
  | .run c (.act a k) => (execFn C t a ps.mem).map fun (r, σ) =>
      { ps with mem := σ, th := setTh ps.th t (.run c (k r)) }
  | .run c (.iter body s k) => some { ps with th := setTh ps.th t (.run c (Prog.unfoldIter body s k)) }
  | .run c (.ret r) => some { ps with
        th := setTh ps.th t .idle
        held := fun u => if u = t then c.refs r ++ ps.held t else ps.held u
        hist := ps.hist ++ [.ret (t, ps.seq t) c r] }
  | .run c (.panic why) => some { ps with
        th := setTh ps.th t .idle
        hist := ps.hist ++ [.panic (t, ps.seq t) c why] }
  | _ => none

theorem stepFn_sound {C : Cfg K} {t : Tid} {ps ps' : PSt K V} (h : stepFn C t ps = some ps') : Step C ps ps' := by
  unfold stepFn at h
  split at h
  · rename_i c β a k hth
    rw [Option.map_eq_some_iff] at h
    obtain ⟨⟨r, σ⟩, h1, h2⟩ := h
    cases h2
    exact .act t hth (execFn_sound h1)
  · rename_i hth; cases h; exact .loop t hth
  · rename_i hth; cases h; exact .ret t hth
  · rename_i hth; cases h; exact .panic t hth
  · cases h

/-- Commands for the scheduler. -/
inductive Cmd (K V : Type) : Type 1
  /-- create a guard -/
  | pin (t : Tid)
  /-- drop a guard -/
  | unpin (t : Tid)
  /-- call an operation (with well-formed closures) -/
  | call (t : Tid) (c : Call K V) (h : c.WF := by trivial)
  /-- abandon the operation of the guard -/
  | abandon (t : Tid)
  /-- drop the guard of an abandoned operation -/
  | release (t : Tid)
  /-- let the collector free an entry -/
  | freeEntry (x : Nat)
  /-- let the collector free a table -/
  | freeTable (T : Nat)
  /-- let the guard execute `n` steps -/
  | go (t : Tid) (n : Nat)
  /-- let the guard run until its operation responds (or `fuel` is exhausted) -/
  | fin (t : Tid) (fuel : Nat)

def goFn (C : Cfg K) (t : Tid) : Nat → PSt K V → Option (PSt K V)
  | 0, ps => some ps
  | n + 1, ps => (stepFn C t ps).bind (goFn C t n)

def finFn (C : Cfg K) (t : Tid) : Nat → PSt K V → Option (PSt K V)
  | 0, _ => none
  | n + 1, ps =>
    match ps.th t with
    | .run _ _ => (stepFn C t ps).bind (finFn C t n)
    | _ => some ps

/-- The scheduler uses guards below this number only. -/
def tidBound : Nat := 8

/-- No guard from `tidBound` on is active or blocks the collector. -/
def St.Bounded (σ : St K V) : Prop :=
  ∀ t, tidBound ≤ t → σ.pinned t = false ∧ ∀ x, σ.blockers x t = false ∧ σ.tabBlockers x t = false

def noBlocker (b : Tid → Bool) : Bool := (List.range tidBound).all fun t => !b t

def cmdFn (C : Cfg K) (ps : PSt K V) : Cmd K V → Option (PSt K V)
  | .pin t =>
    match ps.th t with
    | .out => if t < tidBound then some { ps with mem := ps.mem.pin t, th := setTh ps.th t .idle } else none
    | _ => none
  | .unpin t =>
    match ps.th t with
    | .idle => some { ps with
        mem := ps.mem.unpin t, th := setTh ps.th t .out, held := fun u => if u = t then [] else ps.held u }
    | _ => none
  | .call t c _ =>
    match ps.th t with
    | .idle => some { ps with
        th := setTh ps.th t (.run c (c.prog C))
        seq := fun u => if u = t then ps.seq t + 1 else ps.seq u
        hist := ps.hist ++ [.inv (t, ps.seq t + 1) c] }
    | _ => none
  | .abandon t =>
    match ps.th t with
    | .run _ _ => some { ps with th := setTh ps.th t .gone }
    | _ => none
  | .release t =>
    match ps.th t with
    | .gone => some { ps with mem := ps.mem.unpin t, held := fun u => if u = t then [] else ps.held u }
    | _ => none
  | .freeEntry x =>
    if ps.mem.retired x = true ∧ noBlocker (ps.mem.blockers x) = true ∧ ps.mem.freed x = false then
      some { ps with mem := ps.mem.freeEntry x }
    else none
  | .freeTable T =>
    if ps.mem.tabRetired T = true ∧ noBlocker (ps.mem.tabBlockers T) = true ∧ ps.mem.tabFreed T = false then
      some { ps with mem := ps.mem.freeTable T }
    else none
  | .go t n => goFn C t n ps
  | .fin t n => finFn C t n ps

def runCmds (C : Cfg K) : List (Cmd K V) → PSt K V → Option (PSt K V)
  | [], ps => some ps
  | c :: l, ps => (cmdFn C ps c).bind (runCmds C l)

theorem execFn_bounded {C : Cfg K} {t : Tid} {β : Type} {a : Act K V β} {σ : St K V} {r : β} {σ' : St K V}
    (h : execFn C t a σ = some (r, σ')) (hb : σ.Bounded) : σ'.Bounded := by
  cases a <;> simp only [execFn] at h
  all_goals try (split at h)
  all_goals simp only [Option.some.injEq, Prod.mk.injEq, reduceCtorEq] at h
  all_goals (obtain ⟨h1, h2⟩ := h; subst h2)
  all_goals try exact hb
  all_goals
    intro u hu
    obtain ⟨h1, h2⟩ := hb u hu
    refine ⟨h1, fun x => ?_⟩
    simp only [St.retireEntry]
    split
    · exact ⟨by first | exact h1 | exact (h2 x).1, by first | exact h1 | exact (h2 x).2⟩
    · exact h2 x

theorem stepFn_bounded {C : Cfg K} {t : Tid} {ps ps' : PSt K V} (h : stepFn C t ps = some ps') (hb : ps.mem.Bounded) :
    ps'.mem.Bounded := by
  unfold stepFn at h
  split at h
  · rw [Option.map_eq_some_iff] at h
    obtain ⟨⟨r, σ⟩, h1, h2⟩ := h
    cases h2
    exact execFn_bounded h1 hb
  · cases h; exact hb
  · cases h; exact hb
  · cases h; exact hb
  · cases h

theorem goFn_steps {C : Cfg K} {t : Tid} {n : Nat} {ps ps' : PSt K V} (h : goFn C t n ps = some ps') (hb : ps.mem.Bounded) :
    Steps C ps ps' ∧ ps'.mem.Bounded := by
  induction n generalizing ps with
  | zero => cases h; exact ⟨.refl, hb⟩
  | succ n ih =>
    simp only [goFn, Option.bind_eq_some_iff] at h
    obtain ⟨q, h1, h2⟩ := h
    have := ih h2 (stepFn_bounded h1 hb)
    exact ⟨.head (stepFn_sound h1) this.1, this.2⟩

theorem finFn_steps {C : Cfg K} {t : Tid} {n : Nat} {ps ps' : PSt K V} (h : finFn C t n ps = some ps')
    (hb : ps.mem.Bounded) : Steps C ps ps' ∧ ps'.mem.Bounded := by
  induction n generalizing ps with
  | zero => cases h
  | succ n ih =>
    unfold finFn at h
    split at h
    · rw [Option.bind_eq_some_iff] at h
      obtain ⟨q, h1, h2⟩ := h
      have := ih h2 (stepFn_bounded h1 hb)
      exact ⟨.head (stepFn_sound h1) this.1, this.2⟩
    · cases h; exact ⟨.refl, hb⟩

theorem noBlocker_all {b : Tid → Bool} (h : noBlocker b = true) (hb : ∀ t, tidBound ≤ t → b t = false) (t : Tid) :
    b t = false := by
  rcases Nat.lt_or_ge t tidBound with h1 | h1
  · have := List.all_eq_true.1 h t (List.mem_range.2 h1)
    simpa using this
  · exact hb t h1

theorem cmdFn_steps {C : Cfg K} {ps ps' : PSt K V} {c : Cmd K V} (h : cmdFn C ps c = some ps') (hb : ps.mem.Bounded) :
    Steps C ps ps' ∧ ps'.mem.Bounded := by
  cases c with
  | pin t =>
    unfold cmdFn at h; dsimp only at h; split at h
    · rename_i h1
      split at h
      · rename_i h2
        cases h
        refine ⟨.single (.pin t h1), fun u hu => ⟨?_, (hb u hu).2⟩⟩
        show (if u = t then true else ps.mem.pinned u) = false
        rw [if_neg (Nat.ne_of_gt (Nat.lt_of_lt_of_le h2 hu))]; exact (hb u hu).1
      · cases h
    · cases h
  | unpin t =>
    unfold cmdFn at h; dsimp only at h; split at h
    · rename_i h1
      cases h
      refine ⟨.single (.unpin t h1), fun u hu => ?_⟩
      obtain ⟨h2, h3⟩ := hb u hu
      simp only [St.unpin]
      split
      · exact ⟨rfl, fun _ => ⟨rfl, rfl⟩⟩
      · exact ⟨h2, h3⟩
    · cases h
  | call t c hc =>
    unfold cmdFn at h; dsimp only at h; split at h
    · rename_i h1
      cases h; exact ⟨.single (.inv t c h1 hc), hb⟩
    · cases h
  | abandon t =>
    unfold cmdFn at h; dsimp only at h; split at h
    · rename_i h1
      cases h; exact ⟨.single (.abandon t h1), hb⟩
    · cases h
  | release t =>
    unfold cmdFn at h; dsimp only at h; split at h
    · rename_i h1
      cases h
      refine ⟨.single (.release t h1), fun u hu => ?_⟩
      obtain ⟨h2, h3⟩ := hb u hu
      simp only [St.unpin]
      split
      · exact ⟨rfl, fun _ => ⟨rfl, rfl⟩⟩
      · exact ⟨h2, h3⟩
    · cases h
  | freeEntry x =>
    unfold cmdFn at h; dsimp only at h; split at h
    · rename_i h1
      cases h
      exact ⟨.single (.freeEntry x h1.1 (noBlocker_all h1.2.1 fun t ht => ((hb t ht).2 x).1) h1.2.2), hb⟩
    · cases h
  | freeTable T =>
    unfold cmdFn at h; dsimp only at h; split at h
    · rename_i h1
      cases h
      exact ⟨.single (.freeTable T h1.1 (noBlocker_all h1.2.1 fun t ht => ((hb t ht).2 T).2) h1.2.2), hb⟩
    · cases h
  | go t n => exact goFn_steps h hb
  | fin t n => exact finFn_steps h hb

/-- Whatever the scheduler reaches is reachable. -/
theorem runCmds_steps {C : Cfg K} {l : List (Cmd K V)} {ps ps' : PSt K V} (h : runCmds C l ps = some ps')
    (hb : ps.mem.Bounded) : Steps C ps ps' ∧ ps'.mem.Bounded := by
  induction l generalizing ps with
  | nil => cases h; exact ⟨.refl, hb⟩
  | cons c l ih =>
    simp only [runCmds, Option.bind_eq_some_iff] at h
    obtain ⟨q, h1, h2⟩ := h
    have h3 := cmdFn_steps h1 hb
    have := ih h2 h3.2
    exact ⟨h3.1.trans this.1, this.2⟩

/-- The state right after the creation of the map. -/
def initPSt (C : Cfg K) : Option (PSt K V) :=
  (initSt C).map fun σ => ⟨σ, fun _ => .out, fun _ => 0, fun _ => [], []⟩

/-- Running commands from the creation of the map on. -/
def runMap (C : Cfg K) (l : List (Cmd K V)) : Option (PSt K V) := (initPSt C).bind (runCmds C l)

theorem initSt_bounded {C : Cfg K} {σ : St K V} (h : initSt C = some σ) : σ.Bounded := by
  unfold initSt at h
  dsimp only at h
  split at h
  · cases h; exact fun _ _ => ⟨rfl, fun _ => ⟨rfl, rfl⟩⟩
  · rw [Option.map_eq_some_iff] at h
    obtain ⟨n, _, rfl⟩ := h
    exact fun _ _ => ⟨rfl, fun _ => ⟨rfl, rfl⟩⟩

theorem runMap_ok {C : Cfg K} {l : List (Cmd K V)} {ps : PSt K V} (h : runMap C l = some ps) :
    Reach C ps ∧ ps.mem.Bounded := by
  simp only [runMap, initPSt, Option.bind_eq_some_iff, Option.map_eq_some_iff] at h
  obtain ⟨_, ⟨σ, h1, rfl⟩, h2⟩ := h
  have := runCmds_steps h2 (initSt_bounded h1)
  exact ⟨Reach.steps (.init ⟨h1, rfl, rfl, rfl, rfl⟩) this.1, this.2⟩

theorem runMap_reach {C : Cfg K} {l : List (Cmd K V)} {ps : PSt K V} (h : runMap C l = some ps) : Reach C ps :=
  (runMap_ok h).1

/-- The scheduler continued. -/
theorem runMap_append {C : Cfg K} {l l' : List (Cmd K V)} {ps ps' : PSt K V} (h : runMap C l = some ps)
    (h' : runCmds C l' ps = some ps') : Reach C ps ∧ Steps C ps ps' :=
  ⟨runMap_reach h, (runCmds_steps h' (runMap_ok h).2).1⟩

end Papaya
