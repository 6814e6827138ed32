import Verif.Exec.Run
import Verif.Spec.Weak

/-! # Running the model with weakly ordered memory

An executable scheduler, used to exhibit concrete executions; it is not part of the model. Accesses to locations without
pointers, whose results are arbitrary in the model, get the results of a sequentially consistent memory; a command can make
an access to a location with pointers read an old value. -/

set_option linter.unusedSectionVars false
set_option linter.unusedVariables false

namespace Papaya

variable {K V : Type}

variable [DecidableEq K] [DecidableEq V]

section
variable {α : Type}

/-- The cell written `ch` writes before the last one. -/
def cellAt (l : List (Cell K V α)) (ch : Nat) : Option (Cell K V α) := l.reverse[ch]?

def loadFn (o : Order) (l : List (Cell K V α)) (W : View K V) (ch : Nat) : Option (α × View K V) :=
  (cellAt l ch).map fun c => (c.val, o.read W c.view)

theorem loadFn_sound {o : Order} {l : List (Cell K V α)} {W W' : View K V} {ch : Nat} {v : α}
    (h : loadFn o l W ch = some (v, W')) : Load o l W v W' := by
  unfold loadFn cellAt at h
  rw [Option.map_eq_some_iff] at h
  obtain ⟨c, h1, h2⟩ := h
  cases h2
  exact ⟨c, List.mem_reverse.1 (List.mem_of_getElem? h1), rfl, rfl⟩

/-- A read-modify-write of the cell written last. -/
def rmwFn (o : Order) (l : List (Cell K V α)) (W : View K V) (new : α → α) : Option (α × List (Cell K V α) × View K V) :=
  match l.getLast? with
  | some c => if c.used then none else
      some (c.val, l.dropLast ++ { c with used := true } :: [] ++ [⟨new c.val, c.view.join (o.write (o.read W c.view)), false⟩],
        o.read W c.view)
  | none => none

theorem rmwFn_sound {o : Order} {l l' : List (Cell K V α)} {W W' : View K V} {new : α → α} {v : α}
    (h : rmwFn o l W new = some (v, l', W')) : Rmw o l W v (new v) l' W' := by
  unfold rmwFn at h
  split at h
  · rename_i c hc
    split at h
    · cases h
    · rename_i hu
      cases h
      refine ⟨l.dropLast, c, [], ?_, by simpa using hu, rfl, rfl, rfl⟩
      exact (List.dropLast_append_getLast? c hc).symm
  · cases h

end

/-- State of the scheduler. -/
structure WRun (K V : Type) : Type 1 where
  ws : WPSt K V
  /-- the results of the accesses to locations without pointers -/
  aux : St K V
  nIds : Nat
  nTabs : Nat

/-- The counters are right. -/
def WRun.Ok (x : WRun K V) : Prop := (∀ e, x.ws.mem.all.ent e → e.id < x.nIds) ∧ ∀ T, x.ws.mem.all.tab T → T.id < x.nTabs

/-- Executing an action: the result, the memory, the view, the auxiliary state, whether an entry and a table has been
allocated. -/
def wexecFn (O : Orders) (C : Cfg K) (t : Tid) (ch : Nat) (x : WRun K V) : {β : Type} → Act K V β → WSt K V → View K V →
    Option (β × WSt K V × View K V × St K V × Nat × Nat)
  | _, .loadRoot, w, W => (loadFn O.rootLoad w.root W ch).map fun (r, W') => (r, w, W', x.aux, 0, 0)
  | _, .peekRoot, w, W => (loadFn O.rootPeek w.root W ch).map fun (r, W') => (r.map Table.id, w, W', x.aux, 0, 0)
  | _, .casRootInit cap, w, W =>
    match loadFn O.rootInit.2 w.root W ch with
    | some (some r, W') => some (r, w, W', x.aux, 0, 0)
    | some (none, _) =>
      let r := newTable x.nTabs cap
      match rmwFn O.rootInit.1 w.root (W.addTab r) (fun _ => some r) with
      | some (none, l, W') => some (r, { w with all := w.all.addTab r, root := l }, W', x.aux, 0, 1)
      | _ => none
    | none => none
  | _, .loadNext T, w, W => (loadFn O.nextLoad (w.next T) W ch).map fun (r, W') => (r, w, W', x.aux, 0, 0)
  | _, .storeNext T cap, w, W =>
    let r := newTable x.nTabs cap
    some (r, { w.setNext T (storeAt O.nextStore (w.next T) (W.addTab r) (some r)) with all := w.all.addTab r }, W.addTab r,
      x.aux, 0, 1)
  | _, .loadSlot T i, w, W => (loadFn O.slotLoad (w.slot T i) W ch).map fun (r, W') => (r, w, W', x.aux, 0, 0)
  | _, .cas weak T i exp new, w, W =>
    match loadFn O.slotCas.2 (w.slot T i) W ch with
    | some (s, W') =>
      if s = exp then
        match rmwFn O.slotCas.1 (w.slot T i) W (fun _ => new) with
        | some (s', l, W') => if s' = exp then some (none, w.setSlot T i l, W', x.aux, 0, 0) else none
        | none => none
      else some (some s, w, W', x.aux, 0, 0)
    | none => none
  | _, .casNew weak T i exp k v, w, W =>
    match loadFn O.slotCas.2 (w.slot T i) W ch with
    | some (s, W') =>
      if s = exp then
        let e : Entry K V := ⟨x.nIds, k, v⟩
        match rmwFn O.slotCas.1 (w.slot T i) (W.addEnt e) (fun _ => Slot.untagged e) with
        | some (s', l, W') =>
          if s' = exp then some (.inl e, { w.setSlot T i l with all := w.all.addEnt e }, W', x.aux, 1, 0) else none
        | none => none
      else some (.inr s, w, W', x.aux, 0, 0)
    | none => none
  | _, .fetchOrCopying T i, w, W =>
    (rmwFn O.slotOr (w.slot T i) W (fun s => { s with copying := true })).map fun (r, l, W') =>
      (r, w.setSlot T i l, W', x.aux, 0, 0)
  | _, .storeSlot T i s, w, W => some ((), w.setSlot T i (storeAt O.slotStore (w.slot T i) W s), W, x.aux, 0, 0)
  | _, .casRoot T N, w, W =>
    match loadFn O.rootCas.2 w.root W ch with
    | some (s, W') =>
      if s.map Table.id = some T then
        match W.tabs.find? (fun B => B.id == N) with
        | some B =>
          match rmwFn O.rootCas.1 w.root W (fun _ => some B) with
          | some (some A, l, W') => if A.id = T then some (true, { w with root := l }, W', x.aux, 0, 0) else none
          | _ => none
        | none => none
      else some (false, w, W', x.aux, 0, 0)
    | none => none
  | _, .tryLock T, w, W => (execFn C t (.tryLock T) x.aux).map fun (r, σ) => (r, w, W, σ, 0, 0)
  | _, .lockWait T, w, W => (execFn C t (.lockWait T) x.aux).map fun (r, σ) => (r, w, W, σ, 0, 0)
  | _, .unlock T, w, W => (execFn C t (.unlock T) x.aux).map fun (r, σ) => (r, w, W, σ, 0, 0)
  | _, .poison T, w, W => (execFn C t (.poison T) x.aux).map fun (r, σ) => (r, w, W, σ, 0, 0)
  | _, .loadMd T i, w, W => (execFn C t (.loadMd T i) x.aux).map fun (r, σ) => (r, w, W, σ, 0, 0)
  | _, .storeMd T i m, w, W => (execFn C t (.storeMd T i m) x.aux).map fun (r, σ) => (r, w, W, σ, 0, 0)
  | _, .loadStatus T, w, W => (execFn C t (.loadStatus T) x.aux).map fun (r, σ) => (r, w, W, σ, 0, 0)
  | _, .parkStatus T, w, W => (execFn C t (.parkStatus T) x.aux).map fun (r, σ) => (r, w, W, σ, 0, 0)
  | _, .parkSlot T i, w, W => some ((), w, W, x.aux, 0, 0)
  | _, .unparkStatus T, w, W => (execFn C t (.unparkStatus T) x.aux).map fun (r, σ) => (r, w, W, σ, 0, 0)
  | _, .unparkSlot T i, w, W => (execFn C t (.unparkSlot T i) x.aux).map fun (r, σ) => (r, w, W, σ, 0, 0)
  | _, .storeStatus T s, w, W => (execFn C t (.storeStatus T s) x.aux).map fun (r, σ) => (r, w, W, σ, 0, 0)
  | _, .loadClaim T, w, W => (execFn C t (.loadClaim T) x.aux).map fun (r, σ) => (r, w, W, σ, 0, 0)
  | _, .addClaim T n s, w, W => (execFn C t (.addClaim T n s) x.aux).map fun (r, σ) => (r, w, W, σ, 0, 0)
  | _, .loadCopied T, w, W => (execFn C t (.loadCopied T) x.aux).map fun (r, σ) => (r, w, W, σ, 0, 0)
  | _, .addCopied T n s, w, W => (execFn C t (.addCopied T n s) x.aux).map fun (r, σ) => (r, w, W, σ, 0, 0)
  | _, .sameTable T T', w, W => (execFn C t (.sameTable T T' : Act K V _) x.aux).map fun (r, σ) => (r, w, W, σ, 0, 0)
  | _, .sameEntry a b, w, W => (execFn C t (.sameEntry a b : Act K V _) x.aux).map fun (r, σ) => (r, w, W, σ, 0, 0)
  | _, .deref e, w, W => some ((), w, W, x.aux, 0, 0)
  | _, .retire e, w, W => some ((), w, W, x.aux, 0, 0)
  | _, .retireTable T, w, W => some ((), w, W, x.aux, 0, 0)
  | _, .pushDeferred T e, w, W => some ((), w, W, x.aux, 0, 0)
  | _, .loadShard j, w, W => (execFn C t (.loadShard j) x.aux).map fun (r, σ) => (r, w, W, σ, 0, 0)
  | _, .addCount d, w, W => (execFn C t (.addCount d) x.aux).map fun (r, σ) => (r, w, W, σ, 0, 0)


theorem wexecFn_sound {O : Orders} {C : Cfg K} {t : Tid} {ch : Nat} {x : WRun K V} {β : Type} {a : Act K V β} {r : β} {w' : WSt K V}
    {W W' : View K V} {σ : St K V} {n m : Nat} (hx : x.Ok) (h : wexecFn O C t ch x a x.ws.mem W = some (r, w', W', σ, n, m)) :
    WExec O a x.ws.mem W r w' W' ∧ (∀ e, w'.all.ent e → e.id < x.nIds + n) ∧ ∀ T, w'.all.tab T → T.id < x.nTabs + m := by
  have hft : ∀ cap, x.ws.mem.FreshTab (newTable x.nTabs cap) := fun cap T hT he => Nat.ne_of_lt (hx.2 T hT) he
  have hfe : ∀ k v, x.ws.mem.FreshEnt ⟨x.nIds, k, v⟩ := fun k v e hT he => Nat.ne_of_lt (hx.1 e hT) he
  have hta : ∀ cap T, (x.ws.mem.all.addTab (newTable x.nTabs cap)).tab T → T.id < x.nTabs + 1 := by
    intro cap T hT
    rcases List.mem_cons.1 hT with rfl | hT
    · exact Nat.lt_succ_self _
    · exact Nat.lt_succ_of_lt (hx.2 T hT)
  have hea : ∀ k v e, (x.ws.mem.all.addEnt ⟨x.nIds, k, v⟩).ent e → e.id < x.nIds + 1 := by
    intro k v e hT
    rcases List.mem_cons.1 hT with rfl | hT
    · exact Nat.lt_succ_self _
    · exact Nat.lt_succ_of_lt (hx.1 e hT)
  cases a with
  | loadRoot =>
    simp only [wexecFn, Option.map_eq_some_iff] at h
    obtain ⟨⟨r, W'⟩, h1, h2⟩ := h
    cases h2
    exact ⟨⟨loadFn_sound h1, rfl⟩, hx.1, hx.2⟩
  | peekRoot =>
    simp only [wexecFn, Option.map_eq_some_iff] at h
    obtain ⟨⟨r, W'⟩, h1, h2⟩ := h
    cases h2
    exact ⟨⟨⟨_, loadFn_sound h1, rfl⟩, rfl⟩, hx.1, hx.2⟩
  | casRootInit cap =>
    simp only [wexecFn] at h
    split at h
    · rename_i h1; cases h; exact ⟨.inr ⟨loadFn_sound h1, rfl⟩, hx.1, hx.2⟩
    · split at h
      · rename_i h1; cases h
        exact ⟨.inl ⟨x.nTabs, _, rfl, hft _, rmwFn_sound h1, rfl⟩, hx.1, hta _⟩
      · cases h
    · cases h
  | loadNext T =>
    simp only [wexecFn, Option.map_eq_some_iff] at h
    obtain ⟨⟨r, W'⟩, h1, h2⟩ := h
    cases h2
    exact ⟨⟨loadFn_sound h1, rfl⟩, hx.1, hx.2⟩
  | storeNext T cap =>
    simp only [wexecFn] at h
    cases h
    exact ⟨⟨x.nTabs, rfl, hft _, rfl, rfl⟩, hx.1, hta _⟩
  | loadSlot T i =>
    simp only [wexecFn, Option.map_eq_some_iff] at h
    obtain ⟨⟨r, W'⟩, h1, h2⟩ := h
    cases h2
    exact ⟨⟨loadFn_sound h1, rfl⟩, hx.1, hx.2⟩
  | cas weak T i exp new =>
    simp only [wexecFn] at h
    split at h
    · rename_i s W1 h1
      split at h
      · split at h
        · rename_i s' l W2 h2
          split at h
          · rename_i h3; cases h; subst h3; exact ⟨.inl ⟨_, rmwFn_sound h2, rfl, rfl⟩, hx.1, hx.2⟩
          · cases h
        · cases h
      · rename_i h3; cases h; exact ⟨.inr ⟨_, loadFn_sound h1, .inl h3, rfl, rfl⟩, hx.1, hx.2⟩
    · cases h
  | casNew weak T i exp k v =>
    simp only [wexecFn] at h
    split at h
    · rename_i s W1 h1
      split at h
      · split at h
        · rename_i s' l W2 h2
          split at h
          · rename_i h3; cases h; subst h3
            exact ⟨.inl ⟨_, _, rfl, rfl, hfe _ _, rmwFn_sound h2, rfl, rfl⟩, hea _ _, hx.2⟩
          · cases h
        · cases h
      · rename_i h3; cases h; exact ⟨.inr ⟨_, loadFn_sound h1, .inl h3, rfl, rfl⟩, hx.1, hx.2⟩
    · cases h
  | fetchOrCopying T i =>
    simp only [wexecFn, Option.map_eq_some_iff] at h
    obtain ⟨⟨r, l, W'⟩, h1, h2⟩ := h
    cases h2
    exact ⟨⟨_, rmwFn_sound (new := fun s : Slot K V => { s with copying := true }) h1, rfl⟩, hx.1, hx.2⟩
  | storeSlot T i s =>
    simp only [wexecFn] at h
    cases h
    exact ⟨⟨rfl, rfl⟩, hx.1, hx.2⟩
  | casRoot T N =>
    simp only [wexecFn] at h
    split at h
    · rename_i s W1 h1
      split at h
      · split at h
        · rename_i B hB
          split at h
          · rename_i A l W2 h2
            split at h
            · rename_i h3; cases h
              have h4 := List.find?_some hB
              exact ⟨.inl ⟨A, B, _, h3, List.mem_of_find?_eq_some hB, by simpa using h4, rmwFn_sound h2, rfl, rfl⟩, hx.1, hx.2⟩
            · cases h
          · cases h
        · cases h
      · rename_i h3; cases h; exact ⟨.inr ⟨_, loadFn_sound h1, h3, rfl, rfl⟩, hx.1, hx.2⟩
    · cases h
  | _ =>
    first
      | (simp only [wexecFn, Option.map_eq_some_iff] at h
         obtain ⟨⟨r, σ⟩, h1, h2⟩ := h
         cases h2
         exact ⟨⟨rfl, rfl⟩, hx.1, hx.2⟩)
      | (simp only [wexecFn] at h
         cases h
         exact ⟨⟨rfl, rfl⟩, hx.1, hx.2⟩)

/-- One step of thread `t`. -/
def wstepFn (O : Orders) (C : Cfg K) (t : Tid) (ch : Nat) (x : WRun K V) : Option (WRun K V) :=
  match x.ws.th t with
  | .run c (.act a k) => (wexecFn O C t ch x a x.ws.mem (x.ws.view t)).map fun (r, w, W, σ, n, m) =>
      ⟨⟨w, setTh x.ws.th t (.run c (k r)), fun u => if u = t then W else x.ws.view u⟩, σ, x.nIds + n, x.nTabs + m⟩
  | .run c (.iter body s k) => some { x with ws := { x.ws with th := setTh x.ws.th t (.run c (Prog.unfoldIter body s k)) } }
  | .run c (.ret r) => some { x with ws := { x.ws with th := setTh x.ws.th t .out } }
  | .run c (.panic why) => some { x with ws := { x.ws with th := setTh x.ws.th t .out } }
  | _ => none

theorem wstepFn_sound {O : Orders} {C : Cfg K} {P : Call K V → Prop} {t : Tid} {ch : Nat} {x x' : WRun K V} (hx : x.Ok)
    (h : wstepFn O C t ch x = some x') : WStep O C P x.ws x'.ws ∧ x'.Ok := by
  unfold wstepFn at h
  split at h
  · rename_i c β a k hth
    rw [Option.map_eq_some_iff] at h
    obtain ⟨⟨r, w, W, σ, n, m⟩, h1, h2⟩ := h
    cases h2
    obtain ⟨h3, h4, h5⟩ := wexecFn_sound hx h1
    exact ⟨.act t hth h3, h4, h5⟩
  · rename_i hth; cases h; exact ⟨.loop t hth, hx⟩
  · rename_i hth; cases h; exact ⟨.ret t hth, hx⟩
  · rename_i hth; cases h; exact ⟨.panic t hth, hx⟩
  · cases h

/-- Commands for the scheduler. -/
inductive WCmd (K V : Type) : Type 1
  /-- call an operation -/
  | call (t : Tid) (c : Call K V)
  /-- one step; an access to a location with pointers reads the value written `ch` writes before the last -/
  | old (t : Tid) (ch : Nat)
  /-- `n` steps -/
  | go (t : Tid) (n : Nat)
  /-- run until the operation is about to return -/
  | fin (t : Tid) (fuel : Nat)

/-- The thread is about to return, or does nothing. -/
def Th.still : Th K V → Bool
  | .run _ (.ret _) => true
  | .run _ (.panic _) => true
  | .run _ _ => false
  | _ => true

def wgoFn (O : Orders) (C : Cfg K) (t : Tid) : Nat → WRun K V → Option (WRun K V)
  | 0, x => some x
  | n + 1, x => (wstepFn O C t 0 x).bind (wgoFn O C t n)

def wfinFn (O : Orders) (C : Cfg K) (t : Tid) : Nat → WRun K V → Option (WRun K V)
  | 0, _ => none
  | n + 1, x => if (x.ws.th t).still then some x else (wstepFn O C t 0 x).bind (wfinFn O C t n)

def wcmdFn (O : Orders) (C : Cfg K) (x : WRun K V) : WCmd K V → Option (WRun K V)
  | .call t c =>
    match x.ws.th t with
    | .out => some { x with ws := { x.ws with th := setTh x.ws.th t (.run c (c.prog C)) } }
    | _ => none
  | .old t ch => wstepFn O C t ch x
  | .go t n => wgoFn O C t n x
  | .fin t n => wfinFn O C t n x

def wrunCmds (O : Orders) (C : Cfg K) : List (WCmd K V) → WRun K V → Option (WRun K V)
  | [], x => some x
  | c :: l, x => (wcmdFn O C x c).bind (wrunCmds O C l)

/-- The calls of a list of commands satisfy `P`. -/
def WCmd.Calls (P : Call K V → Prop) : WCmd K V → Prop
  | .call _ c => P c
  | _ => True

theorem wgoFn_sound {O : Orders} {C : Cfg K} {P : Call K V → Prop} {t : Tid} {n : Nat} {x x' : WRun K V} (hx : x.Ok)
    (hr : WReach O C P x.ws) (h : wgoFn O C t n x = some x') : WReach O C P x'.ws ∧ x'.Ok := by
  induction n generalizing x with
  | zero => cases h; exact ⟨hr, hx⟩
  | succ n ih =>
    simp only [wgoFn, Option.bind_eq_some_iff] at h
    obtain ⟨y, h1, h2⟩ := h
    have := wstepFn_sound (P := P) hx h1
    exact ih this.2 (.step hr this.1) h2

theorem wfinFn_sound {O : Orders} {C : Cfg K} {P : Call K V → Prop} {t : Tid} {n : Nat} {x x' : WRun K V} (hx : x.Ok)
    (hr : WReach O C P x.ws) (h : wfinFn O C t n x = some x') : WReach O C P x'.ws ∧ x'.Ok := by
  induction n generalizing x with
  | zero => cases h
  | succ n ih =>
    simp only [wfinFn] at h
    split at h
    · cases h; exact ⟨hr, hx⟩
    · rw [Option.bind_eq_some_iff] at h
      obtain ⟨y, h1, h2⟩ := h
      have := wstepFn_sound (P := P) hx h1
      exact ih this.2 (.step hr this.1) h2

theorem wcmdFn_sound {O : Orders} {C : Cfg K} {P : Call K V → Prop} {c : WCmd K V} {x x' : WRun K V} (hx : x.Ok)
    (hr : WReach O C P x.ws) (hc : c.Calls P) (h : wcmdFn O C x c = some x') : WReach O C P x'.ws ∧ x'.Ok := by
  cases c with
  | call t c =>
    simp only [wcmdFn] at h
    split at h
    · rename_i hth; cases h; exact ⟨.step hr (.inv t c hth hc), hx⟩
    · cases h
  | old t ch => have := wstepFn_sound (P := P) hx h; exact ⟨.step hr this.1, this.2⟩
  | go t n => exact wgoFn_sound hx hr h
  | fin t n => exact wfinFn_sound hx hr h

theorem wrunCmds_sound {O : Orders} {C : Cfg K} {P : Call K V → Prop} {l : List (WCmd K V)} {x x' : WRun K V} (hx : x.Ok)
    (hr : WReach O C P x.ws) (hc : ∀ c ∈ l, c.Calls P) (h : wrunCmds O C l x = some x') : WReach O C P x'.ws := by
  induction l generalizing x with
  | nil => cases h; exact hr
  | cons c l ih =>
    simp only [wrunCmds, Option.bind_eq_some_iff] at h
    obtain ⟨y, h1, h2⟩ := h
    have := wcmdFn_sound hx hr (hc c (by simp)) h1
    exact ih this.2 this.1 (fun c hc' => hc c (by simp [hc'])) h2

/-- The map right after its construction. -/
def wstart (C : Cfg K) : Option (WRun K V) :=
  (initSt C).bind fun σ =>
    if C.capacity = 0 then some ⟨⟨initWSt none, fun _ => .out, fun _ => View.none⟩, σ, 0, 0⟩
    else (entriesFor C.capacity).map fun n => ⟨⟨initWSt (some (max n 8)), fun _ => .out, fun _ => View.none⟩, σ, 0, 1⟩

def wrun (O : Orders) (C : Cfg K) (l : List (WCmd K V)) : Option (WRun K V) := (wstart C).bind (wrunCmds O C l)

theorem wrun_reach {O : Orders} {C : Cfg K} {P : Call K V → Prop} {l : List (WCmd K V)} {x : WRun K V}
    (hc : ∀ c ∈ l, c.Calls P) (h : wrun O C l = some x) : WReach O C P x.ws := by
  unfold wrun wstart at h
  rw [Option.bind_eq_some_iff] at h
  obtain ⟨y, h1, h⟩ := h
  rw [Option.bind_eq_some_iff] at h1
  obtain ⟨σ, _, h1⟩ := h1
  split at h1
  · rename_i h0
    cases h1
    exact wrunCmds_sound (x := ⟨⟨initWSt none, fun _ => .out, fun _ => View.none⟩, σ, 0, 0⟩)
      ⟨fun e h => (List.not_mem_nil h).elim, fun e h => (List.not_mem_nil h).elim⟩ (.init ⟨.inl ⟨h0, rfl⟩, rfl, rfl⟩) hc h
  · rename_i h0
    rw [Option.map_eq_some_iff] at h1
    obtain ⟨n, h1, h2⟩ := h1
    cases h2
    exact wrunCmds_sound (x := ⟨⟨initWSt (some (max n 8)), fun _ => .out, fun _ => View.none⟩, σ, 0, 1⟩)
      ⟨fun e h => (List.not_mem_nil h).elim, fun T h => by rw [List.mem_singleton.1 h]; exact Nat.zero_lt_one⟩
      (.init ⟨.inr ⟨h0, n, h1, rfl⟩, rfl, rfl⟩) hc h

/-! ## Deciding `Visible` -/

instance (W : View K V) (e : Entry K V) : Decidable (W.ent e) := inferInstanceAs (Decidable (e ∈ W.ents))

instance (W : View K V) (T : Nat) : Decidable (W.HasTab T) :=
  decidable_of_iff (∃ H ∈ W.tabs, H.id = T) Iff.rfl

instance (W : View K V) (T i : Nat) : Decidable (W.HasIx T i) :=
  decidable_of_iff (∃ H ∈ W.tabs, H.id = T ∧ i < H.len) Iff.rfl

instance (W : View K V) (s : Slot K V) : Decidable (W.HasPtr s) :=
  match h : s.ptr with
  | none => .isTrue fun e he => by rw [h] at he; cases he
  | some e => decidable_of_iff (W.ent e) ⟨fun h1 e' he' => by rw [h] at he'; cases he'; exact h1, fun h1 => h1 e h⟩

def decVisible (W : View K V) : {β : Type} → (a : Act K V β) → Decidable (a.Visible W)
  | _, .loadRoot => .isTrue trivial
  | _, .peekRoot => .isTrue trivial
  | _, .casRootInit _ => .isTrue trivial
  | _, .loadNext T => inferInstanceAs (Decidable (W.HasTab T))
  | _, .tryLock T => inferInstanceAs (Decidable (W.HasTab T))
  | _, .lockWait T => inferInstanceAs (Decidable (W.HasTab T))
  | _, .unlock T => inferInstanceAs (Decidable (W.HasTab T))
  | _, .poison T => inferInstanceAs (Decidable (W.HasTab T))
  | _, .storeNext T _ => inferInstanceAs (Decidable (W.HasTab T))
  | _, .loadMd T i => inferInstanceAs (Decidable (W.HasIx T i))
  | _, .storeMd T i _ => inferInstanceAs (Decidable (W.HasIx T i))
  | _, .loadSlot T i => inferInstanceAs (Decidable (W.HasIx T i))
  | _, .cas _ T i _ new => inferInstanceAs (Decidable (W.HasIx T i ∧ W.HasPtr new))
  | _, .casNew _ T i _ _ _ => inferInstanceAs (Decidable (W.HasIx T i))
  | _, .fetchOrCopying T i => inferInstanceAs (Decidable (W.HasIx T i))
  | _, .storeSlot T i s => inferInstanceAs (Decidable (W.HasIx T i ∧ W.HasPtr s))
  | _, .loadStatus T => inferInstanceAs (Decidable (W.HasTab T))
  | _, .parkStatus T => inferInstanceAs (Decidable (W.HasTab T))
  | _, .parkSlot T i => inferInstanceAs (Decidable (W.HasIx T i))
  | _, .unparkStatus T => inferInstanceAs (Decidable (W.HasTab T))
  | _, .unparkSlot T i => inferInstanceAs (Decidable (W.HasIx T i))
  | _, .storeStatus T _ => inferInstanceAs (Decidable (W.HasTab T))
  | _, .loadClaim T => inferInstanceAs (Decidable (W.HasTab T))
  | _, .addClaim T _ _ => inferInstanceAs (Decidable (W.HasTab T))
  | _, .loadCopied T => inferInstanceAs (Decidable (W.HasTab T))
  | _, .addCopied T _ _ => inferInstanceAs (Decidable (W.HasTab T))
  | _, .casRoot T N => inferInstanceAs (Decidable (W.HasTab T ∧ W.HasTab N))
  | _, .sameTable _ _ => .isTrue trivial
  | _, .sameEntry _ _ => .isTrue trivial
  | _, .deref e => inferInstanceAs (Decidable (W.ent e))
  | _, .retire e => inferInstanceAs (Decidable (W.ent e))
  | _, .retireTable T => inferInstanceAs (Decidable (W.HasTab T))
  | _, .pushDeferred T e => inferInstanceAs (Decidable (W.HasTab T ∧ W.ent e))
  | _, .loadShard _ => .isTrue trivial
  | _, .addCount _ => .isTrue trivial

/-- Thread `t` is about to access memory whose initialisation does not happen before. -/
def WRun.bad (t : Tid) (x : WRun K V) : Bool :=
  match x.ws.th t with
  | .run _ (.act a _) => !(@decide _ (decVisible (x.ws.view t) a))
  | _ => false

theorem wrun_bad {O : Orders} {C : Cfg K} {P : Call K V → Prop} {l : List (WCmd K V)} {t : Tid}
    (hc : ∀ c ∈ l, c.Calls P) (h : (wrun O C l).any (WRun.bad t) = true) :
    ∃ (ws : WPSt K V) (c : Call K V) (β : Type) (a : Act K V β) (k : β → Prog K V c.Res),
      WReach O C P ws ∧ ws.th t = .run c (.act a k) ∧ ¬ a.Visible (ws.view t) := by
  obtain ⟨x, h1, h2⟩ := (Option.any_eq_true _ _).1 h
  unfold WRun.bad at h2
  split at h2
  · rename_i c β a k hth
    refine ⟨x.ws, c, β, a, k, wrun_reach hc h1, hth, ?_⟩
    simpa using h2
  · cases h2

end Papaya
