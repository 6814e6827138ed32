import Verif.Proof.WeakSc
import Verif.Exec.Weak
import Verif.Exec.Demo

/-! # C52: publication of entries and tables under the memory orderings of the source -/

set_option linter.unusedSectionVars false
set_option linter.unusedVariables false

namespace Papaya

variable {K V : Type} [DecidableEq K] [DecidableEq V]

variable {C : Cfg K} {O : Orders} {D : K → V → Prop} {P : Call K V → Prop} {ws : WPSt K V} {t : Tid}

theorem papaya_ok : papaya.Ok := ⟨rfl, rfl, rfl, rfl, rfl, rfl, rfl, rfl, rfl, rfl, rfl⟩

/-- **C52** Whatever old values the accesses return (within the guarantees of the orderings written in the source): every
access of an operation to an entry or a table — reading its key, its value, a slot, metadata, a field of the header, and
handing it over to the collector — is to one whose initialisation happens before the access, and every index is within
bounds. Everything the operation publishes has been initialised before as well. -/
theorem C52_initialised (h : WReach papaya C Call.WF ws) {c : Call K V} {β : Type} {a : Act K V β} {k : β → Prog K V c.Res}
    (ht : ws.th t = .run c (.act a k)) : a.Visible (ws.view t) := by
  obtain ⟨κ, hi⟩ := winv_reach (D := fun _ _ => True) papaya_ok (fun c hc => ⟨hc, keeps_true c⟩) h
  exact ((hi.th t c _ ht ⟨ws.view t, κ⟩ (View.Le.refl _) (KeyLe.refl κ) (fun _ _ => trivial)).act_next).1.1

/-- **C52** The same for any choice of the orderings that is strong enough. -/
theorem C52_sufficient (hO : O.Ok) (h : WReach O C Call.WF ws) {c : Call K V} {β : Type} {a : Act K V β}
    {k : β → Prog K V c.Res} (ht : ws.th t = .run c (.act a k)) : a.Visible (ws.view t) := by
  obtain ⟨κ, hi⟩ := winv_reach (D := fun _ _ => True) hO (fun c hc => ⟨hc, keeps_true c⟩) h
  exact ((hi.th t c _ ht ⟨ws.view t, κ⟩ (View.Le.refl _) (KeyLe.refl κ) (fun _ _ => trivial)).act_next).1.1

/-- **C52** The references that an operation returns are to entries whose initialisation happens before the operation
returns; those returned by an operation on key `k` are to entries with key `k`; and every value is one that some operation
supplied for that key: if all the values supplied for `k` satisfy `D k`, so does the value that is read. -/
theorem C52_results (h : WReach papaya C (fun c => c.WF ∧ c.Keeps D) ws) {c : Call K V} {r : c.Res}
    (ht : ws.th t = .run c (.ret r)) :
    ∀ e ∈ c.refs r, (ws.view t).ent e ∧ (∀ k, c.key? = some k → e.key = k) ∧ D e.key e.val := by
  obtain ⟨κ, hi⟩ := winv_reach (D := D) papaya_ok (fun c hc => hc) h
  have hD : ∀ e, (ws.view t).ent e → D e.key e.val := fun e he => hi.mem.data e ((hi.view t).1 e he)
  intro e he
  obtain ⟨h1, h2⟩ := (hi.th t c _ ht ⟨ws.view t, κ⟩ (View.Le.refl _) (KeyLe.refl κ) hD).ret_inv' e he
  exact ⟨h1, h2, hD e h1⟩

/-- **C52** No operation reaches code that is declared unreachable. -/
theorem C52_no_ub (h : WReach papaya C Call.WF ws) {c : Call K V} {why : PanicReason}
    (ht : ws.th t = .run c (.panic why)) : why ≠ .unreachableCode := by
  obtain ⟨κ, hi⟩ := winv_reach (D := fun _ _ => True) papaya_ok (fun c hc => ⟨hc, keeps_true c⟩) h
  exact (hi.th t c _ ht ⟨ws.view t, κ⟩ (View.Le.refl _) (KeyLe.refl κ) (fun _ _ => trivial)).panic_inv'

/-- **C52** What a thread sees at an address is what was allocated there. -/
theorem C52_unique (h : WReach papaya C Call.WF ws) (u : Tid) :
    (∀ e e', (ws.view t).ent e → (ws.view u).ent e' → e.id = e'.id → e = e') ∧
    ∀ T T', (ws.view t).tab T → (ws.view u).tab T' → T.id = T'.id → T = T' := by
  obtain ⟨κ, hi⟩ := winv_reach (D := fun _ _ => True) papaya_ok (fun c hc => ⟨hc, keeps_true c⟩) h
  exact ⟨fun e e' h1 h2 => hi.mem.uniqE e e' ((hi.view t).1 e h1) ((hi.view u).1 e' h2),
    fun T T' h1 h2 => hi.mem.uniqT T T' ((hi.view t).2 T h1) ((hi.view u).2 T' h2)⟩

/-- **C52** A slot never changes its key: two entries that were ever in the same slot, however old, have the same key. -/
theorem C52_slot_key (h : WReach papaya C Call.WF ws) {T i : Nat} {x y : Cell K V (Slot K V)} {e e' : Entry K V}
    (hx : x ∈ ws.mem.slot T i) (hy : y ∈ ws.mem.slot T i) (he : x.val.ptr = some e) (he' : y.val.ptr = some e') :
    e.key = e'.key := by
  obtain ⟨κ, hi⟩ := winv_reach (D := fun _ _ => True) papaya_ok (fun c hc => ⟨hc, keeps_true c⟩) h
  exact Option.some.inj ((((hi.mem.slot T i).cells x hx).1 e he).2.symm.trans (((hi.mem.slot T i).cells y hy).1 e' he').2)

/-- **C52** Nothing is lost: every execution on sequentially consistent memory (C01–C51) is one of those considered here, with
the same operations in progress and the same memory. -/
theorem C52_sc {ps : PSt K V} (h : Reach C ps) :
    ∃ ws : WPSt K V, WReach papaya C Call.WF ws ∧ (∀ t c p, ps.th t = .run c p → ws.th t = .run c p) ∧
      (∀ T i, ((ws.mem.slot T i).getLast?.map Cell.val) = some (ps.mem.slot T i)) ∧
      ((ws.mem.root).getLast?.map Cell.val) = some (ps.mem.root.map ps.mem.handle) := by
  have cur : ∀ {α : Type} {l : List (Cell K V α)} {v : α}, Cur l v → l.getLast?.map Cell.val = some v := by
    rintro α l v ⟨l0, M, rfl⟩
    rw [List.getLast?_append]; rfl
  obtain ⟨ws, h1, h2⟩ := sc_reach (P := Call.WF) papaya_ok (fun _ => Iff.rfl) h
  exact ⟨ws, h1, h2.run, fun T i => cur (h2.mem.slot T i), cur h2.mem.root⟩

/-! ## Examples -/

/-- A map created without a table. -/
def cfg0 : Cfg Nat := { cfgB with capacity := 0 }

/-- Thread `t` inserts `(k, v)`. -/
def wIns (t : Tid) (k v : Nat) : List (WCmd Nat Nat) := [.call t (.insert k v), .fin t 5000, .go t 1]

/-- Thread 0 inserts `n` keys. -/
def wFill (n : Nat) : List (WCmd Nat Nat) := (List.range n).flatMap fun k => wIns 0 k (10 * k)

theorem wIns_calls {P : Call Nat Nat → Prop} (h : ∀ k v, P (.insert k v)) {t : Tid} {k v : Nat} : ∀ c ∈ wIns t k v, c.Calls P := by
  intro c hc
  simp only [wIns, List.mem_cons, List.not_mem_nil, or_false] at hc
  rcases hc with rfl | rfl | rfl
  · exact h k v
  · trivial
  · trivial

theorem wFill_calls {P : Call Nat Nat → Prop} (h : ∀ k v, P (.insert k v)) {n : Nat} : ∀ c ∈ wFill n, c.Calls P := by
  intro c hc
  obtain ⟨k, _, hc⟩ := List.mem_flatMap.1 hc
  exact wIns_calls h c hc

theorem calls_append {P : Call Nat Nat → Prop} {l l' : List (WCmd Nat Nat)} (h : ∀ c ∈ l, c.Calls P) (h' : ∀ c ∈ l', c.Calls P) :
    ∀ c ∈ l ++ l', c.Calls P := fun c hc => (List.mem_append.1 hc).elim (h c) (h' c)

/-- Test: thread `t` is about to return from `get` with value `v`. -/
def WRun.getsB (t : Tid) (v : Nat) (x : WRun Nat Nat) : Bool :=
  match x.ws.th t with
  | .run (.get _) (.ret (some e)) => decide (e.val = v)
  | _ => false

-- A stale read: thread 0 has inserted 1, then 2 under the same key; then thread 1 gets 1.
example : ∃ (ws : WPSt Nat Nat) (e : Entry Nat Nat), WReach papaya cfg0 Call.WF ws ∧
    ws.th 1 = .run (.get 7) (.ret (some e)) ∧ e.val = 1 ∧ (ws.view 1).ent e ∧
    ∃ e', e'.val = 2 ∧ (ws.view 0).ent e' ∧ ¬ (ws.view 1).ent e' := by
  have h : (wrun papaya cfg0 (wIns 0 7 1 ++ wIns 0 7 2 ++ [.call 1 (.get 7), .go 1 4, .old 1 1, .fin 1 100])).any (fun x =>
      match x.ws.th 1 with
      | .run (.get k) (.ret (some e)) => decide (k = 7 ∧ e.val = 1 ∧ (x.ws.view 1).ent e ∧
          (∃ e' ∈ (x.ws.view 0).ents, e'.val = 2 ∧ ¬ (x.ws.view 1).ent e'))
      | _ => false) = true := by decide +kernel
  obtain ⟨x, h1, h2⟩ := (Option.any_eq_true _ _).1 h
  have hr : WReach papaya cfg0 Call.WF x.ws := wrun_reach (calls_append (calls_append (wIns_calls fun _ _ => trivial)
    (wIns_calls fun _ _ => trivial)) (fun c hc => by
      simp only [List.mem_cons, List.not_mem_nil, or_false] at hc
      rcases hc with rfl | rfl | rfl | rfl <;> trivial)) h1
  split at h2
  · rename_i k e hth
    rw [decide_eq_true_eq] at h2
    obtain ⟨rfl, h3, h4, e', h5, h6, h7⟩ := h2
    exact ⟨x.ws, e, hr, hth, h3, h4, e', h6, h5, h7⟩
  · cases h2

/-- Some operation accesses memory whose initialisation does not happen before the access. -/
def Orders.Racy (O : Orders) : Prop :=
  ∃ (C : Cfg Nat) (ws : WPSt Nat Nat) (t : Tid) (c : Call Nat Nat) (β : Type) (a : Act Nat Nat β) (k : β → Prog Nat Nat c.Res),
    WReach O C Call.WF ws ∧ ws.th t = .run c (.act a k) ∧ ¬ a.Visible (ws.view t)

theorem racy_of {O : Orders} {C : Cfg Nat} {l l' : List (WCmd Nat Nat)} (h : (wrun O C (l ++ l')).any (WRun.bad 1) = true)
    (hl : ∀ c ∈ l, c.Calls Call.WF := by exact wFill_calls fun _ _ => trivial)
    (hc : ∀ c ∈ l', c.Calls Call.WF := by simp [WCmd.Calls, Call.WF, wIns]) : O.Racy := by
  obtain ⟨ws, c, β, a, k, h⟩ := wrun_bad (calls_append hl hc) h
  exact ⟨C, ws, 1, c, β, a, k, h⟩

/-- The orderings of the source, with one of them weakened. -/
def weakenings : List Orders :=
  [{ papaya with rootLoad := .relaxed },
   { papaya with rootInit := (.relaxed, .acquire) },
   { papaya with rootInit := (.release, .relaxed) },
   { papaya with rootCas := (.relaxed, .acquire) },
   { papaya with nextLoad := .relaxed },
   { papaya with nextStore := .relaxed },
   { papaya with slotLoad := .relaxed },
   { papaya with slotCas := (.relaxed, .acquire) },
   { papaya with slotCas := (.release, .relaxed) },
   { papaya with slotOr := .release },
   { papaya with slotStore := .relaxed }]

set_option maxRecDepth 20000 in
/-- **C52** None of the eleven orderings that `C52_sufficient` asks for can be relaxed: if it is, some execution accesses an
entry or a table that may not have been initialised. -/
theorem C52_necessary : ∀ O ∈ weakenings, O.Racy := by
  intro O hO
  simp only [weakenings, List.mem_cons, List.not_mem_nil, or_false] at hO
  rcases hO with rfl | rfl | rfl | rfl | rfl | rfl | rfl | rfl | rfl | rfl | rfl
  · exact racy_of (C := cfg0) (l := wFill 1) (l' := [.call 1 (.get 0), .go 1 3]) (by decide +kernel)
  · exact racy_of (C := cfg0) (l := wFill 1) (l' := [.call 1 (.get 0), .go 1 3]) (by decide +kernel)
  · exact racy_of (C := cfg0) (l := []) (l' := [.call 1 (.insert 8 8), .go 1 1] ++ wIns 0 7 1 ++ [.go 1 3]) (by decide +kernel)
      (by simp)
  · exact racy_of (C := cfgB) (l := wFill 9) (l' := [.call 1 (.get 7), .go 1 3]) (by decide +kernel)
  · exact racy_of (C := cfgB) (l := wFill 8) (l' := [.call 0 (.insert 8 80), .go 0 80, .call 1 (.insert 9 90), .go 1 39]) (by decide +kernel)
  · exact racy_of (C := cfgB) (l := wFill 8) (l' := [.call 0 (.insert 8 80), .go 0 80, .call 1 (.insert 9 90), .go 1 39]) (by decide +kernel)
  · exact racy_of (C := cfg0) (l := wFill 1) (l' := [.call 1 (.get 0), .go 1 5]) (by decide +kernel)
  · exact racy_of (C := cfg0) (l := wFill 1) (l' := [.call 1 (.get 0), .go 1 5]) (by decide +kernel)
  · exact racy_of (C := cfg0) (l := wFill 1) (l' := [.call 1 (.insert 7 8), .go 1 4] ++ wIns 0 7 1 ++ [.go 1 1]) (by decide +kernel)
  · exact racy_of (C := cfgB) (l := wFill 8) (l' := [.call 1 (.insert 9 90), .go 1 55]) (by decide +kernel)
  · exact racy_of (C := cfgI) (l := wFill 8) (l' := [.call 0 (.insert 8 80), .go 0 70, .call 1 (.get 0), .go 1 5]) (by decide +kernel)

end Papaya
