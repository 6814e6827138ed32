import Verif.Proof.OwnKey
import Verif.Props.StallInc

/-! # C70: in incremental mode, an operation on one key waits only for the copy of an entry of that key -/

set_option linter.unusedSectionVars false
set_option linter.unusedVariables false

namespace Papaya

open GSt

variable {K V : Type} [DecidableEq K] {C : Cfg K} {ps ps' : PSt K V} {k : K} {t : Tid}

/-- The slot has been written, and if it holds an entry, then one with this key. -/
def KeyAt (σ : St K V) (k : K) (T i : Nat) : Prop := σ.slot T i ≠ Slot.null ∧ ∀ e, (σ.slot T i).ptr = some e → e.key = k

theorem keyAt_step (h : Reach C ps) (hs : Step C ps ps') {T i : Nat} (hk : KeyAt ps.mem k T i) : KeyAt ps'.mem k T i := by
  obtain ⟨S, g, hS, _⟩ := h.pinv 1
  obtain ⟨S', g', hS', hev, _⟩ := pinvG_step hS hs
  obtain ⟨h1, h2⟩ := hk
  rw [← hS.1] at h1 h2
  rw [← hS'.1]
  refine ⟨hev.nnull T i h1, fun e he => ?_⟩
  cases hp : (S.slot T i).ptr with
  | none => rw [hev.null T i h1 hp] at he; cases he
  | some e0 =>
    rcases hev.key T i e0 hp with ⟨h3, _⟩ | ⟨e', h3, h4⟩
    · rw [h3] at he; cases he
    · have h3 : (S'.slot T i).ptr = some e' := h3
      rw [h3] at he
      cases he
      rw [h4]
      exact h2 e0 hp

theorem keyAt_of_ptr {σ : St K V} {T i : Nat} {e : Entry K V} (h : (σ.slot T i).ptr = some e) (hk : e.key = k) : KeyAt σ k T i := by
  refine ⟨fun hn => ?_, fun e' he => ?_⟩
  · rw [hn] at h; cases h
  · rw [h] at he; cases he; exact hk

/-- The results of the actions put the slots that hold the key into the set. -/
theorem kw_exec {F : Nat → Nat → Prop} {σ σ' : St K V} {β : Type} {a : Act K V β} {r : β} (he : Exec C t a σ r σ')
    (hF : ∀ T i, KeyAt σ' k T i → F T i) : a.kwRes k F r := by
  cases a with
  | loadSlot T i =>
    obtain ⟨rfl, rfl⟩ := he
    exact fun e h1 h2 => hF T i (keyAt_of_ptr h1 h2)
  | casNew w T i exp k' v =>
    rcases he with ⟨_, rfl, _⟩ | ⟨_, rfl, rfl⟩
    · rintro s e h; cases h
    · rintro s e h h1 h2
      cases h
      exact hF T i (keyAt_of_ptr h1 h2)
  | _ => trivial

theorem kw_reach (h : Reach C ps) {n : Nat} (hc : C.mode = .incremental n) {c : Call K V} {p : Prog K V c.Res} (ht : ps.th t = .run c p)
    (hk : c.key? = some k) {F : Nat → Nat → Prop} (hF : ∀ T i, KeyAt ps.mem k T i → F T i) : Kw k F p := by
  suffices H : ∀ t c p, ps.th t = .run c p → ∀ k, c.key? = some k → ∀ F : Nat → Nat → Prop, (∀ T i, KeyAt ps.mem k T i → F T i) → Kw k F p from
    H t c p ht k hk F hF
  clear ht hk hF
  induction h with
  | init hi =>
    intro t c p ht
    exact absurd ht (by rw [hi.2.1]; nofun)
  | @step x y hx hs ih =>
    have ih' : ∀ t c p, x.th t = .run c p → ∀ k, c.key? = some k → ∀ F : Nat → Nat → Prop, (∀ T i, KeyAt y.mem k T i → F T i) → Kw k F p :=
      fun t c p ht k hk F hF => ih t c p ht k hk F fun T i h => hF T i (keyAt_step hx hs h)
    have hset : ∀ (u : Tid) (z : Th K V),
        (∀ c p, z = .run c p → ∀ k, c.key? = some k → ∀ F : Nat → Nat → Prop, (∀ T i, KeyAt y.mem k T i → F T i) → Kw k F p) →
        ∀ t c p, setTh x.th u z t = .run c p → ∀ k, c.key? = some k → ∀ F : Nat → Nat → Prop, (∀ T i, KeyAt y.mem k T i → F T i) → Kw k F p := by
      intro u z hz t c p ht
      unfold setTh at ht
      split at ht
      · exact hz c p ht
      · exact ih' t c p ht
    cases hs with
    | pin u _ => exact hset _ _ nofun
    | unpin u _ => exact hset _ _ nofun
    | abandon u _ => exact hset _ _ nofun
    | release u _ => exact ih'
    | inv u c _ _ => exact hset _ _ fun c' p hp k hk F hF => by cases hp; exact kw_call hc hk
    | act u hu he =>
      refine hset _ _ fun c' p hp k hk F hF => ?_
      cases hp
      exact (Obs'.act_inv (ih' _ _ _ hu k hk F hF)).2 _ (kw_exec he hF)
    | loop u hu =>
      refine hset _ _ fun c' p hp k hk F hF => ?_
      cases hp
      exact fun m => ih' _ _ _ hu k hk F hF (m + 1)
    | ret u _ => exact hset _ _ nofun
    | panic u _ => exact hset _ _ nofun
    | freeEntry x _ _ _ => exact ih'
    | freeTable T _ _ _ => exact ih'

/-- The slot for which a thread waits. -/
def parkOf : Th K V → Option (Nat × Nat)
  | .run _ (.act (.parkSlot T i) _) => some (T, i)
  | _ => none

/-- **C70** In incremental mode, an operation on a single key never waits for a resize, only for the copy of one entry, and that entry has its own key; apart from that
it may wait for another thread that is allocating the next table. So operations on other keys go on while (or although) an entry is never copied. -/
theorem C70_own_key (h : Reach C ps) (hinc : C.inc = true) (hw : Waiting C ps t) {c : Call K V} {p : Prog K V c.Res}
    (ht : ps.th t = .run c p) (hk : c.key? = some k) :
    (∃ T i e, WaitsSlot ps t T i ∧ (ps.mem.slot T i).ptr = some e ∧ e.key = k ∧ (ps.mem.slot T i).copying = true ∧
      (ps.mem.slot T i).copied = false) ∨
    ∃ T u, WaitsLock ps t T ∧ ps.mem.lock T = .held u := by
  obtain ⟨n, hc⟩ : ∃ n, C.mode = .incremental n := by
    unfold Cfg.inc at hinc
    cases hm : C.mode with
    | blocking => rw [hm] at hinc; cases hinc
    | incremental n => exact ⟨n, rfl⟩
  obtain ⟨c', β, a, κ, ht', hb⟩ := blocked_of_waiting hw
  have ht2 := ht'
  rw [ht] at ht'; cases ht'
  have hok := (Obs'.act_inv (kw_reach h hc ht hk (F := KeyAt ps.mem k) fun _ _ h => h)).1
  cases a with
  | lockWait T => obtain ⟨u, hu⟩ := hb; exact .inr ⟨T, u, ⟨_, _, ht2⟩, hu⟩
  | parkStatus T => exact hok.elim
  | parkSlot T i =>
    obtain ⟨S, g, hS, _⟩ := h.pinv 1
    obtain ⟨_, e, h1, h2⟩ := Reach.okAct hS ht2
    have hm := hS.1
    unfold GSt.kslot at h1
    unfold GSt.copying at h2
    rw [hm] at h1 h2
    have hok : KeyAt ps.mem k T i := hok
    exact .inl ⟨T, i, e, ⟨_, _, ht2⟩, h1, hok.2 e h1, h2, hb⟩
  | _ => cases hb

/-- **C70** In other words: if no entry of its key is just being copied, and no thread is allocating a table, then an operation on a single key can always go on,
no matter which other operations are suspended, or have vanished, in the middle of which resizes. -/
theorem C70_goes_on (h : Reach C ps) (hinc : C.inc = true) {c : Call K V} {p : Prog K V c.Res} (ht : ps.th t = .run c p) (hk : c.key? = some k)
    (hcopy : ∀ T i e, (ps.mem.slot T i).ptr = some e → e.key = k → (ps.mem.slot T i).copying = true → (ps.mem.slot T i).copied = true)
    (hlock : ∀ T u, ps.mem.lock T ≠ .held u) : CanMove C ps t := by
  by_contra hcon
  rcases C70_own_key h hinc ⟨⟨c, p, ht⟩, hcon⟩ ht hk with ⟨T, i, e, _, h1, h2, h3, h4⟩ | ⟨T, u, _, h1⟩
  · rw [hcopy T i e h1 h2 h3] at h4; cases h4
  · exact hlock T u h1

/-- **C70** In particular: if the copier of an entry vanishes (C69), no operation on another key ever waits for it. -/
theorem C70_other_keys (h : Reach C ps) (hinc : C.inc = true) (hw : Waiting C ps t) {c : Call K V} {p : Prog K V c.Res}
    (ht : ps.th t = .run c p) (hk : c.key? = some k) {s i : Nat} {e : Entry K V} (he : (ps.mem.slot s i).ptr = some e) (hne : e.key ≠ k) :
    ¬ WaitsSlot ps t s i := by
  rintro ⟨c', κ, h1⟩
  rcases C70_own_key h hinc hw ht hk with ⟨T, j, e', ⟨_, _, h2⟩, h3, h4, _⟩ | ⟨T, u, ⟨_, _, h2⟩, _⟩
  · have := congrArg parkOf (h1.symm.trans h2)
    simp only [parkOf, Option.some.injEq, Prod.mk.injEq] at this
    obtain ⟨rfl, rfl⟩ := this
    rw [he] at h3; cases h3
    exact hne h4
  · cases congrArg parkOf (h1.symm.trans h2)

-- guard 0 is copying the slot of key 0 and is killed, guard 1 wants to replace that entry and waits
example : ∃ ps : PSt Nat Nat, Reach cfgI ps ∧ Waiting cfgI ps 1 ∧ ps.th 0 = .gone ∧
    ∃ T i e, WaitsSlot ps 1 T i ∧ (ps.mem.slot T i).ptr = some e ∧ e.key = 0 := by
  obtain ⟨ps, h0, h1, h2⟩ := demo_run (C := cfgI) (V := Nat) (l := midResize 57 ++ [.abandon 0, .call 1 (.insert 0 90) trivial, .go 1 38])
    (P := fun ps => waitingB cfgI 1 ps && ((match ps.th 0 with | .gone => true | _ => false) && (match ps.th 1 with | .run (.insert 0 _) (.act (.parkSlot _ _) _) => true | _ => false)))
    (by decide +kernel)
  simp only [Bool.and_eq_true] at h2
  obtain ⟨h3, h4, h5⟩ := h2
  refine ⟨ps, h1, waitingB_iff h3, ?_, ?_⟩
  · split at h4
    · assumption
    · cases h4
  · split at h5
    · rename_i v T i κ hth
      rcases C70_own_key h1 rfl (waitingB_iff h3) hth rfl with ⟨T, i, e, h6, h7, h8, _⟩ | ⟨T, u, ⟨_, _, h6⟩, _⟩
      · exact ⟨T, i, e, h6, h7, h8⟩
      · cases congrArg parkOf (hth.symm.trans h6)
    · cases h5

-- … and an `insert` of another key, called at the same moment, returns
example : ∃ ps : PSt Nat Nat, Reach cfgI ps ∧ ps.th 0 = .gone ∧ ∃ c r, HEv.ret (1, 1) c r ∈ ps.hist := by
  obtain ⟨ps, h0, h1, h2⟩ := demo_run (C := cfgI) (V := Nat) (l := midResize 57 ++ [.abandon 0, .call 1 (.insert 3 90) trivial, .fin 1 5000])
    (P := fun ps => (match ps.th 0 with | .gone => true | _ => false) && ps.hist.any (HEv.retTest (1, 1) fun _ _ => true))
    (by decide +kernel)
  simp only [Bool.and_eq_true] at h2
  obtain ⟨h4, h5⟩ := h2
  obtain ⟨c, r, h6, _⟩ := ret_of_test h5
  refine ⟨ps, h1, ?_, c, r, h6⟩
  split at h4
  · assumption
  · cases h4

end Papaya
