import Verif.Exec.Addr

/-! # C51: reusing the addresses of freed memory makes no difference -/

set_option linter.unusedSectionVars false
set_option linter.unusedVariables false

namespace Papaya

variable {K V : Type} [DecidableEq K]

variable {C : Cfg K} {gd : Tid → Tid} {as : ASt K V} {t g : Tid}

/-- **C51** Whatever addresses the allocator returns, as long as it returns only memory that is not in use: an execution in
which pointers are compared by their addresses is an execution in which they are compared by identity. Hence everything
that is proved of the latter (C01–C50) holds of the former. -/
theorem C51_no_aba (h : AReach C gd as) : SReach C gd as.ss := h.sim.1

/-- **C51** Whatever comparison an operation is about to make, comparing the addresses gives the same result as comparing
the identities of the allocations. -/
theorem C51_compare (h : AReach C gd as) {c : Call K V} {β : Type} {a : Act K V β} {k : β → Prog K V c.Res}
    (ht : as.ss.th t = .run c (.act a k)) (r : β) (σ : St K V) :
    ExecAd C t as.ad as.tad a as.ss.mem r σ ↔ Exec C t a as.ss.mem r σ :=
  execAd_exec h.sim.2.1 h.sim.2.2 (C50_memory_safe h.sim.1 ht) (coherent h.sim.1 ht)

/-- **C51** The history is linearizable, and the memory contains the result of the linearization. -/
theorem C51_linearizable (h : AReach C gd as) :
    ∃ L m, Linearization as.ss.hist L m ∧ ∀ k v, as.ss.mem.Holds k v ↔ m k = some v := C50_linearizable h.sim.1

/-- **C51** Every atomic action that any operation is about to perform accesses only memory that is allocated and not
freed, and no two pointers to live memory are equal unless they point to the same allocation. -/
theorem C51_memory_safe (h : AReach C gd as) :
    (∀ t (c : Call K V) (β : Type) (a : Act K V β) k, as.ss.th t = .run c (.act a k) → a.Safe as.ss.mem) ∧
    (∀ x y, x < as.ss.mem.nIds → y < as.ss.mem.nIds → as.ss.mem.freed x = false → as.ss.mem.freed y = false →
      as.ad x = as.ad y → x = y) ∧
    ∀ T T', as.ss.mem.TableAlive T → as.ss.mem.TableAlive T' → as.tad T = as.tad T' → T = T' :=
  ⟨fun t c β a k ht => C50_memory_safe h.sim.1 ht, h.sim.2.1, fun T T' h1 h2 => h.sim.2.2 T T' h1.1 h2.1 h1.2 h2.2⟩

/-- **C51** Conversely, nothing is lost: if no address is ever used twice, the executions are all those in which pointers
are compared by identity. -/
theorem C51_fresh {ss : SSt K V} (h : SReach C gd ss) : AReach C gd ⟨ss, id, id⟩ := by
  have hp : ∀ n n' (f : Nat → Bool), AllocOk n n' f id id := fun n n' f => ⟨fun _ _ => rfl, fun x _ _ y _ hne _ => hne⟩
  induction h with
  | init h => exact .init h
  | step _ hs ih =>
    refine .step ih ?_
    cases hs with
    | pin g h => exact .pin g h
    | unpin g h => exact .unpin g h
    | abandon t h => exact .abandon t h
    | inv t c h hg hwf => exact .inv t c h hg hwf
    | act t h he => exact .act t h ((C51_compare ih h _ _).2 he) (hp _ _ _) (hp _ _ _)
    | loop t h => exact .loop t h
    | ret t h => exact .ret t h
    | panic t h => exact .panic t h
    | freeEntry x h1 h2 h3 => exact .freeEntry x h1 h2 h3
    | freeTable T h1 h2 h3 => exact .freeTable T h1 h2 h3

/-- Entry 0 and entry 2 are at the same address, and so are table 0 and table 2. -/
def adReuse (x : Nat) : Nat := if x = 2 then 0 else x

/-- An entry is replaced and freed, its address is used again for the next entry; guard 1 is about to replace that one with
a compare-and-swap. -/
def reuseCmds : List (ACmd Nat Nat) :=
  [.pin 0, .call 0 (.insert 7 0), .fin 0 500, .call 0 (.insert 7 1), .fin 0 500, .unpin 0, .freeEntry 0, .pin 0, .pin 1,
    .call 0 (.insert 7 2), .fin 0 500, .call 4 (.insert 7 3), .go 4 7]

-- the expected value of the compare-and-swap is at the address of an entry that was freed
example : ∃ (ss : SSt Nat Nat) (e : Entry Nat Nat), AReach cfgB gdFour ⟨ss, adReuse, id⟩ ∧
    (∃ c w i s v k, ss.th 4 = .run c (.act (.casNew w 0 i s 7 v) k) ∧ s.ptr = some e) ∧ e.id ≠ 0 ∧ ss.mem.freed 0 = true ∧
    adReuse e.id = adReuse 0 := by
  obtain ⟨ss, h1, h2⟩ := aRunMap_reach (C := cfgB) (gd := gdFour) (ad := adReuse) (tad := id) (l := reuseCmds)
    (P := fun ss => ss.mem.freed 0 && match ss.th 4 with
      | .run _ (.act (.casNew _ T _ s k _) _) => decide (T = 0 ∧ k = 7) && match s.ptr with
        | some e => decide (e.id = 2)
        | none => false
      | _ => false) (by decide +kernel)
  rw [Bool.and_eq_true] at h2
  obtain ⟨h2, h3⟩ := h2
  split at h3
  · rename_i c w T i s k v k' hth
    rw [Bool.and_eq_true, decide_eq_true_eq] at h3
    obtain ⟨⟨rfl, rfl⟩, h3⟩ := h3
    split at h3
    · rename_i e he
      rw [decide_eq_true_eq] at h3
      exact ⟨ss, e, h1, ⟨_, _, _, _, _, _, hth, he⟩, by omega, h2, by rw [h3]; rfl⟩
    · cases h3
  · cases h3

/-- The map is filled until table 0 has been replaced and freed; table 2 is allocated at its address. -/
def reuseTabCmds : List (ACmd Nat Nat) :=
  [.pin 0] ++ ((List.range 9).flatMap fun k => [.call 0 (.insert k k), .fin 0 5000]) ++ [.unpin 0, .freeTable 0, .pin 0] ++
  ((List.range 8).flatMap fun k => [.call 0 (.insert (k + 9) k), .fin 0 5000])

-- table 2 is the root, at the address of table 0, which has been freed
example : ∃ ss : SSt Nat Nat, AReach cfgB gdFour ⟨ss, id, adReuse⟩ ∧ ss.mem.root = some 2 ∧ ss.mem.tabFreed 0 = true := by
  obtain ⟨ss, h1, h2⟩ := aRunMap_reach (C := cfgB) (gd := gdFour) (ad := id) (tad := adReuse) (l := reuseTabCmds)
    (P := fun ss => decide (ss.mem.root = some 2 ∧ ss.mem.tabFreed 0 = true)) (by decide +kernel)
  rw [decide_eq_true_eq] at h2
  exact ⟨ss, h1, h2⟩

end Papaya
