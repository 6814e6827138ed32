import Verif.Proof.HistStep
import Verif.Props.Probe

/-! # The initial state -/

set_option linter.unusedSectionVars false
set_option linter.unusedVariables false

namespace Papaya

variable {K V : Type} [DecidableEq K]

open GSt

variable {C : Cfg K} {t t' : Tid} {S S' S'' : GSt K V}

/-- Ghost state of a new map. -/
def ghost0 (σ : St K V) : GSt K V :=
  { σ with
    log := [], seq := fun _ => 0, invPos := fun _ => 0, rInv := fun _ => 0
    ops := fun _ => ⟨false, fun _ _ _ => False⟩, info := fun _ => none, cs := fun _ _ => .idle
    demLog := fun _ => [], nextLog := fun _ => [], tok := fun _ => .live, tabTok := fun _ => none
    pr := fun _ => 0, pays := [] }

/-- A map without table. -/
def St.zero : St K V :=
  { root := none, nTabs := 0, cap := fun _ => 0, next := fun _ => none, lock := fun _ => .free
    claim := fun _ => 0, copied := fun _ => 0, status := fun _ => .pending, deferred := fun _ => []
    slot := fun _ _ => Slot.null, md := fun _ _ => EMPTY, nIds := 0, shard := fun _ => 0
    pinned := fun _ => false, retired := fun _ => false, blockers := fun _ _ => false
    freed := fun _ => false, tabRetired := fun _ => false, tabBlockers := fun _ _ => false
    tabFreed := fun _ => false }

theorem initSt_eq : initSt (V := V) C = if C.capacity = 0 then some St.zero
    else (entriesFor C.capacity).map fun n => { (St.zero : St K V).allocTable (max n 8) .promoted with root := some 0 } := rfl

theorem kslot_zero {T i : Nat} {e : Entry K V} : ¬ (ghost0 (St.zero : St K V)).kslot T i e := by
  intro h; cases h

theorem zero_Inv (hc : C.capacity = 0) : (ghost0 (St.zero : St K V)).Inv C := by
  have hcp : ∀ {s N}, ¬ (ghost0 (St.zero : St K V)).CopyPair s N := fun h => by
    have := h.2.1; cases this
  have hwr : ∀ {T}, ¬ (ghost0 (St.zero : St K V)).wasRoot T := fun h => by
    have := h.1; cases this
  refine ⟨⟨?_, ?_, ?_, ?_, ?_, ?_, ?_, ?_⟩, ⟨?_, ?_, ?_, ?_, ?_, ?_, ?_, ?_, ?_⟩, ⟨?_, ?_, ?_, ?_, ?_, ?_, ?_, ?_, ?_, ?_⟩,
    ⟨?_, ?_, ?_, ?_, ?_, ?_, ?_⟩, ⟨?_, ?_, ?_, ?_, ?_, ?_, ?_, ?_, ?_, ?_, ?_⟩,
    ⟨?_, ?_, ?_, ?_, ?_, ?_, ?_, ?_, ?_, ?_, ?_, ?_, ?_⟩, ?_⟩
  -- shape
  · exact fun _ => ⟨rfl, hc⟩
  · intro r h; cases h
  · intro T h; cases h
  · intro T h; cases h
  · exact fun T _ => ⟨fun _ => rfl, fun _ => rfl, fun _ => rfl, rfl, rfl, rfl, rfl, rfl, rfl, rfl, rfl⟩
  · intro T h; cases h
  · intro _ T h; cases h
  · intro _ T _ h; cases h
  -- slots
  · exact fun _ _ _ => rfl
  · exact fun _ _ _ h => absurd h kslot_zero
  · exact fun _ _ _ h => absurd h kslot_zero
  · exact fun _ _ _ h => absurd h kslot_zero
  · intro T i h; cases h
  · exact fun _ _ _ h => absurd h kslot_zero
  · exact fun _ _ _ _ _ _ h => absurd h kslot_zero
  · exact fun _ _ _ h => absurd h kslot_zero
  · exact fun _ _ _ _ h => absurd h kslot_zero
  -- copies
  · exact fun _ _ _ => rfl
  · exact fun _ _ h => absurd rfl h
  · intro s N j l h; cases h
  · intro s N j T' i' h; cases h
  · exact fun _ _ _ h => absurd h kslot_zero
  · exact fun N => rfl
  · intro N h; cases h
  · exact fun _ _ _ h => absurd h hcp
  · exact fun _ _ _ _ h => absurd h hcp
  · exact fun _ _ _ _ _ h => absurd h hcp
  -- events
  · intro id x h; cases h
  · intro l ev h
    have := h.length_le
    simp [ghost0] at this
  · exact List.Pairwise.nil
  · intro id x h; cases h
  · intro id id' x x' h; cases h
  · intro id x h; cases h
  · exact fun _ => Nat.le_refl _
  -- log
  · intro k e
    constructor
    · intro h; cases h
    · rintro ⟨T, i, h, _⟩; exact absurd h.2.2.1 kslot_zero
  · intro id x h; cases h
  · exact fun _ _ _ h => absurd h kslot_zero
  · intro id x T i T' j h; cases h
  · exact fun _ h => absurd h hwr
  · exact fun _ _ h => absurd h hwr
  · exact fun t => ⟨Nat.le_refl _, Nat.le_refl _⟩
  · intro T h; cases h
  · exact fun _ _ h => absurd h hwr
  · exact fun _ _ _ _ h => absurd h hwr
  · exact fun _ _ _ _ h => absurd h hwr
  -- memory
  · exact fun _ _ _ _ h => absurd h kslot_zero
  · intro id t U b h; cases h
  · intro id
    constructor
    · intro h; cases h
    · rintro ⟨U, h⟩; cases h
  · intro id U t h; cases h
  · intro P t h; cases h
  · intro P t h; cases h
  · intro id h; cases h
  · intro P h; cases h
  · intro id P
    constructor
    · intro h; cases h
    · rintro ⟨e, h, _⟩; cases h
  · exact fun P => List.nodup_nil
  · intro id x h; cases h
  · exact fun _ _ => rfl
  · intro id P h; cases h
  -- counters
  · refine ⟨?_, fun j => rfl⟩
    show ((List.range (C.shards + 1)).map fun _ => (0 : Int)).sum = 0
    simp

theorem inv_init {σ : St K V} (h : initSt C = some σ) : (ghost0 σ).Inv C := by
  rw [initSt_eq] at h
  split at h
  · rename_i hc
    cases h
    exact zero_Inv hc
  · rename_i hc
    cases he : entriesFor C.capacity with
    | none => rw [he] at h; cases h
    | some n =>
      rw [he] at h
      simp only [Option.map_some, Option.some.injEq] at h
      have h1 : isPow2 n := entriesFor_pow2 he
      have h2 : C.capacity ≤ n := (C17_entries_for _ _ he).2.2.1
      have hm : isPow2 (max n 8) := by
        rcases Nat.le_total n 8 with g | g
        · rw [Nat.max_eq_right g]; exact ⟨3, rfl⟩
        · rw [Nat.max_eq_left g]; exact h1
      obtain ⟨hi, _⟩ := rootInitSt_Inv (C := { C with capacity := 0 }) (S := ghost0 (St.zero : St K V)) (zero_Inv rfl) rfl
        (cap := max n 8) hm (Nat.le_max_right _ _) (by
          show 1 ≤ _
          have := Nat.le_max_right n 8
          omega)
      subst h
      obtain ⟨hs, hp, hcc, he', hl, hM, hN⟩ := hi
      refine ⟨⟨?_, hs.2, hs.3, ?_, hs.5, hs.6, hs.7, hs.8⟩, ⟨hp.1, hp.2, hp.3, hp.4, hp.5, hp.6, hp.7, hp.8, hp.9⟩,
        ⟨hcc.1, hcc.2, hcc.3, hcc.4, hcc.5, hcc.6, hcc.7, hcc.8, hcc.9, hcc.10⟩, he', 
        ⟨hl.a, hl.u1, hl.u2, hl.u3, hl.d1, hl.d2, hl.d3, hl.d4, hl.l1, hl.l2, hl.n1⟩,
        ⟨hM.1, hM.2, hM.3, hM.4, hM.5, hM.6, hM.7, hM.8, hM.9, hM.10, hM.11, hM.12, hM.13⟩, hN⟩
      · intro hr; cases hr
      · intro T hT
        obtain ⟨g1, g2, g3⟩ := hs.4 T hT
        refine ⟨g1, g2, ?_⟩
        have hT : T < 1 := hT
        have hcap : (ghost0 ({ (St.zero : St K V).allocTable (max n 8) .promoted with root := some 0 })).cap T = max n 8 :=
          if_pos (by show T = 0; omega)
        rw [hcap]
        unfold Cfg.initialCapacity
        rw [if_neg hc]
        have := Nat.le_max_left n 8
        omega

end Papaya
