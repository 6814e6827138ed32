import Verif.Spec.Lin

/-! # Well-formed histories -/

set_option linter.unusedSectionVars false
set_option linter.unusedVariables false

namespace Papaya

variable {K V : Type}

/-- The call an event belongs to. -/
def HEv.id : HEv K V → OpId
  | .inv o _ => o
  | .ret o _ _ => o
  | .panic o _ _ => o

/-- What is required of an event that comes after `H`. -/
def HEv.Fits (H : List (HEv K V)) : HEv K V → Prop
  | .inv o _ => ∀ e ∈ H, e.id ≠ o
  | .ret o c _ => .inv o c ∈ H ∧ ¬ Ended H o
  | .panic o c _ => .inv o c ∈ H ∧ ¬ Ended H o

/-- Each call is made once, and returns at most once, after having been made. -/
def WFH (hist : List (HEv K V)) : Prop := ∀ H1 ev H2, hist = H1 ++ ev :: H2 → ev.Fits H1

theorem append_snoc {α : Type _} {A B H : List α} {x : α} (h : A ++ B = H ++ [x]) :
    (B = [] ∧ A = H ++ [x]) ∨ ∃ B', B = B' ++ [x] ∧ A ++ B' = H := by
  rcases List.eq_nil_or_concat B with rfl | ⟨B', y, rfl⟩
  · left; simpa using h
  · right
    rw [List.concat_eq_append] at h ⊢
    rw [← List.append_assoc] at h
    obtain ⟨h1, h2⟩ := List.append_inj' h rfl
    cases h2
    exact ⟨B', rfl, h1⟩

theorem WFH.nil : WFH ([] : List (HEv K V)) := by
  intro H1 ev H2 h
  have := congrArg List.length h
  simp at this

theorem WFH.snoc {H : List (HEv K V)} (h : WFH H) {x : HEv K V} (hx : x.Fits H) : WFH (H ++ [x]) := by
  intro H1 ev H2 he
  rcases append_snoc (A := H1) (B := ev :: H2) he.symm with ⟨h1, _⟩ | ⟨B, h1, h2⟩
  · cases h1
  · cases B with
    | nil =>
      simp only [List.nil_append, List.cons.injEq] at h1
      rw [h1.1]
      simp only [List.append_nil] at h2
      rw [h2]; exact hx
    | cons y B =>
      simp only [List.cons_append, List.cons.injEq] at h1
      rw [h1.1]
      exact h H1 y B h2.symm

theorem Ended.mono {H H' : List (HEv K V)} {o : OpId} (h : Ended H o) : Ended (H ++ H') o := by
  rcases h with ⟨c, r, h⟩ | ⟨c, r, h⟩
  · exact .inl ⟨c, r, List.mem_append_left _ h⟩
  · exact .inr ⟨c, r, List.mem_append_left _ h⟩

theorem ended_snoc {H : List (HEv K V)} {x : HEv K V} {o : OpId} :
    Ended (H ++ [x]) o ↔ Ended H o ∨ (x.id = o ∧ ∀ o c, x ≠ .inv o c) := by
  constructor
  · rintro (⟨c, r, h⟩ | ⟨c, r, h⟩)
    · rcases List.mem_append.1 h with h | h
      · exact .inl (.inl ⟨c, r, h⟩)
      · rw [← List.mem_singleton.1 h]; exact .inr ⟨rfl, by rintro _ _ ⟨⟩⟩
    · rcases List.mem_append.1 h with h | h
      · exact .inl (.inr ⟨c, r, h⟩)
      · rw [← List.mem_singleton.1 h]; exact .inr ⟨rfl, by rintro _ _ ⟨⟩⟩
  · rintro (h | ⟨rfl, h⟩)
    · exact h.mono
    · cases x with
      | inv o c => exact absurd rfl (h o c)
      | ret o c r => exact .inl ⟨c, r, by simp [HEv.id]⟩
      | panic o c w => exact .inr ⟨c, w, by simp [HEv.id]⟩

theorem ended_snoc_inv {H : List (HEv K V)} {o o' : OpId} {c : Call K V} : Ended (H ++ [.inv o' c]) o ↔ Ended H o := by
  rw [ended_snoc]
  exact ⟨fun h => h.elim id fun h => absurd rfl (h.2 _ _), .inl⟩

theorem ended_snoc_panic {H : List (HEv K V)} {o o' : OpId} {c : Call K V} {w : PanicReason} :
    Ended (H ++ [.panic o' c w]) o ↔ Ended H o ∨ o = o' := by
  rw [ended_snoc]
  exact or_congr Iff.rfl ⟨fun h => h.1.symm, fun h => ⟨h.symm, by rintro _ _ ⟨⟩⟩⟩

theorem ended_snoc_ret {H : List (HEv K V)} {o o' : OpId} {c : Call K V} {r : c.Res} :
    Ended (H ++ [.ret o' c r]) o ↔ Ended H o ∨ o = o' := by
  rw [ended_snoc]
  exact or_congr Iff.rfl ⟨fun h => h.1.symm, fun h => ⟨h.symm, by rintro _ _ ⟨⟩⟩⟩

theorem Ended.ret {H : List (HEv K V)} {o : OpId} {c : Call K V} {r : c.Res} (h : .ret o c r ∈ H) : Ended H o :=
  .inl ⟨c, r, h⟩

theorem Ended.panic {H : List (HEv K V)} {o : OpId} {c : Call K V} {w : PanicReason} (h : .panic o c w ∈ H) : Ended H o :=
  .inr ⟨c, w, h⟩

namespace WFH

variable {H : List (HEv K V)}

/-- A call returns after it has been made. -/
theorem ret_inv (h : WFH H) {o : OpId} {c : Call K V} {r : c.Res} {A B : List (HEv K V)} (he : H = A ++ B)
    (hr : .ret o c r ∈ A) : .inv o c ∈ A := by
  obtain ⟨A1, A2, rfl⟩ := List.append_of_mem hr
  have := (h A1 (.ret o c r) (A2 ++ B) (by rw [he]; simp)).1
  exact List.mem_append_left _ this

theorem ret_inv' (h : WFH H) {o : OpId} {c : Call K V} {r : c.Res} (hr : .ret o c r ∈ H) : .inv o c ∈ H :=
  h.ret_inv (A := H) (B := []) (by simp) hr

/-- Nothing about a call comes before the call. -/
theorem inv_first (h : WFH H) {o : OpId} {c : Call K V} {A B : List (HEv K V)} (he : H = A ++ B)
    (hi : .inv o c ∈ B) : ∀ e ∈ A, e.id ≠ o := by
  obtain ⟨B1, B2, rfl⟩ := List.append_of_mem hi
  intro e hm
  exact h (A ++ B1) (.inv o c) B2 (by rw [he]; simp) e (List.mem_append_left _ hm)

theorem inv_unique (h : WFH H) {o : OpId} {c c' : Call K V} (h1 : .inv o c ∈ H) (h2 : .inv o c' ∈ H) : c = c' := by
  obtain ⟨A, B, rfl⟩ := List.append_of_mem h1
  rcases List.mem_append.1 h2 with g | g
  · exact absurd rfl (h A _ B rfl _ g)
  · rcases List.mem_cons.1 g with g | g
    · cases g; rfl
    · exact absurd rfl (h.inv_first (A := A ++ [.inv o c]) (B := B) (by simp) g (.inv o c) (by simp))

theorem ret_unique (h : WFH H) {o : OpId} {c c' : Call K V} {r : c.Res} {r' : c'.Res} (h1 : .ret o c r ∈ H)
    (h2 : .ret o c' r' ∈ H) : (HEv.ret o c r) = .ret o c' r' := by
  obtain ⟨A, B, rfl⟩ := List.append_of_mem h1
  rcases List.mem_append.1 h2 with g | g
  · exact absurd (Ended.ret g) (h A _ B rfl).2
  · rcases List.mem_cons.1 g with g | g
    · exact g.symm
    · obtain ⟨B1, B2, rfl⟩ := List.append_of_mem g
      exact absurd (Ended.ret (c := c) (r := r) (by simp)) (h (A ++ .ret o c r :: B1) (.ret o c' r') B2 (by simp)).2

/-- A response occurs only once. -/
theorem ret_once (h : WFH H) {o : OpId} {c c' : Call K V} {r : c.Res} {r' : c'.Res} {A B : List (HEv K V)}
    (he : H = A ++ B) (h1 : .ret o c r ∈ A) (h2 : .ret o c' r' ∈ B) : False := by
  obtain ⟨B1, B2, rfl⟩ := List.append_of_mem h2
  exact (h (A ++ B1) (.ret o c' r') B2 (by rw [he]; simp)).2 (Ended.ret (c := c) (r := r) (by simp [h1]))

/-- A call panics after it has been made. -/
theorem panic_inv (h : WFH H) {o : OpId} {c : Call K V} {w : PanicReason} (hr : .panic o c w ∈ H) : .inv o c ∈ H := by
  obtain ⟨A1, A2, rfl⟩ := List.append_of_mem hr
  exact List.mem_append_left _ (h A1 _ A2 rfl).1

/-- A call ends only once. -/
theorem end_once (h : WFH H) {o : OpId} {c' : Call K V} {r' : c'.Res} {A B : List (HEv K V)}
    (he : H = A ++ B) (h1 : Ended A o) (h2 : .ret o c' r' ∈ B) : False := by
  obtain ⟨B1, B2, rfl⟩ := List.append_of_mem h2
  exact (h (A ++ B1) (.ret o c' r') B2 (by rw [he]; simp)).2 h1.mono

/-- A call does not both return and panic. -/
theorem ret_panic (h : WFH H) {o : OpId} {c c' : Call K V} {r : c.Res} {w : PanicReason} (h1 : .ret o c r ∈ H)
    (h2 : .panic o c' w ∈ H) : False := by
  obtain ⟨A, B, rfl⟩ := List.append_of_mem h1
  rcases List.mem_append.1 h2 with g | g
  · exact (h A _ B rfl).2 (.panic g)
  · rcases List.mem_cons.1 g with g | g
    · cases g
    · obtain ⟨B1, B2, rfl⟩ := List.append_of_mem g
      exact (h (A ++ .ret o c r :: B1) (.panic o c' w) B2 (by simp)).2 (Ended.ret (c := c) (r := r) (by simp))

end WFH

theorem Ended.mem {H : List (HEv K V)} {o : OpId} (h : Ended H o) : ∃ e ∈ H, e.id = o := by
  rcases h with ⟨c, r, h⟩ | ⟨c, r, h⟩ <;> exact ⟨_, h, rfl⟩

theorem Precedes.ended {H : List (HEv K V)} {a b : OpId} (h : Precedes H a b) : Ended H a := by
  obtain ⟨A, B, rfl, h1, _⟩ := h
  exact h1.mono

theorem Precedes.invd {H : List (HEv K V)} {a b : OpId} (h : Precedes H a b) : ∃ c, .inv b c ∈ H := by
  obtain ⟨A, B, rfl, _, c, h1⟩ := h
  exact ⟨c, List.mem_append_right _ h1⟩

theorem precedes_snoc {H : List (HEv K V)} {x : HEv K V} {a b : OpId} (h : Precedes (H ++ [x]) a b) :
    Precedes H a b ∨ (Ended H a ∧ ∃ c, x = .inv b c) := by
  obtain ⟨A, B, he, h1, c', h2⟩ := h
  rcases append_snoc he.symm with ⟨h3, _⟩ | ⟨B', rfl, rfl⟩
  · rw [h3] at h2; cases h2
  · rcases List.mem_append.1 h2 with g | g
    · exact .inl ⟨A, B', rfl, h1, c', g⟩
    · exact .inr ⟨h1.mono, c', (List.mem_singleton.1 g).symm⟩

end Papaya
