import Verif.Proof.Basic

/-! # Preservation of the part of the invariant about events -/

set_option linter.unusedSectionVars false
set_option linter.unusedVariables false

namespace Papaya

variable {K V : Type} [DecidableEq K]

namespace GSt

variable {C : Cfg K} {S S' : GSt K V}

theorem logged_mono (hl : S.log <+: S'.log) {e : Entry K V} (h : S.logged e) : S'.logged e := by
  obtain ⟨ev, h1, h2⟩ := h
  exact ⟨ev, hl.subset h1, h2⟩

theorem EvOk.mono {l : List (Ev K V)} {ev : Ev K V} (h : S.EvOk l ev)
    (hops : S'.ops = S.ops) (hseq : S'.seq = S.seq) (hinv : S'.invPos = S.invPos)
    (hinfo : ∀ id x, S.info id = some x → S'.info id = some x) : S'.EvOk l ev := by
  obtain ⟨h1, h2, h3, h4, h5⟩ := h
  refine ⟨h1, by rw [hseq]; exact h2, by rw [hops]; exact h3, by rw [hseq, hinv]; exact h4, ?_⟩
  intro e he
  obtain ⟨x, hx, h6, h7, h8, h9, h10, h11⟩ := h5 e he
  exact ⟨x, hinfo _ _ hx, h6, h7, h8, h9, h10, by rw [hops]; exact h11⟩

/-- Appending one event, possibly with the entry it creates. -/
theorem InvE.snoc (h : S.InvE) (ev : Ev K V)
    (hops : S'.ops = S.ops) (hseq : S'.seq = S.seq) (hinv : S'.invPos = S.invPos) (hids : S.nIds ≤ S'.nIds)
    (hlog : S'.log = S.log ++ [ev])
    (hinfo : ∀ id x, S.info id = some x → S'.info id = some x)
    (hinfo' : ∀ id x, S'.info id = some x → S.info id = some x ∨
      (x.op = ev.op ∧ ev.new = some x.entry ∧ x.entry.id = id ∧ id < S'.nIds ∧ id = S.nIds ∧
        (∀ id' x', S.info id' = some x' → x'.op ≠ ev.op)))
    (hev : S'.EvOk S.log ev)
    (hop : (S.ops ev.op).multi = true ∨ ∀ ev' ∈ S.log, ev'.op ≠ ev.op)
    (hx : ∀ id x, S.info id = some x → x.op = ev.op → ev.new = some x.entry)
    (hmul : (∃ id x, S'.info id = some x ∧ x.op = ev.op) → (S.ops ev.op).multi = false) : S'.InvE := by
  have hlogd : ∀ e, S.logged e → S'.logged e := fun e he => logged_mono (by rw [hlog]; exact List.prefix_append _ _) he
  have hxx : ∀ id x, S'.info id = some x → x.op = ev.op → ev.new = some x.entry := by
    intro id x hi ho
    rcases hinfo' id x hi with hi | hi
    · exact hx id x hi ho
    · exact hi.2.1
  refine ⟨?_, ?_, ?_, ?_, ?_, ?_, ?_⟩
  · intro id x hi
    rcases hinfo' id x hi with hi | hi
    · have := h.e0 id x hi; exact ⟨this.1, by omega⟩
    · exact ⟨hi.2.2.1, hi.2.2.2.1⟩
  · intro l ev' hp
    rw [hlog] at hp
    rcases prefix_snoc_snoc.1 hp with ⟨rfl, rfl⟩ | hp
    · exact hev
    · exact (h.e1 l ev' hp).mono hops hseq hinv hinfo
  · rw [hlog, List.pairwise_append]
    refine ⟨by rw [hops]; exact h.e2, by simp, ?_⟩
    intro a ha b hb hab
    simp only [List.mem_singleton] at hb
    subst hb
    rw [hops, hab]
    rcases hop with hop | hop
    · exact hop
    · exact absurd hab (hop a ha)
  · intro id x hi hn ev' hm
    rw [hlog] at hm
    simp only [List.mem_append, List.mem_singleton] at hm
    rcases hm with hm | rfl
    · rcases hinfo' id x hi with hi' | hi'
      · exact h.e3 id x hi' (fun hl => hn (hlogd _ hl)) ev' hm
      · exact absurd ⟨ev, by rw [hlog]; simp, hi'.2.1⟩ hn
    · intro ho
      exact hn ⟨ev', by rw [hlog]; simp, hxx id x hi ho.symm⟩
  · intro id id' x x' hi hi' ho
    rcases hinfo' id x hi with h1 | h1 <;> rcases hinfo' id' x' hi' with h2 | h2
    · exact h.e4 id id' x x' h1 h2 ho
    · exact absurd (ho.trans h2.1) (h2.2.2.2.2.2 id x h1)
    · exact absurd (ho.symm.trans h1.1) (h1.2.2.2.2.2 id' x' h2)
    · rw [h1.2.2.2.2.1, h2.2.2.2.2.1]
  · intro id x hi
    rcases hinfo' id x hi with h1 | h1
    · rw [hops, hseq]; exact h.e5 id x h1
    · rw [hops, hseq, h1.1]; exact ⟨by rw [← hseq]; exact hev.seq, hmul ⟨id, x, hi, h1.1⟩⟩
  · intro t
    rw [hinv, hlog]
    have := h.e6 t
    simp; omega

/-- The log is unchanged; possibly a new entry is published. -/
theorem InvE.publish (h : S.InvE) (x0 : EInfo K V)
    (hops : S'.ops = S.ops) (hseq : S'.seq = S.seq) (hinv : S'.invPos = S.invPos) (hids : S'.nIds = S.nIds + 1)
    (hlog : S'.log = S.log)
    (hinfo : S'.info = fun id => if id = S.nIds then some x0 else S.info id)
    (hid : x0.entry.id = S.nIds)
    (hnew : ∀ id x, S.info id = some x → x.op ≠ x0.op)
    (hnev : ∀ ev ∈ S.log, ev.op ≠ x0.op)
    (hseq' : x0.op.2 ≤ S.seq x0.op.1)
    (hmul : (S.ops x0.op).multi = false) : S'.InvE := by
  have hlt : ∀ id x, S.info id = some x → id < S.nIds := fun id x hi => (h.e0 id x hi).2
  have hinfo1 : ∀ id x, S.info id = some x → S'.info id = some x := by
    intro id x hi
    have := hlt id x hi
    rw [hinfo]; simp only; rw [if_neg (by omega)]; exact hi
  have hinfo2 : ∀ id x, S'.info id = some x → S.info id = some x ∨ (id = S.nIds ∧ x = x0) := by
    intro id x hi
    rw [hinfo] at hi; simp only at hi
    split at hi
    · right; cases hi; exact ⟨by assumption, rfl⟩
    · left; exact hi
  have hlg : ∀ e, S'.logged e ↔ S.logged e := by intro e; unfold logged; rw [hlog]
  refine ⟨?_, ?_, ?_, ?_, ?_, ?_, ?_⟩
  · intro id x hi
    rcases hinfo2 id x hi with hi | ⟨rfl, rfl⟩
    · have := h.e0 id x hi; exact ⟨this.1, by omega⟩
    · exact ⟨hid, by omega⟩
  · intro l ev hp
    rw [hlog] at hp
    exact (h.e1 l ev hp).mono hops hseq hinv hinfo1
  · rw [hlog, hops]; exact h.e2
  · intro id x hi hn ev hm
    rw [hlog] at hm
    rcases hinfo2 id x hi with hi | ⟨rfl, rfl⟩
    · exact h.e3 id x hi (by rwa [hlg] at hn) ev hm
    · exact hnev ev hm
  · intro id id' x x' hi hi' ho
    rcases hinfo2 id x hi with h1 | ⟨rfl, rfl⟩ <;> rcases hinfo2 id' x' hi' with h2 | ⟨rfl, rfl⟩
    · exact h.e4 id id' x x' h1 h2 ho
    · exact absurd ho (hnew id x h1)
    · exact absurd ho.symm (hnew id' x' h2)
    · rfl
  · intro id x hi
    rcases hinfo2 id x hi with h1 | ⟨rfl, rfl⟩
    · rw [hops, hseq]; exact h.e5 id x h1
    · rw [hops, hseq]; exact ⟨hseq', hmul⟩
  · intro t
    rw [hinv, hlog]; exact h.e6 t

/-- `InvE` only depends on a few components. -/
theorem InvE.congr (h : S.InvE) (hops : S'.ops = S.ops) (hseq : S'.seq = S.seq) (hinv : S'.invPos = S.invPos)
    (hids : S'.nIds = S.nIds) (hlog : S'.log = S.log) (hinfo : S'.info = S.info) : S'.InvE := by
  refine ⟨?_, ?_, ?_, ?_, ?_, ?_, ?_⟩
  · rw [hinfo, hids]; exact h.e0
  · rw [hlog]
    intro l ev hp
    exact (h.e1 l ev hp).mono hops hseq hinv (by rw [hinfo]; exact fun _ _ h => h)
  · rw [hlog, hops]; exact h.e2
  · rw [hinfo, hlog]; unfold logged; rw [hlog]; exact h.e3
  · rw [hinfo]; exact h.e4
  · rw [hinfo, hseq, hops]; exact h.e5
  · rw [hinv, hlog]; exact h.e6

end GSt

end Papaya
