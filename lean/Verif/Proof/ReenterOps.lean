import Verif.Proof.Reenter

/-! # Programs do not depend on answers that have not been given

`Apx p q Q`: the programs `p` and `q` make the same steps until they return results related by `Q`, or until `p` panics with a
panic of a closure. -/

set_option linter.unusedSectionVars false
set_option linter.unusedVariables false

namespace Papaya

variable {K V : Type}

/-- For `n` steps. -/
def Apn {α β : Type} : Nat → Prog K V α → Prog K V β → (α → β → Prop) → Prop
  | 0, _, _, _ => True
  | _ + 1, .ret x, q, Q => ∃ y, q = .ret y ∧ Q x y
  | _ + 1, .panic r, q, _ => r = .user ∨ q = .panic r
  | n + 1, .act a k, q, Q => ∃ k', q = .act a k' ∧ ∀ r, Apn n (k r) (k' r) Q
  | n + 1, .iter body s k, q, Q => q.isIter ∧ Apn n (Prog.unfoldIter body s k) q.unroll Q

def Apx {α β : Type} (p : Prog K V α) (q : Prog K V β) (Q : α → β → Prop) : Prop := ∀ n, Apn n p q Q

variable {α β γ δ : Type} {p : Prog K V α} {q : Prog K V β}

theorem unfoldIter_bind_eq {σ β' : Type} {body : σ → Prog K V (σ ⊕ β')} {s : σ} {k : β' → Prog K V α} {f : α → Prog K V γ} :
    (Prog.unfoldIter body s k).bind f = Prog.unfoldIter body s fun x => (k x).bind f := by
  unfold Prog.unfoldIter
  rw [Prog.bind_assoc]
  congr 1
  funext x
  cases x <;> rfl

theorem Prog.isIter.bind {f : α → Prog K V γ} (h : p.isIter) : (p.bind f).isIter ∧ (p.bind f).unroll = p.unroll.bind f := by
  cases p with
  | iter body s k => exact ⟨trivial, unfoldIter_bind_eq.symm⟩
  | _ => exact h.elim

theorem Apn.mono {n m : Nat} {Q : α → β → Prop} (h : Apn n p q Q) (hm : m ≤ n) : Apn m p q Q := by
  induction m generalizing n p q with
  | zero => cases p <;> trivial
  | succ m ih =>
    obtain ⟨n, rfl⟩ : ∃ n', n = n' + 1 := ⟨n - 1, by omega⟩
    cases p with
    | ret x => exact h
    | panic r => exact h
    | act a k =>
      obtain ⟨k', h1, h2⟩ := h
      exact ⟨k', h1, fun r => ih (h2 r) (by omega)⟩
    | iter body s k => exact ⟨h.1, ih h.2 (by omega)⟩

theorem Apn.bind {n : Nat} {f : α → Prog K V γ} {g : β → Prog K V δ} {Q : α → β → Prop} {P : γ → δ → Prop} (h : Apn n p q Q)
    (hf : ∀ x y m, m ≤ n → Q x y → Apn m (f x) (g y) P) : Apn n (p.bind f) (q.bind g) P := by
  induction n generalizing p q with
  | zero => cases p.bind f <;> trivial
  | succ n ih =>
    cases p with
    | ret x =>
      obtain ⟨y, rfl, h1⟩ := h
      exact hf x y _ (Nat.le_refl _) h1
    | panic r =>
      rcases h with h | rfl
      · exact .inl h
      · exact .inr rfl
    | act a k =>
      obtain ⟨k', rfl, h1⟩ := h
      exact ⟨_, rfl, fun r => ih (h1 r) fun x y m hm => hf x y m (by omega)⟩
    | iter body s k =>
      obtain ⟨h1, h2⟩ := h
      have h3 := ih h2 fun x y m hm => hf x y m (by omega)
      obtain ⟨h4, h5⟩ := h1.bind (f := g)
      refine ⟨h4, ?_⟩
      rw [h5, ← unfoldIter_bind_eq]
      exact h3

namespace Apx

theorem refl (p : Prog K V α) : Apx p p Eq := by
  intro n
  induction n generalizing p with
  | zero => cases p <;> trivial
  | succ n ih =>
    cases p with
    | ret x => exact ⟨x, rfl, rfl⟩
    | panic r => exact .inr rfl
    | act a k => exact ⟨k, rfl, fun r => ih (k r)⟩
    | iter body s k => exact ⟨trivial, ih _⟩

theorem ret {x : α} {y : β} {Q : α → β → Prop} (h : Q x y) : Apx (pure x : Prog K V α) (pure y) Q := by
  intro n
  cases n with
  | zero => trivial
  | succ n => exact ⟨y, rfl, h⟩

theorem panic {r : PanicReason} {Q : α → β → Prop} : Apx (.panic r : Prog K V α) (.panic r) Q := by
  intro n
  cases n with
  | zero => trivial
  | succ n => exact .inr rfl

theorem bind (Q : α → β → Prop) {f : α → Prog K V γ} {g : β → Prog K V δ} {P : γ → δ → Prop} (h : Apx p q Q)
    (hf : ∀ x y, Q x y → Apx (f x) (g y) P) : Apx (p.bind f) (q.bind g) P :=
  fun n => (h n).bind fun x y m _ hq => hf x y hq m

/-- The first part does not use the closure. -/
theorem same {f : α → Prog K V γ} {g : α → Prog K V δ} {P : γ → δ → Prop} (hf : ∀ x, Apx (f x) (g x) P) :
    Apx (p.bind f) (p.bind g) P :=
  bind Eq (refl p) fun x y h => h ▸ hf x

theorem loop {σ τ : Type} (I : σ → τ → Prop) {s : σ} {t : τ} {b : σ → Prog K V (σ ⊕ γ)} {c : τ → Prog K V (τ ⊕ δ)}
    {Q : γ → δ → Prop} (hs : I s t)
    (hb : ∀ s t, I s t → Apx (b s) (c t) fun x y =>
      (∃ s' t', x = .inl s' ∧ y = .inl t' ∧ I s' t') ∨ ∃ u v, x = .inr u ∧ y = .inr v ∧ Q u v) :
    Apx (Papaya.Prog.loop s b) (Papaya.Prog.loop t c) Q := by
  intro n
  induction n using Nat.strong_induction_on generalizing s t with
  | _ n ih =>
    cases n with
    | zero => trivial
    | succ n =>
      refine ⟨trivial, ?_⟩
      show Apn n (Prog.unfoldIter b s .ret) (Prog.unfoldIter c t .ret) Q
      unfold Prog.unfoldIter
      refine (hb s t hs n).bind fun x y m hm hq => ?_
      rcases hq with ⟨s', t', rfl, rfl, h1⟩ | ⟨u, v, rfl, rfl, h1⟩
      · exact ih m (by omega) h1
      · exact ret h1 m

theorem ite {c : Prop} [Decidable c] {p' : Prog K V α} {q' : Prog K V β} {Q : α → β → Prop} (h1 : c → Apx p q Q)
    (h2 : ¬ c → Apx p' q' Q) : Apx (if c then p else p') (if c then q else q') Q := by
  split
  · exact h1 ‹_›
  · exact h2 ‹_›

theorem post {P Q : α → β → Prop} (h : Apx p q P) (hq : ∀ x y, P x y → Q x y) : Apx p q Q := by
  intro n
  induction n generalizing p q with
  | zero => cases p <;> trivial
  | succ n ih =>
    have h0 := h (n + 1)
    cases p with
    | ret x =>
      obtain ⟨y, h1, h2⟩ := h0
      exact ⟨y, h1, hq _ _ h2⟩
    | panic r => exact h0
    | act a k =>
      obtain ⟨k', rfl, _⟩ := h0
      refine ⟨k', rfl, fun r => ih fun m => ?_⟩
      obtain ⟨k'', h1, h2⟩ := h (m + 1)
      cases h1
      exact h2 r
    | iter body s k => exact ⟨h0.1, ih fun m => (h (m + 1)).2⟩

end Apx

/-! ## Closures -/

/-- `f` and `g` give the same answers as long as `f` does not panic. -/
structure CAp {I O : Type} (f g : Closure I O) where
  S : f.S → g.S → Prop
  init : S f.init g.init
  call : ∀ s s' i, S s s' → f.call s i = .error .user ∨ (∃ r, f.call s i = .error r ∧ g.call s' i = .error r) ∨
    ∃ t t' o, f.call s i = .ok (t, o) ∧ g.call s' i = .ok (t', o) ∧ S t t'

variable {I O : Type} {f g : Closure I O}

def CAp.T (h : CAp f g) (a : f.Tr) (b : g.Tr) : Prop := h.S a.st b.st ∧ a.calls = b.calls

theorem CAp.start (h : CAp f g) : h.T f.start g.start := ⟨h.init, rfl⟩

def CAp.refl (f : Closure I O) : CAp f f where
  S := Eq
  init := rfl
  call := by
    rintro s s' i rfl
    cases h : f.call s i with
    | error r => exact .inr (.inl ⟨r, rfl, rfl⟩)
    | ok x => exact .inr (.inr ⟨x.1, x.1, x.2, rfl, rfl, rfl⟩)

def CAp.replay {l l' : List O} (h : l <+: l') : CAp (Closure.replay (I := I) l) (Closure.replay l') where
  S := fun (s s' : List O) => s <+: s'
  init := h
  call := by
    intro s s' i hs
    obtain ⟨d, rfl⟩ := (hs : (s : List O) <+: s')
    cases s with
    | nil => exact .inl rfl
    | cons o s => exact .inr (.inr ⟨s, (s ++ d : List O), o, rfl, rfl, List.prefix_append s d⟩)

theorem ap_invoke (h : CAp f g) {a : f.Tr} {b : g.Tr} {i : I} (hT : h.T a b) :
    Apx (f.invoke a i : Prog K V (f.Tr × O)) (g.invoke b i) fun x y => h.T x.1 y.1 ∧ x.2 = y.2 := by
  unfold Closure.invoke
  rcases h.call _ _ i hT.1 with h1 | ⟨r, h1, h2⟩ | ⟨t, t', o, h1, h2, h3⟩
  · rw [h1]
    intro n
    cases n with
    | zero => trivial
    | succ n => exact .inl rfl
  · rw [h1, h2]; exact Apx.panic
  · rw [h1, h2]
    exact Apx.ret ⟨⟨h3, by rw [hT.2]⟩, rfl⟩

/-! ## The closures built by the map -/

def CAp.tryInsert {f g : Closure Unit V} (h : CAp f g) :
    CAp (tryInsertClosure (K := K) f) (tryInsertClosure g) where
  S := fun (a : Option f.S) (b : Option g.S) =>
    match a, b with
    | none, none => True
    | some x, some y => h.S x y
    | _, _ => False
  init := h.init
  call := by
    intro s s' i hs
    cases i with
    | some x => exact .inr (.inr ⟨s, s', _, rfl, rfl, hs⟩)
    | none =>
      cases s with
      | none =>
        cases s' with
        | none => exact .inr (.inl ⟨_, rfl, rfl⟩)
        | some y => exact hs.elim
      | some x =>
        cases s' with
        | none => exact hs.elim
        | some y =>
          have e1 : (tryInsertClosure (K := K) f).call (some x) none =
            match f.call x () with | .ok (_, v) => .ok (none, .insert v) | .error r => .error r := rfl
          have e2 : (tryInsertClosure (K := K) g).call (some y) none =
            match g.call y () with | .ok (_, v) => .ok (none, .insert v) | .error r => .error r := rfl
          rcases h.call x y () hs with h1 | ⟨r, h1, h2⟩ | ⟨t, t', o, h1, h2, h3⟩
          · exact .inl (by rw [e1, h1])
          · exact .inr (.inl ⟨r, by rw [e1, h1], by rw [e2, h2]⟩)
          · exact .inr (.inr ⟨(none : Option f.S), (none : Option g.S), .insert o, by rw [e1, h1], by rw [e2, h2], trivial⟩)

def CAp.upd {f g : Closure V V} (h : CAp f g) : CAp (updateClosure (K := K) f) (updateClosure g) where
  S := h.S
  init := h.init
  call := by
    intro s s' i hs
    cases i with
    | none => exact .inr (.inr ⟨s, s', _, rfl, rfl, hs⟩)
    | some x =>
      obtain ⟨k, v⟩ := x
      have e1 : (updateClosure (K := K) f).call s (some (k, v)) =
        match f.call s v with | .ok (s', v') => .ok (s', .insert v') | .error r => .error r := rfl
      have e2 : (updateClosure (K := K) g).call s' (some (k, v)) =
        match g.call s' v with | .ok (s', v') => .ok (s', .insert v') | .error r => .error r := rfl
      rcases h.call s s' v hs with h1 | ⟨r, h1, h2⟩ | ⟨t, t', o, h1, h2, h3⟩
      · exact .inl (by rw [e1, h1])
      · exact .inr (.inl ⟨r, by rw [e1, h1], by rw [e2, h2]⟩)
      · exact .inr (.inr ⟨t, t', .insert o, by rw [e1, h1], by rw [e2, h2], h3⟩)

def CAp.updIns {u u' : Closure V V} {f g : Closure Unit V} (hu : CAp u u') (h : CAp f g) :
    CAp (updateOrInsertClosure (K := K) u f) (updateOrInsertClosure u' g) where
  S := fun (a : u.S × Option f.S) (b : u'.S × Option g.S) => hu.S a.1 b.1 ∧
    match a.2, b.2 with
    | none, none => True
    | some x, some y => h.S x y
    | _, _ => False
  init := ⟨hu.init, h.init⟩
  call := by
    intro s s' i hs
    obtain ⟨s1, s2⟩ := s
    obtain ⟨s1', s2'⟩ := s'
    obtain ⟨hs1, hs2⟩ := hs
    cases i with
    | some x =>
      obtain ⟨k, v⟩ := x
      have e1 : (updateOrInsertClosure (K := K) u f).call (s1, s2) (some (k, v)) =
        match u.call s1 v with | .ok (su, v') => .ok ((su, s2), .insert v') | .error r => .error r := rfl
      have e2 : (updateOrInsertClosure (K := K) u' g).call (s1', s2') (some (k, v)) =
        match u'.call s1' v with | .ok (su, v') => .ok ((su, s2'), .insert v') | .error r => .error r := rfl
      rcases hu.call s1 s1' v hs1 with h1 | ⟨r, h1, h2⟩ | ⟨t, t', o, h1, h2, h3⟩
      · exact .inl (by rw [e1, h1])
      · exact .inr (.inl ⟨r, by rw [e1, h1], by rw [e2, h2]⟩)
      · exact .inr (.inr ⟨(t, s2), (t', s2'), .insert o, by rw [e1, h1], by rw [e2, h2], h3, hs2⟩)
    | none =>
      cases s2 with
      | none =>
        cases s2' with
        | none => exact .inr (.inl ⟨_, rfl, rfl⟩)
        | some y => exact hs2.elim
      | some x =>
        cases s2' with
        | none => exact hs2.elim
        | some y =>
          have e1 : (updateOrInsertClosure (K := K) u f).call (s1, some x) none =
            match f.call x () with | .ok (_, v) => .ok ((s1, none), .insert v) | .error r => .error r := rfl
          have e2 : (updateOrInsertClosure (K := K) u' g).call (s1', some y) none =
            match g.call y () with | .ok (_, v) => .ok ((s1', none), .insert v) | .error r => .error r := rfl
          rcases h.call x y () hs2 with h1 | ⟨r, h1, h2⟩ | ⟨t, t', o, h1, h2, h3⟩
          · exact .inl (by rw [e1, h1])
          · exact .inr (.inl ⟨r, by rw [e1, h1], by rw [e2, h2]⟩)
          · exact .inr (.inr ⟨(s1, none), (s1', none), .insert o, by rw [e1, h1], by rw [e2, h2], hs1, trivial⟩)

/-! ## The operations -/

section Ops

variable [DecidableEq K] {C : Cfg K}

theorem ap_removeLoop {f g : Closure (K × V) Bool} (h : CAp f g) {T : Table} {i : Nat} {st : f.Tr} {st' : g.Tr} {e : Entry K V}
    {s : Slot K V} (hT : h.T st st') :
    Apx (removeLoop C f T i st e s) (removeLoop C g T i st' e s) fun x y => h.T x.1 y.1 ∧ x.2 = y.2 := by
  unfold removeLoop
  refine Apx.loop (fun x y => h.T x.1 y.1 ∧ x.2 = y.2) ⟨hT, rfl⟩ ?_
  rintro ⟨st, e, s⟩ ⟨st', e', s'⟩ ⟨h1, h2⟩
  cases h2
  refine Apx.same fun _ => Apx.bind _ (ap_invoke h h1) ?_
  rintro ⟨st, b⟩ ⟨st', b'⟩ ⟨h3, h4⟩
  cases h4
  refine Apx.ite (fun _ => Apx.ret (.inr ⟨_, _, rfl, rfl, h3, rfl⟩)) fun _ => Apx.same fun r => ?_
  cases r with
  | replaced o => exact Apx.same fun _ => Apx.same fun _ => Apx.ret (.inr ⟨_, _, rfl, rfl, h3, rfl⟩)
  | found x =>
    cases x with
    | copied e s => exact Apx.ret (.inr ⟨_, _, rfl, rfl, h3, rfl⟩)
    | null => exact Apx.ret (.inr ⟨_, _, rfl, rfl, h3, rfl⟩)
    | value e s => exact Apx.ret (.inl ⟨_, _, rfl, rfl, h3, rfl⟩)

theorem ap_removeProbe {f g : Closure (K × V) Bool} (h : CAp f g) {k : K} {T : Table} {st : f.Tr} {st' : g.Tr}
    (hT : h.T st st') : Apx (removeProbe C k f st T) (removeProbe C k g st' T) fun x y => h.T x.1 y.1 ∧ x.2 = y.2 := by
  unfold removeProbe
  refine Apx.loop Eq rfl ?_
  rintro probe _ rfl
  refine Apx.ite (fun _ => Apx.same fun m => ?_) fun _ => Apx.ret (.inr ⟨_, _, rfl, rfl, hT, rfl⟩)
  refine Apx.ite (fun _ => Apx.ret (.inr ⟨_, _, rfl, rfl, hT, rfl⟩)) fun _ => ?_
  refine Apx.ite (fun _ => Apx.ret (.inl ⟨_, _, rfl, rfl, rfl⟩)) fun _ => Apx.same fun s => ?_
  cases hp : s.ptr with
  | none => exact Apx.ret (.inl ⟨_, _, rfl, rfl, rfl⟩)
  | some e =>
    refine Apx.same fun _ => ?_
    refine Apx.ite (fun _ => Apx.ret (.inl ⟨_, _, rfl, rfl, rfl⟩)) fun _ => ?_
    refine Apx.ite (fun _ => Apx.ret (.inr ⟨_, _, rfl, rfl, hT, rfl⟩)) fun _ => ?_
    exact Apx.bind _ (ap_removeLoop h hT) fun x y hxy => Apx.ret (.inr ⟨_, _, rfl, rfl, hxy⟩)

theorem ap_removeIf {f g : Closure (K × V) Bool} (h : CAp f g) {k : K} : Apx (removeIf C k f) (removeIf C k g) Eq := by
  unfold removeIf
  refine Apx.same fun r => ?_
  cases r with
  | none => exact Apx.ret rfl
  | some T =>
    refine Apx.loop (fun x y => x.1 = y.1 ∧ x.2.1 = y.2.1 ∧ h.T x.2.2 y.2.2) ⟨rfl, rfl, h.start⟩ ?_
    rintro ⟨T, help, st⟩ ⟨_, _, st'⟩ ⟨rfl, rfl, h1⟩
    refine Apx.bind _ (ap_removeProbe h h1) ?_
    rintro ⟨st, x⟩ ⟨st', _⟩ ⟨h2, rfl⟩
    cases x with
    | done r => exact Apx.ret (.inr ⟨_, _, rfl, rfl, by rw [h2.2]⟩)
    | retry copying =>
      refine Apx.same fun n => ?_
      cases n with
      | some next => exact Apx.ret (.inl ⟨_, _, rfl, rfl, rfl, rfl, h2⟩)
      | none => exact Apx.ret (.inr ⟨_, _, rfl, rfl, by rw [h2.2]⟩)

theorem ap_deleteLoop {f g : Closure (K × V) Bool} (h : CAp f g) {T : Table} {i : Nat} {st : f.Tr} {st' : g.Tr}
    {s : Slot K V} (hT : h.T st st') :
    Apx (deleteLoop C f T i st s) (deleteLoop C g T i st' s) fun x y => h.T x.1 y.1 ∧ x.2 = y.2 := by
  unfold deleteLoop
  refine Apx.loop (fun x y => h.T x.1 y.1 ∧ x.2 = y.2) ⟨hT, rfl⟩ ?_
  rintro ⟨st, s⟩ ⟨st', _⟩ ⟨h1, rfl⟩
  cases hp : s.ptr with
  | none => simp only [hp]; exact Apx.ret (.inr ⟨_, _, rfl, rfl, h1, rfl⟩)
  | some e =>
    simp only [hp]
    refine Apx.ite (fun _ => Apx.ret (.inr ⟨_, _, rfl, rfl, h1, rfl⟩)) fun _ => Apx.same fun _ => ?_
    refine Apx.bind _ (ap_invoke h h1) ?_
    rintro ⟨st, b⟩ ⟨st', _⟩ ⟨h3, rfl⟩
    refine Apx.ite (fun _ => Apx.ret (.inr ⟨_, _, rfl, rfl, h3, rfl⟩)) fun _ => Apx.same fun r => ?_
    cases r with
    | none => exact Apx.same fun _ => Apx.same fun _ => Apx.same fun _ => Apx.ret (.inr ⟨_, _, rfl, rfl, h3, rfl⟩)
    | some x => exact Apx.ret (.inl ⟨_, _, rfl, rfl, h3, rfl⟩)

theorem ap_retainPass {f g : Closure (K × V) Bool} (h : CAp f g) {T : Table} {st : f.Tr} {st' : g.Tr}
    (hT : h.T st st') : Apx (retainPass C f st T) (retainPass C g st' T) fun x y => h.T x.1 y.1 ∧ x.2 = y.2 := by
  unfold retainPass
  refine Apx.loop (fun x y => x.1 = y.1 ∧ h.T x.2.1 y.2.1 ∧ x.2.2 = y.2.2) ⟨rfl, hT, rfl⟩ ?_
  rintro ⟨i, st, c⟩ ⟨_, st', _⟩ ⟨rfl, h1, rfl⟩
  refine Apx.ite (fun _ => Apx.same fun m => ?_) fun _ => Apx.ret (.inr ⟨_, _, rfl, rfl, h1, rfl⟩)
  refine Apx.ite (fun _ => Apx.ret (.inl ⟨_, _, rfl, rfl, rfl, h1, rfl⟩)) fun _ => Apx.same fun s => ?_
  refine Apx.bind _ (ap_deleteLoop h h1) ?_
  rintro ⟨st, b⟩ ⟨st', _⟩ ⟨h3, rfl⟩
  exact Apx.ret (.inl ⟨_, _, rfl, rfl, rfl, h3, rfl⟩)

theorem ap_retain {f g : Closure (K × V) Bool} (h : CAp f g) : Apx (retain C f) (retain C g) Eq := by
  unfold retain
  refine Apx.same fun r => ?_
  cases r with
  | none => exact Apx.ret rfl
  | some T =>
    refine Apx.loop (fun x y => x.1 = y.1 ∧ h.T x.2 y.2) ⟨rfl, h.start⟩ ?_
    rintro ⟨T, st⟩ ⟨_, st'⟩ ⟨rfl, h1⟩
    refine Apx.same fun T => Apx.bind _ (ap_retainPass h h1) ?_
    rintro ⟨st, c⟩ ⟨st', _⟩ ⟨h2, rfl⟩
    refine Apx.ite (fun _ => Apx.same fun n => Apx.ret (.inl ⟨_, _, rfl, rfl, rfl, h2⟩)) fun _ => ?_
    exact Apx.ret (.inr ⟨_, _, rfl, rfl, by rw [h2.2]⟩)

variable {R : Type} {f g : Closure (Option (K × V)) (Operation V R)}

/-- Related states of `compute`. -/
def CAp.St (h : CAp f g) (c : CState K V R f) (d : CState K V R g) : Prop :=
  h.T c.st d.st ∧ c.insert = d.insert ∧ c.update = d.update

theorem ap_next (h : CAp f g) {c : CState K V R f} {d : CState K V R g} {e : Option (Entry K V)} (hc : h.St c d) :
    Apx (c.next e) (d.next e) fun x y => h.St x.1 y.1 ∧ x.2 = y.2 := by
  obtain ⟨st, ins, upd⟩ := c
  obtain ⟨st', _, _⟩ := d
  obtain ⟨h1, h2, h3⟩ := hc
  cases h2; cases h3
  unfold CState.next
  cases e with
  | none =>
    cases ins with
    | some v => exact Apx.ret ⟨⟨h1, rfl, rfl⟩, rfl⟩
    | none =>
      refine Apx.bind _ (ap_invoke h h1) ?_
      rintro ⟨st, b⟩ ⟨st', _⟩ ⟨h3, rfl⟩
      exact Apx.ret ⟨⟨h3, rfl, rfl⟩, rfl⟩
  | some e =>
    cases upd with
    | some x =>
      obtain ⟨id, op⟩ := x
      refine Apx.same fun b => Apx.ite (fun _ => Apx.ret ⟨⟨h1, rfl, rfl⟩, rfl⟩) fun _ => Apx.same fun _ => ?_
      refine Apx.bind _ (ap_invoke h h1) ?_
      rintro ⟨st, b⟩ ⟨st', _⟩ ⟨h3, rfl⟩
      exact Apx.ret ⟨⟨h3, rfl, rfl⟩, rfl⟩
    | none =>
      refine Apx.same fun _ => Apx.bind _ (ap_invoke h h1) ?_
      rintro ⟨st, b⟩ ⟨st', _⟩ ⟨h3, rfl⟩
      exact Apx.ret ⟨⟨h3, rfl, rfl⟩, rfl⟩

theorem ap_restore (h : CAp f g) {c : CState K V R f} {d : CState K V R g} {e : Option (Entry K V)} {o : Operation V R}
    (hc : h.St c d) : Apx (c.restore e o) (d.restore e o) h.St := by
  obtain ⟨h1, h2, h3⟩ := hc
  unfold CState.restore
  cases e with
  | some e => exact Apx.ret ⟨h1, h2, rfl⟩
  | none =>
    cases o with
    | insert v => exact Apx.ret ⟨h1, rfl, h3⟩
    | remove => exact Apx.panic
    | abort a => exact Apx.panic

/-- Related outcomes of the inner loops. -/
def CAp.W (h : CAp f g) {A B : Type} (P : (CState K V R f × A) ⊕ (CState K V R f × B)) (Q : (CState K V R g × A) ⊕ (CState K V R g × B)) :
    Prop := (∃ c d x, P = .inl (c, x) ∧ Q = .inl (d, x) ∧ h.St c d) ∨ ∃ c d y, P = .inr (c, y) ∧ Q = .inr (d, y) ∧ h.St c d

theorem ap_computeFailure (h : CAp f g) {T : Table} {probe : Probe} {c : CState K V R f} {d : CState K V R g} {s : EStat K V}
    (hc : h.St c d) : Apx (computeFailure T probe c s) (computeFailure T probe d s) fun x y =>
      (∃ c d z, x = .inl (c, z) ∧ y = .inl (d, z) ∧ h.St c d) ∨ ∃ u v, x = .inr u ∧ y = .inr v ∧ h.W u v := by
  unfold computeFailure
  cases s with
  | copied e s => exact Apx.ret (.inr ⟨_, _, rfl, rfl, .inr ⟨_, _, _, rfl, rfl, hc⟩⟩)
  | value e s => exact Apx.ret (.inl ⟨_, _, _, rfl, rfl, hc⟩)
  | null =>
    refine Apx.bind _ (ap_next h hc) ?_
    rintro ⟨c, op⟩ ⟨d, _⟩ ⟨h1, rfl⟩
    cases op with
    | insert v => exact Apx.bind _ (ap_restore h h1) fun c d h2 => Apx.ret (.inr ⟨_, _, rfl, rfl, .inl ⟨_, _, _, rfl, rfl, h2⟩⟩)
    | remove => exact Apx.panic
    | abort a => exact Apx.ret (.inr ⟨_, _, rfl, rfl, .inr ⟨_, _, _, rfl, rfl, h1⟩⟩)

theorem ap_computeLoop (h : CAp f g) {k : K} {T : Table} {probe : Probe} {c : CState K V R f} {d : CState K V R g}
    {e : Entry K V} {s : Slot K V} (hc : h.St c d) :
    Apx (computeLoop C k T probe c e s) (computeLoop C k T probe d e s) h.W := by
  unfold computeLoop
  refine Apx.loop (fun x y => h.St x.1 y.1 ∧ x.2 = y.2) ⟨hc, rfl⟩ ?_
  rintro ⟨c, e, s⟩ ⟨d, e', s'⟩ ⟨h1, h2⟩
  cases h2
  have hfail : ∀ {st : EStat K V} {c : CState K V R f} {d : CState K V R g}, h.St c d →
      Apx (computeFailure T probe c st) (computeFailure T probe d st) fun x y =>
        (∃ s' t', x = .inl s' ∧ y = .inl t' ∧ h.St s'.1 t'.1 ∧ s'.2 = t'.2) ∨ ∃ u v, x = .inr u ∧ y = .inr v ∧ h.W u v := by
    intro st c d hc
    refine (ap_computeFailure h hc).post ?_
    rintro x y (⟨c, d, z, rfl, rfl, h3⟩ | h3)
    · exact .inl ⟨_, _, rfl, rfl, h3, rfl⟩
    · exact .inr h3
  refine Apx.bind _ (ap_next h h1) ?_
  rintro ⟨c, op⟩ ⟨d, _⟩ ⟨h1, rfl⟩
  cases op with
  | abort a => exact Apx.ret (.inr ⟨_, _, rfl, rfl, .inr ⟨_, _, _, rfl, rfl, h1⟩⟩)
  | insert v =>
    refine Apx.same fun r => ?_
    cases r with
    | replaced o =>
      cases o with
      | some new => exact Apx.ret (.inr ⟨_, _, rfl, rfl, .inr ⟨_, _, _, rfl, rfl, h1⟩⟩)
      | none => exact Apx.panic
    | found st => exact Apx.bind _ (ap_restore h h1) fun c d h2 => hfail h2
  | remove =>
    refine Apx.same fun r => ?_
    cases r with
    | replaced o => exact Apx.same fun _ => Apx.same fun _ => Apx.ret (.inr ⟨_, _, rfl, rfl, .inr ⟨_, _, _, rfl, rfl, h1⟩⟩)
    | found st => exact Apx.bind _ (ap_restore h h1) fun c d h2 => hfail h2

theorem ap_computeFound (h : CAp f g) {k : K} {T : Table} {probe : Probe} {c : CState K V R f} {d : CState K V R g}
    {e : Entry K V} {s : Slot K V} (hc : h.St c d) :
    Apx (computeFound C k T probe c e s) (computeFound C k T probe d e s) h.W := by
  unfold computeFound
  refine Apx.same fun _ => ?_
  refine Apx.ite (fun _ => Apx.ret (.inl ⟨_, _, _, rfl, rfl, hc⟩)) fun _ => ?_
  exact Apx.ite (fun _ => Apx.ret (.inr ⟨_, _, _, rfl, rfl, hc⟩)) fun _ => ap_computeLoop h hc

theorem ap_computeProbe (h : CAp f g) {k : K} {T : Table} {c : CState K V R f} {d : CState K V R g} (hc : h.St c d) :
    Apx (computeProbe C k T c) (computeProbe C k T d) fun x y => h.St x.1 y.1 ∧ x.2 = y.2 := by
  unfold computeProbe
  refine Apx.loop (fun x y => h.St x.1 y.1 ∧ x.2 = y.2) ⟨hc, rfl⟩ ?_
  rintro ⟨c, probe⟩ ⟨d, _⟩ ⟨h1, rfl⟩
  have hfound : ∀ {e : Entry K V} {s : Slot K V} {c : CState K V R f} {d : CState K V R g}, h.St c d →
      Apx (computeFound C k T probe c e s) (computeFound C k T probe d e s) fun x y =>
        (∃ s' t', x = .inl s' ∧ y = .inl t' ∧ h.St s'.1 t'.1 ∧ s'.2 = t'.2) ∨
          ∃ u v, x = .inr u ∧ y = .inr v ∧ h.St u.1 v.1 ∧ u.2 = v.2 := by
    intro e s c d hc
    refine (ap_computeFound h hc).post ?_
    rintro x y (⟨c, d, z, rfl, rfl, h3⟩ | ⟨c, d, z, rfl, rfl, h3⟩)
    · exact .inl ⟨_, _, rfl, rfl, h3, rfl⟩
    · exact .inr ⟨_, _, rfl, rfl, h3, rfl⟩
  refine Apx.ite (fun _ => Apx.same fun m => ?_) fun _ => Apx.ret (.inr ⟨_, _, rfl, rfl, h1, rfl⟩)
  refine Apx.ite (fun _ => ?_) fun _ => ?_
  · refine Apx.bind _ (ap_next h h1) ?_
    rintro ⟨c, op⟩ ⟨d, _⟩ ⟨h1, rfl⟩
    cases op with
    | remove => exact Apx.panic
    | abort a => exact Apx.ret (.inr ⟨_, _, rfl, rfl, h1, rfl⟩)
    | insert v =>
      refine Apx.same fun r => ?_
      cases r with
      | inserted e => exact Apx.same fun _ => Apx.ret (.inr ⟨_, _, rfl, rfl, h1, rfl⟩)
      | found st =>
        cases st with
        | value e s => exact Apx.bind _ (ap_restore h h1) fun c d h2 => hfound h2
        | copied e s => exact Apx.bind _ (ap_restore h h1) fun c d h2 => hfound h2
        | null => exact Apx.bind _ (ap_restore h h1) fun c d h2 => Apx.ret (.inl ⟨_, _, rfl, rfl, h2, rfl⟩)
  · refine Apx.ite (fun _ => Apx.same fun s => ?_) fun _ => Apx.ret (.inl ⟨_, _, rfl, rfl, h1, rfl⟩)
    cases hp : s.ptr with
    | none => exact Apx.ret (.inl ⟨_, _, rfl, rfl, h1, rfl⟩)
    | some e => exact hfound h1

theorem ap_computeInit (h : CAp f g) {c : CState K V R f} {d : CState K V R g} (hc : h.St c d) :
    Apx (computeInit C c) (computeInit C d) h.W := by
  unfold computeInit
  refine Apx.same fun r => ?_
  cases r with
  | some T => exact Apx.ret (.inl ⟨_, _, _, rfl, rfl, hc⟩)
  | none =>
    refine Apx.bind _ (ap_next h hc) ?_
    rintro ⟨c, op⟩ ⟨d, _⟩ ⟨h1, rfl⟩
    cases op with
    | insert v => exact Apx.bind _ (ap_restore h h1) fun c d h2 => Apx.same fun T => Apx.ret (.inl ⟨_, _, _, rfl, rfl, h2⟩)
    | remove => exact Apx.panic
    | abort a => exact Apx.ret (.inr ⟨_, _, _, rfl, rfl, h1⟩)

theorem ap_compute (h : CAp f g) {k : K} : Apx (compute C k f) (compute C k g) Eq := by
  unfold compute
  refine Apx.bind _ (ap_computeInit h (c := CState.new f) (d := CState.new g) ⟨h.start, rfl, rfl⟩) ?_
  rintro x y (⟨c, d, T, rfl, rfl, h1⟩ | ⟨c, d, a, rfl, rfl, h1⟩)
  · refine Apx.loop (fun x y => x.1 = y.1 ∧ x.2.1 = y.2.1 ∧ h.St x.2.2 y.2.2) ⟨rfl, rfl, h1⟩ ?_
    rintro ⟨T, help, c⟩ ⟨_, _, d⟩ ⟨rfl, rfl, h1⟩
    refine Apx.bind _ (ap_computeProbe h h1) ?_
    rintro ⟨c, x⟩ ⟨d, _⟩ ⟨h2, rfl⟩
    cases x with
    | done r => exact Apx.ret (.inr ⟨_, _, rfl, rfl, by rw [h2.1.2]⟩)
    | retry copying =>
      refine Apx.same fun n => ?_
      cases n with
      | some next => exact Apx.ret (.inl ⟨_, _, rfl, rfl, rfl, rfl, h2⟩)
      | none =>
        refine Apx.bind _ (ap_next h h2) ?_
        rintro ⟨c, op⟩ ⟨d, _⟩ ⟨h3, rfl⟩
        cases op with
        | insert v =>
          exact Apx.same fun N => Apx.bind _ (ap_restore h h3) fun c d h4 => Apx.ret (.inl ⟨_, _, rfl, rfl, rfl, rfl, h4⟩)
        | abort a => exact Apx.ret (.inr ⟨_, _, rfl, rfl, by rw [h3.1.2]⟩)
        | remove => exact Apx.panic
  · exact Apx.ret (by rw [h1.1.2])

/-- An operation does not depend on answers that have not been given. -/
theorem ap_call {c : OCall K V R} {l l' : List (Ans V R)} (hl : l <+: l') :
    Apx ((c.fill l).prog C) ((c.fill l').prog C) fun _ _ => True := by
  have hfm : ∀ {B : Type} (s : Ans V R → Option B), l.filterMap s <+: l'.filterMap s := by
    intro B s
    obtain ⟨d, rfl⟩ := hl
    rw [List.filterMap_append]
    exact List.prefix_append _ _
  have htry : ∀ k, Apx (tryInsertWith C k (.replay (l.filterMap Ans.val?))) (tryInsertWith C k (.replay (l'.filterMap Ans.val?)))
      (Eq : Entry K V ⊕ Entry K V → Entry K V ⊕ Entry K V → Prop) := by
    intro k
    unfold tryInsertWith
    refine Apx.bind Eq (ap_compute (CAp.tryInsert (CAp.replay (hfm _)))) ?_
    rintro x _ rfl
    exact Apx.refl _
  have hui : ∀ (k : K) (f f' : Closure Unit V), CAp f f' →
      Apx (updateOrInsertWith C k (.replay (l.filterMap Ans.upd?)) f) (updateOrInsertWith C k (.replay (l'.filterMap Ans.upd?)) f') Eq := by
    intro k f f' hf
    unfold updateOrInsertWith
    refine Apx.bind Eq (ap_compute (CAp.updIns (CAp.replay (hfm _)) hf)) ?_
    rintro x _ rfl
    exact Apx.refl _
  cases c with
  | plain c => exact (Apx.refl _).post fun _ _ _ => trivial
  | tryInsertWith k => exact (htry k).post fun _ _ _ => trivial
  | getOrInsertWith k =>
    show Apx (getOrInsertWith C k _) (getOrInsertWith C k _) _
    unfold getOrInsertWith
    refine Apx.bind Eq (htry k) ?_
    rintro x _ rfl
    exact (Apx.refl _).post fun _ _ _ => trivial
  | update k =>
    show Apx (update C k _) (update C k _) _
    unfold update
    refine Apx.bind Eq (ap_compute (CAp.upd (CAp.replay (hfm _)))) ?_
    rintro x _ rfl
    exact (Apx.refl _).post fun _ _ _ => trivial
  | updateOrInsert k v => exact (hui k _ _ (CAp.refl _)).post fun _ _ _ => trivial
  | updateOrInsertWith k => exact (hui k _ _ (CAp.replay (hfm _))).post fun _ _ _ => trivial
  | compute k => exact (ap_compute (CAp.replay (hfm _))).post fun _ _ _ => trivial
  | removeIf k => exact (ap_removeIf (CAp.replay (hfm _))).post fun _ _ _ => trivial
  | retain => exact (ap_retain (CAp.replay (hfm _))).post fun _ _ _ => trivial

end Ops

end Papaya
