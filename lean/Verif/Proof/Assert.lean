import Verif.Proof.Rg

/-! # Assertions and their stability -/

set_option linter.unusedSectionVars false
set_option linter.unusedVariables false

namespace Papaya

variable {K V : Type} [DecidableEq K]

open GSt

/-! ## Own steps -/

theorem Own0.quiet {t : Tid} {S S' : GSt K V} (h1 : S'.seq t = S.seq t) (h2 : S'.invPos t = S.invPos t)
    (h3 : S'.rInv t = S.rInv t) (h4 : S'.pr t = S.pr t) (h5 : S'.pinned t = S.pinned t) (h6 : S'.info = S.info)
    (h7 : S'.log = S.log) (h8 : S'.pays = S.pays) (h9 : S'.tok = S.tok) (h10 : S'.blockers = S.blockers) :
    Own0 t S S' where
  seq := h1
  invPos := h2
  rInv := h3
  pr := h4
  pinned := h5
  info id x h _ := by rw [h6] at h; exact h
  evs ev h := by rw [h7] at h; simp at h
  pays := ⟨[], by rw [h8]; simp, by simp⟩
  tok' id U b h := by rw [h9] at h; exact h
  prot e h := by
    obtain ⟨g1, g2, g3⟩ := h
    refine ⟨by rw [h5]; exact g1, by rw [h6]; exact g2, ?_⟩
    rw [h9, h10, h4]; exact g3

theorem OwnQ.quiet {t : Tid} {S S' : GSt K V} (h1 : S'.seq t = S.seq t) (h2 : S'.invPos t = S.invPos t)
    (h3 : S'.rInv t = S.rInv t) (h4 : S'.pr t = S.pr t) (h5 : S'.pinned t = S.pinned t) (h6 : S'.info = S.info)
    (h7 : S'.log = S.log) (h8 : S'.pays = S.pays) (h9 : S'.tok = S.tok) (h10 : S'.blockers = S.blockers)
    (h11 : S'.cs = S.cs) (h12 : S'.tabTok = S.tabTok) : OwnQ t S S' :=
  (Own0.quiet h1 h2 h3 h4 h5 h6 h7 h8 h9 h10).ownQ h11 h9 h12

namespace GSt

variable {C : Cfg K} {S S' : GSt K V} {t : Tid}

theorem retireSt_Own0 {e : Entry K V} {U : Nat} {b : Bool}
    (ht : S.tok e.id = .owned t U b) : Own0 t S (S.retireSt e U) := by
  have htk : ∀ id, (S.retireSt e U).tok id = if id = e.id then .retired U else S.tok id := fun _ => rfl
  refine ⟨rfl, rfl, rfl, rfl, rfl, fun _ _ h _ => h, ?_, ⟨[], by simp [retireSt, St.retireEntry], by simp⟩, ?_, ?_⟩
  · intro ev h
    have : ev ∈ S.log.drop S.log.length := h
    simp at this
  · intro id U' b' h
    rw [htk] at h
    split at h
    · cases h
    · exact h
  · intro e' hp
    obtain ⟨h1, h2, h3⟩ := hp
    refine ⟨h1, h2, ?_⟩
    rw [htk]
    by_cases hid : e'.id = e.id
    · rw [if_pos hid]
      show (if e'.id = e.id then S.pinned t else S.blockers e'.id t) = true
      rw [if_pos hid]; exact h1
    · rw [if_neg hid]
      revert h3
      cases S.tok e'.id with
      | retired U' =>
        intro h3
        show (if e'.id = e.id then S.pinned t else S.blockers e'.id t) = true
        rw [if_neg hid]; exact h3
      | live => exact fun h => h
      | owned _ _ _ => exact fun h => h
      | deferred _ => exact fun h => h

theorem pushSt_Own0 {e : Entry K V} {P : Nat}
    (ht : S.tok e.id = .owned t (P + 1) true) : Own0 t S (S.pushSt P e) := by
  have htk : ∀ id, (S.pushSt P e).tok id = if id = e.id then .deferred P else S.tok id := fun _ => rfl
  refine ⟨rfl, rfl, rfl, rfl, rfl, fun _ _ h _ => h, ?_, ⟨[], by simp [pushSt], by simp⟩, ?_, ?_⟩
  · intro ev h
    have : ev ∈ S.log.drop S.log.length := h
    simp at this
  · intro id U' b' h
    rw [htk] at h
    split at h
    · cases h
    · exact h
  · intro e' hp
    obtain ⟨h1, h2, h3⟩ := hp
    refine ⟨h1, h2, ?_⟩
    rw [htk]
    by_cases hid : e'.id = e.id
    · rw [if_pos hid]
      rw [hid, ht] at h3
      have := h3 rfl
      show S.pr t ≤ P
      omega
    · rw [if_neg hid]
      exact h3

theorem rootSt_Own0 {N : Nat} (h : S.Inv C) (hpr : S.CopyPair S.rt N) : Own0 t S (S.rootSt t N) := by
  have := (rootSt_Own (t := t + 1) (t' := t) (N := N) (Nat.ne_of_lt (Nat.lt_succ_self t)) h hpr).own0
  exact ⟨this.1, this.2, this.3, this.4, this.5, this.6, this.7, this.8, this.9, this.10⟩

/-! ## Facts that persist -/

theorem root_mono (hs : S.InvS C) (he : Evo S S') {T : Nat} (hT : T < S.nTabs) : S.rt ≤ S'.rt := by
  obtain ⟨r', h1, h2⟩ := he.root _ (root_eq hs hT)
  have : S'.rt = r' := by unfold rt; rw [h1]; rfl
  omega

theorem rt_mono (he : Evo S S') : S.rt ≤ S'.rt := by
  cases hr : S.root with
  | none => have : S.rt = 0 := by unfold rt; rw [hr]; rfl
            omega
  | some r =>
    obtain ⟨r', h1, h2⟩ := he.root _ hr
    have h3 : S'.rt = r' := by unfold rt; rw [h1]; rfl
    have h4 : S.rt = r := by unfold rt; rw [hr]; rfl
    omega

theorem handle_mono (he : Evo S S') {T : Nat} (hT : T < S.nTabs) : S'.handle T = S.handle T := by
  unfold St.handle; rw [he.cap T hT]

theorem pos_mono (he : Evo S S') {T : Nat} (hT : T < S.nTabs) (k : K) (n : Nat) : S'.pos C T k n = S.pos C T k n := by
  unfold pos; rw [he.cap T hT]

theorem lim_mono (he : Evo S S') {T : Nat} (hT : T < S.nTabs) : S'.lim T = S.lim T := by
  unfold lim; rw [he.cap T hT]

theorem md_nonnull (hp : S.InvP C) {T i : Nat} (h : S.md T i ≠ EMPTY) : S.slot T i ≠ Slot.null :=
  fun h' => h (hp.p1 T i h')

/-- The key of a slot persists. -/
def Keyed (S : GSt K V) (T i : Nat) (k : K) : Prop := S.slot T i ≠ Slot.null ∧ ∀ e, S.kslot T i e → e.key = k

/-- A slot that lost its entry. -/
def Nulled (S : GSt K V) (T i : Nat) : Prop := S.slot T i ≠ Slot.null ∧ (S.slot T i).ptr = none

theorem Nulled.mono (he : Evo S S') {T i : Nat} (h : S.Nulled T i) : S'.Nulled T i :=
  ⟨he.nnull _ _ h.1, he.null _ _ h.1 h.2⟩

theorem slot_key (he : Evo S S') {T i : Nat} {e' : Entry K V} (hnn : S.slot T i ≠ Slot.null) (h : S'.kslot T i e') :
    ∃ e, S.kslot T i e ∧ e'.key = e.key := by
  cases hp : (S.slot T i).ptr with
  | none =>
    have := he.null T i hnn hp
    unfold kslot at h
    rw [this] at h; cases h
  | some e =>
    refine ⟨e, hp, ?_⟩
    rcases he.key T i e hp with ⟨h1, _⟩ | ⟨e2, h1, h2⟩
    · unfold kslot at h; rw [h1] at h; cases h
    · rw [kslot_inj h h1]; exact h2

theorem Keyed.mono (he : Evo S S') {T i : Nat} {k : K} (h : S.Keyed T i k) : S'.Keyed T i k := by
  refine ⟨he.nnull _ _ h.1, fun e' hk => ?_⟩
  obtain ⟨e, h1, h2⟩ := slot_key he h.1 hk
  rw [h2]; exact h.2 e h1

theorem dead_mono (hp : S.InvP C) (he : Evo S S') {T i : Nat} {k : K} (h : S.dead T i k) : S'.dead T i k := by
  refine ⟨he.md _ _ h.1, fun e' hk => ?_⟩
  obtain ⟨e, h1, h2⟩ := slot_key he (md_nonnull hp h.1) hk
  rw [h2]; exact h.2 e h1

theorem over_mono (hs : S.InvS C) (hp : S.InvP C) (he : Evo S S') {T : Nat} {k : K} (h : S.over C T k) :
    S'.over C T k := by
  have hT : T < S.nTabs := by
    by_contra hh; exact not_over hs (by omega) h
  intro n hn
  rw [lim_mono he hT] at hn
  rw [pos_mono he hT]
  exact dead_mono hp he (h n hn)

theorem moved_mono (hp : S.InvP C) (he : Evo S S') {T i : Nat} {e : Entry K V} (hk : S.kslot T i e)
    (h : S.moved T i) : S'.kslot T i e ∧ S'.moved T i := by
  have hf := he.frozen T i (hp.p7 T i e hk h.1).2
  exact ⟨by unfold kslot; rw [hf.1]; exact hk, he.copied _ _ _ hk h.1, he.md _ _ h.2⟩

theorem passed_mono (hs : S.InvS C) (hp : S.InvP C) (he : Evo S S') {T : Nat} {k : K} (h : S.passed C T k) :
    S'.passed C T k := by
  rcases h with h | ⟨i, e, h1, h2, h3⟩
  · exact .inl (over_mono hs hp he h)
  · have := moved_mono hp he h1 h3
    exact .inr ⟨i, e, this.1, h2, this.2⟩

theorem AtTable.mono (h : S.Inv C) (h' : S'.Inv C) (he : Evo S S') (ho : S'.rInv t = S.rInv t) {k : K} {T : Nat}
    (ha : S.AtTable C t k T) : S'.AtTable C t k T := by
  have hn := he.nTabs
  refine ⟨by have := ha.1; omega, by rw [ho]; exact ha.2.1, ?_⟩
  rcases ha.2.2 with hw | ⟨h1, h2, h3⟩
  · exact .inl (he.wasRoot T hw)
  · have hr := rt_mono he
    by_cases hlt : S'.rt < T
    · exact .inr ⟨h1, hlt, fun P g1 g2 => passed_mono h.s h.p he (h3 P (by omega) g2)⟩
    · exact .inl (inc_wasRoot h'.s h1 (by omega) (by have := ha.1; omega))

end GSt

/-! ## Assertions -/

/-- Thread `t` may access table `T`. -/
def Acc (t : Tid) (T : Table) (S : GSt K V) : Prop :=
  S.pinned t = true ∧ T.id < S.nTabs ∧ S.handle T.id = T ∧ S.pr t ≤ T.id

variable {C : Cfg K} {t : Tid}

namespace Acc

variable {S : GSt K V} {T : Table}

theorem tabOk (h : S.Inv C) (ha : Acc t T S) : S.TabOk T.id :=
  ⟨ha.2.1, tab_not_freed h ha.1 ha.2.2.2⟩

theorem mask (ha : Acc t T S) : T.mask = S.cap T.id - 1 := by
  have := congrArg Table.mask ha.2.2.1; exact this.symm

theorem limit (ha : Acc t T S) : T.limit = S.lim T.id := by
  have := congrArg Table.limit ha.2.2.1; exact this.symm

theorem len (h : S.Inv C) (ha : Acc t T S) : T.len = S.cap T.id := by
  unfold Table.len
  rw [ha.mask]
  have := (h.s.cap T.id ha.2.1).2.1
  omega

theorem after (ha : Acc t T S) (k : K) (n : Nat) : (Probe.after (C.h1 k) T.mask n).i = S.pos C T.id k n := by
  unfold pos; rw [ha.mask]

theorem idx (h : S.Inv C) (ha : Acc t T S) (k : K) (n : Nat) : (Probe.after (C.h1 k) T.mask n).i < S.cap T.id := by
  rw [ha.after]; exact pos_lt h.s ha.2.1 k n

theorem prot (h : S.Inv C) (ha : Acc t T S) {i : Nat} {e : Entry K V} (hk : S.kslot T.id i e) : S.Prot t e := by
  obtain ⟨x, h1, h2⟩ := h.p.p3 _ _ _ hk
  refine ⟨ha.1, ⟨x, h1, h2⟩, ?_⟩
  have hpr := ha.2.2.2
  cases htk : S.tok e.id with
  | live => trivial
  | owned t' U b =>
    intro _
    have := h.m.m1 _ _ _ U hk (.inl ⟨t', b, htk⟩)
    omega
  | retired U =>
    have h3 := h.m.m1 _ _ _ U hk (.inr (.inl htk))
    rcases (h.m.m3 _ _ t htk).2.2 ha.1 with h4 | h4
    · exact h4
    · omega
  | deferred P =>
    have h3 := h.m.m1 _ _ _ (P + 1) hk (.inr (.inr ⟨P, rfl, htk⟩))
    show S.pr t ≤ P
    omega

end Acc

instance {T : Table} : Inert (V := V) C t (Acc t T) := ⟨fun S S' h1 h2 h3 h4 h =>
  ⟨by rw [h4.pinned]; exact h.1, by have := h3.nTabs; have := h.2.1; omega,
    by rw [handle_mono h3 h.2.1]; exact h.2.2.1, by rw [h4.pr]; exact h.2.2.2⟩⟩

theorem Inert.mono {P : GSt K V → Prop} (h : ∀ S S', S.Inv C → S'.Inv C → Evo S S' → P S → P S') : Inert C t P :=
  ⟨fun S S' h1 h2 h3 _ hp => h S S' h1 h2 h3 hp⟩

instance {k : K} {T : Nat} : Inert (V := V) C t fun S => S.AtTable C t k T :=
  ⟨fun S S' h1 h2 h3 h4 h => AtTable.mono h1 h2 h3 h4.rInv h⟩

instance {k : K} {T i : Nat} : Inert (V := V) C t fun S => S.dead T i k :=
  Inert.mono fun S S' h1 h2 h3 h => dead_mono h1.p h3 h

instance {T i : Nat} {k : K} : Inert (V := V) C t fun S => S.Keyed T i k :=
  Inert.mono fun S S' h1 h2 h3 h => h.mono h3

instance {T i : Nat} : Inert (V := V) C t fun S => S.Nulled T i :=
  Inert.mono fun S S' h1 h2 h3 h => h.mono h3

instance {T i : Nat} : Inert (V := V) C t fun S => S.md T i ≠ EMPTY :=
  Inert.mono fun S S' h1 h2 h3 h => h3.md _ _ h

instance {T : Nat} {k : K} : Inert (V := V) C t fun S => S.over C T k :=
  Inert.mono fun S S' h1 h2 h3 h => over_mono h1.s h1.p h3 h

instance {T : Nat} {k : K} : Inert (V := V) C t fun S => S.passed C T k :=
  Inert.mono fun S S' h1 h2 h3 h => passed_mono h1.s h1.p h3 h

instance {T : Nat} : Inert (V := V) C t fun S => S.wasRoot T :=
  Inert.mono fun S S' h1 h2 h3 h => h3.wasRoot _ h

instance {T : Nat} : Inert (V := V) C t fun S => S.aborted T :=
  Inert.mono fun S S' h1 h2 h3 h => h3.aborted _ h

instance {T : Nat} : Inert (V := V) C t fun S => T < S.nTabs :=
  Inert.mono fun S S' h1 h2 h3 h => Nat.lt_of_lt_of_le h h3.nTabs

instance {T : Nat} : Inert (V := V) C t fun S => T ≤ S.rt :=
  Inert.mono fun S S' h1 h2 h3 h => Nat.le_trans h (rt_mono h3)

instance {T : Nat} : Inert (V := V) C t fun S => T < S.rt :=
  Inert.mono fun S S' h1 h2 h3 h => Nat.lt_of_lt_of_le h (rt_mono h3)

/-- Slot `(T, i)` is frozen with entry `e`. -/
def Frozen (T i : Nat) (e : Entry K V) (S : GSt K V) : Prop := S.kslot T i e ∧ S.copying T i

instance {T i : Nat} {e : Entry K V} : Inert C t (Frozen T i e) :=
  Inert.mono fun S S' h1 h2 h3 h => by
    have := h3.frozen T i h.2
    exact ⟨by unfold kslot; rw [this.1]; exact h.1, this.2.1⟩

instance {e : Entry K V} : Inert C t fun S => S.Prot t e := ⟨fun S S' h1 h2 h3 h4 h => h4.prot e h⟩

instance {T : Nat} : Inert (V := V) C t fun S => S.rInv t ≤ T :=
  ⟨fun S S' h1 h2 h3 h4 h => by rw [h4.rInv]; exact h⟩

instance {e : Entry K V} : Inert C t fun S => S.logged e :=
  Inert.mono fun S S' h1 h2 h3 h => logged_mono h3.log h

instance {id : Nat} {x : EInfo K V} : Inert C t fun S => S.info id = some x :=
  Inert.mono fun S S' h1 h2 h3 h => h3.info _ _ h

/-- The current operation has not taken effect. -/
instance : Inert (V := V) C t fun S : GSt K V => S.FreshOp t := ⟨fun S S' h1 h2 h3 h4 h => by
  unfold FreshOp
  rw [h4.seq]
  refine ⟨fun ev hev hop => ?_, fun id x hx hop => ?_⟩
  · obtain ⟨l, hl⟩ := h3.log
    rw [← hl] at hev
    rcases List.mem_append.1 hev with g | g
    · exact h.1 ev g hop
    · obtain ⟨_, e, x, _, g2, _, g4, _⟩ := h4.evs ev (by rw [← hl]; simpa using g) (by rw [hop])
      exact h.2 _ x g2 (g4.trans hop)
  · exact h.2 id x (h4.info id x hx (by rw [hop])) hop⟩

/-- Everything thread `t` published has been logged. -/
def Quiet (t : Tid) (S : GSt K V) : Prop := ∀ id x, S.info id = some x → x.op.1 = t → S.logged x.entry

/-- What thread `t` still owes to the counters. -/
def Due (t : Tid) (d : Int) (S : GSt K V) : Prop := net t S.log - netPays t S.pays = d

/-- `t` has nothing to retire. -/
def NoTok (t : Tid) (S : GSt K V) : Prop := ∀ id U b, S.tok id ≠ .owned t U b

instance : Inert (V := V) C t (NoTok (K := K) t) :=
  ⟨fun S S' h1 h2 h3 h4 h id U b hb => h id U b (h4.tok' id U b hb)⟩

instance : Inert (V := V) C t (Quiet (K := K) t) :=
  ⟨fun S S' h1 h2 h3 h4 h id x hx ho => logged_mono h3.log (h id x (h4.info id x hx ho) ho)⟩

theorem net_append (l l' : List (Ev K V)) : net t (l ++ l') = net t l + net t l' := by
  unfold net; simp

theorem netPays_append (l l' : List (Tid × Int)) : netPays t (l ++ l') = netPays t l + netPays t l' := by
  unfold netPays; simp

theorem net_other {l : List (Ev K V)} (h : ∀ ev ∈ l, ev.op.1 ≠ t) : net t l = 0 := by
  unfold net
  rw [List.filter_eq_nil_iff.2]
  · rfl
  · intro a ha; simpa using h a ha

theorem netPays_other {l : List (Tid × Int)} (h : ∀ p ∈ l, p.1 ≠ t) : netPays t l = 0 := by
  unfold netPays
  rw [List.filter_eq_nil_iff.2]
  · rfl
  · intro a ha; simpa using h a ha

/-- No other thread logs for a quiet thread. -/
theorem quiet_evs {S S' : GSt K V} (he : Evo S S') (ho : Own0 t S S') (hq : Quiet t S) {l : List (Ev K V)}
    (hl : S.log ++ l = S'.log) : ∀ ev ∈ l, ev.op.1 ≠ t := by
  intro ev hev hop
  obtain ⟨_, e, x, _, g2, g3, g4, g5⟩ := ho.evs ev (by rw [← hl]; simpa using hev) hop
  exact g5 (g3 ▸ hq _ x g2 (by rw [g4]; exact hop))

instance {d : Int} : Inert (V := V) C t fun S : GSt K V => Quiet t S ∧ Due t d S :=
  ⟨fun S S' h1 h2 h3 h4 h => by
    refine ⟨Inert.inert (C := C) (t := t) S S' h1 h2 h3 h4 h.1, ?_⟩
    obtain ⟨l, hl⟩ := h3.log
    obtain ⟨m, hm, hm'⟩ := h4.pays
    unfold Due
    rw [← hl, hm, net_append, netPays_append, net_other (quiet_evs h3 h4 h.1 hl), netPays_other hm']
    have := h.2
    unfold Due at this
    omega⟩

/-- The specification of the current operation of `t`. -/
def OpIs (t : Tid) (o : OpI K V) (S : GSt K V) : Prop := S.ops (t, S.seq t) = o

instance {o : OpI K V} : Inert C t (OpIs t o) := ⟨fun S S' h1 h2 h3 h4 h => by
  unfold OpIs
  rw [h4.seq, h3.ops (t, S.seq t) (Nat.le_refl _)]; exact h⟩

/-- `k` was associated with `x` at some instant of the current operation. -/
def SeenIn (t : Tid) (k : K) (x : Option (Entry K V)) (S : GSt K V) : Prop := Seen (S.invPos t) S.log k x

instance {k : K} {x : Option (Entry K V)} : Inert C t (SeenIn t k x) := ⟨fun S S' h1 h2 h3 h4 h => by
  unfold SeenIn at *
  rw [h4.invPos]; exact h.mono h3.log⟩

theorem SeenIn.now {S : GSt K V} (h : S.Inv C) {k : K} {x : Option (Entry K V)} (hx : abs S.log k = x) :
    SeenIn t k x S := Seen.now hx (h.e.e6 t)

/-- If `e` has been logged, it was current at some instant of the current operation. -/
def SeenIf (t : Tid) (k : K) (e : Entry K V) (S : GSt K V) : Prop := S.logged e → SeenIn t k (some e) S

theorem ev_split {S : GSt K V} {l0 : List (Ev K V)} (hp : l0 <+: S.log) {ev : Ev K V} (hev : ev ∈ S.log)
    (hn : ev ∉ l0) : ∃ l, l ++ [ev] <+: S.log ∧ l0 <+: l := by
  obtain ⟨m, hm⟩ := hp
  rw [← hm] at hev
  rcases List.mem_append.1 hev with h | h
  · exact absurd h hn
  · obtain ⟨a, b, hab⟩ := List.append_of_mem h
    exact ⟨l0 ++ a, ⟨b, by rw [← hm, hab]; simp⟩, List.prefix_append _ _⟩

instance {k : K} {e : Entry K V} : Inert C t fun S => SeenIf t k e S ∧ e.key = k := ⟨fun S S' h1 h2 h3 h4 h => by
  refine ⟨fun hl => ?_, h.2⟩
  by_cases hlg : S.logged e
  · exact Inert.inert (C := C) (t := t) S S' h1 h2 h3 h4 (h.1 hlg)
  · obtain ⟨ev, g1, g2⟩ := hl
    obtain ⟨l, g3, g4⟩ := ev_split h3.log g1 (fun hmem => hlg ⟨ev, hmem, g2⟩)
    obtain ⟨x, _, _, _, g5, _⟩ := (h2.e.e1 l ev g3).new e g2
    refine ⟨l ++ [ev], g3, ?_, ?_⟩
    · have := h1.e.e6 t
      have := g4.length_le
      rw [h4.invPos]
      simp; omega
    · rw [abs_snoc, if_pos (h.2 ▸ g5), g2]⟩

/-- A slot that held key `k` still does, or `k` was absent at some instant. -/
def GoneOr (t : Tid) (T i : Nat) (k : K) (S : GSt K V) : Prop :=
  (∃ e, S.kslot T i e ∧ e.key = k) ∨ SeenIn t k none S

instance {T i : Nat} {k : K} : Inert (V := V) C t (GoneOr (V := V) t T i k) := ⟨fun S S' h1 h2 h3 h4 h => by
  rcases h with ⟨e, g1, g2⟩ | h
  · rcases h3.key T i e g1 with ⟨_, g4⟩ | ⟨e', g3, g4⟩
    · right; rw [g2] at g4; exact SeenIn.now h2 g4
    · left; exact ⟨e', g3, g4.trans g2⟩
  · right; exact Inert.inert (C := C) (t := t) S S' h1 h2 h3 h4 h⟩

/-- The current operation took effect: it changed `k` from `old` to `new`. -/
def DoneEv (t : Tid) (k : K) (old new : Option (Entry K V)) (S : GSt K V) : Prop :=
  ∃ l, l ++ [⟨(t, S.seq t), k, old, new⟩] <+: S.log

instance {k : K} {old new : Option (Entry K V)} : Inert C t (DoneEv t k old new) := ⟨fun S S' h1 h2 h3 h4 h => by
  obtain ⟨l, h⟩ := h
  exact ⟨l, by rw [h4.seq]; exact h.trans h3.log⟩⟩

instance {T N : Nat} : Inert (V := V) C t fun S : GSt K V => S.CopyPair T N :=
  Inert.mono fun S S' h1 h2 h3 h =>
    ⟨h.1, Nat.lt_of_lt_of_le h.2.1 h3.nTabs, h3.wasRoot _ h.2.2.1, fun P g1 g2 => h3.aborted _ (h.2.2.2 P g1 g2)⟩

end Papaya
