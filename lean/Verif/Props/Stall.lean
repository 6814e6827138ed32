import Verif.Proof.Stall
import Verif.Spec.Stall
import Verif.Spec.Progress
import Verif.Props.Livelock
import Verif.Props.Deadlock
import Verif.Exec.Demo

/-! # C69: a blocking resize whose copier is gone is never finished -/

set_option linter.unusedSectionVars false
set_option linter.unusedVariables false

namespace Papaya

open GSt

variable {K V : Type} [DecidableEq K] {C : Cfg K} {ps ps' : PSt K V} {s N : Nat}

/-- The facts about the memory that remain true. -/
structure StallMem (H HN : Table) (n : Nat) (σ : St K V) : Prop where
  root : σ.root = some H.id
  next : σ.next H.id = some HN.id
  status : σ.status HN.id = .pending
  claimed : H.len ≤ σ.claim HN.id
  missing : σ.copied HN.id ≠ H.len
  hs : σ.handle H.id = H
  hN : σ.handle HN.id = HN
  tabs : σ.nTabs = n

theorem exec_stall {H HN : Table} {n : Nat} {t : Tid} {β : Type} {a : Act K V β} {σ σ' : St K V} {r : β}
    (he : Exec C t a σ r σ') (hok : (stallSys K V H HN).ok a) (h : StallMem H HN n σ) :
    StallMem H HN n σ' ∧ (stallSys K V H HN).res a r := by
  have copy : ∀ {σ' : St K V}, σ'.root = σ.root → σ'.next = σ.next → σ'.status = σ.status → σ'.claim = σ.claim →
      σ'.copied = σ.copied → σ'.cap = σ.cap → σ'.nTabs = σ.nTabs → StallMem H HN n σ' := by
    intro σ' h1 h2 h3 h4 h5 h6 h7
    refine ⟨by rw [h1]; exact h.root, by rw [h2]; exact h.next, by rw [h3]; exact h.status, by rw [h4]; exact h.claimed,
      by rw [h5]; exact h.missing, ?_, ?_, by rw [h7]; exact h.tabs⟩
    · have := h.hs; unfold St.handle at this ⊢; rw [h6]; exact this
    · have := h.hN; unfold St.handle at this ⊢; rw [h6]; exact this
  cases a with
  | loadRoot =>
    obtain ⟨rfl, rfl⟩ := he
    refine ⟨h, ?_⟩
    show σ'.root.map σ'.handle = some H
    rw [h.root, Option.map_some, h.hs]
  | casRootInit c =>
    have he : (match σ.root with
      | none => σ' = { σ.allocTable c .promoted with root := some σ.nTabs } ∧ r = σ'.handle σ.nTabs
      | some T => σ' = σ ∧ r = σ.handle T) := he
    rw [h.root] at he
    obtain ⟨rfl, rfl⟩ := he
    exact ⟨h, h.hs⟩
  | loadNext T =>
    obtain ⟨rfl, rfl⟩ := he
    obtain rfl : T = H.id := hok
    refine ⟨h, ?_⟩
    show (σ'.next H.id).map σ'.handle = some HN
    rw [h.next, Option.map_some, h.hN]
  | loadMd T i => obtain ⟨_, rfl⟩ := he; exact ⟨h, trivial⟩
  | storeMd T i m => obtain rfl : σ' = _ := he; exact ⟨copy rfl rfl rfl rfl rfl rfl rfl, trivial⟩
  | loadSlot T i => obtain ⟨_, rfl⟩ := he; exact ⟨h, trivial⟩
  | cas w T i exp new =>
    rcases he with ⟨_, _, rfl⟩ | ⟨_, _, rfl⟩
    · exact ⟨copy rfl rfl rfl rfl rfl rfl rfl, trivial⟩
    · exact ⟨h, trivial⟩
  | casNew w T i exp k v =>
    rcases he with ⟨_, _, rfl⟩ | ⟨_, _, rfl⟩
    · exact ⟨copy rfl rfl rfl rfl rfl rfl rfl, trivial⟩
    · exact ⟨h, trivial⟩
  | loadStatus T =>
    obtain ⟨rfl, rfl⟩ := he
    obtain rfl : T = HN.id := hok
    exact ⟨h, h.status⟩
  | parkStatus T =>
    obtain ⟨h1, rfl⟩ := he
    obtain rfl : T = HN.id := hok
    exact absurd h.status h1
  | loadClaim T =>
    obtain ⟨rfl, rfl⟩ := he
    obtain rfl : T = HN.id := hok
    exact ⟨h, h.claimed⟩
  | loadCopied T =>
    obtain ⟨rfl, rfl⟩ := he
    obtain rfl : T = HN.id := hok
    exact ⟨h, h.missing⟩
  | sameTable T T' => obtain ⟨_, rfl⟩ := he; exact ⟨h, trivial⟩
  | sameEntry x y => obtain ⟨_, rfl⟩ := he; exact ⟨h, trivial⟩
  | deref e => obtain rfl : σ' = _ := he; exact ⟨h, trivial⟩
  | retire e => obtain rfl : σ' = _ := he; exact ⟨copy rfl rfl rfl rfl rfl rfl rfl, trivial⟩
  | loadShard j => obtain ⟨_, rfl⟩ := he; exact ⟨h, trivial⟩
  | addCount d => obtain rfl : σ' = _ := he; exact ⟨copy rfl rfl rfl rfl rfl rfl rfl, trivial⟩
  | _ => exact hok.elim

/-- The invariant of the executions. -/
structure StallRun (H HN : Table) (n : Nat) (ps : PSt K V) : Prop where
  mem : StallMem H HN n ps.mem
  th : ∀ u c p, ps.th u = .run c p → Keeps H HN p

theorem StallRun.step {H HN : Table} {n : Nat} (hb : C.mode = .blocking) (h : StallRun H HN n ps) (hs : Step C ps ps') :
    StallRun H HN n ps' := by
  have hset : ∀ (u : Tid) (x : Th K V), (∀ c p, x = .run c p → Keeps H HN p) →
      ∀ u' c p, setTh ps.th u x u' = .run c p → Keeps H HN p := by
    intro u x hx u' c p hc
    unfold setTh at hc
    split at hc
    · exact hx c p hc
    · exact h.th u' c p hc
  have hmem : ∀ {σ' : St K V}, σ'.root = ps.mem.root → σ'.next = ps.mem.next → σ'.status = ps.mem.status →
      σ'.claim = ps.mem.claim → σ'.copied = ps.mem.copied → σ'.cap = ps.mem.cap → σ'.nTabs = ps.mem.nTabs →
      StallMem H HN n σ' := by
    intro σ' h1 h2 h3 h4 h5 h6 h7
    have g := h.mem
    refine ⟨by rw [h1]; exact g.root, by rw [h2]; exact g.next, by rw [h3]; exact g.status, by rw [h4]; exact g.claimed,
      by rw [h5]; exact g.missing, ?_, ?_, by rw [h7]; exact g.tabs⟩
    · have := g.hs; unfold St.handle at this ⊢; rw [h6]; exact this
    · have := g.hN; unfold St.handle at this ⊢; rw [h6]; exact this
  cases hs with
  | pin t _ => exact ⟨hmem rfl rfl rfl rfl rfl rfl rfl, hset _ _ nofun⟩
  | unpin t _ => exact ⟨hmem rfl rfl rfl rfl rfl rfl rfl, hset _ _ nofun⟩
  | abandon t _ => exact ⟨h.mem, hset _ _ nofun⟩
  | release t _ => exact ⟨hmem rfl rfl rfl rfl rfl rfl rfl, h.th⟩
  | inv t c _ _ => exact ⟨h.mem, hset _ _ fun c' p hc => by cases hc; exact keeps_call hb⟩
  | act t h1 he =>
    obtain ⟨h3, h4⟩ := Obs'.act_inv (h.th _ _ _ h1)
    obtain ⟨h5, h6⟩ := exec_stall he h3 h.mem
    exact ⟨h5, hset _ _ fun c' p hc => by cases hc; exact h4 _ h6⟩
  | loop t h1 =>
    have h2 := h.th _ _ _ h1
    exact ⟨h.mem, hset _ _ fun c' p hc => by cases hc; exact fun m => h2 (m + 1)⟩
  | ret t _ => exact ⟨h.mem, hset _ _ nofun⟩
  | panic t _ => exact ⟨h.mem, hset _ _ nofun⟩
  | freeEntry x _ _ _ => exact ⟨hmem rfl rfl rfl rfl rfl rfl rfl, h.th⟩
  | freeTable T _ _ _ => exact ⟨hmem rfl rfl rfl rfl rfl rfl rfl, h.th⟩

theorem StallRun.steps {H HN : Table} {n : Nat} (hb : C.mode = .blocking) (h : StallRun H HN n ps) (hs : Steps C ps ps') :
    StallRun H HN n ps' := by
  induction hs with
  | refl => exact h
  | tail _ hstep ih => exact ih.step hb hstep

theorem root_cap (h : Reach C ps) (hr : ps.mem.root = some s) : 8 ≤ ps.mem.cap s := by
  obtain ⟨S, g, ⟨g1, g2, _⟩, _⟩ := h.pinv 1
  have h1 := rootOk h hr
  rw [← g1] at h1 ⊢
  exact (g2.s.cap s h1).2.1

theorem handle_len (h : 8 ≤ ps.mem.cap s) : (ps.mem.handle s).len = ps.mem.cap s := by
  show ps.mem.cap s - 1 + 1 = _; omega

theorem stall_start (h : Reach C ps) (hU : Unattended ps) (ho : Orphaned ps s N) :
    StallRun (ps.mem.handle s) (ps.mem.handle N) ps.mem.nTabs ps := by
  have hlen := handle_len (root_cap h ho.root)
  refine ⟨⟨ho.root, ho.next, ho.status, ?_, ?_, rfl, rfl, rfl⟩, fun u c p hc => absurd hc (hU u c p)⟩
  · rw [hlen]; exact ho.claimed
  · rw [hlen]; exact ho.missing

/-- **C69** (what is true instead) In blocking mode, if a copier disappears after all slots have been claimed (its thread is killed, or the
user's `Hash` panics while it copies), nobody ever takes over: whatever is called afterwards, the resize is never promoted or aborted, the
root table is never replaced and no table is ever allocated again. -/
theorem C69_never_finished (h : Reach C ps) (hb : C.mode = .blocking) (hU : Unattended ps) (ho : Orphaned ps s N)
    (hs : Steps C ps ps') : Orphaned ps' s N ∧ ps'.mem.nTabs = ps.mem.nTabs ∧ ps'.mem.cap s = ps.mem.cap s := by
  have h1 := (stall_start h hU ho).steps hb hs
  have h2 := root_cap h ho.root
  have h3 := root_cap (h.steps hs) h1.mem.root
  have h4 : ps'.mem.handle s = ps.mem.handle s := h1.mem.hs
  have h5 : ps'.mem.cap s - 1 = ps.mem.cap s - 1 := congrArg Table.mask h4
  have h6 : ps'.mem.cap s = ps.mem.cap s := by
    have h3 : 8 ≤ ps'.mem.cap s := h3
    omega
  have h7 := handle_len h2
  refine ⟨⟨h1.mem.root, h1.mem.next, h1.mem.status, ?_, ?_⟩, h1.mem.tabs, h6⟩
  · rw [h6, ← h7]; exact h1.mem.claimed
  · rw [h6, ← h7]; exact h1.mem.missing

/-- **C69** So the map never again holds more keys than its table has slots: an endless series of insertions of new keys hangs. -/
theorem C69_no_growth (h : Reach C ps) (hb : C.mode = .blocking) (hU : Unattended ps) (ho : Orphaned ps s N)
    (hs : Steps C ps ps') {F : Finset K} (hF : ∀ k ∈ F, ∃ v, ps'.mem.Holds k v) : F.card ≤ ps.mem.cap s := by
  obtain ⟨h1, _, h2⟩ := C69_never_finished h hb hU ho hs
  have hR := h.steps hs
  rw [← h2]
  have hroot : ps'.mem.rootIx = s := by unfold St.rootIx; rw [h1.root]; rfl
  have h3 : ∀ k ∈ F, ∃ i, i < ps'.mem.cap s ∧ ∃ e, ps'.mem.Ptr s i e ∧ e.key = k := by
    intro k hk
    obtain ⟨v, e, h3, h4, _⟩ := hF k hk
    obtain ⟨i, h5, _⟩ := (C15_blocking_contents hR hb).1 h3
    rw [hroot] at h5
    refine ⟨i, ?_, e, h5, h4⟩
    obtain ⟨S, g, ⟨g1, g2, _⟩, _⟩ := hR.pinv 1
    rw [← g1] at h5 ⊢
    exact kslot_idx g2.s g2.p h5
  choose! f hf1 hf2 using h3
  rw [← Finset.card_range (ps'.mem.cap s)]
  refine Finset.card_le_card_of_injOn f (fun k hk => Finset.mem_coe.2 (Finset.mem_range.2 (hf1 k hk))) fun a ha b hb' hab => ?_
  obtain ⟨e1, h4, h5⟩ := hf2 a ha
  obtain ⟨e2, h6, h7⟩ := hf2 b hb'
  rw [hab] at h4
  unfold St.Ptr at h4 h6
  rw [h4] at h6
  cases h6
  rw [← h5, ← h7]

/-- **C69** An operation that waits for the end of the resize waits forever: it never returns and never panics. -/
theorem C69_waits_forever (h : Reach C ps) (hb : C.mode = .blocking) (hU : Unattended ps) (ho : Orphaned ps s N)
    (hs : Steps C ps ps') {t : Tid} (hw : WaitsFor ps' t N) {q : PSt K V} (hq : Steps C ps' q) :
    (WaitsFor q t N ∨ q.th t = .gone) ∧ ¬ Ended q.hist (t, ps'.seq t) := by
  suffices H : (WaitsFor q t N ∨ q.th t = .gone) ∧ q.seq t = ps'.seq t ∧ ¬ Ended q.hist (t, ps'.seq t) from ⟨H.1, H.2.2⟩
  induction hq with
  | refl =>
    refine ⟨.inl hw, rfl, ?_⟩
    obtain ⟨S, g, ⟨_, _, g3, _, _, g6⟩, _⟩ := (h.steps hs).pinv 1
    obtain ⟨c, k, hc⟩ := hw
    have := (g6.pend t (by rw [hc]; nofun) (by rw [hc]; nofun)).2
    rwa [show S.seq = ps'.seq from ‹_›] at this
  | @tail x y hx hy ih =>
    obtain ⟨ih1, ih2, ih3⟩ := ih
    have hst := (C69_never_finished h hb hU ho (hs.trans hx)).1.status
    have keep : ∀ (u : Tid) (z : Th K V), u ≠ t → ∀ {mem seq held hist},
        WaitsFor ⟨mem, setTh x.th u z, seq, held, hist⟩ t N ∨ (setTh x.th u z) t = .gone := by
      intro u z hu mem seq held hist
      have : setTh x.th u z t = x.th t := by unfold setTh; rw [if_neg (Ne.symm hu)]
      rcases ih1 with ⟨c, k, h1⟩ | h1
      · exact .inl ⟨c, k, this.trans h1⟩
      · exact .inr (this.trans h1)
    have ne : ∀ {u : Tid} {z : Th K V}, x.th u = z → (∀ c k, z ≠ .run c (.act (.parkStatus N) k)) → z ≠ .gone → u ≠ t := by
      rintro u z h1 h2 h3 rfl
      rcases ih1 with ⟨c, k, h4⟩ | h4
      · exact h2 c k (h1 ▸ h4)
      · exact h3 (h1 ▸ h4)
    have noend : ∀ {ev : HEv K V}, (∀ c r, ev ≠ .ret (t, ps'.seq t) c r) → (∀ c w, ev ≠ .panic (t, ps'.seq t) c w) →
        ¬ Ended (x.hist ++ [ev]) (t, ps'.seq t) := by
      intro ev h1 h2
      rintro (⟨c, r, h3⟩ | ⟨c, r, h3⟩) <;> rcases List.mem_append.1 h3 with h3 | h3
      · exact ih3 (.inl ⟨c, r, h3⟩)
      · exact h1 _ _ (List.mem_singleton.1 h3).symm
      · exact ih3 (.inr ⟨c, r, h3⟩)
      · exact h2 _ _ (List.mem_singleton.1 h3).symm
    cases hy with
    | pin u hu => exact ⟨keep _ _ (ne hu nofun nofun), ih2, ih3⟩
    | unpin u hu => exact ⟨keep _ _ (ne hu nofun nofun), ih2, ih3⟩
    | abandon u hu =>
      refine ⟨?_, ih2, ih3⟩
      by_cases hut : u = t
      · subst hut; exact .inr (by show setTh _ _ _ _ = _; unfold setTh; rw [if_pos rfl])
      · exact keep _ _ hut
    | release u hu => exact ⟨ih1, ih2, ih3⟩
    | inv u c hu _ =>
      have hut := ne hu nofun nofun
      refine ⟨keep _ _ hut, ?_, noend nofun nofun⟩
      show (if t = u then _ else _) = _
      rw [if_neg (Ne.symm hut)]; exact ih2
    | @act u c β a k r σ hu he =>
      refine ⟨?_, ih2, ih3⟩
      refine keep _ _ ?_
      rintro rfl
      rcases ih1 with ⟨c', k', h4⟩ | h4
      · rw [hu] at h4; cases h4
        obtain ⟨h5, _⟩ := he
        exact h5 hst
      · rw [hu] at h4; cases h4
    | loop u hu => exact ⟨keep _ _ (ne hu nofun nofun), ih2, ih3⟩
    | ret u hu =>
      have hut := ne hu nofun nofun
      exact ⟨keep _ _ hut, ih2, noend (fun c r h => hut (congrArg (fun e : HEv K V => match e with | .ret o _ _ => o.1 | _ => 0) h)) nofun⟩
    | panic u hu =>
      have hut := ne hu nofun nofun
      exact ⟨keep _ _ hut, ih2, noend nofun fun c r h => hut (congrArg (fun e : HEv K V => match e with | .panic o _ _ => o.1 | _ => 0) h)⟩
    | freeEntry x _ _ _ => exact ⟨ih1, ih2, ih3⟩
    | freeTable T _ _ _ => exact ⟨ih1, ih2, ih3⟩

/-- **C69** No reservation for more elements than the table has slots ever returns. -/
theorem C69_reserve_hangs (h : Reach C ps) (hb : C.mode = .blocking) (hU : Unattended ps) (ho : Orphaned ps s N)
    (hs : Steps C ps ps') {o : OpId} {n : Nat} (hn : ps.mem.cap s < n) {r : Unit} (hret : HEv.ret o (.reserve n) r ∈ ps'.hist) :
    HEv.ret o (.reserve n) r ∈ ps.hist := by
  have hlen := handle_len (root_cap h ho.root)
  have key : (∀ t p, ps'.th t = .run (.reserve n) p → Stalls (ps.mem.handle s) (ps.mem.handle N) p) ∧
      (HEv.ret o (.reserve n) r ∈ ps'.hist → HEv.ret o (.reserve n) r ∈ ps.hist) := by
    clear hret
    induction hs with
    | refl => exact ⟨fun t p hp => absurd hp (hU _ _ _), id⟩
    | @tail x y hx hy ih =>
      obtain ⟨ih1, ih2⟩ := ih
      have hrun := (stall_start h hU ho).steps hb hx
      have hset : ∀ (u : Tid) (z : Th K V), (∀ p, z = .run (.reserve n) p → Stalls (ps.mem.handle s) (ps.mem.handle N) p) →
          ∀ t p, setTh x.th u z t = .run (.reserve n) p → Stalls (ps.mem.handle s) (ps.mem.handle N) p := by
        intro u z hz t p hp
        unfold setTh at hp
        split at hp
        · exact hz p hp
        · exact ih1 t p hp
      cases hy with
      | pin u _ => exact ⟨hset _ _ nofun, ih2⟩
      | unpin u _ => exact ⟨hset _ _ nofun, ih2⟩
      | abandon u _ => exact ⟨hset _ _ nofun, ih2⟩
      | release u _ => exact ⟨ih1, ih2⟩
      | inv u c _ _ =>
        refine ⟨hset _ _ fun p hp => ?_, fun hm => ih2 ?_⟩
        · cases hp
          exact stall_reserve hb (by rw [hlen]; exact hn)
        · exact (List.mem_append.1 hm).resolve_right fun h => by cases List.mem_singleton.1 h
      | act u hu he =>
        obtain ⟨h3, _⟩ := Obs'.act_inv (hrun.th _ _ _ hu)
        obtain ⟨_, h6⟩ := exec_stall he h3 hrun.mem
        refine ⟨hset _ _ fun p hp => ?_, ih2⟩
        cases hp
        exact (Obs'.act_inv (ih1 _ _ hu)).2 _ h6
      | loop u hu =>
        refine ⟨hset _ _ fun p hp => ?_, ih2⟩
        cases hp
        exact fun m => ih1 _ _ hu (m + 1)
      | ret u hu =>
        refine ⟨hset _ _ nofun, fun hm => ih2 ((List.mem_append.1 hm).resolve_right fun h => ?_)⟩
        cases List.mem_singleton.1 h
        exact ih1 _ _ hu 1
      | panic u _ =>
        exact ⟨hset _ _ nofun, fun hm => ih2 ((List.mem_append.1 hm).resolve_right fun h => by cases List.mem_singleton.1 h)⟩
      | freeEntry x _ _ _ => exact ⟨ih1, ih2⟩
      | freeTable T _ _ _ => exact ⟨ih1, ih2⟩
  exact key.2 hret

/-- Test for `Unattended`. -/
def unattB (ps : PSt K V) : Bool :=
  ((List.range tidBound).all fun t => match ps.th t with | .run _ _ => false | _ => true) &&
  ps.hist.all fun ev => match ev with | .inv o _ => decide (o.1 < tidBound) | _ => true

theorem unattB_iff (h : Reach C ps) (hr : unattB ps = true) : Unattended ps := by
  simp only [unattB, Bool.and_eq_true, List.all_eq_true, List.mem_range] at hr
  intro t c p hg
  rcases Nat.lt_or_ge t tidBound with ht | ht
  · have := hr.1 t ht
    rw [hg] at this; cases this
  · obtain ⟨S, g, ⟨_, _, _, _, _, g6⟩, _⟩ := h.pinv 1
    obtain ⟨⟨c, hc⟩, _⟩ := g6.pend t (by rw [hg]; nofun) (by rw [hg]; nofun)
    have h3 : decide (t < tidBound) = true := hr.2 _ hc
    exact absurd (of_decide_eq_true h3) (Nat.not_lt.2 ht)

def orphB (ps : PSt K V) (s N : Nat) : Bool :=
  ps.mem.root == some s && (ps.mem.next s == some N && (ps.mem.status N == .pending &&
    (decide (ps.mem.cap s ≤ ps.mem.claim N) && ps.mem.copied N != ps.mem.cap s)))

theorem orphB_iff (h : orphB ps s N = true) : Orphaned ps s N := by
  simp only [orphB, Bool.and_eq_true, beq_iff_eq, decide_eq_true_eq, bne_iff_ne] at h
  exact ⟨h.1, h.2.1, h.2.2.1, h.2.2.2.1, h.2.2.2.2⟩

def waitsB (ps : PSt K V) (t N : Nat) : Bool :=
  match ps.th t with | .run _ (.act (.parkStatus T) _) => T == N | _ => false

theorem waitsB_iff {t : Tid} (h : waitsB ps t N = true) : WaitsFor ps t N := by
  unfold waitsB at h
  split at h
  · rename_i c T k hth
    rw [beq_iff_eq] at h
    subst h
    exact ⟨c, k, hth⟩
  · cases h

/-- **C69** is false of the code: the user's `Hash` panics while guard 0 copies the map in a blocking resize (when it is about to insert the second entry in the
new table, whose position it has to hash), and its guard is dropped by the unwinding. The next `insert` of guard 1 waits — and will never return nor panic, whatever happens. -/
theorem C69_false : ∃ ps ps' : PSt Nat Nat, Reach cfgB ps ∧ Unattended ps ∧ Orphaned ps 0 1 ∧ Steps cfgB ps ps' ∧
    HEv.inv (1, 1) (.insert 9 90) ∈ ps'.hist ∧
    ∀ q, Steps cfgB ps' q → ¬ Ended q.hist (1, 1) := by
  obtain ⟨ps, ps', h1, h2, _, h4, h5⟩ := demo_two (C := cfgB) (V := Nat) (l1 := midResize 66 ++ [.abandon 0, .release 0])
    (l2 := [.call 1 (.insert 9 90) trivial, .go 1 47]) (m := 17)
    (P1 := fun ps => unattB ps && orphB ps 0 1)
    (P2 := fun ps => waitsB ps 1 1 && (ps.seq 1 == 1 && ps.hist.any fun ev => match ev with | .inv (1, 1) (.insert 9 90) => true | _ => false))
    (by decide +kernel) (by decide +kernel)
  simp only [Bool.and_eq_true, beq_iff_eq] at h4 h5
  have h6 := unattB_iff h1 h4.1
  have h7 := orphB_iff h4.2
  refine ⟨ps, ps', h1, h6, h7, h2, ?_, fun q hq => ?_⟩
  · obtain ⟨ev, h8, h9⟩ := List.any_eq_true.1 h5.2.2
    split at h9
    · exact h8
    · cases h9
  · have := (C69_waits_forever h1 rfl h6 h7 h2 (waitsB_iff h5.1) hq).2
    rwa [h5.2.1] at this

-- the theorem about reservations applies there: nothing that is called afterwards completes the resize
example : ∃ ps : PSt Nat Nat, Reach cfgB ps ∧ Unattended ps ∧ Orphaned ps 0 1 ∧ ps.mem.cap 0 < 100 ∧
    ∀ q, Steps cfgB ps q → ∀ o r, HEv.ret o (.reserve 100) r ∈ q.hist → HEv.ret o (.reserve 100) r ∈ ps.hist := by
  obtain ⟨ps, _, h1, h2⟩ := demo_run (C := cfgB) (V := Nat) (l := midResize 66 ++ [.abandon 0, .release 0])
    (P := fun ps => unattB ps && (orphB ps 0 1 && decide (ps.mem.cap 0 < 100))) (by decide +kernel)
  simp only [Bool.and_eq_true, decide_eq_true_eq] at h2
  have h6 := unattB_iff h1 h2.1
  have h7 := orphB_iff h2.2.1
  exact ⟨ps, h1, h6, h7, h2.2.2, fun q hq o r => C69_reserve_hangs h1 rfl h6 h7 hq h2.2.2⟩

end Papaya
