import Verif.Spec.Thrift
import Verif.Proof.Thrift
import Verif.Proof.Observe
import Verif.Props.TermSettled
import Verif.Props.Latency

/-! # C63: the tables are not much larger than the map has ever been -/

set_option linter.unusedSectionVars false
set_option linter.unusedVariables false

namespace Papaya

variable {K V : Type} [DecidableEq K] {C : Cfg K} {ps ps' : PSt K V} {t : Tid} {N M : Nat}

theorem OneByOne.fits (h : OneByOne C N M ps) : WithinLimits N M ps := by cases h <;> assumption

theorem OneByOne.reach (h : OneByOne C N M ps) : Reach C ps := by
  induction h with
  | init h _ => exact .init h
  | step _ hs _ ih => exact .step ih hs

/-! ## Lookups -/

/-- Actions that change neither counters nor the list of tables. -/
def Act.mild : {β : Type} → Act K V β → Prop
  | _, .storeNext _ _ => False
  | _, .casRootInit _ => False
  | _, .addCount _ => False
  | _, _ => True

def mildSys : ObsSys K V where
  ok := Act.mild
  res _ _ := True
  pan _ := True

def Mild {α : Type} (p : Prog K V α) : Prop := Obs' mildSys p fun _ => True

namespace Mild

variable {α β γ : Type}

theorem ret {x : α} : Mild (pure x : Prog K V α) := Obs'.ret trivial
theorem panic {w : PanicReason} : Mild (.panic w : Prog K V α) := Obs'.panic trivial
theorem bind {p : Prog K V α} {g : α → Prog K V γ} (h : Mild p) (hg : ∀ x, Mild (g x)) : Mild (p >>= g) :=
  Obs'.bind (fun _ => True) h fun x _ => hg x
theorem loop {σ : Type} {body : σ → Prog K V (σ ⊕ β)} {s : σ} (h : ∀ s, Mild (body s)) : Mild (Prog.loop s body) :=
  Obs'.loop (fun _ => True) trivial fun s _ => (h s).post fun x _ => by cases x <;> trivial
theorem act {a : Act K V β} (h : a.mild) : Mild (.prim a) := Obs'.act h fun _ _ => trivial

end Mild

macro "mild" : tactic => `(tactic| repeat' first
  | with_reducible exact Mild.ret
  | with_reducible exact Mild.panic
  | with_reducible refine Mild.bind ?_ fun _ => ?_
  | with_reducible refine Mild.loop fun _ => ?_
  | (with_reducible refine Mild.act ?_); exact trivial
  | split
  | dsimp only)

theorem mild_call {c : Call K V} (h : c.looks) : Mild (c.prog C) := by
  have h1 : ∀ {k : K}, Mild (V := V) (get C k) := by intro k; unfold get getProbe; mild
  have h2 : Mild (V := V) (len C) := by unfold len; mild
  cases c with
  | get => exact h1
  | containsKey => exact .bind h1 fun _ => .ret
  | len => exact h2
  | isEmpty => exact .bind h2 fun _ => .ret
  | _ => exact h.elim

theorem mild_exec {β : Type} {a : Act K V β} {r : β} {σ σ' : St K V} (h : a.mild) (he : Exec C t a σ r σ') :
    σ'.shard = σ.shard ∧ σ'.cap = σ.cap ∧ σ'.nTabs = σ.nTabs ∧ σ'.next = σ.next := by
  cases a with
  | storeNext => exact h.elim
  | casRootInit => exact h.elim
  | addCount => exact h.elim
  | tryLock => rcases he with ⟨_, _, rfl⟩ | ⟨_, _, rfl⟩ <;> exact ⟨rfl, rfl, rfl, rfl⟩
  | lockWait => rcases he with ⟨_, _, rfl⟩ | ⟨_, _, rfl⟩ <;> exact ⟨rfl, rfl, rfl, rfl⟩
  | cas => rcases he with ⟨_, _, rfl⟩ | ⟨_, _, rfl⟩ <;> exact ⟨rfl, rfl, rfl, rfl⟩
  | casNew => rcases he with ⟨_, _, rfl⟩ | ⟨_, _, rfl⟩ <;> exact ⟨rfl, rfl, rfl, rfl⟩
  | casRoot => rcases he with ⟨_, _, rfl⟩ | ⟨_, _, rfl⟩ <;> exact ⟨rfl, rfl, rfl, rfl⟩
  | unlock => cases he; exact ⟨rfl, rfl, rfl, rfl⟩
  | poison => cases he; exact ⟨rfl, rfl, rfl, rfl⟩
  | storeMd => cases he; exact ⟨rfl, rfl, rfl, rfl⟩
  | storeSlot => cases he; exact ⟨rfl, rfl, rfl, rfl⟩
  | storeStatus => cases he; exact ⟨rfl, rfl, rfl, rfl⟩
  | deref => cases he; exact ⟨rfl, rfl, rfl, rfl⟩
  | retire => cases he; exact ⟨rfl, rfl, rfl, rfl⟩
  | retireTable => cases he; exact ⟨rfl, rfl, rfl, rfl⟩
  | pushDeferred => cases he; exact ⟨rfl, rfl, rfl, rfl⟩
  | _ => obtain ⟨_, rfl⟩ := he; exact ⟨rfl, rfl, rfl, rfl⟩

/-! ## The counter -/

/-- While only lookups are running, the counter is exact. -/
theorem counter_exact_looks (h : OneByOne C N M ps) (hl : OnlyLooks ps) (ht : ps.th t = .idle) : tot C ps.mem.shard ≤ N := by
  have hr := h.reach
  have h1 : Reach C (ps.call C t (.len : Call K V)) := .step hr (.inv t .len ht trivial)
  obtain ⟨S, g, b, _⟩ := h1.pinv 1
  obtain ⟨b1, b2, _, _, _, b6⟩ := b
  have hd : AllDone ps.hist := by
    obtain ⟨S0, g0, ⟨c1, c2, _, _, _, c6⟩, _⟩ := hr.pinv 1
    intro o c ho
    by_cases hq : o.2 = S0.seq o.1 → ps.th o.1 = .out ∨ ps.th o.1 = .idle
    · exact .inr (c6.old o (c6.i1 o c ho).1 (c6.i1 o c ho).2.1 hq)
    · left
      rw [Classical.not_imp] at hq
      obtain ⟨hq1, hq2⟩ := hq
      cases hth : ps.th o.1 with
      | out => exact absurd (.inl hth) hq2
      | idle => exact absurd (.inr hth) hq2
      | gone => exact absurd hth (h.fits.alive _)
      | run c' p =>
        have h3 := (c6.run _ _ _ hth).1
        rw [← hq1] at h3
        obtain rfl : c = c' := WFH.inv_unique c6.wf ho h3
        have := hl _ _ _ hth
        cases c <;> first | rfl | exact this.elim
  have hq := b6.quiet ps.hist _ .len [] rfl hd rfl (fun o c hc => by cases hc)
  have hq1 := b6.q1 ps.hist _ .len [] rfl hd
  obtain ⟨F, f1, f2⟩ := deltas_card b2 (List.take_prefix (g.tInv (t, ps.seq t + 1)) S.log)
  have hm : S.toSt = ps.mem := b1
  have hk : HasKeys ps.mem F.card := ⟨F, fun k => by
    rw [f1, ← hq.2 k, Option.ne_none_iff_exists']
    exact exists_congr fun v => by rw [← hm, holds_iff b2], rfl⟩
  have hle := h.fits.few hl _ hk
  have h2 := b2.n.1
  rw [hq.1] at h2
  have h3 : ((List.range (C.shards + 1)).map S.shard).sum = paySum (g.pInv (t, ps.seq t + 1)) := h2
  have : tot C ps.mem.shard = F.card := by
    unfold tot
    rw [← hm]
    show ((List.range (C.shards + 1)).map S.shard).sum = _
    rw [h3, hq1, f2]
  omega

/-! ## The invariant -/

/-- The tables are small, and the list of tables is a list of tables. -/
structure SmallMem (M : Nat) (σ : St K V) : Prop where
  caps : ∀ T, T < σ.nTabs → σ.cap T ≤ M
  next : ∀ T n, σ.next T = some n → n < σ.nTabs

structure ThriftInv (C : Cfg K) (M : Nat) (ps : PSt K V) : Prop where
  mem : SmallMem M ps.mem
  writer : ∀ t c p, ps.th t = .run c p → ¬ c.looks → Sv C M ps.mem.shard p fun _ _ => True
  looker : ∀ t c p, ps.th t = .run c p → c.looks → Mild p

theorem GoodSt.even {σ : St K V} (h : GoodSt C σ) {T : Nat} (hT : T < σ.nTabs) : 2 ∣ σ.cap T := by
  have h8 := h.cap8 hT
  obtain ⟨S, rfl, h⟩ := h
  obtain ⟨a, ha⟩ := (h.s.cap T hT).1
  have ha : S.toSt.cap T = 2 ^ a := ha
  cases a with
  | zero => rw [ha] at h8; simp at h8
  | succ a => exact ⟨2 ^ a, by rw [ha, Nat.pow_succ]; ring⟩

/-- What an action of the writer does. -/
theorem small_exec {β : Type} {a : Act K V β} {r : β} {σ σ' : St K V} (hg : GoodSt C σ) (hc : SmallMem M σ)
    (h : a.small M) (he : Exec C t a σ r σ') : a.effect C M σ.shard σ'.shard r ∧ SmallMem M σ' := by
  have hok : ∀ T, T < σ.nTabs → HOk M (σ.handle T) := fun T hT => by
    have h1 := hc.caps T hT
    have h2 := hg.cap8 hT
    have h3 : (σ.handle T).len = σ.cap T := by show σ.cap T - 1 + 1 = _; omega
    exact ⟨by rw [h3]; exact h1, by rw [h3]; exact hg.even hT⟩
  by_cases hm : a.mild
  · obtain ⟨h1, h2, h3, h4⟩ := mild_exec hm he
    refine ⟨?_, fun T hT => by rw [h2]; exact hc.caps T (by omega), fun T n hn => by rw [h3]; exact hc.next T n (h4 ▸ hn)⟩
    cases a with
    | storeNext => exact hm.elim
    | casRootInit => exact hm.elim
    | addCount => exact hm.elim
    | loadRoot =>
      obtain ⟨rfl, rfl⟩ := he
      refine ⟨rfl, fun T hT => ?_⟩
      obtain ⟨r, h4, rfl⟩ := Option.map_eq_some_iff.1 hT
      exact hok r (hg.root h4)
    | loadNext T0 =>
      obtain ⟨rfl, rfl⟩ := he
      refine ⟨rfl, fun T hT => ?_⟩
      obtain ⟨r, h4, rfl⟩ := Option.map_eq_some_iff.1 hT
      exact hok r (hc.next _ _ h4)
    | loadShard => obtain ⟨rfl, rfl⟩ := he; exact ⟨rfl, rfl⟩
    | _ => exact h1
  · have h1 : ∀ cap, cap ≤ M → ∀ T, T < σ.nTabs + 1 → (if T = σ.nTabs then cap else σ.cap T) ≤ M := fun cap h T hT => by
      split
      · exact h
      · exact hc.caps T (by omega)
    have h2 : ∀ {σ' : St K V} {cap}, cap ≤ M ∧ 2 ∣ cap ∧ 0 < cap → σ'.cap σ.nTabs = cap → HOk M (σ'.handle σ.nTabs) := fun {σ' cap} h h' => by
      have h3 : (σ'.handle σ.nTabs).len = cap := by show σ'.cap σ.nTabs - 1 + 1 = _; omega
      exact ⟨by rw [h3]; exact h.1, by rw [h3]; exact h.2.1⟩
    cases a with
    | storeNext T0 cap =>
      obtain ⟨rfl, rfl⟩ := he
      refine ⟨⟨rfl, h2 h (if_pos rfl)⟩, h1 cap h.1, fun T n hn => ?_⟩
      have hn : (if T = T0 then some σ.nTabs else if T = σ.nTabs then none else σ.next T) = some n := hn
      show n < σ.nTabs + 1
      split at hn
      · cases hn; omega
      · split at hn
        · cases hn
        · have := hc.next _ _ hn; omega
    | casRootInit cap =>
      have he : (match σ.root with
        | none => σ' = { σ.allocTable cap .promoted with root := some σ.nTabs } ∧ r = σ'.handle σ.nTabs
        | some T => σ' = σ ∧ r = σ.handle T) := he
      split at he
      · obtain ⟨rfl, rfl⟩ := he
        refine ⟨⟨rfl, h2 h (if_pos rfl)⟩, h1 cap h.1, fun T n hn => ?_⟩
        have hn : (if T = σ.nTabs then none else σ.next T) = some n := hn
        show n < σ.nTabs + 1
        split at hn
        · cases hn
        · have := hc.next _ _ hn; omega
      · rename_i T hT
        obtain ⟨rfl, rfl⟩ := he
        exact ⟨⟨rfl, hok T (hg.root hT)⟩, hc⟩
    | addCount d =>
      cases he
      refine ⟨?_, hc.caps, hc.next⟩
      show tot C (fun j => if j = C.shardOf t % (C.shards + 1) then σ.shard j + d else σ.shard j) = _
      unfold tot
      rw [GSt.sum_bump, if_pos (Nat.mod_lt _ (by omega))]
    | _ => exact absurd trivial hm

theorem thrift_setTh_run {th : Tid → Th K V} {u : Tid} {x : Th K V} {c : Call K V} {p : Prog K V c.Res} (h : setTh th t x u = .run c p) :
    (u = t ∧ x = .run c p) ∨ (u ≠ t ∧ th u = .run c p) := by
  unfold setTh at h
  split at h
  · rename_i hu; exact .inl ⟨hu, h⟩
  · rename_i hu; exact .inr ⟨hu, h⟩

/-- Steps that are not actions. -/
theorem ThriftInv.frame (hi : ThriftInv C M ps) {mem : St K V} {x : Th K V} (h1 : mem.shard = ps.mem.shard) (h2 : mem.cap = ps.mem.cap)
    (h3 : mem.nTabs = ps.mem.nTabs) (h4 : mem.next = ps.mem.next) {ps' : PSt K V} (hm : ps'.mem = mem) (ht : ps'.th = setTh ps.th t x)
    (hw : ∀ c p, x = .run c p → ¬ c.looks → Sv C M ps.mem.shard p fun _ _ => True) (hl : ∀ c p, x = .run c p → c.looks → Mild p) :
    ThriftInv C M ps' := by
  refine ⟨⟨fun T hT => ?_, fun T n hn => ?_⟩, fun u c p hu hc => ?_, fun u c p hu hc => ?_⟩
  · rw [hm, h3] at hT; rw [hm, h2]; exact hi.mem.caps T hT
  · rw [hm, h4] at hn; rw [hm, h3]; exact hi.mem.next T n hn
  · rw [hm, h1]
    rw [ht] at hu
    obtain ⟨rfl, hv⟩ | ⟨_, hv⟩ := thrift_setTh_run hu
    · exact hw c p hv hc
    · exact hi.writer u c p hv hc
  · rw [ht] at hu
    obtain ⟨rfl, hv⟩ | ⟨_, hv⟩ := thrift_setTh_run hu
    · exact hl c p hv hc
    · exact hi.looker u c p hv hc

theorem OneByOne.inv (h : OneByOne C N M ps) (hB : Bounds C M N) (hc : ∀ c, entriesFor C.capacity = some c → c ≤ M) : ThriftInv C M ps := by
  induction h with
  | @init ps h _ =>
    obtain ⟨h1, h2, _⟩ := h
    refine ⟨?_, fun t c p ht => (by rw [h2] at ht; cases ht), fun t c p ht => (by rw [h2] at ht; cases ht)⟩
    unfold initSt at h1
    dsimp only at h1
    split at h1
    · rw [← Option.some.inj h1]
      exact ⟨fun T hT => absurd hT (Nat.not_lt_zero _), fun T n hn => by cases hn⟩
    · obtain ⟨n, h3, h4⟩ := Option.map_eq_some_iff.1 h1
      rw [← h4]
      have h5 := hc n h3
      have h6 := hB.first
      refine ⟨fun T hT => ?_, fun T n hn => ?_⟩
      · show (if T = 0 then max n 8 else 0) ≤ M
        split
        · exact max_le h5 (by omega)
        · omega
      · have hn : (if T = 0 then none else none) = some n := hn
        split at hn <;> cases hn
  | @step ps ps' h hs hf ih =>
    have hno : ∀ {x : Th K V}, (∀ c p, x ≠ .run c p) → (∀ c p, x = .run c p → ¬ c.looks → Sv C M ps.mem.shard p fun _ _ => True) ∧
        ∀ c p, x = .run c p → c.looks → Mild p := fun hx => ⟨fun c p e => absurd e (hx c p), fun c p e => absurd e (hx c p)⟩
    cases hs with
    | pin t h1 => exact ih.frame (x := .idle) (mem := ps.mem.pin t) (t := t) rfl rfl rfl rfl rfl rfl (fun c p e => by cases e) (fun c p e => by cases e)
    | unpin t h1 => exact ih.frame (x := .out) (mem := ps.mem.unpin t) (t := t) rfl rfl rfl rfl rfl rfl (fun c p e => by cases e) (fun c p e => by cases e)
    | abandon t h1 => exact ih.frame (x := .gone) (t := t) rfl rfl rfl rfl rfl rfl (fun c p e => by cases e) (fun c p e => by cases e)
    | release t h1 => exact absurd h1 (h.fits.alive t)
    | inv t c h1 h2 =>
      have hth : setTh ps.th t (.run c (c.prog C)) t = .run c (c.prog C) := if_pos rfl
      refine ih.frame (x := .run c (c.prog C)) (t := t) rfl rfl rfl rfl rfl rfl (fun c' p e hl => ?_) (fun c' p e hl => ?_)
      · cases e
        have hol : OnlyLooks ps := fun u c' p hu => by
          by_contra hl'
          have hne : u ≠ t := fun e => by subst e; rw [h1] at hu; cases hu
          exact hne (hf.single u t c' c p (c.prog C) (by show setTh ps.th t _ u = _; unfold setTh; rw [if_neg hne]; exact hu) hth hl' hl)
        refine sv_call hB (fun a ha => ?_) (counter_exact_looks h hol h1)
        subst ha
        exact hf.reserved t a _ hth
      · cases e; exact mild_call hl
    | @act t c β a k r σ h1 he =>
      by_cases hl : c.looks
      · have h2 := ih.looker t c _ h1 hl
        have h3 : a.mild := (h2 1).1
        obtain ⟨e1, e2, e3, e4⟩ := mild_exec h3 he
        exact ih.frame (x := .run c (k r)) (t := t) e1 e2 e3 e4 rfl rfl (fun c' p e hl' => by cases e; exact absurd hl hl')
          (fun c' p e _ => by cases e; exact fun n => (h2 (n + 1)).2 r trivial)
      · have h2 := ih.writer t c _ h1 hl
        obtain ⟨h3, h4⟩ := small_exec h.reach.good ih.mem (h2 1).1 he
        refine ⟨h4, fun u c' p hu hl' => ?_, fun u c' p hu hl' => ?_⟩
        · obtain ⟨rfl, hv⟩ | ⟨hne, hv⟩ := thrift_setTh_run hu
          · cases hv
            exact fun n => (h2 (n + 1)).2 r _ h3
          · exact absurd (h.fits.single u t c' c p _ hv h1 hl' hl) hne
        · obtain ⟨rfl, hv⟩ | ⟨hne, hv⟩ := thrift_setTh_run hu
          · cases hv; exact absurd hl' hl
          · exact ih.looker u c' p hv hl'
    | @loop t c β σ body s k h1 =>
      refine ih.frame (x := .run c (Prog.unfoldIter body s k)) (t := t) rfl rfl rfl rfl rfl rfl (fun c' p e hl => ?_) (fun c' p e hl => ?_)
      · cases e; exact fun n => ih.writer t c _ h1 hl (n + 1)
      · cases e; exact fun n => ih.looker t c _ h1 hl (n + 1)
    | ret t h1 => exact ih.frame (x := .idle) (t := t) rfl rfl rfl rfl rfl rfl (fun c p e => by cases e) (fun c p e => by cases e)
    | panic t h1 => exact ih.frame (x := .idle) (t := t) rfl rfl rfl rfl rfl rfl (fun c p e => by cases e) (fun c p e => by cases e)
    | freeEntry x h1 h2 h3 => exact ⟨⟨ih.mem.caps, ih.mem.next⟩, ih.writer, ih.looker⟩
    | freeTable T h1 h2 h3 => exact ⟨⟨ih.mem.caps, ih.mem.next⟩, ih.writer, ih.looker⟩

/-- **C63** As long as the map is changed by one call at a time (lookups may run concurrently) and never has more than `N` keys, no table
ever has more than `M = max 32 (4 * N) …` slots, where `M` also covers the capacity asked for explicitly, by `with_capacity` or
`reserve`: however many keys have come and gone, and whatever their hashes are. -/
theorem C63_memory_bounded (h : OneByOne C N M ps) (h1 : 32 ≤ M) (h2 : 4 * N ≤ M) (h3 : ∀ c, entriesFor C.capacity = some c → c ≤ M) :
    ∀ T, T < ps.mem.nTabs → ps.mem.cap T ≤ M := by
  intro T hT
  by_cases hc : C.initialCapacity ≤ M
  · exact (h.inv ⟨h1, hc, h2⟩ h3).mem.caps T hT
  · exfalso
    have hcap : C.initialCapacity = C.capacity := by
      unfold Cfg.initialCapacity at hc ⊢
      split
      · rw [if_pos ‹_›] at hc; omega
      · rfl
    rw [hcap] at hc
    have hinit : ∃ σ : St K V, initSt C = some σ := by
      clear hT
      induction h with
      | init h => exact ⟨_, h.1⟩
      | step _ _ _ ih => exact ih
    obtain ⟨σ, hσ⟩ := hinit
    unfold initSt at hσ
    dsimp only at hσ
    split at hσ
    · omega
    · obtain ⟨n, h4, _⟩ := Option.map_eq_some_iff.1 hσ
      have := h3 n h4
      have := (C17_entries_for _ _ h4).2.2.1
      omega

/-! ## An execution with a resize -/

/-- A map cannot have more keys than entries have been published. -/
theorem keys_le_ids (h : Reach C ps) {n : Nat} (hk : HasKeys ps.mem n) : n ≤ ps.mem.nIds := by
  obtain ⟨S, g, ⟨g1, g2, _⟩, _⟩ := h.pinv 1
  obtain ⟨F, hF, rfl⟩ := hk
  have h1 : ∀ k, k ∈ F → ∃ id x, S.info id = some x ∧ x.entry.key = k ∧ id < ps.mem.nIds := by
    intro k hk
    obtain ⟨v, e, ⟨T, i, h1, h2, h3, h4⟩, rfl, rfl⟩ := (hF k).1 hk
    rw [← g1] at h3
    obtain ⟨x, hx, hxe⟩ := g2.p.p3 T i e h3
    refine ⟨e.id, x, hx, by rw [hxe], ?_⟩
    have := (g2.e.e0 e.id x hx).2
    rw [← g1]; exact this
  classical
  choose! f x hf using h1
  have : F.card ≤ (Finset.range ps.mem.nIds).card := by
    refine Finset.card_le_card_of_injOn f (fun k hk => ?_) fun a ha b hb hab => ?_
    · simp only [Finset.coe_range, Set.mem_Iio]
      exact (hf k hk).2.2
    · have h2 := (hf a ha).1
      rw [hab, (hf b hb).1] at h2
      rw [← (hf a ha).2.1, ← (hf b hb).2.1, Option.some.inj h2]
  rwa [Finset.card_range] at this

/-- Only guard 0 is in use, and does not reserve. -/
structure OnlyZero (ps : PSt K V) : Prop where
  others : ∀ u, u ≠ 0 → ps.th u = .out
  zero : ps.th 0 ≠ .gone
  noReserve : ∀ a p, ps.th 0 ≠ .run (.reserve a) p

theorem OnlyZero.fits (h : OnlyZero ps) (hr : Reach C ps) (hn : ps.mem.nIds ≤ N) : WithinLimits N M ps := by
  have h0 : ∀ u c p, ps.th u = .run c p → u = 0 := fun u c p hu => by
    by_contra hne
    rw [h.others u hne] at hu; cases hu
  refine ⟨fun t t' c c' p p' h1 h2 _ _ => (h0 _ _ _ h1).trans (h0 _ _ _ h2).symm, fun t ht => ?_, fun _ n hk => ?_, fun t a p ht => ?_⟩
  · by_cases hz : t = 0
    · subst hz; exact h.zero ht
    · rw [h.others t hz] at ht; cases ht
  · exact Nat.le_trans (keys_le_ids hr hk) hn
  · obtain rfl := h0 _ _ _ ht
    exact absurd ht (h.noReserve a p)

variable [DecidableEq V]

/-- Guard 0 finishes its call, publishing no more than `N` entries. -/
def goSolo (C : Cfg K) (N : Nat) : Nat → PSt K V → Option (PSt K V)
  | 0, _ => none
  | i + 1, ps =>
    if restsB ps 0 then some ps
    else (stepFn C 0 ps).bind fun q => if q.mem.nIds ≤ N then goSolo C N i q else none

theorem goSolo_ids {i : Nat} (h : goSolo C N i ps = some ps') (hn : ps.mem.nIds ≤ N) : ps'.mem.nIds ≤ N := by
  induction i generalizing ps with
  | zero => cases h
  | succ i ih =>
    unfold goSolo at h
    split at h
    · cases h; exact hn
    · obtain ⟨q, h3, h4⟩ := Option.bind_eq_some_iff.1 h
      split at h4
      · exact ih h4 ‹_›
      · cases h4

theorem goSolo_sound {i : Nat} (h : goSolo C N i ps = some ps') (h1 : OneByOne C N M ps) (h2 : OnlyZero ps) :
    OneByOne C N M ps' ∧ OnlyZero ps' ∧ ps'.th 0 = .idle := by
  induction i generalizing ps with
  | zero => cases h
  | succ i ih =>
    unfold goSolo at h
    split at h
    · rename_i hr
      cases h
      exact ⟨h1, h2, restsB_iff hr⟩
    · obtain ⟨q, h3, h4⟩ := Option.bind_eq_some_iff.1 h
      split at h4
      · rename_i hn
        have hs := stepFn_ownStep h3
        have hz : OnlyZero q := by
          have hu : ∀ {x : Th K V} {u}, u ≠ 0 → setTh ps.th 0 x u = .out := fun hu => by unfold setTh; rw [if_neg hu]; exact h2.others _ hu
          have h0 : ∀ {x : Th K V}, setTh ps.th 0 x 0 = x := if_pos rfl
          cases hs with
          | @act c β a k r σ h5 he =>
            refine ⟨fun u => hu, fun hg => ?_, fun a p hp => ?_⟩
            · dsimp only at hg; rw [h0] at hg; cases hg
            · dsimp only at hp; rw [h0] at hp
              cases hp; exact h2.noReserve _ _ h5
          | @loop c β σ body s k h5 =>
            refine ⟨fun u => hu, fun hg => ?_, fun a p hp => ?_⟩
            · dsimp only at hg; rw [h0] at hg; cases hg
            · dsimp only at hp; rw [h0] at hp
              cases hp; exact h2.noReserve _ _ h5
          | ret h5 =>
            refine ⟨fun u => hu, fun hg => ?_, fun a p hp => ?_⟩
            · dsimp only at hg; rw [h0] at hg; cases hg
            · dsimp only at hp; rw [h0] at hp; cases hp
          | panic h5 =>
            refine ⟨fun u => hu, fun hg => ?_, fun a p hp => ?_⟩
            · dsimp only at hg; rw [h0] at hg; cases hg
            · dsimp only at hp; rw [h0] at hp; cases hp
        exact ih h4 (.step h1 hs.step (hz.fits (.step h1.reach hs.step) hn)) hz
      · cases h4

/-- Guard 0 is created and executes the calls one after the other. -/
def goCalls (C : Cfg K) (N : Nat) : List (Call K V) → PSt K V → Option (PSt K V)
  | [], ps => some ps
  | c :: l, ps => (goSolo C N 5000 (ps.called C 0 c)).bind (goCalls C N l)

theorem goCalls_sound {l : List (Call K V)} (h : goCalls C N l ps = some ps') (h1 : OneByOne C N M ps) (h2 : OnlyZero ps) (h3 : ps.th 0 = .idle)
    (hn : ps.mem.nIds ≤ N) (hw : ∀ c ∈ l, c.WF ∧ ∀ a, c ≠ .reserve a) : OneByOne C N M ps' := by
  induction l generalizing ps with
  | nil => cases h; exact h1
  | cons c l ih =>
    obtain ⟨q, h4, h5⟩ := Option.bind_eq_some_iff.1 h
    obtain ⟨hc, hr⟩ := hw c (.head _)
    have hs : Step C ps (ps.called C 0 c) := .inv 0 c h3 hc
    have h0 : (ps.called C 0 c).th 0 = .run c (c.prog C) := show setTh ps.th 0 _ 0 = _ from if_pos rfl
    have hz : OnlyZero (ps.called C 0 c) := by
      refine ⟨fun u hu => ?_, fun hg => ?_, fun a p hp => ?_⟩
      · show setTh ps.th 0 _ u = _
        unfold setTh; rw [if_neg hu]; exact h2.others _ hu
      · rw [h0] at hg; cases hg
      · rw [h0] at hp
        cases hp; exact hr a rfl
    obtain ⟨h6, h7, h8⟩ := goSolo_sound h4 (.step h1 hs (hz.fits (.step h1.reach hs) hn)) hz
    exact ih h5 h6 h7 h8 (goSolo_ids h4 hn) fun c hc => hw c (.tail _ hc)

/-- Nine keys are inserted into a map created with 8 slots: the map resizes, and the theorem allows at most 36 slots. -/
example : ∃ ps : PSt Nat Nat, OneByOne cfgB 9 36 ps ∧ (∀ c, entriesFor cfgB.capacity = some c → c ≤ 36) ∧ ps.mem.nTabs = 2 ∧ ps.mem.cap 1 = 16 := by
  have h : ((initPSt cfgB).bind fun ps => goCalls cfgB 9 ((List.range 9).map fun k => Call.insert k (10 * k))
      { ps with mem := ps.mem.pin 0, th := setTh ps.th 0 .idle }).any (fun ps => decide (ps.mem.nTabs = 2) && decide (ps.mem.cap 1 = 16)) = true := by
    decide +kernel
  obtain ⟨ps, h1, h2⟩ := (Option.any_eq_true _ _).1 h
  obtain ⟨p0, h3, h4⟩ := Option.bind_eq_some_iff.1 h1
  simp only [Bool.and_eq_true, decide_eq_true_eq] at h2
  refine ⟨ps, ?_, fun c hc => by cases hc; decide, h2⟩
  have hi : IsInit cfgB p0 := by
    obtain ⟨σ, h5, rfl⟩ := Option.map_eq_some_iff.1 h3
    exact ⟨h5, rfl, rfl, rfl, rfl⟩
  have hz0 : OnlyZero p0 := ⟨fun u _ => (by rw [hi.2.1]), fun hg => (by rw [hi.2.1] at hg; cases hg), fun a p hp => (by rw [hi.2.1] at hp; cases hp)⟩
  have hn : p0.mem.nIds ≤ 9 := by
    have : (initPSt (V := Nat) cfgB).all (fun p => decide (p.mem.nIds ≤ 9)) = true := by decide +kernel
    rw [h3] at this
    exact of_decide_eq_true this
  have hs : Step cfgB p0 { p0 with mem := p0.mem.pin 0, th := setTh p0.th 0 .idle } := .pin 0 (by rw [hi.2.1])
  have hz : OnlyZero { p0 with mem := p0.mem.pin 0, th := setTh p0.th 0 .idle } := by
    have h5 : setTh p0.th 0 .idle 0 = .idle := if_pos rfl
    refine ⟨fun u hu => ?_, fun hg => ?_, fun a p hp => ?_⟩
    · show setTh p0.th 0 _ u = _
      unfold setTh; rw [if_neg hu]; exact hz0.others u hu
    · have hg : setTh p0.th 0 .idle 0 = .gone := hg
      rw [h5] at hg; cases hg
    · have hp : setTh p0.th 0 .idle 0 = _ := hp
      rw [h5] at hp; cases hp
  refine goCalls_sound h4 (.step (.init hi (hz0.fits (.init hi) hn)) hs (hz.fits (.step (.init hi) hs) hn)) hz rfl hn fun c hc => ?_
  obtain ⟨k, _, rfl⟩ := List.mem_map.1 hc
  exact ⟨trivial, fun a h => by cases h⟩

end Papaya
