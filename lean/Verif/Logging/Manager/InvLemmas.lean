import Verif.Logging.Manager.ConfLemmas

/-! # Lemmas: invariants of histories without `shutdown` -/
namespace Verif.Logging.Manager

theorem autoName_idem (c : OutCfg) : autoName (autoName c) = autoName c := by
  unfold autoName
  by_cases h : c.name = []
  · by_cases h' : c.kind = [] <;> simp [h, h']
  · simp [h]

theorem named_idem (cfg : List (S × OutCfg)) : named (named cfg) = named cfg := by
  unfold named
  rw [List.map_map]
  apply List.map_congr_left
  intro e _
  simp [autoName_idem]

/-- The entries, by their meaning. -/
theorem mem_named {items : List (S × S)} (hok : StrMap.Ok items) {e : S × OutCfg}
    (h : e ∈ named (items.foldl readOut [])) :
    OutEntry items e.1 ∧ e.2.kind = outKind items e.1 ∧ e.2.name = outName items e.1 ∧
      e.2.level = (cfgLevel items e.1).getD 0 ∧ ∀ n, forStream e.2 n ↔ For items e.1 n := by
  have r := outRead items hok
  unfold named at h
  rw [List.mem_map] at h
  obtain ⟨⟨k, c⟩, h, rfl⟩ := h
  have hg := (StrMap.mem_iff r.ok k c).1 h
  have he : OutEntry items k := (r.dom k).1 (by simp [hg])
  have hv := r.val k he.1
  rw [hg, Option.getD_some] at hv
  have hs : (autoName c).streams = c.streams := by unfold autoName; split <;> rfl
  have hk : (autoName c).kind = c.kind := by unfold autoName; split <;> rfl
  have hl : (autoName c).level = c.level := by unfold autoName; split <;> rfl
  refine ⟨he, hk.trans hv.kind, ?_, hl.trans hv.level, fun n => ?_⟩
  · unfold autoName outName
    have := hv.name
    unfold rawName at this
    simp only [← this, ← hv.kind]
    by_cases hn : c.name = [] <;> simp [hn]
  · unfold forStream For
    rw [hs, hv.streams]
    simp only [← hv.streams]
    rw [List.eq_nil_iff_forall_not_mem, or_comm]

theorem entry_named {items : List (S × S)} (hok : StrMap.Ok items) {k : S} (h : OutEntry items k) :
    ∃ c, (k, c) ∈ named (items.foldl readOut []) := by
  have r := outRead items hok
  obtain ⟨c, hc⟩ := Option.isSome_iff_exists.1 ((r.dom k).2 h)
  exact ⟨autoName c, List.mem_map.2 ⟨(k, c), (StrMap.mem_iff r.ok k c).2 hc, rfl⟩⟩

theorem named_nil (cfg : List (S × OutCfg)) : named cfg = [] ↔ cfg = [] := by simp [named]

theorem no_entries {items : List (S × S)} (hok : StrMap.Ok items) :
    named (items.foldl readOut []) = [] ↔ ∀ e, ¬ OutEntry items e := by
  constructor
  · intro h e he
    obtain ⟨c, hc⟩ := entry_named hok he
    rw [h] at hc
    cases hc
  · intro h
    rw [List.eq_nil_iff_forall_not_mem]
    intro e he
    exact h _ (mem_named hok he).1

/-- The invariant. -/
structure Inv (env : Env) (ops : List Op) (m : M) : Prop where
  freed : m.freed = []
  okS : StrMap.Ok m.streams
  okO : StrMap.Ok m.outputs
  facO : ∀ n, n ∈ m.outFactories ↔ .regOut n ∈ ops
  facS : ∀ n, n ∈ m.strFactories ↔ .regStr n ∈ ops
  dOk : DfltOk m
  dNone : m.dflt = none → ∀ n, StrMap.get m.streams n = none ∨ m.outCfg ≠ []
  live : ∀ n s o, StrMap.get m.streams n = some s → .named o ∈ s.outs → (StrMap.get m.outputs o).isSome
  strs : ∀ n, (StrMap.get m.streams n).isSome → n ∈ m.strFactories
  cfg : (m.initialized = true ∧ named m.outCfg = named (env.items.foldl readOut []) ∧
      m.strCfg = env.items.foldl readStr []) ∨
    (m.initialized = false ∧ m.outCfg = [] ∧ m.strCfg = [] ∧ m.streams = [] ∧ m.outputs = [] ∧ m.dflt = none)

theorem inv_init (env : Env) : Inv env [] M.init := by
  refine ⟨rfl, StrMap.ok_nil, StrMap.ok_nil, ?_, ?_, ?_, ?_, ?_, ?_, Or.inr ⟨rfl, rfl, rfl, rfl, rfl, rfl⟩⟩
  · intro n; simp [M.init]
  · intro n; simp [M.init]
  · intro n s h; simp [M.init] at h
  · intro _ n; left; rfl
  · intro n s o h; simp [M.init] at h
  · intro n h; simp [M.init] at h

/-- The manager after `readConfig`. -/
theorem inv_readConfig {env : Env} {ops : List Op} {m : M} (h : Inv env ops m) :
    Inv env ops (readConfig env m) ∧ (readConfig env m).initialized = true ∧
    named (readConfig env m).outCfg = named (env.items.foldl readOut []) ∧
    (readConfig env m).strCfg = env.items.foldl readStr [] ∧
    (readConfig env m).streams = m.streams ∧ (readConfig env m).outputs = m.outputs ∧
    (readConfig env m).outFactories = m.outFactories ∧ (readConfig env m).strFactories = m.strFactories := by
  rcases h.cfg with ⟨c1, c2, c3⟩ | ⟨c1, c2, c3, c4, c5, c6⟩
  · have : readConfig env m = m := by simp [readConfig, c1]
    rw [this]
    exact ⟨h, c1, c2, c3, rfl, rfl, rfl, rfl⟩
  · have : readConfig env m =
        { m with initialized := true, outCfg := env.items.foldl readOut [], strCfg := env.items.foldl readStr [] } := by
      simp [readConfig, c1, c2, c3]
    rw [this]
    refine ⟨⟨h.freed, h.okS, h.okO, h.facO, h.facS, h.dOk, ?_, h.live, h.strs, Or.inl ⟨rfl, rfl, rfl⟩⟩, rfl, rfl, rfl,
      rfl, rfl, rfl, rfl⟩
    intro _ n
    left
    simp [c4]

/-- The effect of `initialize`. -/
theorem initialize_post {env : Env} {ops : List Op} {m : M} (h : Inv env ops m) :
    ∃ m1, configure env (readConfig env m) = some m1 ∧ initialize' env m = some (quickDebug env m1) ∧
      Post env (readConfig env m) m1 := by
  obtain ⟨h0, -⟩ := inv_readConfig h
  obtain ⟨m1, e1, p⟩ := configure_post env (readConfig env m) h0.freed h0.okS h0.okO h0.dOk h0.dNone
  exact ⟨m1, e1, by simp [initialize', e1], p⟩

theorem outAfter_some {L : List (S × OutCfg)} {fac : List S} {o : S} {x : Option Output} (h : x.isSome) :
    (outAfter L fac o x).isSome := by
  cases x with
  | some x => rfl
  | none => simp at h

theorem inv_configure {env : Env} {ops : List Op} {m m1 : M} (h : Inv env ops m) (p : Post env (readConfig env m) m1) :
    Inv env ops m1 := by
  obtain ⟨h0, hi, hc, hs, -, -, -, -⟩ := inv_readConfig h
  generalize readConfig env m = m0 at *
  obtain ⟨⟨s1, s2, s3, s4, s5, s6⟩, okS, okO, outs, dfl, dl, ss, st⟩ := p
  refine ⟨s5.trans h0.freed, okS, okO, fun n => by rw [s3]; exact h0.facO n, fun n => by rw [s4]; exact h0.facS n,
    fun n s hn => ⟨(st n s hn).2.1, (st n s hn).2.2.1⟩, ?_, ?_, ?_, ?_⟩
  · intro hd n
    right
    rw [s6, Ne, named_nil]
    intro he
    have := dfl.2 (Or.inl he)
    rw [hd] at this
    cases this
  · intro n s o hn ho
    rcases (st n s hn).2.2.2.2.1 o ho with hb | ⟨e, -, -, -, h4⟩
    · unfold before at hb
      cases hg : StrMap.get m0.streams n with
      | none => simp [hg] at hb
      | some s0 =>
        rw [hg, Option.getD_some] at hb
        have := h0.live n s0 o hg hb
        rw [outs o]
        simpa using outAfter_some this
    · exact h4
  · intro n hn
    rw [s4]
    rcases (ss n).1 hn with h' | h'
    · exact h0.strs n h'
    · exact h'
  · left
    refine ⟨s1.trans hi, ?_, s2.trans hs⟩
    rw [s6, named_idem, hc]

theorem inv_quickDebug {env : Env} {ops : List Op} {m : M} (h : Inv env ops m) (hi : m.initialized = true) :
    Inv env ops (quickDebug env m) := by
  unfold quickDebug
  split
  · refine ⟨h.freed, ok_onStream (k := quickName)
      (f := fun s => { Stream.add (.named (freshName m.outputs)) s with level := 0 }) h.okS, StrMap.ok_put h.okO _ _,
      h.facO, h.facS, ?_, ?_, ?_, ?_, ?_⟩
    · intro n s hs
      simp only [get_onStream] at hs
      cases hg : StrMap.get m.streams n with
      | none => rw [hg] at hs; cases hs
      | some s0 =>
        rw [hg] at hs
        simp only [Option.map_some, Option.some.injEq] at hs
        obtain ⟨a, b⟩ := h.dOk n s0 hg
        by_cases hn : n = quickName
        · simp only [hn, if_true] at hs
          subst hs
          refine ⟨nodup_add a, fun g => ?_⟩
          have := mem_add (.named (freshName m.outputs)) (.dflt g) s0
          simp only [this, b]
          simp
        · simp only [hn, if_false] at hs
          subst hs
          exact ⟨a, b⟩
    · intro hd n
      simp only [get_onStream]
      rcases h.dNone hd n with h' | h'
      · left; rw [h']; rfl
      · exact Or.inr h'
    · intro n s o hs ho
      simp only [get_onStream] at hs
      simp only [StrMap.get_put h.okO]
      split
      · rfl
      · next hne =>
        cases hg : StrMap.get m.streams n with
        | none => rw [hg] at hs; cases hs
        | some s0 =>
          rw [hg] at hs
          simp only [Option.map_some, Option.some.injEq] at hs
          by_cases hn : n = quickName
          · simp only [hn, if_true] at hs
            subst hs
            have := (mem_add (.named (freshName m.outputs)) (.named o) s0).1 ho
            rcases this with h' | h'
            · cases h'; exact absurd rfl hne
            · exact h.live n s0 o hg h'
          · simp only [hn, if_false] at hs
            subst hs
            exact h.live n _ o hg ho
    · intro n hn
      simp only [get_onStream] at hn
      exact h.strs n (by simpa using hn)
    · rcases h.cfg with c | c
      · exact Or.inl c
      · rw [hi] at c; cases c.1
  · exact h

theorem inv_initialize {env : Env} {ops : List Op} {m : M} (h : Inv env ops m) :
    ∃ m', initialize' env m = some m' ∧ Inv env ops m' ∧ ∀ n, (StrMap.get m'.streams n).isSome ↔ .regStr n ∈ ops := by
  obtain ⟨m1, -, e2, p⟩ := initialize_post h
  have h1 := inv_configure h p
  have hi : m1.initialized = true := p.same.1.trans (inv_readConfig h).2.1
  refine ⟨_, e2, inv_quickDebug h1 hi, fun n => ?_⟩
  have hq : (StrMap.get (quickDebug env m1).streams n).isSome ↔ (StrMap.get m1.streams n).isSome := by
    unfold quickDebug
    split
    · simp only [get_onStream]; simp
    · rfl
  rw [hq, p.streams n, (inv_readConfig h).1.facS]
  constructor
  · rintro (a | a)
    · exact ((inv_readConfig h).1.facS n).1 ((inv_readConfig h).1.strs n a)
    · exact a
  · exact Or.inr

theorem run_snoc (env : Env) (ops : List Op) (op : Op) :
    run env (ops ++ [op]) = (run env ops).bind fun m => step env m op := by
  unfold run
  rw [List.foldlM_append]
  simp

/-- One call keeps the invariant. -/
theorem inv_step {env : Env} {ops : List Op} {m m' : M} {op : Op} (h : Inv env ops m) (hop : op ≠ .shutdown)
    (hs : step env m op = some m') : Inv env (ops ++ [op]) m' := by
  have grow : ∀ m'', Inv env ops m'' → (∀ n, op ≠ .regOut n) → (∀ n, op ≠ .regStr n) → Inv env (ops ++ [op]) m'' := by
    intro m'' hm h1 h2
    refine ⟨hm.freed, hm.okS, hm.okO, fun n => ?_, fun n => ?_, hm.dOk, hm.dNone, hm.live, hm.strs, hm.cfg⟩
    · rw [hm.facO, List.mem_append]
      constructor
      · exact Or.inl
      · rintro (a | a)
        · exact a
        · exact absurd (List.mem_singleton.1 a).symm (h1 n)
    · rw [hm.facS, List.mem_append]
      constructor
      · exact Or.inl
      · rintro (a | a)
        · exact a
        · exact absurd (List.mem_singleton.1 a).symm (h2 n)
  cases op with
  | regOut k =>
    simp only [step, Option.some.injEq] at hs
    subst hs
    refine ⟨h.freed, h.okS, h.okO, fun n => ?_, fun n => ?_, h.dOk, h.dNone, h.live, h.strs, h.cfg⟩
    · have := h.facO n
      have hk := h.facO k
      simp only
      split
      · rw [this]; simp only [List.mem_append, List.mem_singleton, Op.regOut.injEq]
        constructor
        · exact Or.inl
        · rintro (a | rfl)
          · exact a
          · rw [← hk]; assumption
      · simp only [List.mem_append, List.mem_singleton, Op.regOut.injEq, this]
    · rw [h.facS]; simp
  | regStr k =>
    simp only [step, Option.some.injEq] at hs
    subst hs
    refine ⟨h.freed, h.okS, h.okO, fun n => ?_, fun n => ?_, h.dOk, h.dNone, h.live, fun n hn => ?_, h.cfg⟩
    · rw [h.facO]; simp
    · have := h.facS n
      have hk := h.facS k
      simp only
      split
      · rw [this]; simp only [List.mem_append, List.mem_singleton, Op.regStr.injEq]
        constructor
        · exact Or.inl
        · rintro (a | rfl)
          · exact a
          · rw [← hk]; assumption
      · simp only [List.mem_append, List.mem_singleton, Op.regStr.injEq, this]
    · have := h.strs n hn
      simp only
      split
      · exact this
      · simp [this]
  | init =>
    obtain ⟨m1, e, i, -⟩ := inv_initialize h
    simp only [step] at hs
    rw [e] at hs
    cases hs
    exact grow _ i (by simp) (by simp)
  | use k =>
    simp only [step] at hs
    split at hs
    · cases hs
      exact grow _ h (by simp) (by simp)
    · split at hs
      · cases hs
      · obtain ⟨m1, e, i, -⟩ := inv_initialize h
        rw [e, Option.bind_some] at hs
        split at hs
        · cases hs
          exact grow _ i (by simp) (by simp)
        · cases hs
  | setLevel l =>
    simp only [step, Option.some.injEq] at hs
    subst hs
    refine grow _ ?_ (by simp) (by simp)
    unfold setLogLevel
    refine ⟨h.freed, ok_onAll (f := fun s => { s with level := l }) h.okS, ok_setOutLevels h.okO, h.facO, h.facS, ?_, ?_, ?_, ?_, ?_⟩
    · intro n s hs
      simp only [get_onAll] at hs
      cases hg : StrMap.get m.streams n with
      | none => rw [hg] at hs; cases hs
      | some s0 =>
        rw [hg] at hs
        simp only [Option.map_some, Option.some.injEq] at hs
        subst hs
        exact h.dOk n s0 hg
    · intro hd n
      simp only [get_onAll]
      rcases h.dNone hd n with h' | h'
      · left; rw [h']; rfl
      · exact Or.inr h'
    · intro n s o hs ho
      simp only [get_onAll] at hs
      simp only [get_setOutLevels]
      cases hg : StrMap.get m.streams n with
      | none => rw [hg] at hs; cases hs
      | some s0 =>
        rw [hg] at hs
        simp only [Option.map_some, Option.some.injEq] at hs
        subst hs
        simpa using h.live n s0 o hg ho
    · intro n hn
      simp only [get_onAll] at hn
      exact h.strs n (by simpa using hn)
    · rcases h.cfg with c | ⟨c1, c2, c3, c4, c5, c6⟩
      · exact Or.inl c
      · exact Or.inr ⟨c1, c2, c3, by simp [c4, onAll], by simp [c5, setOutLevels], c6⟩
  | shutdown => exact absurd rfl hop

theorem inv_run {env : Env} {ops : List Op} (hns : .shutdown ∉ ops) : ∀ {m : M}, run env ops = some m → Inv env ops m := by
  induction ops using List.reverseRecOn with
  | nil =>
    intro m h
    simp only [run, List.foldlM_nil] at h
    cases h
    exact inv_init env
  | append_singleton ops op ih =>
    intro m h
    rw [run_snoc] at h
    cases hr : run env ops with
    | none => rw [hr] at h; cases h
    | some m0 =>
      rw [hr, Option.bind_some] at h
      simp only [List.mem_append, List.mem_singleton, not_or] at hns
      exact inv_step (ih hns.1 hr) (fun e => hns.2 e.symm) h

/-! ## Where the connections, outputs and levels come from -/

theorem lastLevel_idem (L : List (S × StrCfg)) (n : S) (c : Nat) : lastLevel L n (lastLevel L n c) = lastLevel L n c := by
  have key : ∀ (L : List (S × StrCfg)) c c', (∃ e ∈ L, e.2.name = n) → lastLevel L n c = lastLevel L n c' := by
    intro L
    induction L with
    | nil => simp
    | cons e L ih =>
      intro c c' h
      simp only [lastLevel, List.foldl_cons] at ih ⊢
      by_cases hn : e.2.name = n
      · simp [hn]
      · simp only [hn, if_false]
        apply ih
        obtain ⟨e', h1, h2⟩ := h
        rcases List.mem_cons.1 h1 with rfl | h1
        · exact absurd h2 hn
        · exact ⟨e', h1, h2⟩
  by_cases h : ∃ e ∈ L, e.2.name = n
  · exact key L _ _ h
  · have : ∀ (L : List (S × StrCfg)) c, (¬ ∃ e ∈ L, e.2.name = n) → lastLevel L n c = c := by
      intro L
      induction L with
      | nil => intro c _; rfl
      | cons e L ih =>
        intro c h
        have hn : ¬ e.2.name = n := fun h' => h ⟨e, by simp, h'⟩
        simp only [lastLevel, List.foldl_cons, hn, if_false] at ih ⊢
        exact ih c (fun ⟨e', a, b⟩ => h ⟨e', by simp [a], b⟩)
    rw [this L _ h]

/-- Nothing is connected, created or set that is not configured. -/
structure Sound (env : Env) (ops : List Op) (m : M) : Prop where
  outs : ∀ o x, StrMap.get m.outputs o = some x → ∃ e, Wanted env.items ops e o ∧ x.kind = outKind env.items e ∧
    x.pre = "/IclCore/Logging/".toList ++ e ∧
    ((∀ l, .setLevel l ∉ ops) → x.level = (optLevel env).getD ((cfgLevel env.items e).getD 0))
  conn : ∀ n s o, StrMap.get m.streams n = some s → .named o ∈ s.outs →
    ∃ e, OutEntry env.items e ∧ outName env.items e = o ∧ For env.items e n
  level : ∀ n s, StrMap.get m.streams n = some s → (∀ l, .setLevel l ∉ ops) →
    s.level = (optLevel env).getD (lastLevel (env.items.foldl readStr []) n 2)

theorem sound_mono {env : Env} {ops : List Op} {m : M} (op : Op) (h : Sound env ops m) : Sound env (ops ++ [op]) m := by
  have hw : ∀ e o, Wanted env.items ops e o → Wanted env.items (ops ++ [op]) e o :=
    fun e o ⟨a, b, c⟩ => ⟨a, b, by simp [c]⟩
  have hl : (∀ l, Op.setLevel l ∉ ops ++ [op]) → ∀ l, Op.setLevel l ∉ ops := fun h l hm => h l (by simp [hm])
  refine ⟨fun o x hx => ?_, fun n s o hs ho => ?_, fun n s hs hno => h.level n s hs (hl hno)⟩
  · obtain ⟨e, a, b, c, d⟩ := h.outs o x hx
    exact ⟨e, hw e o a, b, c, fun hno => d (hl hno)⟩
  · exact h.conn n s o hs ho

theorem sound_initialize {env : Env} {ops : List Op} {m m' : M} (hok : StrMap.Ok env.items) (hq : env.quickDebug = false)
    (h : Inv env ops m) (hs : Sound env ops m) (he : initialize' env m = some m') : Sound env ops m' := by
  obtain ⟨m1, -, e2, p⟩ := initialize_post h
  have : m' = m1 := by
    rw [e2] at he
    have hqd : quickDebug env m1 = m1 := by simp [quickDebug, hq]
    rw [hqd] at he
    exact (Option.some.inj he).symm
  subst this
  obtain ⟨h0, -, hc, hsc, q1, q2, q3, -⟩ := inv_readConfig h
  generalize readConfig env m = m0 at *
  obtain ⟨⟨s1, s2, s3, s4, s5, s6⟩, okS, okO, outs, dfl, dl, ss, st⟩ := p
  rw [hc] at outs st
  have houts : ∀ o x, StrMap.get m'.outputs o = some x → ∃ e, Wanted env.items ops e o ∧ x.kind = outKind env.items e ∧
      x.pre = "/IclCore/Logging/".toList ++ e ∧
      ((∀ l, .setLevel l ∉ ops) → x.level = (optLevel env).getD ((cfgLevel env.items e).getD 0)) := by
    intro o x hx
    rw [outs o] at hx
    cases hg : StrMap.get m0.outputs o with
    | some x0 =>
      rw [hg] at hx
      simp only [outAfter, Option.map_some, Option.some.injEq] at hx
      obtain ⟨e, a, b, c, d⟩ := hs.outs o x0 (q2 ▸ hg)
      refine ⟨e, a, by rw [← hx]; exact b, by rw [← hx]; exact c, fun hno => ?_⟩
      rw [← hx]
      simp only [d hno]
      cases optLevel env <;> rfl
    | none =>
      rw [hg] at hx
      simp only [outAfter] at hx
      cases hf : (named (env.items.foldl readOut [])).find? (fun e => decide (e.2.name = o ∧ e.2.kind ∈ m0.outFactories)) with
      | none => rw [hf] at hx; cases hx
      | some e =>
        rw [hf] at hx
        simp only [Option.map_some, Option.some.injEq] at hx
        have hp := List.find?_some hf
        simp only [decide_eq_true_eq] at hp
        obtain ⟨a1, a2, a3, a4, -⟩ := mem_named hok (List.mem_of_find?_eq_some hf)
        refine ⟨e.1, ⟨a1, a3.symm.trans hp.1, ?_⟩, by rw [← hx]; exact a2, by rw [← hx]; rfl, fun _ => by rw [← hx, ← a4]⟩
        rw [← a2, ← h0.facO]
        exact hp.2
  refine ⟨houts, fun n s o hn ho => ?_, fun n s hn hno => ?_⟩
  · rcases (st n s hn).2.2.2.2.1 o ho with hb | ⟨e, b1, b2, b3, b4⟩
    · unfold before at hb
      cases hg : StrMap.get m0.streams n with
      | none => simp [hg] at hb
      | some s0 =>
        rw [hg, Option.getD_some] at hb
        exact hs.conn n s0 o (q1 ▸ hg) hb
    · obtain ⟨a1, a2, a3, a4, a5⟩ := mem_named hok b1
      exact ⟨e.1, a1, a3.symm.trans b2, (a5 n).1 b3⟩
  · rw [(st n s hn).1, hsc]
    unfold before
    cases hg : StrMap.get m0.streams n with
    | none => rfl
    | some s0 =>
      simp only [Option.getD_some]
      rw [hs.level n s0 (q1 ▸ hg) hno]
      cases optLevel env with
      | some l => rfl
      | none => simp only [Option.getD_none]; rw [lastLevel_idem]

theorem sound_run {env : Env} {ops : List Op} (hok : StrMap.Ok env.items) (hq : env.quickDebug = false)
    (hns : .shutdown ∉ ops) : ∀ {m : M}, run env ops = some m → Sound env ops m := by
  induction ops using List.reverseRecOn with
  | nil =>
    intro m h
    simp only [run, List.foldlM_nil] at h
    cases h
    refine ⟨fun o x h => ?_, fun n s o h => ?_, fun n s h => ?_⟩ <;> simp [M.init] at h
  | append_singleton ops op ih =>
    intro m h
    rw [run_snoc] at h
    simp only [List.mem_append, List.mem_singleton, not_or] at hns
    cases hr : run env ops with
    | none => rw [hr] at h; cases h
    | some m0 =>
      rw [hr, Option.bind_some] at h
      have hi := inv_run hns.1 hr
      have hs := ih hns.1 hr
      cases op with
      | regOut k =>
        simp only [step, Option.some.injEq] at h
        subst h
        exact ⟨(sound_mono (.regOut k) hs).outs, hs.conn, (sound_mono (.regOut k) hs).level⟩
      | regStr k =>
        simp only [step, Option.some.injEq] at h
        subst h
        exact ⟨(sound_mono (.regStr k) hs).outs, hs.conn, (sound_mono (.regStr k) hs).level⟩
      | init => exact sound_mono _ (sound_initialize hok hq hi hs h)
      | use k =>
        simp only [step] at h
        split at h
        · cases h
          exact sound_mono _ hs
        · split at h
          · cases h
          · obtain ⟨m1, e, -, -⟩ := inv_initialize hi
            rw [e, Option.bind_some] at h
            split at h
            · cases h
              exact sound_mono _ (sound_initialize hok hq hi hs e)
            · cases h
      | setLevel l =>
        simp only [step, Option.some.injEq] at h
        subst h
        have hm := sound_mono (.setLevel l) hs
        have hno : ¬ ∀ l', Op.setLevel l' ∉ ops ++ [.setLevel l] := fun hn => hn l (by simp)
        unfold setLogLevel
        refine ⟨fun o x hx => ?_, fun n s o hn ho => ?_, fun n s _ hn => absurd hn hno⟩
        · simp only [get_setOutLevels] at hx
          cases hg : StrMap.get m0.outputs o with
          | none => rw [hg] at hx; cases hx
          | some x0 =>
            rw [hg] at hx
            simp only [Option.map_some, Option.some.injEq] at hx
            obtain ⟨e, a, b, c, -⟩ := hm.outs o x0 hg
            exact ⟨e, a, by rw [← hx]; exact b, by rw [← hx]; exact c, fun hn => absurd hn hno⟩
        · simp only [get_onAll] at hn
          cases hg : StrMap.get m0.streams n with
          | none => rw [hg] at hn; cases hn
          | some s0 =>
            rw [hg] at hn
            simp only [Option.map_some, Option.some.injEq] at hn
            subst hn
            exact hm.conn n s0 o hg ho
      | shutdown => exact absurd rfl hns.2

end Verif.Logging.Manager
