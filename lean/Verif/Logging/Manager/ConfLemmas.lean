import Verif.Logging.Manager.Lemmas

/-! # Lemmas: the effect of `configure` -/
namespace Verif.Logging.Manager

/-- What holds of the attached default output between calls. -/
def DfltOk (m : M) : Prop :=
  ∀ n s, StrMap.get m.streams n = some s → s.outs.Nodup ∧ ∀ g, .dflt g ∈ s.outs ↔ ∃ o, m.dflt = some (g, o)

/-- Up to the loops: `m` before, `m3` after the default output and the streams have been made. -/
structure Pre (m m3 : M) : Prop where
  same : m3.initialized = m.initialized ∧ m3.strCfg = m.strCfg ∧ m3.outFactories = m.outFactories ∧
    m3.strFactories = m.strFactories ∧ m3.freed = m.freed ∧ m3.outCfg = m.outCfg ∧ m3.outputs = m.outputs
  okS : StrMap.Ok m3.streams
  dflt : m3.dflt.isSome ↔ m.outCfg = []
  streams : ∀ n, (StrMap.get m3.streams n).isSome ↔ (StrMap.get m.streams n).isSome ∨ n ∈ m.strFactories
  stream : ∀ n s, StrMap.get m3.streams n = some s → s.level = (before m n).level ∧ s.outs.Nodup ∧
    (∀ g, .dflt g ∈ s.outs ↔ ∃ o, m3.dflt = some (g, o)) ∧ ∀ o, .named o ∈ s.outs ↔ .named o ∈ (before m n).outs

theorem pre (m : M) (hf : m.freed = []) (hok : StrMap.Ok m.streams) (hd : DfltOk m)
    (hno : m.dflt = none → ∀ n, StrMap.get m.streams n = none ∨ m.outCfg ≠ []) :
    ∃ m2, (defaultIfNeeded m).strFactories.foldlM createStream (defaultIfNeeded m) = some m2 ∧ Pre m (deleteDefault m2) := by
  -- the default output
  have hm1 : ∃ d g, defaultIfNeeded m = { m with dflt := d, gen := g } ∧
      (m.outCfg = [] → d.isSome) ∧ (m.outCfg ≠ [] → d = m.dflt) ∧ (m.dflt.isSome → d = m.dflt) := by
    unfold defaultIfNeeded
    by_cases hc : m.outCfg = []
    · have : m.outCfg.isEmpty = true := by simpa using hc
      rw [if_pos this]
      cases hdm : m.dflt with
      | some x =>
        have hcd : createDefault m = m := by unfold createDefault; rw [hdm]
        rw [hcd]
        exact ⟨some x, m.gen, by rw [← hdm], fun _ => rfl, fun h => rfl, fun _ => rfl⟩
      | none =>
        unfold createDefault
        rw [hdm]
        exact ⟨_, _, rfl, fun _ => rfl, fun h => absurd hc h, fun h => by simp at h⟩
    · have : ¬ m.outCfg.isEmpty = true := by simpa using hc
      rw [if_neg this]
      exact ⟨m.dflt, m.gen, rfl, fun h => absurd h hc, fun _ => rfl, fun _ => rfl⟩
  obtain ⟨d, gn, e1, e2, e3, e4⟩ := hm1
  rw [e1]
  obtain ⟨ss, h1, h2, h3⟩ := createStreams m.strFactories { m with dflt := d, gen := gn } hf hok
  refine ⟨_, h1, ?_⟩
  -- the streams and their default output
  have hold : ∀ n s, StrMap.get m.streams n = some s → ∀ g, .dflt g ∈ s.outs ↔ ∃ o, d = some (g, o) := by
    intro n s hs g
    rw [(hd n s hs).2 g]
    by_cases hn : m.dflt = none
    · rcases hno hn n with h | h
      · rw [hs] at h; cases h
      · rw [e3 h]
    · rw [e4 (Option.isSome_iff_ne_none.2 hn)]
  have hnew : (newStream { m with dflt := d, gen := gn }).level = 2 ∧
      (newStream { m with dflt := d, gen := gn }).outs.Nodup ∧
      (∀ g, .dflt g ∈ (newStream { m with dflt := d, gen := gn }).outs ↔ ∃ o, d = some (g, o)) ∧
      ∀ o, .named o ∉ (newStream { m with dflt := d, gen := gn }).outs := by
    unfold newStream
    cases d with
    | none => simp
    | some x =>
      obtain ⟨g0, o0⟩ := x
      refine ⟨rfl, nodup_add List.nodup_nil, fun g => ?_, fun o => ?_⟩
      · simp only [mem_add]
        simp
        constructor
        · rintro rfl; rfl
        · exact Eq.symm
      · simp only [mem_add]
        simp
  have hmid : (∀ n, (StrMap.get ss n).isSome ↔ (StrMap.get m.streams n).isSome ∨ n ∈ m.strFactories) ∧
      ∀ n s, StrMap.get ss n = some s → s.level = (before m n).level ∧ s.outs.Nodup ∧
        (∀ g, .dflt g ∈ s.outs ↔ ∃ o, d = some (g, o)) ∧ ∀ o, .named o ∈ s.outs ↔ .named o ∈ (before m n).outs := by
    constructor
    · intro n
      rw [h3 n]
      simp only
      by_cases ha : (StrMap.get m.streams n).isSome
      · simp [ha]
      · by_cases hb : n ∈ m.strFactories
        · simp [ha, hb]
        · simp [ha, hb]
    · intro n s hs
      rw [h3 n] at hs
      simp only at hs
      by_cases ha : (StrMap.get m.streams n).isSome
      · rw [if_pos ha] at hs
        refine ⟨by simp [before, hs], (hd n s hs).1, hold n s hs, fun o => by simp [before, hs]⟩
      · rw [if_neg ha] at hs
        have hb : before m n = ⟨2, []⟩ := by
          unfold before
          have : StrMap.get m.streams n = none := by simpa using ha
          rw [this]; rfl
        split at hs
        · simp only [Option.some.injEq] at hs
          subst hs
          rw [hb]
          exact ⟨hnew.1, hnew.2.1, hnew.2.2.1, fun o => by simp [hnew.2.2.2 o]⟩
        · cases hs
  -- removal of the default output
  unfold deleteDefault
  by_cases hc : m.outCfg = []
  · have : ({ m with dflt := d, gen := gn, streams := ss } : M).outCfg.isEmpty = true := by simpa using hc
    rw [if_pos this]
    refine ⟨⟨rfl, rfl, rfl, rfl, rfl, rfl, rfl⟩, h2, ?_, hmid.1, hmid.2⟩
    exact ⟨fun _ => hc, fun _ => e2 hc⟩
  · have : ¬ ({ m with dflt := d, gen := gn, streams := ss } : M).outCfg.isEmpty = true := by simpa using hc
    rw [if_neg this]
    cases d with
    | none =>
      refine ⟨⟨rfl, rfl, rfl, rfl, rfl, rfl, rfl⟩, h2, ?_, hmid.1, hmid.2⟩
      simp [hc]
    | some x =>
      obtain ⟨g0, o0⟩ := x
      refine ⟨⟨rfl, rfl, rfl, rfl, rfl, rfl, rfl⟩, ok_onAll h2, ?_, ?_, ?_⟩
      · simp [hc]
      · intro n
        simp only [get_onAll]
        rw [← hmid.1 n]
        cases StrMap.get ss n <;> simp
      · intro n s hs
        simp only [get_onAll] at hs
        cases hg : StrMap.get ss n with
        | none => rw [hg] at hs; cases hs
        | some s0 =>
          rw [hg] at hs
          simp only [Option.map_some, Option.some.injEq] at hs
          subst hs
          obtain ⟨a, b, c, e⟩ := hmid.2 n s0 hg
          refine ⟨a, nodup_remove b, fun g => ?_, fun o => ?_⟩
          · rw [mem_remove, c]
            constructor
            · rintro ⟨⟨x, hx⟩, h⟩
              cases hx
              exact absurd rfl h
            · rintro ⟨x, hx⟩
              cases hx
          · rw [mem_remove, e]
            simp

theorem configure_post (env : Env) (m : M) (hf : m.freed = []) (hokS : StrMap.Ok m.streams) (hokO : StrMap.Ok m.outputs)
    (hd : DfltOk m) (hno : m.dflt = none → ∀ n, StrMap.get m.streams n = none ∨ m.outCfg ≠ []) :
    ∃ m', configure env m = some m' ∧ Post env m m' := by
  obtain ⟨m2, hm2, p⟩ := pre m hf hokS hd hno
  unfold configure
  rw [hm2, Option.map_some]
  refine ⟨_, rfl, ?_⟩
  generalize deleteDefault m2 = m3 at p
  obtain ⟨⟨s1, s2, s3, s4, s5, s6, s7⟩, pokS, pd, pss, ps⟩ := p
  -- the loop over the outputs
  have ho : OutLoop (named m.outCfg) { m3 with outCfg := named m.outCfg } (configOutputs m3) := by
    unfold configOutputs named
    rw [s6]
    exact outLoop _ _ pokS (by rw [s7]; exact hokO)
  generalize configOutputs m3 = m4 at ho
  obtain ⟨r, okS4, okO4, outs4, strs4⟩ := ho
  have f1 : m4.initialized = m.initialized := by rw [r]; exact s1
  have f2 : m4.strCfg = m.strCfg := by rw [r]; exact s2
  have f3 : m4.outFactories = m.outFactories := by rw [r]; exact s3
  have f4 : m4.strFactories = m.strFactories := by rw [r]; exact s4
  have f5 : m4.freed = m.freed := by rw [r]; exact s5
  have f6 : m4.outCfg = named m.outCfg := by rw [r]
  have f7 : m4.dflt = m3.dflt := by rw [r]
  simp only [s3, s7] at outs4 strs4
  -- the loop over the streams
  obtain ⟨ss, h5, okS5, g5⟩ := strLoop m4.strCfg m4 okS4
  have h5' : configStreams m4 = { m4 with streams := ss } := h5
  rw [h5']
  rw [f2] at g5
  -- all about a stream before the option is looked at
  have hs5 : (∀ n, (StrMap.get ss n).isSome ↔ (StrMap.get m.streams n).isSome ∨ n ∈ m.strFactories) ∧
      ∀ n s', StrMap.get ss n = some s' →
        s'.level = lastLevel m.strCfg n (before m n).level ∧ s'.outs.Nodup ∧
        (∀ g, .dflt g ∈ s'.outs ↔ ∃ o, m3.dflt = some (g, o)) ∧
        (∀ o, .named o ∈ (before m n).outs → .named o ∈ s'.outs) ∧
        (∀ o, .named o ∈ s'.outs → .named o ∈ (before m n).outs ∨
          ∃ e ∈ named m.outCfg, e.2.name = o ∧ forStream e.2 n ∧ (StrMap.get m4.outputs o).isSome) ∧
        (∀ e ∈ named m.outCfg, ((StrMap.get m.outputs e.2.name).isSome ∨ e.2.kind ∈ m.outFactories) →
          forStream e.2 n → .named e.2.name ∈ s'.outs) := by
    constructor
    · intro n
      obtain ⟨f, k1, -⟩ := strs4 n
      rw [g5 n, k1, ← pss n]
      simp
    · intro n s' hs'
      obtain ⟨f, k1, k2⟩ := strs4 n
      rw [g5 n, k1] at hs'
      cases hg : StrMap.get m3.streams n with
      | none => simp only [hg, Option.map_none, reduceCtorEq] at hs'
      | some s0 =>
        simp only [hg, Option.map_some, Option.some.injEq] at hs'
        subst hs'
        obtain ⟨a1, a2, a3, a4⟩ := ps n s0 hg
        obtain ⟨b1, b2, b3, b4, b5, b6⟩ := k2 s0
        refine ⟨by simp only [b1, a1], b2 a2, fun g => by rw [b3, a3], fun o h => b4 o ((a4 o).2 h), fun o h => ?_, b6⟩
        rcases b5 o h with h | h
        · exact Or.inl ((a4 o).1 h)
        · exact Or.inr h
  -- the option
  unfold applyLogLevel
  have hnolevel : optLevel env = none → Post env m { m4 with streams := ss } := by
    intro hl
    refine ⟨⟨f1, f2, f3, f4, f5, f6⟩, okS5, okO4, fun o => ?_, ?_, ?_, hs5.1, ?_⟩
    · simp only [hl, Option.getD_none]
      rw [outs4 o]
      cases StrMap.get m.outputs o <;> simp
    · simp only [f7, hl, pd, Option.isSome_none, Bool.false_eq_true, or_false]
    · intro l h; rw [hl] at h; cases h
    · intro n s' hs'
      obtain ⟨a, b, c, d, e, f⟩ := hs5.2 n s' hs'
      refine ⟨by simp only [hl, Option.getD_none]; exact a, b, fun g => by rw [c]; simp only [f7], d, e, f⟩
  cases hopt : env.logLevel with
  | none =>
    exact hnolevel (by simp [optLevel, hopt])
  | some t =>
    simp only [option_level]
    cases hlv : levelOf t with
    | none => exact hnolevel (by simp [optLevel, hopt, hlv])
    | some l =>
      have hl : optLevel env = some l := by simp [optLevel, hopt, hlv]
      simp only
      obtain ⟨g, o, gn, hcd, hdd⟩ : ∃ g o gn, createDefault { m4 with streams := ss } =
          { m4 with streams := ss, dflt := some (g, o), gen := gn } ∧ (∀ x, m3.dflt = some x → x = (g, o)) := by
        unfold createDefault
        cases hd4 : m4.dflt with
        | some x => exact ⟨x.1, x.2, m4.gen, by simp only [← hd4], fun y hy => by
            rw [f7] at hd4; rw [hd4] at hy; exact (Option.some.inj hy).symm⟩
        | none =>
          refine ⟨_, _, _, rfl, fun y hy => ?_⟩
          rw [f7] at hd4; rw [hd4] at hy; cases hy
      rw [hcd]
      simp only
      refine ⟨⟨f1, f2, f3, f4, f5, f6⟩, ok_onAll (f := fun s => Stream.add (.dflt g) { s with level := l }) okS5,
        ok_setOutLevels okO4,
        fun q => ?_, ?_, ?_, ?_, ?_⟩
      · simp only
        rw [get_setOutLevels, outs4 q, hl]
        rfl
      · simp [hl]
      · intro l' h g' o' h'
        rw [hl] at h
        cases h
        simp only [Option.some.injEq, Prod.mk.injEq] at h'
        rw [← h'.2]
      · intro n
        simp only [get_onAll]
        rw [← hs5.1 n]
        simp
      · intro n s' hs'
        simp only [get_onAll] at hs'
        cases hg : StrMap.get ss n with
        | none => rw [hg] at hs'; cases hs'
        | some s0 =>
          rw [hg] at hs'
          simp only [Option.map_some, Option.some.injEq] at hs'
          subst hs'
          obtain ⟨a1, a2, a3, a4, a5, a6⟩ := hs5.2 n s0 hg
          refine ⟨by rw [level_add, hl]; rfl, nodup_add a2, fun g' => ?_, fun q h => ?_, fun q h => ?_, fun e he hav hfor => ?_⟩
          · rw [mem_add]
            simp only [a3, OutId.dflt.injEq, Option.some.injEq, Prod.mk.injEq]
            constructor
            · rintro (rfl | ⟨q, hq⟩)
              · exact ⟨_, rfl, rfl⟩
              · have := hdd _ hq
                simp only [Prod.mk.injEq] at this
                exact ⟨_, this.1.symm, rfl⟩
            · rintro ⟨q, rfl, -⟩; exact Or.inl rfl
          · rw [mem_add]; exact Or.inr (a4 q h)
          · rw [mem_add] at h
            rcases h with h | h
            · cases h
            · rcases a5 q h with h | ⟨e, b1, b2, b3, b4⟩
              · exact Or.inl h
              · refine Or.inr ⟨e, b1, b2, b3, ?_⟩
                simp only [get_setOutLevels]
                simpa using b4
          · rw [mem_add]; exact Or.inr (a6 e he hav hfor)

end Verif.Logging.Manager
