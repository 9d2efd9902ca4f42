import Verif.Logging.Manager.Props

/-!
# C73, C74: the logging configuration exactly, also when names occur several times

The entries are processed in the order of their keys.  Here: what the first `initialize` makes of
every configuration.
-/
namespace Verif.Logging.Manager

/-! ## Specification -/

/-- Of the entries for output `o` whose class is registered, `e` is the first in the order of the keys. -/
def First (items : List (S × S)) (ops : List Op) (e o : S) : Prop :=
  Wanted items ops e o ∧ ∀ e', Wanted items ops e' o → e ≤ e'

/-- Of the entries for stream `n`, `e` is the last in the order of the keys. -/
def Last (items : List (S × S)) (e n : S) : Prop :=
  (StrEntry items e ∧ strName items e = n) ∧ ∀ e', StrEntry items e' → strName items e' = n → e' ≤ e

/-! ## Lemmas -/

/-- Stream `n` is connected with output `o` by the loop over the entries; `has`: the output exists before. -/
def Conn (fac : List S) (n o : S) : Prop → List (S × OutCfg) → Prop
  | _, [] => False
  | has, e :: L => (e.2.name = o ∧ forStream e.2 n ∧ (has ∨ e.2.kind ∈ fac)) ∨
      Conn fac n o (has ∨ (e.2.name = o ∧ e.2.kind ∈ fac)) L

theorem conn_congr {fac : List S} {n o : S} {L : List (S × OutCfg)} {p q : Prop} (h : p ↔ q) :
    Conn fac n o p L ↔ Conn fac n o q L := by
  have : p = q := propext h
  rw [this]

theorem conn_loop (n o : S) (L : List (S × OutCfg)) : ∀ m : M, StrMap.Ok m.streams → StrMap.Ok m.outputs →
    ∀ s', StrMap.get (L.foldl configOutput m).streams n = some s' → ∃ s, StrMap.get m.streams n = some s ∧
      (.named o ∈ s'.outs ↔ .named o ∈ s.outs ∨ Conn m.outFactories n o ((StrMap.get m.outputs o).isSome = true) L) := by
  induction L with
  | nil =>
    intro m _ _ s' hs'
    exact ⟨s', hs', by simp [Conn]⟩
  | cons e L ih =>
    intro m h1 h2 s' hs'
    rw [List.foldl_cons] at hs'
    obtain ⟨hcok, hc⟩ := get_connect e.2 m.streams h1
    obtain ⟨f1, g1, g2⟩ := hc n
    by_cases hs : (StrMap.get m.outputs e.2.name).isSome
    · have hstep : configOutput m e = { m with streams := connect e.2 m.streams } := if_pos hs
      rw [hstep] at hs'
      obtain ⟨s1, hs1, hiff⟩ := ih { m with streams := connect e.2 m.streams } hcok h2 s' hs'
      simp only [g1, Option.map_eq_some_iff] at hs1
      obtain ⟨s, hs0, rfl⟩ := hs1
      refine ⟨s, hs0, ?_⟩
      rw [hiff, (g2 s).2.2]
      simp only [OutId.named.injEq, Conn]
      have hh : e.2.name = o → (StrMap.get m.outputs o).isSome = true := by rintro rfl; exact hs
      have hcg : ((StrMap.get m.outputs o).isSome = true) ↔
          ((StrMap.get m.outputs o).isSome = true ∨ (e.2.name = o ∧ e.2.kind ∈ m.outFactories)) := by
        constructor
        · exact Or.inl
        · rintro (a | ⟨a, -⟩)
          · exact a
          · exact hh a
      rw [← conn_congr hcg]
      constructor
      · rintro ((a | ⟨rfl, b⟩) | a)
        · exact .inl a
        · exact .inr (.inl ⟨rfl, b, .inl hs⟩)
        · exact .inr (.inr a)
      · rintro (a | ⟨rfl, b, -⟩ | a)
        · exact .inl (.inl a)
        · exact .inl (.inr ⟨rfl, b⟩)
        · exact .inr a
    · by_cases hk : e.2.kind ∈ m.outFactories
      · have hstep : configOutput m e =
            { m with
              outputs := StrMap.put m.outputs e.2.name ⟨e.2.kind, logPrefix ++ e.1, e.2.level⟩
              streams := connect e.2 m.streams } := by
          simp only [configOutput, hs, hk, if_true, if_false, Bool.false_eq_true]
        rw [hstep] at hs'
        obtain ⟨s1, hs1, hiff⟩ := ih _ hcok (StrMap.ok_put h2 _ _) s' hs'
        simp only [g1, Option.map_eq_some_iff] at hs1
        obtain ⟨s, hs0, rfl⟩ := hs1
        refine ⟨s, hs0, ?_⟩
        rw [hiff, (g2 s).2.2]
        simp only [OutId.named.injEq, Conn, StrMap.get_put h2]
        have hcg : ((if o = e.2.name then some (⟨e.2.kind, logPrefix ++ e.1, e.2.level⟩ : Output)
            else StrMap.get m.outputs o).isSome = true) ↔
            ((StrMap.get m.outputs o).isSome = true ∨ (e.2.name = o ∧ e.2.kind ∈ m.outFactories)) := by
          by_cases ho : o = e.2.name
          · rw [if_pos ho]; simp [ho.symm, hk]
          · rw [if_neg ho]
            constructor
            · exact Or.inl
            · rintro (a | ⟨a, -⟩)
              · exact a
              · exact absurd a.symm ho
        rw [conn_congr hcg]
        constructor
        · rintro ((a | ⟨rfl, b⟩) | a)
          · exact .inl a
          · exact .inr (.inl ⟨rfl, b, .inr hk⟩)
          · exact .inr (.inr a)
        · rintro (a | ⟨rfl, b, -⟩ | a)
          · exact .inl (.inl a)
          · exact .inl (.inr ⟨rfl, b⟩)
          · exact .inr a
      · have hstep : configOutput m e = m := by
          simp only [configOutput, hs, hk, if_false, Bool.false_eq_true]
        rw [hstep] at hs'
        obtain ⟨s, hs0, hiff⟩ := ih m h1 h2 s' hs'
        refine ⟨s, hs0, ?_⟩
        rw [hiff]
        simp only [Conn]
        have hcg : ((StrMap.get m.outputs o).isSome = true) ↔
            ((StrMap.get m.outputs o).isSome = true ∨ (e.2.name = o ∧ e.2.kind ∈ m.outFactories)) := by
          constructor
          · exact Or.inl
          · rintro (a | ⟨-, a⟩)
            · exact a
            · exact absurd a hk
        rw [← conn_congr hcg]
        constructor
        · rintro (a | a)
          · exact .inl a
          · exact .inr (.inr a)
        · rintro (a | ⟨rfl, -, a | a⟩ | a)
          · exact .inl a
          · exact absurd a hs
          · exact absurd a hk
          · exact .inr a

/-- The recursion in terms of positions in a list with ascending keys. -/
theorem conn_iff (fac : List S) (n o : S) (L : List (S × OutCfg)) (hL : StrMap.Ok L) : ∀ has : Prop,
    Conn fac n o has L ↔ ∃ e ∈ L, e.2.name = o ∧ forStream e.2 n ∧
      (has ∨ ∃ e' ∈ L, e'.2.name = o ∧ e'.2.kind ∈ fac ∧ e'.1 ≤ e.1) := by
  induction L with
  | nil => intro has; simp [Conn]
  | cons a L ih =>
    intro has
    have hp := List.pairwise_cons.1 hL
    rw [Conn, ih hp.2]
    constructor
    · rintro (⟨h1, h2, h3⟩ | ⟨e, he, h1, h2, h3⟩)
      · refine ⟨a, by simp, h1, h2, ?_⟩
        rcases h3 with h3 | h3
        · exact .inl h3
        · exact .inr ⟨a, by simp, h1, h3, le_refl _⟩
      · refine ⟨e, by simp [he], h1, h2, ?_⟩
        rcases h3 with (h3 | ⟨h3, h4⟩) | ⟨e', h3, h4⟩
        · exact .inl h3
        · exact .inr ⟨a, by simp, h3, h4, le_of_lt (hp.1 e he)⟩
        · exact .inr ⟨e', by simp [h3], h4⟩
    · rintro ⟨e, he, h1, h2, h3⟩
      rcases List.mem_cons.1 he with rfl | he
      · left
        refine ⟨h1, h2, ?_⟩
        rcases h3 with h3 | ⟨e', he', h4, h5, h6⟩
        · exact .inl h3
        · rcases List.mem_cons.1 he' with rfl | he'
          · exact .inr h5
          · exact absurd (hp.1 e' he') (not_lt_of_ge h6)
      · right
        refine ⟨e, he, h1, h2, ?_⟩
        rcases h3 with h3 | ⟨e', he', h4, h5, h6⟩
        · exact .inl (.inl h3)
        · rcases List.mem_cons.1 he' with rfl | he'
          · exact .inl (.inr ⟨h4, h5⟩)
          · exact .inr ⟨e', he', h4, h5, h6⟩

theorem named_applyLogLevel (env : Env) (m : M) (n : S) {s' : Stream}
    (h : StrMap.get (applyLogLevel env m).streams n = some s') :
    ∃ s, StrMap.get m.streams n = some s ∧ ∀ o, .named o ∈ s'.outs ↔ .named o ∈ s.outs := by
  simp only [applyLogLevel] at h
  split at h
  · exact ⟨s', h, fun o => Iff.rfl⟩
  · split at h
    · exact ⟨s', h, fun o => Iff.rfl⟩
    · have hst : (createDefault m).streams = m.streams := by simp only [createDefault]; split <;> rfl
      split at h
      · rw [hst] at h
        exact ⟨s', h, fun o => Iff.rfl⟩
      · simp only [get_onAll, hst, Option.map_eq_some_iff] at h
        obtain ⟨s, hs, rfl⟩ := h
        exact ⟨s, hs, fun o => by rw [mem_add]; simp⟩

theorem ok_named {items : List (S × S)} (hok : StrMap.Ok items) : StrMap.Ok (named (items.foldl readOut [])) := by
  have := (outRead items hok).ok
  exact List.pairwise_map.2 this

/-- Without `initialize` and use there are no streams and outputs. -/
theorem untouched {env : Env} {ops : List Op} (hc : ∀ op ∈ ops, ¬ Creates op) : ∀ {m : M}, run env ops = some m →
    m.streams = [] ∧ m.outputs = [] := by
  induction ops using List.reverseRecOn with
  | nil =>
    intro m h
    simp only [run, List.foldlM_nil] at h
    cases h
    exact ⟨rfl, rfl⟩
  | append_singleton ops op ih =>
    intro m h
    rw [run_snoc] at h
    cases hr : run env ops with
    | none => rw [hr] at h; cases h
    | some m0 =>
      rw [hr, Option.bind_some] at h
      obtain ⟨i1, i2⟩ := ih (fun op h => hc op (by simp [h])) hr
      have hop := hc op (by simp)
      cases op with
      | regOut k => simp only [step, Option.some.injEq] at h; subst h; exact ⟨i1, i2⟩
      | regStr k => simp only [step, Option.some.injEq] at h; subst h; exact ⟨i1, i2⟩
      | init => exact absurd (.inl rfl) hop
      | use k => exact absurd (.inr ⟨k, rfl⟩) hop
      | setLevel l =>
        simp only [step, Option.some.injEq] at h; subst h
        simp only [setLogLevel, i1, i2]
        exact ⟨rfl, rfl⟩
      | shutdown =>
        simp only [step, Option.some.injEq] at h; subst h
        exact ⟨rfl, rfl⟩

theorem find_first {L : List (S × OutCfg)} (hL : StrMap.Ok L) {p : S × OutCfg → Bool} {e : S × OutCfg}
    (h : L.find? p = some e) : e ∈ L ∧ p e = true ∧ ∀ e' ∈ L, p e' = true → e.1 ≤ e'.1 := by
  induction L with
  | nil => cases h
  | cons a L ih =>
    have hp := List.pairwise_cons.1 hL
    rw [List.find?_cons] at h
    split at h
    · rename_i ha
      cases h
      refine ⟨by simp, ha, fun e' he' _ => ?_⟩
      rcases List.mem_cons.1 he' with rfl | he'
      · exact le_refl _
      · exact le_of_lt (hp.1 e' he')
    · rename_i ha
      obtain ⟨h1, h2, h3⟩ := ih hp.2 h
      refine ⟨by simp [h1], h2, fun e' he' hpe => ?_⟩
      rcases List.mem_cons.1 he' with rfl | he'
      · rw [ha] at hpe; cases hpe
      · exact h3 e' he' hpe

theorem lastLevel_last {L : List (S × StrCfg)} (hL : StrMap.Ok L) {n : S} (c : Nat) {e : S × StrCfg} (he : e ∈ L) (hn : e.2.name = n)
    (hlast : ∀ e' ∈ L, e'.2.name = n → e'.1 ≤ e.1) : lastLevel L n c = e.2.level := by
  induction L generalizing c with
  | nil => cases he
  | cons a L ih =>
    have hp := List.pairwise_cons.1 hL
    simp only [lastLevel, List.foldl_cons]
    rcases List.mem_cons.1 he with rfl | he
    · rw [if_pos hn]
      apply lastLevel_none
      intro e' he' hn'
      exact absurd (hp.1 e' he') (not_lt_of_ge (hlast e' (by simp [he']) hn'))
    · exact ih hp.2 _ he fun e' he' hn' => hlast e' (by simp [he']) hn'

theorem exists_last {V : Type} (L : List (S × V)) (hL : StrMap.Ok L) (p : S × V → Prop) :
    (∀ e ∈ L, ¬ p e) ∨ ∃ e ∈ L, p e ∧ ∀ e' ∈ L, p e' → e'.1 ≤ e.1 := by
  induction L with
  | nil => left; simp
  | cons a L ih =>
    have hp := List.pairwise_cons.1 hL
    rcases ih hp.2 with h | ⟨e, he, h1, h2⟩
    · by_cases ha : p a
      · right
        refine ⟨a, by simp, ha, fun e' he' hpe => ?_⟩
        rcases List.mem_cons.1 he' with rfl | he'
        · exact le_refl _
        · exact absurd hpe (h e' he')
      · left
        intro e he
        rcases List.mem_cons.1 he with rfl | he
        · exact ha
        · exact h e he
    · right
      refine ⟨e, by simp [he], h1, fun e' he' hpe => ?_⟩
      rcases List.mem_cons.1 he' with rfl | he'
      · exact le_of_lt (hp.1 e he)
      · exact h2 e' he' hpe

/-! ## The theorems -/

/-- Every stream has a last entry, or none. -/
theorem c74_last_exists (items : List (S × S)) (hok : StrMap.Ok items) (n : S) :
    (∀ e, StrEntry items e → strName items e ≠ n) ∨ ∃ e, Last items e n := by
  have r := strRead items hok
  have key : ∀ e, StrEntry items e → ∃ c, (e, c) ∈ items.foldl readStr [] := by
    intro e he
    obtain ⟨c, hc⟩ := Option.isSome_iff_exists.1 ((r.dom e).2 he)
    exact ⟨c, (StrMap.mem_iff r.ok e c).2 hc⟩
  rcases exists_last (items.foldl readStr []) r.ok (fun e => strName items e.1 = n) with h | ⟨e, he, h1, h2⟩
  · left
    intro e he
    obtain ⟨c, hc⟩ := key e he
    exact h _ hc
  · right
    refine ⟨e.1, ⟨(r.dom e.1).1 ?_, h1⟩, fun e' he' hn' => ?_⟩
    · have := (StrMap.mem_iff r.ok e.1 e.2).1 he
      simp [this]
    · obtain ⟨c, hc⟩ := key e' he'
      exact h2 _ hc hn'

/-- C73, exactly: after the first `initialize` a stream writes to output `o` iff an entry for this stream has the name `o`, and
the class of this entry, or of an earlier entry (in the order of the keys) of the same name, is registered. -/
theorem c73_connections_exact (env : Env) (ops : List Op) (hns : .shutdown ∉ ops) (hc : ∀ op ∈ ops, ¬ Creates op)
    (hok : StrMap.Ok env.items) (hq : env.quickDebug = false) {m : M} (h : run env (ops ++ [.init]) = some m)
    {n : S} {s : Stream} (hs : StrMap.get m.streams n = some s) (o : S) :
    .named o ∈ s.outs ↔ ∃ e, OutEntry env.items e ∧ outName env.items e = o ∧ For env.items e n ∧
      ∃ e', Wanted env.items ops e' o ∧ e' ≤ e := by
  obtain ⟨m0, hr, i, e⟩ := run_init h hns
  obtain ⟨u1, u2⟩ := untouched hc hr
  obtain ⟨h0, -, hcfg, -, q1, q2, q3, -⟩ := inv_readConfig i
  obtain ⟨m2, hm2, p⟩ := pre (readConfig env m0) h0.freed h0.okS h0.dOk h0.dNone
  obtain ⟨⟨-, -, s3, -, -, s6, s7⟩, pokS, -, -, ps⟩ := p
  have hqd : ∀ m, quickDebug env m = m := fun m => by simp [quickDebug, hq]
  simp only [initialize', configure, hm2, Option.map_some, Option.some.injEq, hqd] at e
  subst e
  obtain ⟨s1, hs1, e1⟩ := named_applyLogLevel env _ n hs
  rw [e1]
  have hokO : StrMap.Ok (deleteDefault m2).outputs := by rw [s7, q2, u2]; exact StrMap.ok_nil
  have ho := outLoop (named (deleteDefault m2).outCfg) { deleteDefault m2 with outCfg := named (deleteDefault m2).outCfg }
    pokS hokO
  obtain ⟨ss, h5, -, g5⟩ := strLoop (configOutputs (deleteDefault m2)).strCfg (configOutputs (deleteDefault m2)) ho.okS
  have h5' : configStreams (configOutputs (deleteDefault m2)) = { configOutputs (deleteDefault m2) with streams := ss } := h5
  rw [h5'] at hs1
  simp only [g5 n, Option.map_eq_some_iff] at hs1
  obtain ⟨s2, hs2, rfl⟩ := hs1
  simp only
  obtain ⟨s4, hs4, hiff⟩ := conn_loop n o (named (deleteDefault m2).outCfg)
    { deleteDefault m2 with outCfg := named (deleteDefault m2).outCfg } pokS hokO s2 hs2
  have hno : .named o ∉ s4.outs := by
    rw [(ps n s4 hs4).2.2.2 o, before, q1, u1]; simp
  rw [hiff]
  simp only [hno, false_or, s3, s7, q2, u2, q3]
  rw [s6, hcfg, conn_iff _ _ _ _ (ok_named hok)]
  simp only [StrMap.get_nil, Option.isSome_none, Bool.false_eq_true, false_or]
  constructor
  · rintro ⟨a, ha, h1, h2, a', ha', h3, h4, h5⟩
    obtain ⟨b1, b2, b3, -, b5⟩ := mem_named hok ha
    obtain ⟨d1, d2, d3, -, -⟩ := mem_named hok ha'
    refine ⟨a.1, b1, b3.symm.trans h1, (b5 n).1 h2, a'.1, ⟨d1, d3.symm.trans h3, ?_⟩, h5⟩
    rw [← d2, ← i.facO]; exact h4
  · rintro ⟨k, h1, h2, h3, k', ⟨h4, h5, h6⟩, h7⟩
    obtain ⟨c, hc1⟩ := entry_named hok h1
    obtain ⟨c', hc2⟩ := entry_named hok h4
    obtain ⟨-, b2, b3, -, b5⟩ := mem_named hok hc1
    obtain ⟨-, d2, d3, -, -⟩ := mem_named hok hc2
    refine ⟨(k, c), hc1, b3.trans h2, (b5 n).2 h3, (k', c'), hc2, d3.trans h5, ?_, h7⟩
    rw [i.facO, d2]; exact h6

/-- C73 and C74, exactly: an output made by the first `initialize` has the class, the keys and the level of the first entry with
its name whose class is registered (the level given on the command line counts before that of the entry, and an entry without a legal
level has Trace). -/
theorem c73_output_exact (env : Env) (ops : List Op) (hns : .shutdown ∉ ops) (hc : ∀ op ∈ ops, ¬ Creates op)
    (hok : StrMap.Ok env.items) (hq : env.quickDebug = false) {m : M} (h : run env (ops ++ [.init]) = some m) (o : S)
    {x : Output} (hx : StrMap.get m.outputs o = some x) :
    ∃ e, First env.items ops e o ∧ x = ⟨outKind env.items e, "/IclCore/Logging/".toList ++ e,
      (optLevel env).getD ((cfgLevel env.items e).getD 0)⟩ := by
  obtain ⟨m0, hr, i, e⟩ := run_init h hns
  obtain ⟨u1, u2⟩ := untouched hc hr
  obtain ⟨h0, -, hcfg, -, q1, q2, q3, -⟩ := inv_readConfig i
  obtain ⟨m1, -, e2, p⟩ := initialize_post i
  have : m = m1 := by
    rw [e2] at e
    have hqd : quickDebug env m1 = m1 := by simp [quickDebug, hq]
    rw [hqd] at e
    exact (Option.some.inj e).symm
  subst this
  rw [p.outs o, hcfg, q2, u2, q3] at hx
  simp only [StrMap.get_nil, outAfter, Option.map_map, Option.map_eq_some_iff] at hx
  obtain ⟨a, ha, rfl⟩ := hx
  obtain ⟨h1, h2, h3⟩ := find_first (ok_named hok) ha
  simp only [decide_eq_true_eq] at h2 h3
  obtain ⟨b1, b2, b3, b4, -⟩ := mem_named hok h1
  refine ⟨a.1, ⟨⟨b1, b3.symm.trans h2.1, ?_⟩, ?_⟩, ?_⟩
  · rw [← b2, ← i.facO]; exact h2.2
  · rintro k ⟨w1, w2, w3⟩
    obtain ⟨c, hc1⟩ := entry_named hok w1
    obtain ⟨-, d2, d3, -, -⟩ := mem_named hok hc1
    exact h3 (k, c) hc1 ⟨d3.trans w2, by rw [i.facO, d2]; exact w3⟩
  · simp only [Function.comp_apply, ← b4, ← b2]; rfl

/-- C74, exactly: without a level on the command line and without `setLogLevel`, the level of a stream is that of the last
entry for it in the order of the keys (Trace if this has no legal level), and Info without an entry. -/
theorem c74_stream_level_last (env : Env) (ops : List Op) (hns : .shutdown ∉ ops) (hok : StrMap.Ok env.items)
    (hq : env.quickDebug = false) (hl : optLevel env = none) (hset : ∀ l, .setLevel l ∉ ops) {m : M}
    (h : run env ops = some m) {n : S} {s : Stream} (hs : StrMap.get m.streams n = some s) :
    (∀ e, Last env.items e n → s.level = (cfgLevel env.items e).getD 0) ∧
    ((∀ e, StrEntry env.items e → strName env.items e ≠ n) → s.level = 2) := by
  refine ⟨fun e he => ?_, (c74_stream_level_exact env ops hns hok hq hl hset h hs).1⟩
  have hv := (sound_run hok hq hns h).level n s hs hset
  rw [hl, Option.getD_none] at hv
  have r := strRead env.items hok
  obtain ⟨⟨he1, he2⟩, he3⟩ := he
  obtain ⟨c, hc⟩ := Option.isSome_iff_exists.1 ((r.dom e).2 he1)
  have hm := (StrMap.mem_iff r.ok e c).2 hc
  have key : ∀ e ∈ env.items.foldl readStr [], StrEntry env.items e.1 ∧ strName env.items e.1 = e.2.name ∧
      e.2.level = (cfgLevel env.items e.1).getD 0 := by
    intro e he
    have hg := (StrMap.mem_iff r.ok e.1 e.2).1 he
    have hse : StrEntry env.items e.1 := (r.dom e.1).1 (by simp [hg])
    have := r.val e.1 hse.1
    rw [hg, Option.getD_some] at this
    exact ⟨hse, this.name.symm, this.level⟩
  obtain ⟨-, k2, k3⟩ := key _ hm
  rw [hv, lastLevel_last r.ok 2 hm (k2.symm.trans he2), k3]
  intro e' he' hn'
  obtain ⟨j1, j2, -⟩ := key e' he'
  exact he3 e'.1 j1 (j2.trans hn')

/-! ## Examples -/

/-- Two outputs of one class without a name: the second is the first one again, and is connected with its streams. -/
example : ((run ⟨sameItems, none, false⟩ (exOps ++ [.init])).map view).isSome = true ∧ (∀ op ∈ exOps, ¬ Creates op) ∧
    First sameItems exOps "OutputStream1".toList "File".toList := by
  refine ⟨by decide +kernel, ?_, ?_⟩
  · intro op hop
    simp only [exOps, List.mem_cons, List.not_mem_nil, or_false] at hop
    rcases hop with rfl | rfl | rfl | rfl <;> rintro (h | ⟨n, h⟩) <;> cases h
  · have hok : StrMap.Ok sameItems := StrMap.ok_put (StrMap.ok_put (StrMap.ok_put (StrMap.ok_put (StrMap.ok_put (StrMap.ok_put
      StrMap.ok_nil _ _) _ _) _ _) _ _) _ _) _ _
    have hl : (named (sameItems.foldl readOut [])).map Prod.fst = ["OutputStream1".toList, "OutputStream2".toList] := by
      decide +kernel
    refine ⟨⟨⟨by decide +kernel, "OutputStreamName".toList, .inl rfl, by decide +kernel⟩, by decide +kernel, ?_⟩, ?_⟩
    · have : outKind sameItems "OutputStream1".toList = "File".toList := by decide +kernel
      rw [this]; simp [exOps]
    · rintro e' ⟨he, -, -⟩
      obtain ⟨c, hc⟩ := entry_named hok he
      have hm : e' ∈ (named (sameItems.foldl readOut [])).map Prod.fst := List.mem_map.2 ⟨_, hc, rfl⟩
      rw [hl] at hm
      simp only [List.mem_cons, List.not_mem_nil, or_false] at hm
      rcases hm with rfl | rfl
      · exact le_refl _
      · decide +kernel

end Verif.Logging.Manager
