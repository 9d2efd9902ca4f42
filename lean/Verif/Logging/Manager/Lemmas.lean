import Verif.Logging.Manager.ReadLemmas

/-! # Lemmas: `configure` -/
namespace Verif.Logging.Manager

/-! ## Maps -/

theorem get_map {V W : Type} (f : S → V → W) (m : List (S × V)) (n : S) :
    StrMap.get (m.map fun e => (e.1, f e.1 e.2)) n = (StrMap.get m n).map (f n) := by
  induction m with
  | nil => rfl
  | cons e m ih =>
    obtain ⟨k, v⟩ := e
    simp only [StrMap.get, List.map_cons, StdMap.find] at ih ⊢
    by_cases h : k = n
    · subst h; simp
    · simp [h, ih]

theorem ok_map {V W : Type} {f : S → V → W} {m : List (S × V)} (h : StrMap.Ok m) :
    StrMap.Ok (m.map fun e => (e.1, f e.1 e.2)) := by
  unfold StrMap.Ok StdMap.Sorted at *
  rw [List.pairwise_map]
  exact h

theorem get_setOutLevels (l : Nat) (os : List (S × Output)) (n : S) :
    StrMap.get (setOutLevels l os) n = (StrMap.get os n).map fun x => { x with level := l } :=
  get_map (fun _ (x : Output) => (⟨x.kind, x.pre, l⟩ : Output)) os n

theorem ok_setOutLevels {l : Nat} {os : List (S × Output)} (h : StrMap.Ok os) : StrMap.Ok (setOutLevels l os) :=
  ok_map (f := fun _ (x : Output) => (⟨x.kind, x.pre, l⟩ : Output)) h

theorem get_onAll (f : Stream → Stream) (ss : List (S × Stream)) (n : S) :
    StrMap.get (onAll f ss) n = (StrMap.get ss n).map f := get_map (fun _ => f) ss n

theorem ok_onAll {f : Stream → Stream} {ss : List (S × Stream)} (h : StrMap.Ok ss) : StrMap.Ok (onAll f ss) :=
  ok_map (f := fun _ => f) h

theorem onStream_eq (k : S) (f : Stream → Stream) (ss : List (S × Stream)) :
    onStream k f ss = ss.map fun e => (e.1, if e.1 = k then f e.2 else e.2) := by
  unfold onStream
  apply List.map_congr_left
  intro e _
  split <;> rfl

theorem get_onStream (k : S) (f : Stream → Stream) (ss : List (S × Stream)) (n : S) :
    StrMap.get (onStream k f ss) n = (StrMap.get ss n).map (if n = k then f else id) := by
  rw [onStream_eq, get_map (fun x s => if x = k then f s else s) ss n]
  by_cases h : n = k
  · simp [h]
  · simp only [h, if_false]
    cases StrMap.get ss n <;> rfl

theorem ok_onStream {k : S} {f : Stream → Stream} {ss : List (S × Stream)} (h : StrMap.Ok ss) :
    StrMap.Ok (onStream k f ss) := by
  rw [onStream_eq]
  exact ok_map (f := fun x s => if x = k then f s else s) h

/-! ## Streams -/

theorem mem_add (o p : OutId) (s : Stream) : p ∈ (Stream.add o s).outs ↔ p = o ∨ p ∈ s.outs := by
  unfold Stream.add
  by_cases h : o ∈ s.outs
  · simp only [h, if_true]
    constructor
    · exact Or.inr
    · rintro (rfl | h') <;> assumption
  · simp only [h, if_false, List.mem_append, List.mem_singleton]
    exact or_comm

theorem level_add (o : OutId) (s : Stream) : (Stream.add o s).level = s.level := rfl

theorem nodup_add {o : OutId} {s : Stream} (h : s.outs.Nodup) : (Stream.add o s).outs.Nodup := by
  unfold Stream.add
  simp only
  split
  · exact h
  · next hn =>
    rw [List.nodup_append]
    refine ⟨h, by simp, ?_⟩
    intro a ha b hb
    simp only [List.mem_singleton] at hb
    subst hb
    rintro rfl
    exact hn ha

theorem mem_remove (o p : OutId) (s : Stream) : p ∈ (Stream.remove o s).outs ↔ p ∈ s.outs ∧ p ≠ o := by
  simp [Stream.remove]

theorem level_remove (o : OutId) (s : Stream) : (Stream.remove o s).level = s.level := rfl

theorem nodup_remove {o : OutId} {s : Stream} (h : s.outs.Nodup) : (Stream.remove o s).outs.Nodup :=
  List.Pairwise.filter _ h

/-! ## Creation of streams -/

theorem createStreams (fs : List S) : ∀ m : M, m.freed = [] → StrMap.Ok m.streams →
    ∃ ss, fs.foldlM createStream m = some { m with streams := ss } ∧ StrMap.Ok ss ∧
      ∀ n, StrMap.get ss n =
        if (StrMap.get m.streams n).isSome then StrMap.get m.streams n
        else if n ∈ fs then some (newStream m) else none := by
  induction fs with
  | nil =>
    intro m _ hok
    refine ⟨m.streams, rfl, hok, fun n => ?_⟩
    cases StrMap.get m.streams n <;> simp
  | cons f fs ih =>
    intro m hf hok
    rw [List.foldlM_cons]
    by_cases h : (StrMap.get m.streams f).isSome
    · have : createStream m f = some m := by simp [createStream, h]
      rw [this]
      obtain ⟨ss, h1, h2, h3⟩ := ih m hf hok
      refine ⟨ss, h1, h2, fun n => ?_⟩
      rw [h3 n]
      by_cases hn : n = f
      · subst hn; simp [h]
      · simp [hn]
    · have : createStream m f = some { m with streams := StrMap.put m.streams f (newStream m) } := by
        simp [createStream, h, hf]
      rw [this]
      obtain ⟨ss, h1, h2, h3⟩ := ih { m with streams := StrMap.put m.streams f (newStream m) } hf (StrMap.ok_put hok _ _)
      refine ⟨ss, h1, h2, fun n => ?_⟩
      rw [h3 n]
      simp only [StrMap.get_put hok]
      have hnew : newStream { m with streams := StrMap.put m.streams f (newStream m) } = newStream m := rfl
      rw [hnew]
      by_cases hn : n = f
      · subst hn
        have hnone : StrMap.get m.streams n = none := by simpa using h
        simp [hnone]
      · simp [hn]

/-! ## Connecting outputs -/

/-- Entry `c` is for stream `n`. -/
def forStream (c : OutCfg) (n : S) : Prop := c.streams = [] ∨ n ∈ c.streams

instance (c : OutCfg) (n : S) : Decidable (forStream c n) := by unfold forStream; infer_instance

theorem get_connectList (o : OutId) (l : List S) : ∀ (ss : List (S × Stream)), StrMap.Ok ss →
    StrMap.Ok (l.foldl (fun ss n => onStream n (Stream.add o) ss) ss) ∧
    ∀ n, ∃ f : Stream → Stream, StrMap.get (l.foldl (fun ss n => onStream n (Stream.add o) ss) ss) n =
        (StrMap.get ss n).map f ∧
      ∀ s, (f s).level = s.level ∧ (s.outs.Nodup → (f s).outs.Nodup) ∧
        ∀ p, p ∈ (f s).outs ↔ p ∈ s.outs ∨ (p = o ∧ n ∈ l) := by
  induction l with
  | nil =>
    intro ss hok
    refine ⟨hok, fun n => ⟨id, by simp, fun s => ⟨rfl, fun h => h, fun p => by simp⟩⟩⟩
  | cons a l ih =>
    intro ss hok
    obtain ⟨h1, h2⟩ := ih (onStream a (Stream.add o) ss) (ok_onStream hok)
    refine ⟨h1, fun n => ?_⟩
    obtain ⟨f, h3, h4⟩ := h2 n
    refine ⟨f ∘ (if n = a then Stream.add o else id), ?_, fun s => ?_⟩
    · rw [List.foldl_cons, h3, get_onStream, Option.map_map]
    · by_cases hn : n = a
      · subst hn
        simp only [if_true, Function.comp_apply]
        obtain ⟨a1, a2, a3⟩ := h4 (Stream.add o s)
        refine ⟨a1, fun h => a2 (nodup_add h), fun p => ?_⟩
        rw [a3, mem_add]
        simp
        grind
      · simp only [hn, if_false, Function.comp_apply, id]
        obtain ⟨a1, a2, a3⟩ := h4 s
        refine ⟨a1, a2, fun p => ?_⟩
        rw [a3]
        simp [hn]

theorem get_connect (c : OutCfg) (ss : List (S × Stream)) (hok : StrMap.Ok ss) :
    StrMap.Ok (connect c ss) ∧
    ∀ n, ∃ f : Stream → Stream, StrMap.get (connect c ss) n = (StrMap.get ss n).map f ∧
      ∀ s, (f s).level = s.level ∧ (s.outs.Nodup → (f s).outs.Nodup) ∧
        ∀ p, p ∈ (f s).outs ↔ p ∈ s.outs ∨ (p = .named c.name ∧ forStream c n) := by
  unfold connect forStream
  by_cases h : c.streams = []
  · simp only [h, if_true]
    refine ⟨ok_onAll hok, fun n => ⟨Stream.add (.named c.name), get_onAll _ _ _, fun s => ?_⟩⟩
    refine ⟨rfl, nodup_add, fun p => ?_⟩
    rw [mem_add]
    simp [or_comm]
  · simp only [h, if_false, false_or]
    exact get_connectList _ _ ss hok

/-- Output `o` after the loop over the entries `L`, `old` before. -/
def outAfter (L : List (S × OutCfg)) (fac : List S) (o : S) : Option Output → Option Output
  | some x => some x
  | none => (L.find? fun e => decide (e.2.name = o ∧ e.2.kind ∈ fac)).map fun e =>
      ⟨e.2.kind, logPrefix ++ e.1, e.2.level⟩

/-- The effect of the loop over the output entries. -/
structure OutLoop (L : List (S × OutCfg)) (m m' : M) : Prop where
  rest : m' = { m with streams := m'.streams, outputs := m'.outputs }
  okS : StrMap.Ok m'.streams
  okO : StrMap.Ok m'.outputs
  outs : ∀ o, StrMap.get m'.outputs o = outAfter L m.outFactories o (StrMap.get m.outputs o)
  strs : ∀ n, ∃ f : Stream → Stream, StrMap.get m'.streams n = (StrMap.get m.streams n).map f ∧
    ∀ s, (f s).level = s.level ∧ (s.outs.Nodup → (f s).outs.Nodup) ∧
      (∀ g, .dflt g ∈ (f s).outs ↔ .dflt g ∈ s.outs) ∧
      (∀ o, .named o ∈ s.outs → .named o ∈ (f s).outs) ∧
      (∀ o, .named o ∈ (f s).outs → .named o ∈ s.outs ∨
        ∃ e ∈ L, e.2.name = o ∧ forStream e.2 n ∧ (StrMap.get m'.outputs o).isSome) ∧
      (∀ e ∈ L, ((StrMap.get m.outputs e.2.name).isSome ∨ e.2.kind ∈ m.outFactories) → forStream e.2 n →
        .named e.2.name ∈ (f s).outs)

theorem outLoop (L : List (S × OutCfg)) : ∀ m : M, StrMap.Ok m.streams → StrMap.Ok m.outputs →
    OutLoop L m (L.foldl configOutput m) := by
  induction L with
  | nil =>
    intro m h1 h2
    refine ⟨rfl, h1, h2, fun o => ?_, fun n => ⟨id, by simp, fun s => ⟨rfl, id, fun g => Iff.rfl, fun o h => h, fun o h => Or.inl h, ?_⟩⟩⟩
    · rw [List.foldl_nil]
      cases StrMap.get m.outputs o <;> rfl
    · intro e he; cases he
  | cons e L ih =>
    intro m h1 h2
    rw [List.foldl_cons]
    obtain ⟨hcok, hc⟩ := get_connect e.2 m.streams h1
    by_cases hs : (StrMap.get m.outputs e.2.name).isSome
    · -- the output exists
      have hstep : configOutput m e = { m with streams := connect e.2 m.streams } := if_pos hs
      rw [hstep]
      obtain ⟨r, o1, o2, o3, o4⟩ := ih { m with streams := connect e.2 m.streams } hcok h2
      generalize L.foldl configOutput { m with streams := connect e.2 m.streams } = m' at *
      refine ⟨by rw [r], o1, o2, fun o => ?_, fun n => ?_⟩
      · rw [o3 o]
        simp only
        cases hg : StrMap.get m.outputs o with
        | some x => rfl
        | none =>
          have : ¬ (e.2.name = o ∧ e.2.kind ∈ m.outFactories) := by
            rintro ⟨rfl, -⟩; rw [hg] at hs; simp at hs
          simp [outAfter, List.find?_cons, this]
      · obtain ⟨f1, g1, g2⟩ := hc n
        obtain ⟨f2, k1, k2⟩ := o4 n
        refine ⟨f2 ∘ f1, by rw [k1, g1, Option.map_map], fun s => ?_⟩
        obtain ⟨a1, a2, a3⟩ := g2 s
        obtain ⟨b1, b2, b3, b4, b5, b6⟩ := k2 (f1 s)
        refine ⟨b1.trans a1, fun h => b2 (a2 h), fun g => ?_, fun o h => b4 o ((a3 _).2 (Or.inl h)), fun o h => ?_, ?_⟩
        · rw [Function.comp_apply, b3, a3]; simp
        · rcases b5 o h with h | ⟨e', h1', h2', h3', h4'⟩
          · rcases (a3 _).1 h with h | ⟨h, hfor⟩
            · exact Or.inl h
            · right
              simp only [OutId.named.injEq] at h
              refine ⟨e, by simp, h.symm, hfor, ?_⟩
              rw [o3 o]
              subst h
              cases hg : StrMap.get m.outputs e.2.name with
              | some x => rfl
              | none => rw [hg] at hs; simp at hs
          · exact Or.inr ⟨e', by simp [h1'], h2', h3', h4'⟩
        · intro e' he' hav hfor
          rcases List.mem_cons.1 he' with rfl | he'
          · exact b4 _ ((a3 _).2 (Or.inr ⟨rfl, hfor⟩))
          · exact b6 e' he' hav hfor
    · by_cases hk : e.2.kind ∈ m.outFactories
      · -- it is created
        have hstep : configOutput m e =
            { m with
              outputs := StrMap.put m.outputs e.2.name ⟨e.2.kind, logPrefix ++ e.1, e.2.level⟩
              streams := connect e.2 m.streams } := by
          simp only [configOutput, hs, hk, if_true, if_false, Bool.false_eq_true]
        rw [hstep]
        set m1 : M := { m with
          outputs := StrMap.put m.outputs e.2.name ⟨e.2.kind, logPrefix ++ e.1, e.2.level⟩
          streams := connect e.2 m.streams } with hm1
        obtain ⟨r, o1, o2, o3, o4⟩ := ih m1 hcok (StrMap.ok_put h2 _ _)
        have hnone : StrMap.get m.outputs e.2.name = none := by simpa using hs
        have hget : ∀ o, StrMap.get m1.outputs o =
            if o = e.2.name then some ⟨e.2.kind, logPrefix ++ e.1, e.2.level⟩ else StrMap.get m.outputs o :=
          fun o => StrMap.get_put h2 _ _ _
        generalize L.foldl configOutput m1 = m' at *
        refine ⟨by rw [r], o1, o2, fun o => ?_, fun n => ?_⟩
        · rw [o3 o, hget]
          by_cases ho : o = e.2.name
          · subst ho
            simp [outAfter, hnone, hk]
          · have : ¬ (e.2.name = o ∧ e.2.kind ∈ m.outFactories) := fun h => ho h.1.symm
            simp only [ho, if_false]
            cases StrMap.get m.outputs o with
            | some x => rfl
            | none =>
              simp only [outAfter, List.find?_cons, this, decide_false]
              rfl
        · obtain ⟨f1, g1, g2⟩ := hc n
          obtain ⟨f2, k1, k2⟩ := o4 n
          refine ⟨f2 ∘ f1, by rw [k1, g1, Option.map_map], fun s => ?_⟩
          obtain ⟨a1, a2, a3⟩ := g2 s
          obtain ⟨b1, b2, b3, b4, b5, b6⟩ := k2 (f1 s)
          refine ⟨b1.trans a1, fun h => b2 (a2 h), fun g => ?_, fun o h => b4 o ((a3 _).2 (Or.inl h)), fun o h => ?_, ?_⟩
          · rw [Function.comp_apply, b3, a3]; simp
          · rcases b5 o h with h | ⟨e', h1', h2', h3', h4'⟩
            · rcases (a3 _).1 h with h | ⟨h, hfor⟩
              · exact Or.inl h
              · right
                simp only [OutId.named.injEq] at h
                refine ⟨e, by simp, h.symm, hfor, ?_⟩
                rw [o3 o, hget]
                simp [h, outAfter]
            · exact Or.inr ⟨e', by simp [h1'], h2', h3', h4'⟩
          · intro e' he' hav hfor
            rcases List.mem_cons.1 he' with rfl | he'
            · exact b4 _ ((a3 _).2 (Or.inr ⟨rfl, hfor⟩))
            · refine b6 e' he' ?_ hfor
              rcases hav with hav | hav
              · left
                rw [hget]
                split
                · rfl
                · exact hav
              · exact Or.inr hav
      · -- it is skipped
        have hstep : configOutput m e = m := by
          simp only [configOutput, hs, hk, if_false, Bool.false_eq_true]
        rw [hstep]
        obtain ⟨r, o1, o2, o3, o4⟩ := ih m h1 h2
        generalize L.foldl configOutput m = m' at *
        refine ⟨by rw [r], o1, o2, fun o => ?_, fun n => ?_⟩
        · rw [o3 o]
          have : ¬ (e.2.name = o ∧ e.2.kind ∈ m.outFactories) := fun h => hk h.2
          cases StrMap.get m.outputs o with
          | some x => rfl
          | none => simp only [outAfter, List.find?_cons, this, decide_false]
        · obtain ⟨f2, k1, k2⟩ := o4 n
          refine ⟨f2, k1, fun s => ?_⟩
          obtain ⟨b1, b2, b3, b4, b5, b6⟩ := k2 s
          refine ⟨b1, b2, b3, b4, fun o h => ?_, ?_⟩
          · rcases b5 o h with h | ⟨e', h1', h2', h3', h4'⟩
            · exact Or.inl h
            · exact Or.inr ⟨e', by simp [h1'], h2', h3', h4'⟩
          · intro e' he' hav hfor
            rcases List.mem_cons.1 he' with rfl | he'
            · rcases hav with hav | hav
              · exact absurd hav hs
              · exact absurd hav hk
            · exact b6 e' he' hav hfor

/-! ## Levels of streams -/

/-- The level set by the last entry for stream `n`. -/
def lastLevel (L : List (S × StrCfg)) (n : S) (cur : Nat) : Nat :=
  L.foldl (fun cur e => if e.2.name = n then e.2.level else cur) cur

theorem strLoop (L : List (S × StrCfg)) : ∀ m : M, StrMap.Ok m.streams →
    ∃ ss, L.foldl (fun m e => { m with streams := onStream e.2.name (fun s => { s with level := e.2.level }) m.streams }) m =
        { m with streams := ss } ∧ StrMap.Ok ss ∧
      ∀ n, StrMap.get ss n = (StrMap.get m.streams n).map fun s => { s with level := lastLevel L n s.level } := by
  induction L with
  | nil =>
    intro m h
    refine ⟨m.streams, rfl, h, fun n => ?_⟩
    cases StrMap.get m.streams n <;> rfl
  | cons e L ih =>
    intro m h
    obtain ⟨ss, h1, h2, h3⟩ := ih
      { m with streams := onStream e.2.name (fun s => { s with level := e.2.level }) m.streams }
      (ok_onStream (k := e.2.name) (f := fun s => { s with level := e.2.level }) h)
    refine ⟨ss, h1, h2, fun n => ?_⟩
    rw [h3 n, get_onStream, Option.map_map]
    congr 1
    funext s
    simp only [Function.comp_apply, lastLevel, List.foldl_cons]
    by_cases hn : n = e.2.name
    · subst hn; simp
    · have : ¬ e.2.name = n := fun h => hn h.symm
      simp [hn, this]

/-! ## `configure` -/

theorem option_level (t : S) : stringToLogLevel (String.ofList t) 2 =
    match levelOf t with
    | some l => (true, l)
    | none => (false, 2) := by
  unfold levelOf
  obtain ⟨h1, h2⟩ := c50_stringToLogLevel (String.ofList t) 2
  cases h : specNames.find? (fun x => x.1 == String.ofList t) with
  | some x =>
    obtain ⟨a, l⟩ := x
    have ha := List.find?_some h
    have hm := List.mem_of_find?_eq_some h
    simp only [beq_iff_eq] at ha
    subst ha
    rw [h1 l hm]
    rfl
  | none =>
    rw [h2]
    · rfl
    · intro l hl
      have := List.find?_eq_none.1 h _ hl
      simp at this

/-- The output entries with their names. -/
def named (cfg : List (S × OutCfg)) : List (S × OutCfg) := cfg.map fun e => (e.1, autoName e.2)

/-- A stream before the loops of `configure`. -/
def before (m : M) (n : S) : Stream := (StrMap.get m.streams n).getD ⟨2, []⟩

/-- The effect of `configure`. -/
structure Post (env : Env) (m m' : M) : Prop where
  same : m'.initialized = m.initialized ∧ m'.strCfg = m.strCfg ∧ m'.outFactories = m.outFactories ∧
    m'.strFactories = m.strFactories ∧ m'.freed = m.freed ∧ m'.outCfg = named m.outCfg
  okS : StrMap.Ok m'.streams
  okO : StrMap.Ok m'.outputs
  outs : ∀ o, StrMap.get m'.outputs o =
    (outAfter (named m.outCfg) m.outFactories o (StrMap.get m.outputs o)).map
      fun x => { x with level := (optLevel env).getD x.level }
  dflt : m'.dflt.isSome ↔ m.outCfg = [] ∨ (optLevel env).isSome
  dfltLevel : ∀ l, optLevel env = some l → ∀ g o, m'.dflt = some (g, o) → o.level = l
  streams : ∀ n, (StrMap.get m'.streams n).isSome ↔ (StrMap.get m.streams n).isSome ∨ n ∈ m.strFactories
  stream : ∀ n s', StrMap.get m'.streams n = some s' →
    s'.level = (optLevel env).getD (lastLevel m.strCfg n (before m n).level) ∧
    s'.outs.Nodup ∧
    (∀ g, .dflt g ∈ s'.outs ↔ ∃ o, m'.dflt = some (g, o)) ∧
    (∀ o, .named o ∈ (before m n).outs → .named o ∈ s'.outs) ∧
    (∀ o, .named o ∈ s'.outs → .named o ∈ (before m n).outs ∨
      ∃ e ∈ named m.outCfg, e.2.name = o ∧ forStream e.2 n ∧ (StrMap.get m'.outputs o).isSome) ∧
    (∀ e ∈ named m.outCfg, ((StrMap.get m.outputs e.2.name).isSome ∨ e.2.kind ∈ m.outFactories) →
      forStream e.2 n → .named e.2.name ∈ s'.outs)

end Verif.Logging.Manager
