import Verif.Logging.Manager.Props

/-! # Lemmas for `c75_exact` -/
namespace Verif.Logging.Manager

/-- What later calls of `configure` do not touch. -/
def Keep (m m' : M) : Prop :=
  m'.freed = m.freed ∧ m'.strFactories = m.strFactories ∧ m'.streams.map Prod.fst = m.streams.map Prod.fst

theorem Keep.refl (m : M) : Keep m m := ⟨rfl, rfl, rfl⟩

theorem Keep.trans {a b c : M} (h : Keep a b) (h' : Keep b c) : Keep a c :=
  ⟨h'.1.trans h.1, h'.2.1.trans h.2.1, h'.2.2.trans h.2.2⟩

theorem fst_onAll (f : Stream → Stream) (ss : List (S × Stream)) : (onAll f ss).map Prod.fst = ss.map Prod.fst := by
  simp [onAll]

theorem fst_onStream (n : S) (f : Stream → Stream) (ss : List (S × Stream)) :
    (onStream n f ss).map Prod.fst = ss.map Prod.fst := by
  unfold onStream
  rw [List.map_map]
  apply List.map_congr_left
  intro e _
  simp only [Function.comp]
  split <;> rfl

theorem fst_connect (c : OutCfg) (ss : List (S × Stream)) : (connect c ss).map Prod.fst = ss.map Prod.fst := by
  unfold connect
  split
  · exact fst_onAll _ _
  · generalize c.streams = l
    induction l generalizing ss with
    | nil => rfl
    | cons a l ih => rw [List.foldl_cons, ih, fst_onStream]

theorem keep_createDefault (m : M) : Keep m (createDefault m) := by
  unfold createDefault
  split <;> exact Keep.refl _

theorem keep_default (m : M) : Keep m (defaultIfNeeded m) := by
  unfold defaultIfNeeded
  split
  · exact keep_createDefault m
  · exact Keep.refl m

theorem keep_deleteDefault (m : M) : Keep m (deleteDefault m) := by
  unfold deleteDefault
  split
  · exact Keep.refl m
  · split
    · exact Keep.refl m
    · exact ⟨rfl, rfl, fst_onAll _ _⟩

theorem keep_configOutput (m : M) (e : S × OutCfg) : Keep m (configOutput m e) := by
  unfold configOutput
  split
  · exact ⟨rfl, rfl, fst_connect _ _⟩
  · split
    · exact ⟨rfl, rfl, fst_connect _ _⟩
    · exact Keep.refl m

theorem keep_foldl {α : Type} (f : M → α → M) (hf : ∀ m a, Keep m (f m a)) (l : List α) (m : M) : Keep m (l.foldl f m) := by
  induction l generalizing m with
  | nil => exact Keep.refl m
  | cons a l ih => exact (hf m a).trans (ih _)

theorem keep_configOutputs (m : M) : Keep m (configOutputs m) := by
  have h := keep_foldl configOutput keep_configOutput (m.outCfg.map fun e => (e.1, autoName e.2))
    { m with outCfg := m.outCfg.map fun e => (e.1, autoName e.2) }
  exact ⟨h.1, h.2.1, h.2.2⟩

theorem keep_configStreams (m : M) : Keep m (configStreams m) :=
  keep_foldl (fun (m : M) (e : S × StrCfg) =>
    { m with streams := onStream e.2.name (fun s => { s with level := e.2.level }) m.streams })
    (fun _ _ => ⟨rfl, rfl, by simp only [fst_onStream]⟩) _ _

theorem keep_applyLogLevel (env : Env) (m : M) : Keep m (applyLogLevel env m) := by
  unfold applyLogLevel
  split
  · exact Keep.refl m
  · split
    · exact Keep.refl m
    · have h := keep_createDefault m
      simp only
      split
      · exact h
      · exact ⟨h.1, h.2.1, by simp only [fst_onAll]; exact h.2.2⟩

theorem keep_quickDebug (env : Env) (m : M) : Keep m (quickDebug env m) := by
  unfold quickDebug
  split
  · exact ⟨rfl, rfl, by simp only [fst_onStream]⟩
  · exact Keep.refl m

theorem keep_readConfig (env : Env) (m : M) : Keep m (readConfig env m) := by
  unfold readConfig
  split <;> exact Keep.refl _

theorem ok_of_fst {a b : List (S × Stream)} (h : a.map Prod.fst = b.map Prod.fst) (hb : StrMap.Ok b) : StrMap.Ok a := by
  have : ∀ l : List (S × Stream), StrMap.Ok l ↔ (l.map Prod.fst).Pairwise (· < ·) := by
    intro l
    rw [List.pairwise_map]
    rfl
  rw [this] at hb ⊢
  rw [h]
  exact hb

theorem get_iff_mem {m : List (S × Stream)} (h : StrMap.Ok m) (n : S) :
    (StrMap.get m n).isSome ↔ n ∈ m.map Prod.fst := by
  constructor
  · exact isSome_mem _ _
  · intro hn
    obtain ⟨⟨a, s⟩, hm, rfl⟩ := List.mem_map.1 hn
    rw [(StrMap.mem_iff h _ _).1 hm]
    rfl

/-- Creating the streams when nothing has been deleted. -/
theorem create_all : ∀ (fs : List S) (m : M), m.freed = [] → StrMap.Ok m.streams →
    ∃ m', fs.foldlM createStream m = some m' ∧ m'.freed = [] ∧ m'.strFactories = m.strFactories ∧ StrMap.Ok m'.streams ∧
      ∀ n, n ∈ m'.streams.map Prod.fst ↔ n ∈ m.streams.map Prod.fst ∨ n ∈ fs := by
  intro fs
  induction fs with
  | nil => intro m hf hok; exact ⟨m, rfl, hf, rfl, hok, by simp⟩
  | cons f fs ih =>
    intro m hf hok
    rw [List.foldlM_cons]
    unfold createStream
    split
    · next hs =>
      obtain ⟨m', e, a, b, c, d⟩ := ih m hf hok
      refine ⟨m', e, a, b, c, fun n => ?_⟩
      rw [d, List.mem_cons]
      have := (get_iff_mem hok f).1 hs
      constructor
      · rintro (h | h)
        · exact Or.inl h
        · exact Or.inr (Or.inr h)
      · rintro (h | rfl | h)
        · exact Or.inl h
        · exact Or.inl this
        · exact Or.inr h
    · rw [if_neg (by rw [hf]; simp)]
      obtain ⟨m', e, a, b, c, d⟩ := ih { m with streams := StrMap.put m.streams f (newStream m) } hf (StrMap.ok_put hok _ _)
      refine ⟨m', e, a, b, c, fun n => ?_⟩
      rw [d, List.mem_cons, ← get_iff_mem (StrMap.ok_put hok _ _), ← get_iff_mem hok, StrMap.get_put hok]
      by_cases hn : n = f <;> simp [hn]

/-- `initialize` when nothing has been deleted. -/
theorem initialize_fresh (env : Env) (m : M) (hf : m.freed = []) (hok : StrMap.Ok m.streams) :
    ∃ m', initialize' env m = some m' ∧ m'.freed = [] ∧ m'.strFactories = m.strFactories ∧ StrMap.Ok m'.streams ∧
      ∀ n, n ∈ m'.streams.map Prod.fst ↔ n ∈ m.streams.map Prod.fst ∨ n ∈ m.strFactories := by
  have k0 := (keep_readConfig env m).trans (keep_default (readConfig env m))
  obtain ⟨m1, e, a, b, c, d⟩ := create_all (defaultIfNeeded (readConfig env m)).strFactories
    (defaultIfNeeded (readConfig env m)) (k0.1.trans hf) (ok_of_fst k0.2.2 hok)
  have k1 : Keep m1 (quickDebug env (applyLogLevel env (configStreams (configOutputs (deleteDefault m1))))) :=
    ((((keep_deleteDefault m1).trans (keep_configOutputs _)).trans (keep_configStreams _)).trans
      (keep_applyLogLevel env _)).trans (keep_quickDebug env _)
  refine ⟨_, by unfold initialize' configure; rw [e]; rfl, k1.1.trans a, (k1.2.1.trans b).trans k0.2.1,
    ok_of_fst k1.2.2 c, fun n => ?_⟩
  rw [k1.2.2, d, k0.2.2, k0.2.1]

/-- `initialize` after a registered stream has been deleted. -/
theorem initialize_spent (env : Env) (m : M) {n : S} (hs : m.streams = []) (hf : n ∈ m.freed) (hn : n ∈ m.strFactories) :
    initialize' env m = none := by
  have k0 := (keep_readConfig env m).trans (keep_default (readConfig env m))
  have hs' : (defaultIfNeeded (readConfig env m)).streams = [] := by
    have := k0.2.2
    rw [hs] at this
    exact List.map_eq_nil_iff.1 this
  unfold initialize' configure
  rw [foldlM_none (n := n) (by rw [k0.2.1]; exact hn) _ (by rw [k0.1]; exact hf) (by rw [hs']; exact StrMap.ok_nil)
    (by rw [hs']; rfl)]
  rfl

theorem snoc_split {α : Type} {a b l : List α} {x y : α} (h : l ++ [x] = a ++ y :: b) :
    (l = a ∧ x = y ∧ b = []) ∨ ∃ b', b = b' ++ [x] ∧ l = a ++ y :: b' := by
  rcases List.eq_nil_or_concat b with rfl | ⟨b', z, rfl⟩
  · left
    have := List.append_inj' h rfl
    exact ⟨this.1, by simpa using this.2, rfl⟩
  · right
    rw [List.concat_eq_append, ← List.cons_append, ← List.append_assoc] at h
    have := List.append_inj' h rfl
    refine ⟨b', ?_, this.1⟩
    have := this.2
    simp at this
    rw [this, List.concat_eq_append]

theorem created_snoc {ops : List Op} {op : Op} :
    Created (ops ++ [op]) ↔ Created ops ∨ (Creates op ∧ ∃ n, .regStr n ∈ ops) := by
  constructor
  · rintro ⟨a, e, b, n, h, he, hn⟩
    rcases snoc_split h with ⟨rfl, rfl, -⟩ | ⟨b', rfl, h'⟩
    · exact Or.inr ⟨he, n, hn⟩
    · exact Or.inl ⟨a, e, b', n, h', he, hn⟩
  · rintro (⟨a, e, b, n, h, he, hn⟩ | ⟨he, n, hn⟩)
    · exact ⟨a, e, b ++ [op], n, by simp [h], he, hn⟩
    · exact ⟨ops, op, [], n, rfl, he, hn⟩

theorem ended_snoc {ops : List Op} {op : Op} : Ended (ops ++ [op]) ↔ Ended ops ∨ (op = .shutdown ∧ Created ops) := by
  constructor
  · rintro ⟨a, b, h, hc⟩
    rcases snoc_split h with ⟨rfl, rfl, -⟩ | ⟨b', rfl, h'⟩
    · exact Or.inr ⟨rfl, hc⟩
    · exact Or.inl ⟨a, b', h', hc⟩
  · rintro (⟨a, b, h, hc⟩ | ⟨rfl, hc⟩)
    · exact ⟨a, b ++ [op], by simp [h], hc⟩
    · exact ⟨ops, [], rfl, hc⟩

theorem reused_snoc {ops : List Op} {op : Op} : Reused (ops ++ [op]) ↔ Reused ops ∨ (Creates op ∧ Ended ops) := by
  constructor
  · rintro ⟨a, e, b, h, he, hc⟩
    rcases snoc_split h with ⟨rfl, rfl, -⟩ | ⟨b', rfl, h'⟩
    · exact Or.inr ⟨he, hc⟩
    · exact Or.inl ⟨a, e, b', h', he, hc⟩
  · rintro (⟨a, e, b, h, he, hc⟩ | ⟨he, hc⟩)
    · exact ⟨a, e, b ++ [op], by simp [h], he, hc⟩
    · exact ⟨ops, op, [], rfl, he, hc⟩

theorem uses_snoc {ops : List Op} {op : Op} :
    UsesRegistered (ops ++ [op]) ↔ UsesRegistered ops ∧ ∀ n, op = .use n → .regStr n ∈ ops := by
  constructor
  · intro h
    refine ⟨fun pre post n e => h pre (post ++ [op]) n (by simp [e]), ?_⟩
    rintro n rfl
    exact h ops [] n rfl
  · rintro ⟨h, h'⟩ pre post n e
    rcases snoc_split e with ⟨rfl, rfl, -⟩ | ⟨b', rfl, e'⟩
    · exact h' n rfl
    · exact h pre b' n e'

/-- What is known about the manager after a history. -/
structure Seen (ops : List Op) (m : M) : Prop where
  ok : StrMap.Ok m.streams
  fac : ∀ n, n ∈ m.strFactories ↔ .regStr n ∈ ops
  sub : ∀ n, n ∈ m.streams.map Prod.fst ∨ n ∈ m.freed → n ∈ m.strFactories
  some_streams : m.freed = [] → (m.streams ≠ [] ↔ Created ops)
  no_streams : m.freed ≠ [] → m.streams = []
  ended : m.freed ≠ [] ↔ Ended ops

theorem seen_same {ops : List Op} {op : Op} {m m' : M} (h : Seen ops m) (hk : Keep m m') (h1 : ¬ Creates op)
    (h2 : op ≠ .shutdown) (h3 : ∀ n, op ≠ .regStr n) : Seen (ops ++ [op]) m' := by
  have hnil : m'.streams = [] ↔ m.streams = [] := by
    rw [← List.map_eq_nil_iff (f := Prod.fst), hk.2.2, List.map_eq_nil_iff]
  refine ⟨ok_of_fst hk.2.2 h.ok, fun n => ?_, ?_, ?_, ?_, ?_⟩
  · rw [hk.2.1, h.fac]
    simp only [List.mem_append, List.mem_singleton]
    constructor
    · exact Or.inl
    · rintro (h' | h')
      · exact h'
      · exact absurd h'.symm (h3 n)
  · rw [hk.1, hk.2.1, hk.2.2]; exact h.sub
  · rw [hk.1, Ne, hnil, created_snoc]
    intro hf
    rw [← Ne, h.some_streams hf]
    simp [h1]
  · rw [hk.1, hnil]; exact h.no_streams
  · rw [hk.1, ended_snoc, h.ended]
    simp [h2]

theorem seen_init {env : Env} {ops : List Op} {op : Op} {m m' : M} (h : Seen ops m) (hf : m.freed = []) (hop : Creates op)
    (he : initialize' env m = some m') : Seen (ops ++ [op]) m' ∧ ∀ n, n ∈ m'.streams.map Prod.fst ↔ .regStr n ∈ ops := by
  obtain ⟨m1, e, a, b, c, d⟩ := initialize_fresh env m hf h.ok
  rw [e] at he
  cases he
  have hreg : ∀ n, Op.regStr n ∈ ops ++ [op] ↔ Op.regStr n ∈ ops := by
    intro n
    rw [List.mem_append, List.mem_singleton]
    constructor
    · rintro (h' | rfl)
      · exact h'
      · rcases hop with h' | ⟨k, h'⟩ <;> cases h'
    · exact Or.inl
  have hdom : ∀ n, n ∈ m'.streams.map Prod.fst ↔ n ∈ m.strFactories := by
    intro n
    rw [d]
    constructor
    · rintro (h' | h')
      · exact h.sub n (Or.inl h')
      · exact h'
    · exact Or.inr
  refine ⟨⟨c, fun n => by rw [b, h.fac, hreg], fun n hn => ?_, fun _ => ?_, fun hn => absurd a hn, ?_⟩,
    fun n => by rw [hdom, h.fac]⟩
  · rw [a] at hn
    rw [b]
    rcases hn with hn | hn
    · exact (hdom n).1 hn
    · cases hn
  · rw [created_snoc]
    constructor
    · intro hne
      right
      obtain ⟨x, hx⟩ := List.exists_mem_of_ne_nil _ hne
      exact ⟨hop, x.1, (h.fac _).1 ((hdom _).1 (List.mem_map.2 ⟨x, hx, rfl⟩))⟩
    · have : (∃ n, .regStr n ∈ ops) → m'.streams ≠ [] := by
        rintro ⟨n, hn⟩ hnil
        have := (hdom n).2 ((h.fac n).2 hn)
        rw [hnil] at this
        cases this
      rintro (⟨x, y, z, n, rfl, -, hn⟩ | ⟨-, hn⟩)
      · exact this ⟨n, by simp [hn]⟩
      · exact this hn
  · rw [ended_snoc, ← h.ended, a, hf]
    constructor
    · exact fun h' => absurd rfl h'
    · rintro (h' | ⟨rfl, -⟩)
      · exact absurd rfl h'
      · rcases hop with h' | ⟨k, h'⟩ <;> cases h'

/-- One call: it succeeds exactly if it is allowed. -/
theorem seen_step (env : Env) {ops : List Op} (op : Op) {m : M} (h : Seen ops m) :
    ((step env m op).isSome ↔ (∀ n, op = .use n → .regStr n ∈ ops) ∧ ¬ (Creates op ∧ Ended ops)) ∧
    ∀ m', step env m op = some m' → Seen (ops ++ [op]) m' := by
  have dead : m.freed ≠ [] → initialize' env m = none := by
    intro hf
    obtain ⟨n, hn⟩ := List.exists_mem_of_ne_nil _ hf
    exact initialize_spent env m (h.no_streams hf) hn (h.sub n (Or.inr hn))
  cases op with
  | regOut k =>
    refine ⟨by simp [step, Creates], ?_⟩
    rintro m' h'
    cases h'
    exact seen_same h ⟨rfl, rfl, rfl⟩ (by simp [Creates]) (by simp) (by simp)
  | regStr k =>
    refine ⟨by simp [step, Creates], ?_⟩
    rintro m' h'
    cases h'
    have hc : ¬ Creates (.regStr k) := by simp [Creates]
    have hm : ∀ n, n ∈ (if k ∈ m.strFactories then m.strFactories else m.strFactories ++ [k]) ↔ n ∈ m.strFactories ∨ n = k := by
      intro n
      split
      · next hk =>
        constructor
        · exact Or.inl
        · rintro (h' | rfl)
          · exact h'
          · exact hk
      · simp
    refine ⟨h.ok, fun n => ?_, fun n hn => ?_, fun hf => ?_, h.no_streams, ?_⟩
    · simp only [hm, h.fac, List.mem_append, List.mem_singleton, Op.regStr.injEq]
    · exact (hm n).2 (Or.inl (h.sub n hn))
    · rw [created_snoc, h.some_streams hf]
      simp [hc]
    · rw [ended_snoc, h.ended]
      simp
  | init =>
    by_cases hf : m.freed = []
    · obtain ⟨m1, e, -⟩ := initialize_fresh env m hf h.ok
      have hE : ¬ Ended ops := fun he => (h.ended.2 he) hf
      refine ⟨by simp [step, e, hE], fun m' h' => (seen_init h hf (Or.inl rfl) h').1⟩
    · have hE := h.ended.1 hf
      refine ⟨by simp [step, dead hf, hE, Creates], fun m' h' => ?_⟩
      simp only [step, dead hf] at h'
      cases h'
  | use k =>
    have hC : Creates (.use k) := Or.inr ⟨k, rfl⟩
    by_cases hf : m.freed = []
    · have hE : ¬ Ended ops := fun he => (h.ended.2 he) hf
      obtain ⟨m1, e, -⟩ := initialize_fresh env m hf h.ok
      obtain ⟨s1, d1⟩ := seen_init h hf hC e
      simp only [step]
      split
      · next hs =>
        have hk := (h.fac k).1 (h.sub k (Or.inl ((get_iff_mem h.ok k).1 hs)))
        refine ⟨by simp [hE, hk], ?_⟩
        rintro m' h'
        cases h'
        have hcr : Created ops := (h.some_streams hf).1 (by rintro hn; rw [hn] at hs; cases hs)
        refine ⟨h.ok, fun n => by rw [h.fac]; simp, h.sub, fun _ => ?_, h.no_streams, ?_⟩
        · rw [created_snoc, h.some_streams hf]
          simp [hcr]
        · rw [ended_snoc, h.ended]
          simp
      · rw [if_neg (by rw [hf]; simp), e, Option.bind_some]
        have hk : (StrMap.get m1.streams k).isSome ↔ .regStr k ∈ ops := by rw [get_iff_mem s1.ok, d1]
        refine ⟨?_, fun m' h' => ?_⟩
        · split
          · next hs => simp [hE, hk.1 hs]
          · next hs => simp [hE, mt hk.2 hs]
        · split at h'
          · cases h'; exact s1
          · cases h'
    · have hE := h.ended.1 hf
      have hnone : step env m (.use k) = none := by
        simp only [step, h.no_streams hf, dead hf]
        simp
      rw [hnone]
      exact ⟨by simp [hE, hC], by simp⟩
  | setLevel l =>
    refine ⟨by simp [step, Creates], ?_⟩
    rintro m' h'
    cases h'
    exact seen_same h ⟨rfl, rfl, by simp only [setLogLevel, fst_onAll]⟩ (by simp [Creates]) (by simp) (by simp)
  | shutdown =>
    refine ⟨by simp [step, Creates], ?_⟩
    rintro m' h'
    cases h'
    have hc : ¬ Creates .shutdown := by simp [Creates]
    refine ⟨StrMap.ok_nil, fun n => by simp [shutdown, h.fac], fun n hn => ?_, fun hf => ?_, fun _ => rfl, ?_⟩
    · simp only [shutdown, List.map_nil, List.mem_append, List.not_mem_nil, false_or] at hn
      rcases hn with hn | hn
      · exact h.sub n (Or.inr hn)
      · exact h.sub n (Or.inl hn)
    · simp only [shutdown, List.append_eq_nil_iff, List.map_eq_nil_iff] at hf
      have := (h.some_streams hf.1).not
      rw [created_snoc]
      simp only [shutdown, ne_eq, not_true, false_iff, not_or]
      exact ⟨this.1 (by simp [hf.2]), fun h' => hc h'.1⟩
    · rw [ended_snoc, ← h.ended]
      simp only [shutdown, ne_eq, List.append_eq_nil_iff, List.map_eq_nil_iff, true_and]
      by_cases hf : m.freed = []
      · simp only [hf, true_and, not_true, false_or]
        exact h.some_streams hf
      · simp [hf]

end Verif.Logging.Manager
