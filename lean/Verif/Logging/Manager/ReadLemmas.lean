import Verif.Logging.Manager.Spec
import Mathlib.Data.List.Induction

/-! # Lemmas: reading the logging configuration -/
namespace Verif.Logging.Manager

theorem strip_iff (p s r : S) : strip p s = some r ↔ s = p ++ r := by
  induction p generalizing s with
  | nil => simp [strip]
  | cons c p ih =>
    cases s with
    | nil => simp [strip]
    | cons d s =>
      simp only [strip]
      by_cases h : c = d
      · simp [h, ih]
      · have : ¬ d = c := fun e => h e.symm
        simp [h, this]

theorem splitLast_none (s : S) : splitLast s = none ↔ '/' ∉ s := by
  induction s with
  | nil => simp [splitLast]
  | cons c s ih =>
    simp only [splitLast]
    cases h : splitLast s with
    | some x =>
      have : '/' ∈ s := by
        by_contra hn
        rw [ih.2 hn] at h
        cases h
      simp [this]
    | none =>
      have := ih.1 h
      by_cases hc : c = '/'
      · simp [hc]
      · simp [hc, this, Ne.symm hc]

theorem splitLast_iff (s a b : S) : splitLast s = some (a, b) ↔ s = a ++ '/' :: b ∧ '/' ∉ b := by
  induction s generalizing a with
  | nil => simp [splitLast]
  | cons c s ih =>
    simp only [splitLast]
    cases h : splitLast s with
    | some x =>
      obtain ⟨x1, x2⟩ := x
      simp only [Option.some.injEq, Prod.mk.injEq]
      constructor
      · rintro ⟨rfl, rfl⟩
        have := (ih x1).1
        rw [h] at ih
        by_cases hh : x2 = x2
        · have q : s = x1 ++ '/' :: x2 ∧ '/' ∉ x2 := by
            have := splitLast_some s x1 x2 h
            exact this
          exact ⟨by rw [q.1]; rfl, q.2⟩
        · exact absurd rfl hh
      · rintro ⟨h1, h2⟩
        cases a with
        | nil =>
          simp only [List.nil_append, List.cons.injEq] at h1
          rw [(splitLast_none s).2 (h1.2 ▸ h2)] at h
          cases h
        | cons a0 a =>
          simp only [List.cons_append, List.cons.injEq] at h1
          have := (ih a).2 ⟨h1.2, h2⟩
          rw [h] at this
          simp only [Option.some.injEq, Prod.mk.injEq] at this
          exact ⟨by rw [h1.1, this.1], this.2⟩
    | none =>
      have hs := (splitLast_none s).1 h
      by_cases hc : c = '/'
      · subst hc
        simp only [if_true, Option.some.injEq, Prod.mk.injEq]
        constructor
        · rintro ⟨rfl, rfl⟩; exact ⟨rfl, hs⟩
        · rintro ⟨h1, h2⟩
          cases a with
          | nil => simpa using h1
          | cons a0 a =>
            simp only [List.cons_append, List.cons.injEq] at h1
            exact absurd (by rw [h1.2]; simp) hs
      · simp only [hc, if_false, false_iff, reduceCtorEq]
        rintro ⟨h1, h2⟩
        cases a with
        | nil =>
          simp only [List.nil_append, List.cons.injEq] at h1
          exact hc h1.1
        | cons a0 a =>
          simp only [List.cons_append, List.cons.injEq] at h1
          exact absurd (by rw [h1.2]; simp) hs
where
  splitLast_some (s a b : S) (h : splitLast s = some (a, b)) : s = a ++ '/' :: b ∧ '/' ∉ b := by
    induction s generalizing a with
    | nil => simp [splitLast] at h
    | cons c s ih =>
      simp only [splitLast] at h
      cases h' : splitLast s with
      | some x =>
        obtain ⟨x1, x2⟩ := x
        rw [h'] at h
        simp only [Option.some.injEq, Prod.mk.injEq] at h
        obtain ⟨rfl, rfl⟩ := h
        have := ih x1 h'
        exact ⟨by rw [this.1]; rfl, this.2⟩
      | none =>
        rw [h'] at h
        by_cases hc : c = '/'
        · subst hc
          simp only [if_true, Option.some.injEq, Prod.mk.injEq] at h
          obtain ⟨rfl, rfl⟩ := h
          exact ⟨rfl, (splitLast_none s).1 h'⟩
        · simp [hc] at h

theorem key_eq (e v : S) : key e v = logPrefix ++ (e ++ '/' :: v) := List.append_assoc ..

theorem key_inj {e v e' v' : S} (hv : '/' ∉ v) (hv' : '/' ∉ v') (h : key e v = key e' v') : e = e' ∧ v = v' := by
  rw [key_eq, key_eq] at h
  generalize logPrefix = p at h
  have h := List.append_cancel_left h
  have h1 := (splitLast_iff (e ++ '/' :: v) e v).2 ⟨rfl, hv⟩
  rw [h, (splitLast_iff (e' ++ '/' :: v') e' v').2 ⟨rfl, hv'⟩] at h1
  simp only [Option.some.injEq, Prod.mk.injEq] at h1
  exact ⟨h1.1.symm, h1.2.symm⟩

theorem matchEntry_iff (kind k e v : S) : matchEntry kind k = some (e, v) ↔ k = key e v ∧ kind <+: e ∧ '/' ∉ v := by
  rw [key_eq]
  unfold matchEntry
  generalize logPrefix = p
  constructor
  · intro h
    split at h
    · cases h
    · rename_i r hr
      split at h
      · cases h
      · rename_i r' hr'
        simp only [Option.map_eq_some_iff, Prod.exists, Prod.mk.injEq] at h
        obtain ⟨a, b, hab, rfl, rfl⟩ := h
        rw [strip_iff] at hr hr'
        rw [splitLast_iff] at hab
        refine ⟨?_, List.prefix_append _ _, hab.2⟩
        rw [hr, hr', hab.1]
        simp
  · rintro ⟨rfl, ⟨a, rfl⟩, hv⟩
    have h1 : strip p (p ++ (kind ++ a ++ '/' :: v)) = some (kind ++ (a ++ '/' :: v)) := by
      rw [strip_iff]; simp
    have h2 : strip kind (kind ++ (a ++ '/' :: v)) = some (a ++ '/' :: v) := by rw [strip_iff]
    have h3 : splitLast (a ++ '/' :: v) = some (a, v) := by rw [splitLast_iff]; exact ⟨rfl, hv⟩
    simp only [h1, h2, h3, Option.map_some]

theorem readLevel_eq (t : S) (cur : Nat) : readLevel t cur = (levelOf t).getD cur := by
  unfold readLevel levelOf
  obtain ⟨h1, h2⟩ := c50_stringToLogLevel (String.ofList t) cur
  cases h : specNames.find? (fun x => x.1 == String.ofList t) with
  | some x =>
    obtain ⟨a, l⟩ := x
    have ha := List.find?_some h
    have hm := List.mem_of_find?_eq_some h
    simp only [beq_iff_eq] at ha
    subst ha
    rw [h1 l hm]
    rfl
  | none =>
    rw [h2]
    · rfl
    · intro l hl
      have := List.find?_eq_none.1 h _ hl
      simp at this

/-- The value after one more item of a sorted map. -/
theorem get_snoc {V : Type} {m : List (S × V)} {k : S} {w : V} (h : StrMap.Ok (m ++ [(k, w)])) (q : S) :
    StrMap.get (m ++ [(k, w)]) q = if q = k then some w else StrMap.get m q := by
  have hm : StrMap.Ok m := (List.pairwise_append.1 h).1
  by_cases hq : q = k
  · subst hq
    simp only [if_true]
    exact (StrMap.mem_iff h q w).1 (by simp)
  · simp only [hq, if_false]
    apply Option.ext
    intro v
    rw [← StrMap.mem_iff h, ← StrMap.mem_iff hm]
    simp [hq]

theorem get_snoc_self {V : Type} {m : List (S × V)} {k : S} {w : V} (h : StrMap.Ok (m ++ [(k, w)])) :
    StrMap.get m k = none := by
  have hm : StrMap.Ok m := (List.pairwise_append.1 h).1
  cases hg : StrMap.get m k with
  | none => rfl
  | some v =>
    have := (List.pairwise_append.1 h).2.2 (k, v) ((StrMap.mem_iff hm k v).2 hg) (k, w) (by simp)
    exact absurd this (lt_irrefl _)

/-- The name given by entry `e`. -/
def rawName (items : List (S × S)) (e : S) : S := (StrMap.get items (key e "Name".toList)).getD []

/-- What a configuration object holds for entry `e`. -/
structure Holds (items : List (S × S)) (e : S) (c : OutCfg) : Prop where
  kind : c.kind = outKind items e
  name : c.name = rawName items e
  level : c.level = (cfgLevel items e).getD 0
  streams : ∀ n, n ∈ c.streams ↔ Lists items e n

/-- What has been read. -/
structure OutRead (items : List (S × S)) (cfg : List (S × OutCfg)) : Prop where
  ok : StrMap.Ok cfg
  dom : ∀ e, (StrMap.get cfg e).isSome ↔ OutEntry items e
  val : ∀ e, "OutputStream".toList <+: e → Holds items e ((StrMap.get cfg e).getD newOutCfg)

theorem noslash_values : '/' ∉ "OutputStreamName".toList ∧ '/' ∉ "Name".toList ∧ '/' ∉ "LogLevel".toList := by
  decide +kernel

theorem outValue_noslash {v : S} (h : OutValue v) : '/' ∉ v := by
  rcases h with rfl | rfl | rfl | h
  · exact noslash_values.1
  · exact noslash_values.2.1
  · exact noslash_values.2.2
  · exact h.2

theorem not_listed_values : ¬ "LogStream".toList <+: "OutputStreamName".toList ∧ ¬ "LogStream".toList <+: "Name".toList ∧
    ¬ "LogStream".toList <+: "LogLevel".toList := by decide +kernel

theorem take9_iff (v : S) : v.take 9 = "LogStream".toList ↔ "LogStream".toList <+: v := by
  rw [List.prefix_iff_eq_take]
  have : "LogStream".toList.length = 9 := by decide +kernel
  rw [this]
  exact eq_comm

/-- An item whose key is not a value of entry `e` does not matter for it. -/
theorem holds_same {items : List (S × S)} {k w e : S} {c : OutCfg} (hok : StrMap.Ok (items ++ [(k, w)]))
    (hk : ∀ v, OutValue v → key e v ≠ k) :
    (Holds (items ++ [(k, w)]) e c ↔ Holds items e c) ∧
    ((∃ v, OutValue v ∧ (StrMap.get (items ++ [(k, w)]) (key e v)).isSome) ↔
      ∃ v, OutValue v ∧ (StrMap.get items (key e v)).isSome) := by
  have g : ∀ v, OutValue v → StrMap.get (items ++ [(k, w)]) (key e v) = StrMap.get items (key e v) := by
    intro v hv
    rw [get_snoc hok, if_neg (hk v hv)]
  have g1 := g "OutputStreamName".toList (Or.inl rfl)
  have g2 := g "Name".toList (Or.inr (Or.inl rfl))
  have g3 := g "LogLevel".toList (Or.inr (Or.inr (Or.inl rfl)))
  have gl : ∀ n, Lists (items ++ [(k, w)]) e n ↔ Lists items e n := by
    intro n
    unfold Lists
    constructor
    · rintro ⟨v, a, b, c⟩; exact ⟨v, a, b, by rw [← g v (Or.inr (Or.inr (Or.inr ⟨a, b⟩)))]; exact c⟩
    · rintro ⟨v, a, b, c⟩; exact ⟨v, a, b, by rw [g v (Or.inr (Or.inr (Or.inr ⟨a, b⟩)))]; exact c⟩
  constructor
  · constructor
    · rintro ⟨a, b, c, d⟩
      unfold outKind at a; unfold rawName at b; unfold cfgLevel at c
      rw [g1] at a; rw [g2] at b; rw [g3] at c
      exact ⟨a, b, c, fun n => (d n).trans (gl n)⟩
    · rintro ⟨a, b, c, d⟩
      refine ⟨?_, ?_, ?_, fun n => (d n).trans (gl n).symm⟩
      · unfold outKind; rw [g1]; exact a
      · unfold rawName; rw [g2]; exact b
      · unfold cfgLevel; rw [g3]; exact c
  · constructor
    · rintro ⟨v, a, b⟩; exact ⟨v, a, by rw [← g v a]; exact b⟩
    · rintro ⟨v, a, b⟩; exact ⟨v, a, by rw [g v a]; exact b⟩

/-- One more value of an entry. -/
theorem outRead_modify {items : List (S × S)} {cfg : List (S × OutCfg)} {e0 v0 w : S} {f : OutCfg → OutCfg}
    (hok : StrMap.Ok (items ++ [(key e0 v0, w)])) (h : OutRead items cfg) (hp : "OutputStream".toList <+: e0)
    (hv : OutValue v0)
    (hf : ∀ c, Holds items e0 c → Holds (items ++ [(key e0 v0, w)]) e0 (f c)) :
    OutRead (items ++ [(key e0 v0, w)]) (modify cfg e0 newOutCfg f) := by
  have hother : ∀ e, e ≠ e0 → ∀ v, OutValue v → key e v ≠ key e0 v0 := by
    intro e he v hv' hk
    exact he (key_inj (outValue_noslash hv') (outValue_noslash hv) hk).1
  constructor
  · exact StrMap.ok_put h.ok _ _
  · intro e
    unfold modify
    rw [StrMap.get_put h.ok]
    by_cases he : e = e0
    · subst he
      simp only [if_true, Option.isSome_some, true_iff]
      exact ⟨hp, v0, hv, by rw [get_snoc hok]; simp⟩
    · simp only [he, if_false, h.dom]
      unfold OutEntry
      rw [(holds_same (c := newOutCfg) hok (hother e he)).2]
  · intro e hpe
    unfold modify
    rw [StrMap.get_put h.ok]
    by_cases he : e = e0
    · subst he
      simp only [if_true, Option.getD_some]
      exact hf _ (h.val e hpe)
    · simp only [he, if_false]
      exact (holds_same hok (hother e he)).1.2 (h.val e hpe)

theorem outRead_skip {items : List (S × S)} {cfg : List (S × OutCfg)} {k w : S}
    (hok : StrMap.Ok (items ++ [(k, w)])) (h : OutRead items cfg)
    (hk : ∀ e v, "OutputStream".toList <+: e → OutValue v → key e v ≠ k) : OutRead (items ++ [(k, w)]) cfg := by
  constructor
  · exact h.ok
  · intro e
    rw [h.dom]
    unfold OutEntry
    constructor
    · rintro ⟨a, b⟩; exact ⟨a, ((holds_same (c := newOutCfg) hok (fun v => hk e v a)).2).2 b⟩
    · rintro ⟨a, b⟩; exact ⟨a, ((holds_same (c := newOutCfg) hok (fun v => hk e v a)).2).1 b⟩
  · intro e hpe
    exact (holds_same hok (fun v => hk e v hpe)).1.2 (h.val e hpe)

theorem outRead_step {items : List (S × S)} {cfg : List (S × OutCfg)} {k w : S}
    (hok : StrMap.Ok (items ++ [(k, w)])) (h : OutRead items cfg) :
    OutRead (items ++ [(k, w)]) (readOut cfg (k, w)) := by
  unfold readOut
  cases hm : matchEntry "OutputStream".toList k with
  | none =>
    simp only
    refine outRead_skip hok h fun e v hpe hv hk => ?_
    rw [(matchEntry_iff "OutputStream".toList k e v).2 ⟨hk.symm, hpe, outValue_noslash hv⟩] at hm
    cases hm
  | some ev =>
    obtain ⟨e0, v0⟩ := ev
    obtain ⟨rfl, hp, hns⟩ := (matchEntry_iff _ _ _ _).1 hm
    simp only
    have hself := get_snoc_self hok
    have hget := fun v => get_snoc hok (key e0 v)
    have hne : ∀ v, '/' ∉ v → v ≠ v0 → key e0 v ≠ key e0 v0 := fun v hv hn hk => hn (key_inj hv hns hk).2
    have d1 : "OutputStreamName".toList ≠ "Name".toList := by decide +kernel
    have d2 : "OutputStreamName".toList ≠ "LogLevel".toList := by decide +kernel
    have d3 : "Name".toList ≠ "LogLevel".toList := by decide +kernel
    obtain ⟨n1, n2, n3⟩ := noslash_values
    obtain ⟨l1, l2, l3⟩ := not_listed_values
    have hlists : ¬ "LogStream".toList <+: v0 → ∀ n, Lists (items ++ [(key e0 v0, w)]) e0 n ↔ Lists items e0 n := by
      intro hnl n
      unfold Lists
      have : ∀ v, "LogStream".toList <+: v → '/' ∉ v →
          StrMap.get (items ++ [(key e0 v0, w)]) (key e0 v) = StrMap.get items (key e0 v) := by
        intro v a b
        rw [hget v, if_neg (hne v b (by rintro rfl; exact hnl a))]
      constructor
      · rintro ⟨v, a, b, c⟩; exact ⟨v, a, b, by rw [← this v a b]; exact c⟩
      · rintro ⟨v, a, b, c⟩; exact ⟨v, a, b, by rw [this v a b]; exact c⟩
    split
    · next e =>
      subst e
      refine outRead_modify hok h hp (Or.inl rfl) fun c hc => ?_
      constructor
      · unfold outKind; rw [hget]; simp
      · unfold rawName; rw [hget, if_neg (hne _ n2 d1.symm)]; exact hc.name
      · unfold cfgLevel; rw [hget, if_neg (hne _ n3 d2.symm)]; exact hc.level
      · intro n; rw [hlists l1]; exact hc.streams n
    · split
      · next e =>
        subst e
        refine outRead_modify hok h hp (Or.inr (Or.inl rfl)) fun c hc => ?_
        constructor
        · unfold outKind; rw [hget, if_neg (hne _ n1 d1)]; exact hc.kind
        · unfold rawName; rw [hget]; simp
        · unfold cfgLevel; rw [hget, if_neg (hne _ n3 d3.symm)]; exact hc.level
        · intro n; rw [hlists l2]; exact hc.streams n
      · split
        · next e =>
          subst e
          refine outRead_modify hok h hp (Or.inr (Or.inr (Or.inl rfl))) fun c hc => ?_
          constructor
          · unfold outKind; rw [hget, if_neg (hne _ n1 d2)]; exact hc.kind
          · unfold rawName; rw [hget, if_neg (hne _ n2 d3)]; exact hc.name
          · have : c.level = 0 := by
              rw [hc.level]; unfold cfgLevel; rw [hself]; rfl
            simp only [readLevel_eq, this]
            unfold cfgLevel
            rw [hget]
            simp
          · intro n; rw [hlists l3]; exact hc.streams n
        · split
          · next h1 h2 h3 e =>
            have hl := (take9_iff v0).1 e
            refine outRead_modify hok h hp (Or.inr (Or.inr (Or.inr ⟨hl, hns⟩))) fun c hc => ?_
            constructor
            · unfold outKind; rw [hget, if_neg (hne _ n1 (Ne.symm h1))]; exact hc.kind
            · unfold rawName; rw [hget, if_neg (hne _ n2 (Ne.symm h2))]; exact hc.name
            · unfold cfgLevel; rw [hget, if_neg (hne _ n3 (Ne.symm h3))]; exact hc.level
            · intro n
              simp only [List.mem_append, List.mem_singleton, hc.streams]
              unfold Lists
              constructor
              · rintro (⟨v, a, b, c⟩ | rfl)
                · refine ⟨v, a, b, ?_⟩
                  rw [hget]
                  split
                  · next hk =>
                    rw [(key_inj b hns hk).2, hself] at c
                    cases c
                  · exact c
                · exact ⟨v0, hl, hns, by rw [hget]; simp⟩
              · rintro ⟨v, a, b, c⟩
                rw [hget] at c
                split at c
                · right; exact (Option.some.inj c).symm
                · exact Or.inl ⟨v, a, b, c⟩
          · next h1 h2 h3 h4 =>
            refine outRead_skip hok h fun e v hpe hv hk => ?_
            obtain ⟨rfl, rfl⟩ := key_inj (outValue_noslash hv) hns hk
            rcases hv with hv | hv | hv | hv
            · exact h1 hv
            · exact h2 hv
            · exact h3 hv
            · exact h4 ((take9_iff v).2 hv.1)

theorem outRead (items : List (S × S)) (hok : StrMap.Ok items) : OutRead items (items.foldl readOut []) := by
  induction items using List.reverseRecOn with
  | nil =>
    constructor
    · exact StrMap.ok_nil
    · intro e; simp [OutEntry]
    · intro e _
      constructor
      · simp [newOutCfg, outKind]
      · simp [newOutCfg, rawName]
      · simp [newOutCfg, cfgLevel]
      · intro n; simp [newOutCfg, Lists]
  | append_singleton items kv ih =>
    have hm : StrMap.Ok items := (List.pairwise_append.1 hok).1
    rw [List.foldl_append]
    exact outRead_step hok (ih hm)

/-! ## Log stream entries -/

/-- What a configuration object holds for entry `e` of a stream. -/
structure HoldsS (items : List (S × S)) (e : S) (c : StrCfg) : Prop where
  name : c.name = strName items e
  level : c.level = (cfgLevel items e).getD 0

/-- What has been read. -/
structure StrRead (items : List (S × S)) (cfg : List (S × StrCfg)) : Prop where
  ok : StrMap.Ok cfg
  dom : ∀ e, (StrMap.get cfg e).isSome ↔ StrEntry items e
  val : ∀ e, "LogStream".toList <+: e → HoldsS items e ((StrMap.get cfg e).getD newStrCfg)

theorem strRead_other {items : List (S × S)} {cfg : List (S × StrCfg)} {k w e : S}
    (hok : StrMap.Ok (items ++ [(k, w)])) (h : StrRead items cfg)
    (hk1 : "LogStream".toList <+: e → key e "Name".toList ≠ k)
    (hk2 : "LogStream".toList <+: e → key e "LogLevel".toList ≠ k) :
    ((StrMap.get cfg e).isSome ↔ StrEntry (items ++ [(k, w)]) e) ∧
    ("LogStream".toList <+: e → HoldsS (items ++ [(k, w)]) e ((StrMap.get cfg e).getD newStrCfg)) := by
  have g : ∀ q, q ≠ k → StrMap.get (items ++ [(k, w)]) q = StrMap.get items q := by
    intro q hq
    rw [get_snoc hok, if_neg hq]
  constructor
  · rw [h.dom]
    unfold StrEntry
    constructor
    · rintro ⟨a, v, rfl | rfl, c⟩
      · exact ⟨a, _, Or.inl rfl, by rw [g _ (hk1 a)]; exact c⟩
      · exact ⟨a, _, Or.inr rfl, by rw [g _ (hk2 a)]; exact c⟩
    · rintro ⟨a, v, rfl | rfl, c⟩
      · exact ⟨a, _, Or.inl rfl, by rw [← g _ (hk1 a)]; exact c⟩
      · exact ⟨a, _, Or.inr rfl, by rw [← g _ (hk2 a)]; exact c⟩
  · intro a
    obtain ⟨b, c⟩ := h.val e a
    refine ⟨?_, ?_⟩
    · unfold strName; rw [g _ (hk1 a)]; exact b
    · unfold cfgLevel; rw [g _ (hk2 a)]; exact c

theorem strRead_step {items : List (S × S)} {cfg : List (S × StrCfg)} {k w : S}
    (hok : StrMap.Ok (items ++ [(k, w)])) (h : StrRead items cfg) :
    StrRead (items ++ [(k, w)]) (readStr cfg (k, w)) := by
  obtain ⟨-, n2, n3⟩ := noslash_values
  have d3 : "Name".toList ≠ "LogLevel".toList := by decide +kernel
  have skip : (∀ e, "LogStream".toList <+: e → key e "Name".toList ≠ k ∧ key e "LogLevel".toList ≠ k) →
      StrRead (items ++ [(k, w)]) cfg := by
    intro hk
    exact ⟨h.ok, fun e => (strRead_other hok h (fun a => (hk e a).1) (fun a => (hk e a).2)).1,
      fun e => (strRead_other hok h (fun a => (hk e a).1) (fun a => (hk e a).2)).2⟩
  unfold readStr
  cases hm : matchEntry "LogStream".toList k with
  | none =>
    simp only
    refine skip fun e hpe => ⟨fun hk => ?_, fun hk => ?_⟩
    · rw [(matchEntry_iff _ k e _).2 ⟨hk.symm, hpe, n2⟩] at hm
      cases hm
    · rw [(matchEntry_iff _ k e _).2 ⟨hk.symm, hpe, n3⟩] at hm
      cases hm
  | some ev =>
    obtain ⟨e0, v0⟩ := ev
    obtain ⟨rfl, hp, hns⟩ := (matchEntry_iff _ _ _ _).1 hm
    simp only
    have hself := get_snoc_self hok
    have hget := fun v => get_snoc hok (key e0 v)
    have hne : ∀ v, '/' ∉ v → v ≠ v0 → key e0 v ≠ key e0 v0 := fun v hv hn hk => hn (key_inj hv hns hk).2
    have hother : ∀ e, e ≠ e0 → ∀ v, '/' ∉ v → key e v ≠ key e0 v0 := fun e he v hv hk => he (key_inj hv hns hk).1
    have build : ∀ f : StrCfg → StrCfg, (v0 = "Name".toList ∨ v0 = "LogLevel".toList) →
        (∀ c, HoldsS items e0 c → HoldsS (items ++ [(key e0 v0, w)]) e0 (f c)) →
        StrRead (items ++ [(key e0 v0, w)]) (modify cfg e0 newStrCfg f) := by
      intro f hv hf
      constructor
      · exact StrMap.ok_put h.ok _ _
      · intro e
        unfold modify
        rw [StrMap.get_put h.ok]
        by_cases he : e = e0
        · subst he
          simp only [if_true, Option.isSome_some, true_iff]
          exact ⟨hp, v0, hv, by rw [hget]; simp⟩
        · simp only [he, if_false]
          exact (strRead_other hok h (fun _ => hother e he _ n2) (fun _ => hother e he _ n3)).1
      · intro e hpe
        unfold modify
        rw [StrMap.get_put h.ok]
        by_cases he : e = e0
        · subst he
          simp only [if_true, Option.getD_some]
          exact hf _ (h.val e hpe)
        · simp only [he, if_false]
          exact (strRead_other hok h (fun _ => hother e he _ n2) (fun _ => hother e he _ n3)).2 hpe
    split
    · next e =>
      subst e
      refine build _ (Or.inl rfl) fun c hc => ⟨?_, ?_⟩
      · unfold strName; rw [hget]; simp
      · unfold cfgLevel; rw [hget, if_neg (hne _ n3 d3.symm)]; exact hc.level
    · split
      · next e =>
        subst e
        refine build _ (Or.inr rfl) fun c hc => ⟨?_, ?_⟩
        · unfold strName; rw [hget, if_neg (hne _ n2 d3)]; exact hc.name
        · have : c.level = 0 := by
            rw [hc.level]; unfold cfgLevel; rw [hself]; rfl
          simp only [readLevel_eq, this]
          unfold cfgLevel
          rw [hget]
          simp
      · next h1 h2 =>
        refine skip fun e hpe => ⟨fun hk => ?_, fun hk => ?_⟩
        · exact h1 (key_inj n2 hns hk).2.symm
        · exact h2 (key_inj n3 hns hk).2.symm

theorem strRead (items : List (S × S)) (hok : StrMap.Ok items) : StrRead items (items.foldl readStr []) := by
  induction items using List.reverseRecOn with
  | nil =>
    constructor
    · exact StrMap.ok_nil
    · intro e; simp [StrEntry]
    · intro e _
      constructor
      · simp [newStrCfg, strName]
      · simp [newStrCfg, cfgLevel]
  | append_singleton items kv ih =>
    have hm : StrMap.Ok items := (List.pairwise_append.1 hok).1
    rw [List.foldl_append]
    exact strRead_step hok (ih hm)

end Verif.Logging.Manager
