import Verif.Config.ListSpec

/-! # Lemmas for configuration lists -/
namespace Verif.Config.CList

theorem matchPrefix_plain (p k : S) (hp : '.' ∉ p) (r : S) : matchPrefix p k = some r ↔ k = p ++ r := by
  induction p generalizing k with
  | nil => simp [matchPrefix]
  | cons c p ih =>
    simp only [List.mem_cons, not_or] at hp
    cases k with
    | nil => simp [matchPrefix]
    | cons d k =>
      simp only [matchPrefix, Ne.symm hp.1, false_or]
      by_cases h : c = d
      · simp [h, ih _ hp.2]
      · have : ¬ d = c := fun h' => h h'.symm
        simp [h, this]

theorem groups_name (acc n : S) (hn : '/' ∉ n) : groups acc n = (acc ++ n, []) := by
  induction n generalizing acc with
  | nil => simp [groups]
  | cons c n ih =>
    simp only [List.mem_cons, not_or] at hn
    simp [groups, Ne.symm hn.1, ih _ hn.2]

theorem groups_member (acc n x : S) (hn : '/' ∉ n) (hx : x ≠ []) : groups acc (n ++ '/' :: x) = (acc ++ n, x) := by
  induction n generalizing acc with
  | nil => simp [groups, hx]
  | cons c n ih =>
    simp only [List.mem_cons, not_or] at hn
    simp [groups, Ne.symm hn.1, ih _ hn.2]

theorem plain_dot {p : S} (h : Plain p) : '.' ∉ p := fun hm => h '.' hm (by decide)

theorem matchKey_keyOf {p n : S} (x : S) (hp : Plain p) (hn : IsName n) : matchKey p (keyOf p n x) = some (n, x) := by
  obtain ⟨h1, h2⟩ := hn
  cases n with
  | nil => exact absurd rfl h1
  | cons c n =>
    simp only [List.mem_cons, not_or] at h2
    have : matchPrefix p (keyOf p (c :: n) x) = some ('/' :: (c :: n) ++ (if x = [] then [] else '/' :: x)) := by
      rw [matchPrefix_plain p _ (plain_dot hp)]
      simp [keyOf]
    unfold matchKey
    rw [this]
    simp only [List.cons_append]
    by_cases hx : x = []
    · subst hx; simp [groups_name _ _ h2.2]
    · simp [hx, groups_member _ _ _ h2.2 hx]

theorem matchKey_cases {p : S} {items : List (S × S)} (hp : Plain p) (ht : Tidy p items) {k v : S} (hk : (k, v) ∈ items) :
    matchKey p k = none ∨ ∃ n x, IsName n ∧ k = keyOf p n x ∧ matchKey p k = some (n, x) := by
  cases hm : matchKey p k with
  | none => exact Or.inl rfl
  | some y =>
    right
    unfold matchKey at hm
    split at hm
    · rename_i c r hr
      rw [matchPrefix_plain p _ (plain_dot hp)] at hr
      rcases ht k v (c :: r) hk hr with h | ⟨n, x, hn, h⟩
      · cases h
      · refine ⟨n, x, hn, h, ?_⟩
        have := matchKey_keyOf x hp hn
        rw [← h] at this
        unfold matchKey at this
        rw [(matchPrefix_plain p k (plain_dot hp) _).2 hr] at this
        simp only at this hm
        rw [← hm, this]
    · cases hm

theorem keyOf_inj {p n x n' x' : S} (hp : Plain p) (hn : IsName n) (hn' : IsName n') (h : keyOf p n x = keyOf p n' x') :
    n = n' ∧ x = x' := by
  have h1 := matchKey_keyOf x hp hn
  rw [h, matchKey_keyOf x' hp hn'] at h1
  simp at h1
  exact ⟨h1.1.symm, h1.2.symm⟩

/-- What is known after the keys `done`. -/
structure Inv {V : Type} (items : List (S × S)) (p : S) (ms : List (Member V)) (done : List S) (st : St V) : Prop where
  ok : StrMap.Ok st.elements
  names : ∀ n, (StrMap.get st.elements n).isSome ↔
    IsName n ∧ ∃ x m, member ms x = some m ∧ keyOf p n x ∈ done
  fields : ∀ n e, StrMap.get st.elements n = some e → ∀ x v, e x = some v ↔
    ∃ m, member ms x = some m ∧ keyOf p n x ∈ done ∧ (StrMap.get items (keyOf p n x)).bind m.conv = some v
  result : st.result = true ↔ ∃ n x m, IsName n ∧ member ms x = some m ∧ keyOf p n x ∈ done ∧
    ((StrMap.get items (keyOf p n x)).bind m.conv).isSome
  error : st.error = true ↔ ∃ n x m, IsName n ∧ member ms x = some m ∧ keyOf p n x ∈ done ∧
    (StrMap.get items (keyOf p n x)).bind m.conv = none

theorem inv_skip {V : Type} {items : List (S × S)} {p : S} {ms : List (Member V)} {done : List S} {st : St V} {k : S}
    (h : Inv items p ms done st) (hk : ∀ n x m, IsName n → member ms x = some m → keyOf p n x ≠ k) :
    Inv items p ms (done ++ [k]) st := by
  constructor
  · exact h.ok
  · intro n
    rw [h.names]
    constructor
    · rintro ⟨a, x, m, b, c⟩; exact ⟨a, x, m, b, by simp [c]⟩
    · rintro ⟨a, x, m, b, c⟩
      rcases List.mem_append.1 c with c | c
      · exact ⟨a, x, m, b, c⟩
      · exact absurd (List.mem_singleton.1 c) (hk n x m a b)
  · intro n e he x v
    have hn : IsName n := ((h.names n).1 (by simp [he])).1
    rw [h.fields n e he]
    constructor
    · rintro ⟨m, b, c, d⟩; exact ⟨m, b, by simp [c], d⟩
    · rintro ⟨m, b, c, d⟩
      rcases List.mem_append.1 c with c | c
      · exact ⟨m, b, c, d⟩
      · exact absurd (List.mem_singleton.1 c) (hk n x m hn b)
  · rw [h.result]
    constructor
    · rintro ⟨n, x, m, a, b, c, d⟩; exact ⟨n, x, m, a, b, by simp [c], d⟩
    · rintro ⟨n, x, m, a, b, c, d⟩
      rcases List.mem_append.1 c with c | c
      · exact ⟨n, x, m, a, b, c, d⟩
      · exact absurd (List.mem_singleton.1 c) (hk n x m a b)
  · rw [h.error]
    constructor
    · rintro ⟨n, x, m, a, b, c, d⟩; exact ⟨n, x, m, a, b, by simp [c], d⟩
    · rintro ⟨n, x, m, a, b, c, d⟩
      rcases List.mem_append.1 c with c | c
      · exact ⟨n, x, m, a, b, c, d⟩
      · exact absurd (List.mem_singleton.1 c) (hk n x m a b)

theorem inv_step {V : Type} {items : List (S × S)} {p : S} {ms : List (Member V)} (hp : Plain p)
    (ht : Tidy p items) {done : List S} {st : St V} {k v : S} (hk : (k, v) ∈ items) (hd : k ∉ done)
    (h : Inv items p ms done st) : Inv items p ms (done ++ [k]) (step items p ms st k) := by
  rcases matchKey_cases hp ht hk with hm | ⟨n, x, hn, hkey, hm⟩
  · have : step items p ms st k = st := by simp [step, hm]
    rw [this]
    refine inv_skip h fun n x m hn _ e => ?_
    rw [← e, matchKey_keyOf x hp hn] at hm
    cases hm
  · cases hf : member ms x with
    | none =>
      have hf' := hf
      unfold member at hf'
      have : step items p ms st k = st := by simp only [step, hm, hf']
      rw [this]
      refine inv_skip h fun n' x' m hn' hm' e => ?_
      rw [hkey] at e
      obtain ⟨_, rfl⟩ := keyOf_inj hp hn' hn e
      rw [hf] at hm'
      cases hm'
    | some m =>
      have hf' := hf
      unfold member at hf'
      -- every key of the list which is `k` is that of `n`, `x`
      have huniq : ∀ n' x', IsName n' → keyOf p n' x' = k → n' = n ∧ x' = x := fun n' x' hn' e =>
        keyOf_inj hp hn' hn (e.trans hkey)
      have hmem : ∀ n' x', IsName n' → (keyOf p n' x' ∈ done ++ [k] ↔ keyOf p n' x' ∈ done ∨ (n' = n ∧ x' = x)) := by
        intro n' x' hn'
        simp only [List.mem_append, List.mem_singleton]
        constructor
        · rintro (a | a)
          · exact Or.inl a
          · exact Or.inr (huniq _ _ hn' a)
        · rintro (a | ⟨rfl, rfl⟩)
          · exact Or.inl a
          · exact Or.inr hkey.symm
      have hnd : keyOf p n x ∉ done := hkey ▸ hd
      -- the fields of the element before
      have hold : ∀ y w, (StrMap.get st.elements n).getD default y = some w ↔
          ∃ m, member ms y = some m ∧ keyOf p n y ∈ done ∧ (StrMap.get items (keyOf p n y)).bind m.conv = some w := by
        intro y w
        cases hg : StrMap.get st.elements n with
        | some e => simpa using h.fields n e hg y w
        | none =>
          simp only [Option.getD_none, default, false_iff, reduceCtorEq]
          rintro ⟨m', a, b, _⟩
          have := (h.names n).2 ⟨hn, y, m', a, b⟩
          simp [hg] at this
      have hval : StrMap.get items k = StrMap.get items (keyOf p n x) := by rw [← hkey]
      cases hc : (StrMap.get items k).bind m.conv with
      | some w =>
        have hstep : step items p ms st k =
            { st with
              elements := StrMap.put st.elements n
                (fun y => if y = x then some w else (StrMap.get st.elements n).getD default y)
              result := true } := by
          simp only [step, hm, hf', hc]
        rw [hstep]
        rw [hval] at hc
        constructor
        · exact StrMap.ok_put h.ok _ _
        · intro n'
          simp only [StrMap.get_put h.ok]
          by_cases e : n' = n
          · subst e
            simp only [if_true, Option.isSome_some, true_iff]
            exact ⟨hn, x, m, hf, (hmem _ _ hn).2 (Or.inr ⟨rfl, rfl⟩)⟩
          · simp only [e, if_false, h.names]
            constructor
            · rintro ⟨a, y, m', b, c⟩; exact ⟨a, y, m', b, by simp [c]⟩
            · rintro ⟨a, y, m', b, c⟩
              rcases (hmem _ _ a).1 c with c | c
              · exact ⟨a, y, m', b, c⟩
              · exact absurd c.1 e
        · intro n' e' he'
          simp only [StrMap.get_put h.ok] at he'
          intro y u
          by_cases e : n' = n
          · subst e
            simp only [if_true, Option.some.injEq] at he'
            subst he'
            by_cases hy : y = x
            · subst hy
              simp only [if_true, Option.some.injEq]
              constructor
              · rintro rfl
                exact ⟨m, hf, (hmem _ _ hn).2 (Or.inr ⟨rfl, rfl⟩), hc⟩
              · rintro ⟨m', a, _, b⟩
                rw [hf] at a
                cases a
                rw [hc] at b
                exact Option.some.inj b
            · simp only [hy, if_false, hold]
              constructor
              · rintro ⟨m', a, b, c⟩; exact ⟨m', a, by simp [b], c⟩
              · rintro ⟨m', a, b, c⟩
                rcases (hmem _ _ hn).1 b with b | b
                · exact ⟨m', a, b, c⟩
                · exact absurd b.2 hy
          · simp only [e, if_false] at he'
            have hn' : IsName n' := ((h.names n').1 (by simp [he'])).1
            rw [h.fields n' e' he']
            constructor
            · rintro ⟨m', a, b, c⟩; exact ⟨m', a, by simp [b], c⟩
            · rintro ⟨m', a, b, c⟩
              rcases (hmem _ _ hn').1 b with b | b
              · exact ⟨m', a, b, c⟩
              · exact absurd b.1 e
        · simp only [true_iff]
          exact ⟨n, x, m, hn, hf, (hmem _ _ hn).2 (Or.inr ⟨rfl, rfl⟩), by simp [hc]⟩
        · simp only [h.error]
          constructor
          · rintro ⟨n', y, m', a, b, c, d⟩; exact ⟨n', y, m', a, b, by simp [c], d⟩
          · rintro ⟨n', y, m', a, b, c, d⟩
            rcases (hmem _ _ a).1 c with c | ⟨rfl, rfl⟩
            · exact ⟨n', y, m', a, b, c, d⟩
            · rw [hf] at b; cases b; rw [hc] at d; cases d
      | none =>
        have hstep : step items p ms st k =
            { st with elements := StrMap.put st.elements n ((StrMap.get st.elements n).getD default), error := true } := by
          simp only [step, hm, hf', hc]
        rw [hstep]
        rw [hval] at hc
        constructor
        · exact StrMap.ok_put h.ok _ _
        · intro n'
          simp only [StrMap.get_put h.ok]
          by_cases e : n' = n
          · subst e
            simp only [if_true, Option.isSome_some, true_iff]
            exact ⟨hn, x, m, hf, (hmem _ _ hn).2 (Or.inr ⟨rfl, rfl⟩)⟩
          · simp only [e, if_false, h.names]
            constructor
            · rintro ⟨a, y, m', b, c⟩; exact ⟨a, y, m', b, by simp [c]⟩
            · rintro ⟨a, y, m', b, c⟩
              rcases (hmem _ _ a).1 c with c | c
              · exact ⟨a, y, m', b, c⟩
              · exact absurd c.1 e
        · intro n' e' he'
          simp only [StrMap.get_put h.ok] at he'
          intro y u
          by_cases e : n' = n
          · subst e
            simp only [if_true, Option.some.injEq] at he'
            subst he'
            rw [hold]
            constructor
            · rintro ⟨m', a, b, c⟩; exact ⟨m', a, by simp [b], c⟩
            · rintro ⟨m', a, b, c⟩
              rcases (hmem _ _ hn).1 b with b | ⟨_, rfl⟩
              · exact ⟨m', a, b, c⟩
              · rw [hf] at a; cases a; rw [hc] at c; cases c
          · simp only [e, if_false] at he'
            have hn' : IsName n' := ((h.names n').1 (by simp [he'])).1
            rw [h.fields n' e' he']
            constructor
            · rintro ⟨m', a, b, c⟩; exact ⟨m', a, by simp [b], c⟩
            · rintro ⟨m', a, b, c⟩
              rcases (hmem _ _ hn').1 b with b | b
              · exact ⟨m', a, b, c⟩
              · exact absurd b.1 e
        · simp only [h.result]
          constructor
          · rintro ⟨n', y, m', a, b, c, d⟩; exact ⟨n', y, m', a, b, by simp [c], d⟩
          · rintro ⟨n', y, m', a, b, c, d⟩
            rcases (hmem _ _ a).1 c with c | ⟨rfl, rfl⟩
            · exact ⟨n', y, m', a, b, c, d⟩
            · rw [hf] at b; cases b; rw [hc] at d; cases d
        · simp only [true_iff]
          exact ⟨n, x, m, hn, hf, (hmem _ _ hn).2 (Or.inr ⟨rfl, rfl⟩), hc⟩

theorem inv_fold {V : Type} {items : List (S × S)} {p : S} {ms : List (Member V)} (hp : Plain p)
    (ht : Tidy p items) : ∀ (l done : List S) (st : St V), (∀ k ∈ l, ∃ v, (k, v) ∈ items) → (done ++ l).Nodup →
    Inv items p ms done st → Inv items p ms (done ++ l) (l.foldl (step items p ms) st) := by
  intro l
  induction l with
  | nil => intro done st _ _ h; simpa using h
  | cons k l ih =>
    intro done st hl hnd h
    obtain ⟨v, hv⟩ := hl k (by simp)
    have hkd : k ∉ done := by
      intro hkd
      have := (List.nodup_append.1 hnd).2.2 k hkd k (by simp)
      exact this rfl
    have := ih (done ++ [k]) (step items p ms st k) (fun k' hk' => hl k' (by simp [hk'])) (by simpa using hnd)
      (inv_step hp ht hv hkd h)
    simpa using this

theorem inv_init {V : Type} (items : List (S × S)) (p : S) (ms : List (Member V)) :
    Inv items p ms [] ⟨[], false, false⟩ := by
  constructor
  · exact StrMap.ok_nil
  · intro n; simp
  · intro n e h; simp at h
  · simp
  · simp

theorem mem_keys' {V : Type} {m : List (S × V)} (hok : StrMap.Ok m) (k : S) :
    k ∈ m.map Prod.fst ↔ ∃ v, StrMap.get m k = some v := by
  simp only [List.mem_map, Prod.exists, exists_and_right, exists_eq_right]
  constructor
  · rintro ⟨v, h⟩; exact ⟨v, (StrMap.mem_iff hok k v).1 h⟩
  · rintro ⟨v, h⟩; exact ⟨v, (StrMap.mem_iff hok k v).2 h⟩

theorem mem_keys {items : List (S × S)} (hok : StrMap.Ok items) (k : S) :
    k ∈ items.map Prod.fst ↔ ∃ v, StrMap.get items k = some v := by
  simp only [List.mem_map, Prod.exists, exists_and_right, exists_eq_right]
  constructor
  · rintro ⟨v, h⟩; exact ⟨v, (StrMap.mem_iff hok k v).1 h⟩
  · rintro ⟨v, h⟩; exact ⟨v, (StrMap.mem_iff hok k v).2 h⟩

end Verif.Config.CList
