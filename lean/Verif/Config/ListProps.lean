import Verif.Config.ListLemmas

/-! # Configuration lists (C72) -/
namespace Verif.Config.CList

/-- C72, the part that holds: a fresh list object reads successfully iff the configuration has an
element of the list and no value that cannot be converted.  Missing: prefixes with special characters
of regular expressions, keys like `p//x` and `p/n/`; further calls on the same object are `c72_history_exact` (ListHistory.lean). -/
theorem c72_result_partial {V : Type} (items : List (S × S)) (pre cfg : S) (ms : List (Member V))
    (hok : StrMap.Ok items) (hp : Plain (pre ++ cfg)) (ht : Tidy (pre ++ cfg) items) :
    (get items pre cfg ms []).1 = true ↔
      (∃ n, IsElement items (pre ++ cfg) ms n) ∧ ¬ Bad items (pre ++ cfg) ms := by
  have inv := inv_fold (ms := ms) hp ht (items.map Prod.fst) [] ⟨[], false, false⟩
    (by intro k hk; simpa using hk) (by simpa using StrMap.nodup_keys hok) (inv_init _ _ _)
  simp only [List.nil_append] at inv
  have hres := inv.result
  have herr := inv.error
  simp only [mem_keys hok] at hres herr
  have hbad : (List.foldl (step items (pre ++ cfg) ms) ⟨[], false, false⟩ (items.map Prod.fst)).error = true ↔
      Bad items (pre ++ cfg) ms := by
    rw [herr]
    constructor
    · rintro ⟨n, x, m, a, b, ⟨v, c⟩, d⟩
      exact ⟨n, x, m, v, a, b, c, by simpa [c] using d⟩
    · rintro ⟨n, x, m, v, a, b, c, d⟩
      exact ⟨n, x, m, a, b, ⟨v, c⟩, by simpa [c] using d⟩
  unfold get
  simp only
  by_cases he : (List.foldl (step items (pre ++ cfg) ms) ⟨[], false, false⟩ (items.map Prod.fst)).error = true
  · simp [he, hbad.1 he]
  · have hnb : ¬ Bad items (pre ++ cfg) ms := fun hb => he (hbad.2 hb)
    simp only [he, Bool.false_eq_true, if_false, hres, hnb, not_false_eq_true, and_true]
    constructor
    · rintro ⟨n, x, m, a, b, ⟨v, c⟩, d⟩
      exact ⟨n, a, x, m, v, b, c⟩
    · rintro ⟨n, a, x, m, v, b, c⟩
      refine ⟨n, x, m, a, b, ⟨v, c⟩, ?_⟩
      rw [c, Option.bind_some, Option.isSome_iff_ne_none]
      exact fun hnone => hnb ⟨n, x, m, v, a, b, c, hnone⟩

/-- C72, the part that holds: when it reads successfully, it writes exactly one object per element of
the list, in ascending order of the names, and every field has the value configured for it (or the
default when it has no key). -/
theorem c72_elements_partial {V : Type} (items : List (S × S)) (pre cfg : S) (ms : List (Member V))
    (hok : StrMap.Ok items) (hp : Plain (pre ++ cfg)) (ht : Tidy (pre ++ cfg) items)
    (hr : (get items pre cfg ms []).1 = true) :
    ∃ names : List S, names.Pairwise (· < ·) ∧ (∀ n, n ∈ names ↔ IsElement items (pre ++ cfg) ms n) ∧
      (get items pre cfg ms []).2.2 = names.map (element items (pre ++ cfg) ms) := by
  have inv := inv_fold (ms := ms) hp ht (items.map Prod.fst) [] ⟨[], false, false⟩
    (by intro k hk; simpa using hk) (by simpa using StrMap.nodup_keys hok) (inv_init _ _ _)
  simp only [List.nil_append] at inv
  have hnames := inv.names
  have hfields := inv.fields
  simp only [mem_keys hok] at hnames hfields
  have hout : (get items pre cfg ms []).2.2 =
      (List.foldl (step items (pre ++ cfg) ms) ⟨[], false, false⟩ (items.map Prod.fst)).elements.map Prod.snd := by
    have hr' := hr
    unfold get at hr' ⊢
    simp only at hr' ⊢
    rw [if_pos hr']
  generalize List.foldl (step items (pre ++ cfg) ms) ⟨[], false, false⟩ (items.map Prod.fst) = st at *
  refine ⟨st.elements.map Prod.fst, ?_, ?_, ?_⟩
  · rw [List.pairwise_map]
    exact inv.ok
  · intro n
    rw [mem_keys' inv.ok, ← Option.isSome_iff_exists, hnames]
    constructor
    · rintro ⟨a, x, m, b, v, c⟩; exact ⟨a, x, m, v, b, c⟩
    · rintro ⟨a, x, m, v, b, c⟩; exact ⟨a, x, m, b, v, c⟩
  · rw [hout, List.map_map]
    apply List.map_congr_left
    rintro ⟨n, e⟩ hmem
    have he := (StrMap.mem_iff inv.ok n e).1 hmem
    funext x
    show e x = element items (pre ++ cfg) ms n x
    apply Option.ext
    intro v
    rw [hfields n e he x v]
    unfold element
    constructor
    · rintro ⟨m, a, _, b⟩; simpa [a] using b
    · intro h
      cases hm : member ms x with
      | none => simp [hm] at h
      | some m =>
        simp only [hm, Option.bind_some] at h
        refine ⟨m, rfl, ?_, h⟩
        cases hg : StrMap.get items (keyOf (pre ++ cfg) n x) with
        | none => simp [hg] at h
        | some w => exact ⟨w, rfl⟩

/-- C72: when reading fails, nothing is written (for every configuration, prefix and history). -/
theorem c72_failure_writes_nothing {V : Type} (items : List (S × S)) (pre cfg : S) (ms : List (Member V))
    (stored : List (S × Elem V)) (h : (get items pre cfg ms stored).1 = false) :
    (get items pre cfg ms stored).2.2 = [] := by
  unfold get at *
  simp only at *
  rw [if_neg (by simp [h])]

/-! ## The hypotheses are met -/

/-- A configuration with the list `/robot/motor`: `left` with `id` and `max`, `right` with `id`. -/
def exampleItems : List (S × S) :=
  [("/robot/motor/left/id", "1"), ("/robot/motor/left/max", "30"), ("/robot/motor/right/id", "2"),
   ("/robot/name", "x")].map fun e => (e.1.toList, e.2.toList)

/-- Members `max` and `id`. -/
def exampleMembers : List (Member S) := [⟨"max".toList, some⟩, ⟨"id".toList, some⟩]

theorem exampleOk : StrMap.Ok exampleItems := by
  unfold StrMap.Ok StdMap.Sorted exampleItems
  decide +kernel

theorem exampleTidy : Tidy "/robot/motor".toList exampleItems := by
  intro k v r hk hr
  simp only [exampleItems, List.map_cons, List.map_nil, List.mem_cons, List.not_mem_nil, or_false, Prod.mk.injEq] at hk
  rcases hk with ⟨rfl, -⟩ | ⟨rfl, -⟩ | ⟨rfl, -⟩ | ⟨rfl, -⟩
  · exact Or.inr ⟨"left".toList, "id".toList, ⟨by decide +kernel, by decide +kernel⟩, by decide +kernel⟩
  · exact Or.inr ⟨"left".toList, "max".toList, ⟨by decide +kernel, by decide +kernel⟩, by decide +kernel⟩
  · exact Or.inr ⟨"right".toList, "id".toList, ⟨by decide +kernel, by decide +kernel⟩, by decide +kernel⟩
  · exact absurd (congrArg (List.take 8) hr) (by
      have : List.take 8 ("/robot/motor".toList ++ '/' :: r) = List.take 8 "/robot/motor".toList := by
        rw [List.take_append_of_le_length (by decide +kernel)]
      rw [this]; decide +kernel)

example : StrMap.Ok exampleItems ∧ Plain ("/robot".toList ++ "/motor".toList) ∧
    Tidy ("/robot".toList ++ "/motor".toList) exampleItems ∧
    (get exampleItems "/robot".toList "/motor".toList exampleMembers []).1 = true :=
  ⟨exampleOk, by unfold Plain; decide +kernel, exampleTidy, by decide +kernel⟩

/-- The fields of the members of `ms` of the objects written. -/
def shown {V : Type} (ms : List (Member V)) (r : Bool × List (S × Elem V) × List (Elem V)) : List (List (Option V)) :=
  r.2.2.map fun e => ms.map fun m => e m.suffix

example : shown exampleMembers (get exampleItems "/robot".toList "/motor".toList exampleMembers []) =
    [[some "30".toList, some "1".toList], [none, some "2".toList]] := by decide +kernel

/-! ## Findings -/

/-- C72 is violated for a prefix with a dot: it is used as a regular expression, and entries of the
list `/axb` are read into the list `/a.b`. -/
theorem c72_prefix_is_regex : ∃ items : List (S × S), StrMap.Ok items ∧
    (∀ n, ¬ IsElement items "/a.b".toList exampleMembers n) ∧
    shown exampleMembers (get items [] "/a.b".toList exampleMembers []) = [[none, some "7".toList]] := by
  refine ⟨[("/axb/n/id".toList, "7".toList)], ?_, ?_, by decide +kernel⟩
  · unfold StrMap.Ok StdMap.Sorted; decide +kernel
  · rintro n ⟨-, x, m, v, -, h⟩
    rw [← StrMap.mem_iff (by unfold StrMap.Ok StdMap.Sorted; decide +kernel)] at h
    simp only [List.mem_singleton, Prod.mk.injEq] at h
    have := congrArg (List.take 4) h.1
    unfold keyOf at this
    rw [List.append_assoc, List.take_append_of_le_length (by decide +kernel)] at this
    exact absurd this (by decide +kernel)

/-- C72 is violated for keys that end in `/`: `/a/n/` gives an element named `n/` beside `n`. -/
theorem c72_trailing_slash : ∃ items : List (S × S), StrMap.Ok items ∧
    (∀ n, IsElement items "/a".toList [(⟨[], some⟩ : Member S)] n → n = "n".toList) ∧
    (get items [] "/a".toList [(⟨[], some⟩ : Member S)] []).2.1.map Prod.fst = ["n".toList, "n/".toList] := by
  refine ⟨[("/a/n".toList, "1".toList), ("/a/n/".toList, "2".toList)], ?_, ?_, by decide +kernel⟩
  · unfold StrMap.Ok StdMap.Sorted; decide +kernel
  · rintro n ⟨⟨h1, h2⟩, x, m, v, hm, h⟩
    have hx : x = [] := by
      unfold member at hm
      have := List.find?_some hm
      have hmem := List.mem_of_find?_eq_some hm
      simp only [List.mem_singleton] at hmem
      subst hmem
      simpa using this.symm
    subst hx
    rw [← StrMap.mem_iff (by unfold StrMap.Ok StdMap.Sorted; decide +kernel)] at h
    simp only [List.mem_cons, List.not_mem_nil, or_false, Prod.mk.injEq] at h
    rcases h with h | h
    · have := congrArg (List.drop 3) h.1
      simpa [keyOf] using this
    · have := congrArg (List.drop 3) h.1
      simp [keyOf] at this
      subst this
      exact absurd h2 (by decide)

/-- The elements of an earlier call stay in the object. -/
theorem stored_kept {V : Type} (items : List (S × S)) (p : S) (ms : List (Member V)) (l : List S) :
    ∀ st : St V, StrMap.Ok st.elements →
      StrMap.Ok (l.foldl (step items p ms) st).elements ∧
      ∀ n, (StrMap.get st.elements n).isSome → (StrMap.get (l.foldl (step items p ms) st).elements n).isSome := by
  induction l with
  | nil => intro st h; exact ⟨h, fun _ h => h⟩
  | cons k l ih =>
    intro st h
    have key : StrMap.Ok (step items p ms st k).elements ∧
        ∀ n, (StrMap.get st.elements n).isSome → (StrMap.get (step items p ms st k).elements n).isSome := by
      unfold step
      split
      · exact ⟨h, fun _ h => h⟩
      · split
        · exact ⟨h, fun _ h => h⟩
        · simp only
          split
          all_goals
            refine ⟨StrMap.ok_put h _ _, fun n hn => ?_⟩
            simp only [StrMap.get_put h]
            split
            · rfl
            · exact hn
    obtain ⟨h1, h2⟩ := ih (step items p ms st k) key.1
    exact ⟨h1, fun n hn => h2 n (key.2 n hn)⟩

/-- C72 is violated by a second call on the same object: whatever the configuration is, every element
read before is written again.  (`n` need not be an element of the list now.) -/
theorem c72_second_call {V : Type} (items : List (S × S)) (pre cfg : S) (ms : List (Member V))
    (stored : List (S × Elem V)) (hs : StrMap.Ok stored) (hr : (get items pre cfg ms stored).1 = true) :
    stored.length ≤ (get items pre cfg ms stored).2.2.length := by
  have hout : (get items pre cfg ms stored).2.2 =
      (List.foldl (step items (pre ++ cfg) ms) ⟨stored, false, false⟩ (items.map Prod.fst)).elements.map Prod.snd := by
    have hr' := hr
    unfold get at hr' ⊢
    simp only at hr' ⊢
    rw [if_pos hr']
  obtain ⟨h1, h2⟩ := stored_kept items (pre ++ cfg) ms (items.map Prod.fst) ⟨stored, false, false⟩ hs
  rw [hout, List.length_map]
  generalize List.foldl (step items (pre ++ cfg) ms) ⟨stored, false, false⟩ (items.map Prod.fst) = st at *
  have e1 : stored.length = (stored.map Prod.fst).length := by simp
  have e2 : st.elements.length = (st.elements.map Prod.fst).length := by simp
  rw [e1, e2]
  apply List.Nodup.length_le_of_subset (StrMap.nodup_keys hs)
  intro n hn
  rw [mem_keys' hs, ← Option.isSome_iff_exists] at hn
  rw [mem_keys' h1, ← Option.isSome_iff_exists]
  exact h2 n hn

/-- C72 is violated: reading the list `/a` and then the list `/b` with the same object gives the
elements of both. -/
theorem c72_stale_elements : ∃ items : List (S × S), StrMap.Ok items ∧
    shown exampleMembers (get items "/b".toList [] exampleMembers []) = [[none, some "2".toList]] ∧
    shown exampleMembers (get items "/b".toList [] exampleMembers
      (get items "/a".toList [] exampleMembers []).2.1) = [[none, some "1".toList], [none, some "2".toList]] := by
  refine ⟨[("/a/m/id".toList, "1".toList), ("/b/n/id".toList, "2".toList)], ?_, ?_, ?_⟩
  · unfold StrMap.Ok StdMap.Sorted; decide +kernel
  · decide +kernel
  · decide +kernel

end Verif.Config.CList
