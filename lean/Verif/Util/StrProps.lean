import Verif.Util.StrModel

/-!
# Properties of the string helpers (C15, C16, C17)

`d <:+: s` is Lean's "d occurs in s as a contiguous block", `d <:+ s` "s ends with d",
`d <+: s` "s starts with d".
-/
namespace Verif.Str

theorem find_spec (d : S) : ∀ s : S,
    match find d s with
    | some p => p ≤ s.length ∧ d <+: s.drop p ∧ ∀ i, i < p → ¬ d <+: s.drop i
    | none => ∀ i, i ≤ s.length → ¬ d <+: s.drop i := by
  intro s
  induction s with
  | nil =>
    unfold find
    by_cases h : d.isPrefixOf [] = true
    · simp only [h, if_true]
      exact ⟨Nat.le_refl _, List.isPrefixOf_iff_prefix.1 h, by intro i hi; omega⟩
    · simp only [h]
      intro i hi
      have : i = 0 := by simpa using hi
      subst this
      intro hp
      exact h (List.isPrefixOf_iff_prefix.2 hp)
  | cons c cs ih =>
    unfold find
    by_cases h : d.isPrefixOf (c :: cs) = true
    · simp only [h, if_true]
      exact ⟨Nat.zero_le _, List.isPrefixOf_iff_prefix.1 h, by intro i hi; omega⟩
    · simp only [h]
      have h0 : ¬ d <+: (c :: cs) := fun hp => h (List.isPrefixOf_iff_prefix.2 hp)
      cases hf : find d cs with
      | some p =>
        rw [hf] at ih
        simp only [Bool.false_eq_true, if_false, Option.map_some]
        refine ⟨by simpa using ih.1, by simpa using ih.2.1, ?_⟩
        intro i hi
        cases i with
        | zero => simpa using h0
        | succ i => simpa using ih.2.2 i (by omega)
      | none =>
        rw [hf] at ih
        simp only [Bool.false_eq_true, if_false, Option.map_none]
        intro i hi
        cases i with
        | zero => simpa using h0
        | succ i => simpa using ih i (by simpa using hi)

theorem infix_iff (d s : S) : d <:+: s ↔ ∃ i, i ≤ s.length ∧ d <+: s.drop i := by
  constructor
  · rintro ⟨a, b, rfl⟩
    refine ⟨a.length, by simp, ?_⟩
    rw [List.append_assoc, List.drop_left]
    exact List.prefix_append _ _
  · rintro ⟨i, _, ⟨b, hb⟩⟩
    refine ⟨s.take i, b, ?_⟩
    rw [List.append_assoc, hb, List.take_append_drop]

theorem find_some {d s : S} {p : Nat} (h : find d s = some p) :
    s = s.take p ++ d ++ s.drop (p + d.length) ∧ (d ≠ [] → ¬ d <:+: s.take p) ∧ p ≤ s.length := by
  have hs := find_spec d s
  rw [h] at hs
  obtain ⟨h1, ⟨b, hb⟩, h3⟩ := hs
  have hdrop : s.drop (p + d.length) = b := by
    rw [← List.drop_drop, ← hb, List.drop_left]
  refine ⟨?_, ?_, h1⟩
  · rw [hdrop, List.append_assoc, hb, List.take_append_drop]
  · intro hd hin
    obtain ⟨i, hi, ⟨c, hc⟩⟩ := (infix_iff _ _).1 hin
    have hlen := congrArg List.length hc
    simp only [List.length_append, List.length_drop, List.length_take] at hlen
    have hdl : 0 < d.length := List.length_pos_iff.2 hd
    have hip : i < p := by simp only [List.length_take] at hi; omega
    apply h3 i hip
    refine ⟨c ++ s.drop p, ?_⟩
    rw [← List.append_assoc, hc]
    rw [List.drop_take]
    have e : s.drop p = (s.drop i).drop (p - i) := by rw [List.drop_drop]; congr 1; omega
    rw [e, List.take_append_drop]

theorem find_none {d s : S} (h : find d s = none) : ¬ d <:+: s := by
  have hs := find_spec d s
  rw [h] at hs
  intro hin
  obtain ⟨i, hi, hp⟩ := (infix_iff _ _).1 hin
  exact hs i hi hp

theorem join_cons (d p : S) (ps : List S) (h : ps ≠ []) : join d (p :: ps) = p ++ d ++ join d ps := by
  cases ps with
  | nil => exact absurd rfl h
  | cons q qs => simp [join]

theorem splitLoop_spec (k : Nat) : ∀ (s d : S), d ≠ [] → s.length < k →
    ∃ ps, splitLoop k s d = some ps ∧ (∀ p ∈ ps, ¬ d <:+: p) ∧ (s = [] → ps = []) ∧
      (s ≠ [] → ps ≠ [] ∧ (s = join d ps ∨ s = join d ps ++ d)) := by
  induction k with
  | zero => intro s d _ h; omega
  | succ k ih =>
    intro s d hd hk
    have hdl : 0 < d.length := List.length_pos_iff.2 hd
    unfold splitLoop
    cases hf : find d s with
    | none =>
      by_cases hs : s = []
      · subst hs
        exact ⟨[], by simp, by simp, by simp, by simp⟩
      · refine ⟨[s], by simp [hs], ?_, by simp [hs], ?_⟩
        · intro p hp; simp only [List.mem_singleton] at hp; subst hp; exact find_none hf
        · intro _; exact ⟨by simp, .inl (by simp [join])⟩
    | some p =>
      obtain ⟨e, hfree, hp⟩ := find_some hf
      have hlen : s.length = min p s.length + d.length + (s.drop (p + d.length)).length := by
        have := congrArg List.length e
        simpa [List.length_append, List.length_take, Nat.add_assoc] using this
      obtain ⟨qs, h1, h2, h3, h4⟩ := ih (s.drop (p + d.length)) d hd (by omega)
      refine ⟨s.take p :: qs, by simp only [h1, Option.map_some], ?_, ?_, ?_⟩
      · intro q hq
        rcases List.mem_cons.1 hq with hq | hq
        · subst hq; exact hfree hd
        · exact h2 q hq
      · intro hs; subst hs; simp at hlen; omega
      · intro _
        refine ⟨by simp, ?_⟩
        by_cases hr : s.drop (p + d.length) = []
        · right
          rw [h3 hr]
          rw [hr] at e
          simpa [join] using e
        · obtain ⟨hq, hj⟩ := h4 hr
          rw [join_cons _ _ _ hq]
          rcases hj with hj | hj
          · left; rw [← hj]; exact e
          · right; rw [List.append_assoc _ (join d qs), ← hj]; exact e

/-- C15 (termination and contents). For every string and every non-empty delimiter, `split`
ends after at most `length + 1` iterations; no element contains the delimiter; and joining
the elements gives back the string, up to one trailing delimiter. -/
theorem c15_split_join (s d : S) (hd : d ≠ []) :
    ∃ ps, split (s.length + 1) s d = some ps ∧ ps ≠ [] ∧ (∀ p ∈ ps, ¬ d <:+: p) ∧
      (s = join d ps ∨ s = join d ps ++ d) := by
  unfold split
  by_cases hs : s = []
  · subst hs
    refine ⟨[[]], by simp, by simp, ?_, .inl (by simp [join])⟩
    intro p hp
    simp only [List.mem_singleton] at hp
    subst hp
    simpa using hd
  · simp only [hs, if_false]
    obtain ⟨ps, h1, h2, _, h4⟩ := splitLoop_spec (s.length + 1) s d hd (Nat.lt_succ_self _)
    obtain ⟨h5, h6⟩ := h4 hs
    exact ⟨ps, h1, h5, h2, h6⟩

/-- C15 (inverse; restricted to strings that do not end with the delimiter). Missing with
respect to `join(split(s)) == s` for every `s`: see `c15_trailing_delimiter_lost`. -/
theorem c15_join_split_partial (s d : S) (hd : d ≠ []) (hend : ¬ d <:+ s) :
    (split (s.length + 1) s d).map (join d) = some s := by
  obtain ⟨ps, h1, _, _, h4⟩ := c15_split_join s d hd
  rw [h1]
  rcases h4 with h | h
  · simp [← h]
  · exact absurd ⟨join d ps, h.symm⟩ hend

theorem infix_char (c : Char) (s : S) : [c] <:+: s ↔ c ∈ s := by
  constructor
  · rintro ⟨a, b, rfl⟩; simp
  · intro h
    obtain ⟨a, b, rfl⟩ := List.append_of_mem h
    exact ⟨a, b, by simp⟩

theorem splitLoop_count (c : Char) (k : Nat) : ∀ (s : S) (ps : List S), splitLoop k s [c] = some ps →
    ps.length = s.count c + (if s = [] ∨ s.getLast? = some c then 0 else 1) := by
  induction k with
  | zero => intro s ps h; simp [splitLoop] at h
  | succ k ih =>
    intro s ps h
    unfold splitLoop at h
    cases hf : find [c] s with
    | none =>
      rw [hf] at h
      have hn := find_none hf
      rw [infix_char] at hn
      have hc0 := List.count_eq_zero_of_not_mem hn
      by_cases hs : s = []
      · subst hs; simp at h; subst h; simp
      · simp only [hs, ne_eq, not_false_eq_true, if_true, Option.some.injEq] at h
        subst h
        have : ¬ s.getLast? = some c := fun e => hn (List.mem_of_getLast? e)
        simp [hc0, hs, this]
    | some p =>
      rw [hf] at h
      obtain ⟨h1, h2, _⟩ := find_some hf
      have h2 := h2 (by simp)
      rw [infix_char] at h2
      simp only [List.length_singleton, Option.map_eq_some_iff] at h h1
      obtain ⟨qs, hq, rfl⟩ := h
      have := ih _ _ hq
      generalize hr : s.drop (p + 1) = r at *
      generalize ht : s.take p = t at *
      subst h1
      rw [List.length_cons, this]
      have hc0 := List.count_eq_zero_of_not_mem h2
      have hne : t ++ [c] ++ r ≠ [] := by simp
      simp only [List.count_append, hc0, List.count_singleton_self, hne, false_or]
      cases r with
      | nil => simp
      | cons x r =>
        have hl : (t ++ [c] ++ x :: r).getLast? = (x :: r).getLast? := by
          rw [List.getLast?_append]; simp [List.getLast?_cons]
        rw [hl]
        simp only [reduceCtorEq, false_or]
        omega

/-- C15 (exact, single-character delimiters): joining the fields gives back the string if and only if the
string does not end with the delimiter. -/
theorem c15_join_split_iff (c : Char) (s : S) :
    (split (s.length + 1) s [c]).map (join [c]) = some s ↔ s.getLast? ≠ some c := by
  constructor
  · intro h e
    have hs : s ≠ [] := by rintro rfl; simp at e
    obtain ⟨ps, h1, h2, h3, _⟩ := c15_split_join s [c] (by simp)
    rw [h1] at h
    simp only [Option.map_some, Option.some.injEq] at h
    unfold split at h1
    rw [if_neg hs] at h1
    have hl := splitLoop_count c _ _ _ h1
    simp only [e, or_true, if_true, Nat.add_zero] at hl
    have key : ∀ ps : List S, ps ≠ [] → (∀ p ∈ ps, ¬ [c] <:+: p) → (join [c] ps).count c + 1 = ps.length := by
      intro ps
      induction ps with
      | nil => intro h; exact absurd rfl h
      | cons p ps ih =>
        intro _ hp
        have hp0 := hp p List.mem_cons_self
        rw [infix_char] at hp0
        have hc0 := List.count_eq_zero_of_not_mem hp0
        by_cases hps : ps = []
        · subst hps; simp [join, hc0]
        · rw [join_cons _ _ _ hps]
          have := ih hps (fun q hq => hp q (List.mem_cons_of_mem _ hq))
          simp only [List.count_append, hc0, List.count_singleton_self, List.length_cons]
          omega
    have := key ps h2 h3
    rw [h] at this
    omega
  · intro h
    refine c15_join_split_partial s [c] (by simp) ?_
    rintro ⟨a, rfl⟩
    simp at h

/-- C15 is violated for strings ending with the delimiter: the trailing empty field is lost,
so `"a;"` and `"a"` split alike and joining does not give back the input. -/
theorem c15_trailing_delimiter_lost :
    split 3 "a;".toList ";".toList = some ["a".toList] ∧
    split 3 "a".toList ";".toList = some ["a".toList] ∧
    join ";".toList ["a".toList] ≠ "a;".toList := by decide

/-- C15. With an empty delimiter and a non-empty string the loop never ends, whatever the
number of iterations. -/
theorem c15_empty_delimiter_diverges (s : S) (hs : s ≠ []) (k : Nat) : split k s [] = none := by
  unfold split
  simp only [hs, if_false]
  induction k with
  | zero => rfl
  | succ k ih =>
    have hf : find [] s = some 0 := by cases s <;> simp [find]
    simp only [splitLoop, hf, List.length_nil, Nat.add_zero, List.drop_zero, ih, Option.map_none]

theorem find_char (c : Char) : ∀ (p r : S), c ∉ p → find [c] (p ++ c :: r) = some p.length := by
  intro p
  induction p with
  | nil => intro r _; simp [find, List.isPrefixOf]
  | cons x p ih =>
    intro r h
    simp only [List.mem_cons, not_or] at h
    have hx : ([c].isPrefixOf (x :: (p ++ c :: r))) = false := by simp [List.isPrefixOf, h.1]
    simp only [List.cons_append, find, hx, ih r h.2]
    simp

/-- C15 (the other direction, single-character delimiters): splitting a joined list of
delimiter-free fields gives back the fields, provided the last one is not empty. -/
theorem c15_split_of_join (c : Char) (ps : List S) (hfree : ∀ p ∈ ps, c ∉ p)
    (hlast : ps.getLast? ≠ some []) (hne : ps ≠ []) :
    split ((join [c] ps).length + 1) (join [c] ps) [c] = some ps := by
  have key : ∀ (ps : List S) (k : Nat), (∀ p ∈ ps, c ∉ p) → ps.getLast? ≠ some [] → ps ≠ [] →
      (join [c] ps).length < k → splitLoop k (join [c] ps) [c] = some ps := by
    intro ps
    induction ps with
    | nil => intro k _ _ h; exact absurd rfl h
    | cons p ps ih =>
      intro k h1 h2 _ h4
      obtain ⟨k, rfl⟩ : ∃ j, k = j + 1 := ⟨k - 1, by omega⟩
      cases ps with
      | nil =>
        have hp : p ≠ [] := by simpa using h2
        have hcp : c ∉ p := h1 p (by simp)
        have hf : find [c] p = none := by
          cases hf : find [c] p with
          | none => rfl
          | some i =>
            obtain ⟨e, _⟩ := find_some hf
            exfalso; apply hcp; rw [e]; simp
        simp [splitLoop, join, hf, hp]
      | cons q qs =>
        have hj : join [c] (p :: q :: qs) = p ++ c :: join [c] (q :: qs) := by simp [join]
        have hf := find_char c p (join [c] (q :: qs)) (h1 p (by simp))
        have hlen : (join [c] (q :: qs)).length < k := by
          rw [hj] at h4; simp only [List.length_append, List.length_cons] at h4; omega
        have hih := ih k (fun x hx => h1 x (by simp only [List.mem_cons] at hx ⊢; exact .inr hx)) (by simpa [List.getLast?_cons_cons] using h2) (by simp) hlen
        rw [hj]
        simp only [splitLoop, hf, List.length_singleton]
        have hd : (p ++ c :: join [c] (q :: qs)).drop (p.length + 1) = join [c] (q :: qs) := by
          rw [← List.drop_drop]; simp
        rw [hd, hih]
        simp
  unfold split
  have hjne : join [c] ps ≠ [] := by
    cases ps with
    | nil => exact absurd rfl hne
    | cons p qs =>
      cases qs with
      | nil => simpa [join] using hlast
      | cons q qs => simp [join]
  simp only [hjne, if_false]
  exact key ps _ hfree hlast hne (Nat.lt_succ_self _)

example : split 11 "foo;;bar;b".toList ";".toList
    = some ["foo".toList, [], "bar".toList, "b".toList] := by decide
example : ¬ (";".toList <:+ "foo;;bar".toList) := by decide

/-! ## trim -/

/-- Specification of trimming: delete the longest whitespace prefix and suffix. -/
def trimSpec (s : S) : S := ((s.dropWhile isSpace).reverse.dropWhile isSpace).reverse

theorem frontLoop_spec (s : S) (n : Nat) : ∀ i, i + n = s.length →
    frontLoop s n i = i + ((s.drop i).takeWhile isSpace).length := by
  induction n with
  | zero => intro i hi; simp only [frontLoop]; rw [List.drop_of_length_le (by omega)]; simp
  | succ n ih =>
    intro i hi
    have hlt : i < s.length := by omega
    simp only [frontLoop, List.getElem?_eq_getElem hlt]
    rw [List.drop_eq_getElem_cons hlt]
    by_cases h : isSpace s[i] = true
    · simp only [h, if_true, List.takeWhile_cons, List.length_cons]
      rw [ih (i + 1) (by omega)]; omega
    · simp only [h, Bool.false_eq_true, if_false, List.takeWhile_cons, List.length_nil,
        Nat.add_zero]

theorem take_takeWhile_length (p : Char → Bool) (s : S) :
    s.take (s.takeWhile p).length = s.takeWhile p := by
  induction s with
  | nil => rfl
  | cons c cs ih =>
    by_cases h : p c = true <;> simp [h, ih]

theorem mem_takeWhile_true (p : Char → Bool) (s : S) :
    ∀ c ∈ s.takeWhile p, p c = true := by
  induction s with
  | nil => intro c hc; simp at hc
  | cons a cs ih =>
    intro c hc
    by_cases h : p a = true
    · simp only [h, List.takeWhile_cons, if_true, List.mem_cons] at hc
      rcases hc with rfl | hc
      · exact h
      · exact ih c hc
    · simp [h] at hc

theorem drop_takeWhile_length (p : Char → Bool) (s : S) :
    s.drop (s.takeWhile p).length = s.dropWhile p := by
  induction s with
  | nil => rfl
  | cons c cs ih =>
    by_cases h : p c = true <;> simp [h, ih]

theorem endLoop_spec (s : S) (front n : Nat) (h : front + n < s.length)
    (hf : ∀ c, s[front]? = some c → isSpace c = false) :
    ∃ e, endLoop s front n = e ∧ front ≤ e ∧ e ≤ front + n ∧
      (∀ j, e < j → j ≤ front + n → ∃ c, s[j]? = some c ∧ isSpace c = true) ∧
      (∃ c, s[e]? = some c ∧ isSpace c = false) := by
  induction n with
  | zero =>
    refine ⟨front, rfl, Nat.le_refl _, Nat.le_refl _, ?_, ?_⟩
    · intro j h1 h2; omega
    · have hlt : front < s.length := by omega
      exact ⟨s[front], List.getElem?_eq_getElem hlt, hf _ (List.getElem?_eq_getElem hlt)⟩
  | succ n ih =>
    simp only [endLoop, List.getElem?_eq_getElem h]
    by_cases hsp : isSpace s[front + (n + 1)] = true
    · simp only [hsp, if_true]
      obtain ⟨e, h1, h2, h3, h4, h5⟩ := ih (by omega)
      refine ⟨e, h1, h2, by omega, ?_, h5⟩
      intro j hj1 hj2
      by_cases hj : j = front + (n + 1)
      · subst hj; exact ⟨_, List.getElem?_eq_getElem h, hsp⟩
      · exact h4 j hj1 (by omega)
    · simp only [hsp, Bool.false_eq_true, if_false]
      refine ⟨_, rfl, by omega, Nat.le_refl _, by intro j h1 h2; omega, ?_⟩
      exact ⟨_, List.getElem?_eq_getElem h, by simpa using hsp⟩

theorem dropWhile_append_all (p : Char → Bool) (a b : S) (h : ∀ c ∈ a, p c = true) :
    (a ++ b).dropWhile p = b.dropWhile p := by
  induction a with
  | nil => rfl
  | cons c cs ih =>
    have hc := h c (by simp)
    simp [hc, ih (fun x hx => h x (by simp [hx]))]

theorem trimSpec_unique {s a r b : S} (e : s = a ++ r ++ b) (ha : ∀ c ∈ a, isSpace c = true)
    (hb : ∀ c ∈ b, isSpace c = true) (h1 : ∀ c, r.head? = some c → isSpace c = false)
    (h2 : ∀ c, r.getLast? = some c → isSpace c = false) : trimSpec s = r := by
  unfold trimSpec
  rw [e, List.append_assoc, dropWhile_append_all _ _ _ ha]
  cases r with
  | nil =>
    simp only [List.nil_append]
    have : b.dropWhile isSpace = [] := by
      have := dropWhile_append_all isSpace b [] hb
      simpa using this
    simp [this]
  | cons c cs =>
    have hc := h1 c rfl
    have : ((c :: cs) ++ b).dropWhile isSpace = (c :: cs) ++ b := by simp [hc]
    rw [this, List.reverse_append, dropWhile_append_all _ _ _ (by simpa using hb)]
    have hl : ∀ x, (c :: cs).reverse.head? = some x → isSpace x = false := by
      intro x hx; rw [List.head?_reverse] at hx; exact h2 x hx
    have : (c :: cs).reverse.dropWhile isSpace = (c :: cs).reverse := by
      cases hr : (c :: cs).reverse with
      | nil => rfl
      | cons x xs =>
        have := hl x (by rw [hr]; rfl)
        simp [this]
    rw [this, List.reverse_reverse]

/-- C16. For every non-empty string, `trim` returns exactly the text between the maximal
whitespace prefix and suffix, without reading out of bounds: the string is whitespace, the
result, whitespace; and the result neither starts nor ends with whitespace (which
determines it, see `c16_trim_unique`). -/
theorem c16_trim_partial (s : S) (hs : s ≠ []) :
    ∃ a r b, trim s = .ok r ∧ s = a ++ r ++ b ∧ (∀ c ∈ a, isSpace c = true) ∧
      (∀ c ∈ b, isSpace c = true) ∧ (∀ c, r.head? = some c → isSpace c = false) ∧
      (∀ c, r.getLast? = some c → isSpace c = false) := by
  have hlen : ¬ s.length = 0 := by simpa using hs
  have hfront := frontLoop_spec s s.length 0 (by omega)
  simp only [List.drop_zero, Nat.zero_add] at hfront
  have hdrop : s.drop (frontLoop s s.length 0) = s.dropWhile isSpace := by
    rw [hfront]; exact drop_takeWhile_length isSpace s
  have htake : s.take (frontLoop s s.length 0) = s.takeWhile isSpace := by
    rw [hfront]; exact take_takeWhile_length isSpace s
  have hle : frontLoop s s.length 0 ≤ s.length := by
    rw [hfront]; exact List.Sublist.length_le (List.takeWhile_sublist _)
  generalize hF : frontLoop s s.length 0 = F at *
  have hA : ∀ c ∈ s.take F, isSpace c = true := by
    rw [htake]; intro c hc; exact mem_takeWhile_true _ _ c hc
  unfold trim
  simp only [hlen, if_false, hF]
  by_cases hall : F = s.length
  · simp only [hall, if_true]
    refine ⟨s, [], [], rfl, by simp, ?_, by simp, by simp, by simp⟩
    rw [hall, List.take_length] at hA; exact hA
  · simp only [hall, if_false]
    have hFlt : F < s.length := by omega
    have hFc : ∀ c, s[F]? = some c → isSpace c = false := by
      intro c hc
      have h1 : (s.dropWhile isSpace).head? = some c := by
        rw [← hdrop, List.head?_drop]; exact hc
      have := List.head?_dropWhile_not isSpace s
      rw [h1] at this
      simpa using this
    have hE : ∃ e, (if s.length - 1 > F then endLoop s F (s.length - 1 - F) else s.length - 1) = e ∧
        F ≤ e ∧ e < s.length ∧ (∀ j, e < j → j < s.length → ∃ c, s[j]? = some c ∧ isSpace c = true) ∧
        (∃ c, s[e]? = some c ∧ isSpace c = false) := by
      by_cases h : s.length - 1 > F
      · simp only [h, if_true]
        obtain ⟨e, h1, h2, h3, h4, h5⟩ := endLoop_spec s F (s.length - 1 - F) (by omega) hFc
        exact ⟨e, h1, h2, by omega, fun j hj1 hj2 => h4 j hj1 (by omega), h5⟩
      · simp only [h, if_false]
        have : s.length - 1 = F := by omega
        refine ⟨F, this, Nat.le_refl _, hFlt, by intro j h1 h2; omega, ?_⟩
        exact ⟨s[F], List.getElem?_eq_getElem hFlt, hFc _ (List.getElem?_eq_getElem hFlt)⟩
    obtain ⟨e, he, h2, h3, h4, h5⟩ := hE
    rw [he]
    refine ⟨s.take F, (s.drop F).take (e - F + 1), s.drop (e + 1), rfl, ?_, hA, ?_, ?_, ?_⟩
    · have e1 : s.drop (e + 1) = (s.drop F).drop (e - F + 1) := by
        rw [List.drop_drop]; congr 1; omega
      rw [e1, List.append_assoc, List.take_append_drop, List.take_append_drop]
    · intro c hc
      obtain ⟨i, hi⟩ := List.mem_iff_getElem?.1 hc
      rw [List.getElem?_drop] at hi
      have hlt : e + 1 + i < s.length := by
        rcases Nat.lt_or_ge (e + 1 + i) s.length with h | h
        · exact h
        · rw [List.getElem?_eq_none h] at hi; cases hi
      obtain ⟨c', hc1, hc2⟩ := h4 (e + 1 + i) (by omega) hlt
      rw [hi] at hc1; cases hc1; exact hc2
    · intro c hc
      have : (List.take (e - F + 1) (List.drop F s)).head? = (List.drop F s).head? := by
        rw [List.head?_take]; simp
      rw [this, List.head?_drop] at hc
      exact hFc c hc
    · intro c hc
      obtain ⟨c', hc1, hc2⟩ := h5
      have hl : (List.take (e - F + 1) (List.drop F s)).length = e - F + 1 := by
        simp only [List.length_take, List.length_drop]; omega
      rw [List.getLast?_eq_getElem?, hl, Nat.add_sub_cancel,
        List.getElem?_take, List.getElem?_drop] at hc
      have e1 : F + (e - F) = e := by omega
      rw [e1, if_pos (by omega), hc1] at hc
      cases hc; exact hc2

/-- C16. The text is the unique decomposition, and trimming is idempotent (on results that
are not empty; for an empty result see `c16_trim_empty_ub`). -/
theorem c16_trim_unique (s : S) (hs : s ≠ []) :
    trim s = .ok (trimSpec s) ∧ (trimSpec s ≠ [] → trim (trimSpec s) = .ok (trimSpec s)) := by
  have h : ∀ s : S, s ≠ [] → trim s = .ok (trimSpec s) := by
    intro s hs
    obtain ⟨a, r, b, h1, h2, h3, h4, h5, h6⟩ := c16_trim_partial s hs
    rw [h1, trimSpec_unique h2 h3 h4 h5 h6]
  refine ⟨h s hs, ?_⟩
  intro hne
  rw [h _ hne]
  obtain ⟨a, r, b, h1, h2, h3, h4, h5, h6⟩ := c16_trim_partial s hs
  have e := trimSpec_unique h2 h3 h4 h5 h6
  rw [e]
  congr 1
  exact trimSpec_unique (a := []) (b := []) (by simp) (by simp) (by simp) h5 h6

/-- C16 is violated for the empty string: `length - 1` wraps around and the code reads far
outside the string.  Consequently trimming an all-whitespace string twice is undefined. -/
theorem c16_trim_empty_ub : trim [] = .ub ∧ (do let r ← trim " ".toList; trim r) = .ub := by decide

example : trim " \ta b\n".toList = .ok "a b".toList ∧ trim "  ".toList = .ok [] := by decide

/-- C17. `padLeft`/`padRight` give a string of length `max(len,width)`: the input as suffix
(prefix), and fill characters only. -/
theorem c17_pad (s : S) (w : Nat) (c : Char) :
    (padLeft s w c).length = max s.length w ∧ (padRight s w c).length = max s.length w ∧
    (∃ k, padLeft s w c = List.replicate k c ++ s) ∧
    (∃ k, padRight s w c = s ++ List.replicate k c) := by
  unfold padLeft padRight
  by_cases h : s.length < w
  · simp only [h, if_true, List.length_append, List.length_replicate]
    exact ⟨by omega, by omega, ⟨_, rfl⟩, ⟨_, rfl⟩⟩
  · simp only [h, if_false]
    exact ⟨by omega, by omega, ⟨0, rfl⟩, ⟨0, by simp⟩⟩

example : padLeft "7".toList 3 '0' = "007".toList ∧ padRight "ab".toList 1 ' ' = "ab".toList := by decide

end Verif.Str
