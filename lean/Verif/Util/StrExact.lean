import Verif.Util.StrProps

/-!
# Exact behaviour of `split` and `join` for delimiters of any length (C15)

A field `p` is *closed off* by the delimiter `d` when the first place at which `d` occurs in `p ++ d ++ …`
is directly after `p`, that is, when `d` does not occur in `p` followed by all but the last character of `d`.
For a delimiter of one character this means that `d` does not occur in `p`.
-/
namespace Verif.Str

theorem find_append (d p r : S) (hd : d ≠ []) (h : ¬ d <:+: p ++ d.dropLast) :
    find d (p ++ d ++ r) = some p.length := by
  have hdl : 0 < d.length := List.length_pos_iff.2 hd
  have hs := find_spec d (p ++ d ++ r)
  have hat : d <+: (p ++ d ++ r).drop p.length := by
    rw [List.append_assoc, List.drop_left]; exact List.prefix_append _ _
  have hno : ∀ i, i < p.length → ¬ d <+: (p ++ d ++ r).drop i := by
    intro i hi ⟨b, hb⟩
    apply h
    refine (infix_iff _ _).2 ⟨i, by simp; omega, ?_⟩
    have h1 : d = ((p ++ d ++ r).drop i).take d.length := by rw [← hb]; simp
    have h2 : (p ++ d.dropLast).drop i = ((p ++ d ++ r).drop i).take (p.length + (d.length - 1) - i) := by
      rw [← List.drop_take]
      congr 1
      rw [List.append_assoc, List.take_append, List.take_of_length_le (by omega)]
      congr 1
      rw [show p.length + (d.length - 1) - p.length = d.length - 1 by omega, List.take_append_of_le_length (by omega)]
      exact List.dropLast_eq_take
    rw [h2]
    exact List.prefix_take_iff.2 ⟨⟨b, hb⟩, by omega⟩
  cases hf : find d (p ++ d ++ r) with
  | none =>
    rw [hf] at hs
    exact absurd hat (hs _ (by simp))
  | some q =>
    rw [hf] at hs
    congr 1
    rcases Nat.lt_trichotomy q p.length with hl | hl | hl
    · exact absurd hs.2.1 (hno _ hl)
    · exact hl
    · exact absurd hat (hs.2.2 _ hl)

theorem find_closed {d s : S} {p : Nat} (hd : d ≠ []) (h : find d s = some p) :
    ¬ d <:+: s.take p ++ d.dropLast := by
  have hdl : 0 < d.length := List.length_pos_iff.2 hd
  have hs := find_spec d s
  rw [h] at hs
  obtain ⟨h1, ⟨b, hb⟩, h3⟩ := hs
  intro hin
  obtain ⟨i, hi, ⟨c, hc⟩⟩ := (infix_iff _ _).1 hin
  have hlen := congrArg List.length hc
  simp only [List.length_append, List.length_drop, List.length_take, List.length_dropLast] at hlen hi
  have hip : i < p := by omega
  apply h3 i hip
  have e : s = s.take p ++ d.dropLast ++ (d.drop (d.length - 1) ++ b) := by
    rw [List.dropLast_eq_take, List.append_assoc, ← List.append_assoc (d.take _), List.take_append_drop, hb,
      List.take_append_drop]
  rw [e, List.drop_append_of_le_length (by simp; omega), ← hc, List.append_assoc]
  exact List.prefix_append _ _

theorem splitLoop_compute (d : S) (hd : d ≠ []) (last : S) (hl : ¬ d <:+: last) :
    ∀ (qs : List S) (k : Nat), (∀ q ∈ qs, ¬ d <:+: q ++ d.dropLast) →
      (qs.flatMap (· ++ d) ++ last).length < k →
      splitLoop k (qs.flatMap (· ++ d) ++ last) d = some (qs ++ if last = [] then [] else [last]) := by
  intro qs
  induction qs with
  | nil =>
    intro k _ hk
    obtain ⟨k, rfl⟩ : ∃ j, k = j + 1 := ⟨k - 1, by omega⟩
    simp only [List.flatMap_nil, List.nil_append, splitLoop]
    cases hf : find d last with
    | none => by_cases hl0 : last = [] <;> simp [hl0]
    | some p =>
      obtain ⟨e, _⟩ := find_some hf
      exact absurd ⟨_, _, e.symm⟩ hl
  | cons q qs ih =>
    intro k hq hk
    obtain ⟨k, rfl⟩ : ∃ j, k = j + 1 := ⟨k - 1, by omega⟩
    have e : (q :: qs).flatMap (· ++ d) ++ last = q ++ d ++ (qs.flatMap (· ++ d) ++ last) := by
      simp [List.append_assoc]
    rw [e] at hk ⊢
    have hf := find_append d q (qs.flatMap (· ++ d) ++ last) hd (hq q (by simp))
    have hdrop : (q ++ d ++ (qs.flatMap (· ++ d) ++ last)).drop (q.length + d.length)
        = qs.flatMap (· ++ d) ++ last := by
      rw [← List.length_append, List.drop_left]
    have htake : (q ++ d ++ (qs.flatMap (· ++ d) ++ last)).take q.length = q := by
      rw [List.append_assoc, List.take_left]
    have hdl : 0 < d.length := List.length_pos_iff.2 hd
    have i := ih k (fun x hx => hq x (List.mem_cons_of_mem _ hx)) (by
      simp only [List.length_append] at hk ⊢; omega)
    unfold splitLoop
    simp only [hf, hdrop, htake, i, Option.map_some, List.cons_append]

theorem decompose (d : S) (hd : d ≠ []) : ∀ (n : Nat) (s : S), s.length < n →
    ∃ (qs : List S) (last : S), (∀ q ∈ qs, ¬ d <:+: q ++ d.dropLast) ∧ ¬ d <:+: last ∧ s = qs.flatMap (· ++ d) ++ last := by
  intro n
  induction n with
  | zero => intro s h; omega
  | succ n ih =>
    intro s hn
    cases hf : find d s with
    | none => exact ⟨[], s, by simp, find_none hf, by simp⟩
    | some p =>
      obtain ⟨e, _, _⟩ := find_some hf
      have hdl : 0 < d.length := List.length_pos_iff.2 hd
      have hlen := congrArg List.length e
      simp only [List.length_append] at hlen
      obtain ⟨qs, last, h1, h2, h3⟩ := ih (s.drop (p + d.length)) (by omega)
      refine ⟨s.take p :: qs, last, ?_, h2, ?_⟩
      · intro q hq
        rcases List.mem_cons.1 hq with rfl | hq
        · exact find_closed hd hf
        · exact h1 q hq
      · rw [List.flatMap_cons, List.append_assoc _ _ last, ← h3]
        exact e

/-- C15 (exact, delimiters of any length). The fields of a non-empty string are determined by: every field
but the rest is closed off by the delimiter, the rest does not contain the delimiter, and the rest is a
field only if it is not empty. -/
theorem c15_split_exact (s d : S) (ps : List S) (hd : d ≠ []) (hs : s ≠ []) :
    split (s.length + 1) s d = some ps ↔
      ∃ (qs : List S) (last : S), (∀ q ∈ qs, ¬ d <:+: q ++ d.dropLast) ∧ ¬ d <:+: last ∧
        s = qs.flatMap (· ++ d) ++ last ∧ ps = qs ++ (if last = [] then [] else [last]) := by
  unfold split
  rw [if_neg hs]
  constructor
  · intro h
    obtain ⟨qs, last, h1, h2, h3⟩ := decompose d hd _ s (Nat.lt_succ_self _)
    refine ⟨qs, last, h1, h2, h3, ?_⟩
    have := splitLoop_compute d hd last h2 qs (s.length + 1) h1 (by rw [← h3]; omega)
    rw [← h3, h] at this
    simpa using this
  · rintro ⟨qs, last, h1, h2, h3, rfl⟩
    have := splitLoop_compute d hd last h2 qs (s.length + 1) h1 (by rw [← h3]; omega)
    rw [← h3] at this
    exact this

theorem join_snoc (d : S) (qs : List S) (last : S) : join d (qs ++ [last]) = qs.flatMap (· ++ d) ++ last := by
  induction qs with
  | nil => simp [join]
  | cons q qs ih =>
    rw [List.cons_append, join_cons _ _ _ (by simp), ih]
    simp [List.append_assoc]

theorem join_delim (d : S) (qs : List S) (h : qs ≠ []) : join d qs ++ d = qs.flatMap (· ++ d) := by
  rcases List.eq_nil_or_concat qs with h0 | ⟨a, b, rfl⟩
  · exact absurd h0 h
  · rw [List.concat_eq_append, join_snoc]; simp [List.append_assoc]

theorem join_nil_iff (d : S) (hd : d ≠ []) (ps : List S) (h : ps ≠ []) : join d ps = [] ↔ ps = [[]] := by
  constructor
  · intro e
    rcases List.eq_nil_or_concat ps with h0 | ⟨a, b, rfl⟩
    · exact absurd h0 h
    · rw [List.concat_eq_append, join_snoc] at e
      cases a with
      | nil => simpa using e
      | cons x a => simp [hd] at e
  · rintro rfl; simp [join]

/-- C15 (exact, delimiters of any length). Splitting a joined list gives back the list if and only if every
field before the last is closed off by the delimiter, the last does not contain it, and the last is not
empty unless it is the only one. -/
theorem c15_split_join_iff (d : S) (hd : d ≠ []) (qs : List S) (last : S) :
    split ((join d (qs ++ [last])).length + 1) (join d (qs ++ [last])) d = some (qs ++ [last]) ↔
      (∀ q ∈ qs, ¬ d <:+: q ++ d.dropLast) ∧ ¬ d <:+: last ∧ (last = [] → qs = []) := by
  by_cases hj : join d (qs ++ [last]) = []
  · have := (join_nil_iff d hd _ (by simp)).1 hj
    have hq : qs = [] := by
      cases qs with
      | nil => rfl
      | cons q qs => simp at this
    subst hq
    have hl : last = [] := by simpa using this
    subst hl
    simp [split, join, hd]
  · rw [c15_split_exact _ d _ hd hj]
    constructor
    · rintro ⟨qs', last', h1, h2, h3, h4⟩
      by_cases hl : last' = []
      · subst hl
        simp only [if_true, List.append_nil] at h3 h4
        rw [← h4, ← join_delim d _ (by simp)] at h3
        have := congrArg List.length h3
        simp at this
        exact absurd this hd
      · rw [if_neg hl] at h4
        have h5 := List.append_inj' h4 rfl
        obtain ⟨rfl, e⟩ := h5
        simp only [List.cons.injEq, and_true] at e
        subst e
        exact ⟨h1, h2, fun e => absurd e hl⟩
    · rintro ⟨h1, h2, h3⟩
      refine ⟨qs, last, h1, h2, join_snoc _ _ _, ?_⟩
      by_cases hl : last = []
      · subst hl
        have := h3 rfl
        subst this
        simp [join] at hj
      · rw [if_neg hl]

/-- C15 (exact, delimiters of any length). Joining the fields gives back the string unless the string is a
sequence of one or more fields each closed off and followed by the delimiter. -/
theorem c15_join_split_exact (s d : S) (hd : d ≠ []) :
    (split (s.length + 1) s d).map (join d) = some s ↔
      ¬ ∃ ps : List S, ps ≠ [] ∧ (∀ p ∈ ps, ¬ d <:+: p ++ d.dropLast) ∧ s = ps.flatMap (· ++ d) := by
  by_cases hs : s = []
  · subst hs
    refine ⟨fun _ => ?_, fun _ => by simp [split, join]⟩
    rintro ⟨ps, h1, _, h3⟩
    cases ps with
    | nil => exact h1 rfl
    | cons p ps => simp [hd] at h3
  · constructor
    · rintro h ⟨ps, h1, h2, h3⟩
      have hin : ¬ d <:+: ([] : S) := by simpa using hd
      have e := (c15_split_exact s d ps hd hs).2 ⟨ps, [], h2, hin, by simpa using h3, by simp⟩
      rw [e] at h
      simp only [Option.map_some, Option.some.injEq] at h
      rw [← join_delim d ps h1, h] at h3
      have := congrArg List.length h3
      simp at this
      exact hd this
    · intro h
      obtain ⟨qs, last, h1, h2, h3⟩ := decompose d hd _ s (Nat.lt_succ_self _)
      rw [(c15_split_exact s d _ hd hs).2 ⟨qs, last, h1, h2, h3, rfl⟩]
      by_cases hl : last = []
      · subst hl
        exact absurd ⟨qs, by rintro rfl; exact hs (by simpa using h3), h1, by simpa using h3⟩ h
      · simp only [if_neg hl, Option.map_some, join_snoc, ← h3]

/-- C15. A delimiter that overlaps itself: no field contains `aa`, yet the fields do not come back. -/
theorem c15_overlap : split 5 (join "aa".toList ["a".toList, "b".toList]) "aa".toList
      = some [[], "ab".toList] ∧
    (∀ p ∈ ["a".toList, "b".toList], ¬ "aa".toList <:+: p) := by decide

example : split 9 "a::b:::c".toList "::".toList = some ["a".toList, "b".toList, ":c".toList] := by decide
example : (∀ q ∈ ["a".toList, "b:".toList], ¬ "; ".toList <:+: q ++ "; ".toList.dropLast) ∧
    ¬ "; ".toList <:+: "c".toList ∧ ("c".toList = [] → ["a".toList, "b:".toList] = []) := by decide
example : ¬ ∃ ps : List S, ps ≠ [] ∧ (∀ p ∈ ps, ¬ "::".toList <:+: p ++ "::".toList.dropLast) ∧
    "a::b".toList = ps.flatMap (· ++ "::".toList) :=
  (c15_join_split_exact _ _ (by decide)).1 (by decide)

end Verif.Str
