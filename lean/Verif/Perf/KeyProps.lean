import Verif.Perf.KeyLemmas
import Verif.Perf.Props
import Verif.Perf.AllProps

/-! # Performance monitor: C58 for prefixes and names of any form -/
namespace Verif.Perf
open Verif.StrMap

/-- The samples of a prefix and a name are among those of their text, in the same order. -/
theorem samples_sublist (p n : S) (h : List Op) : (samples p n h).Sublist (samplesKey (p ++ "::".toList ++ n) h) := by
  induction h with
  | nil => exact List.Sublist.refl _
  | cons op h ih =>
    have key : ∀ o : Option (S × S × ℚ),
        (match o with
          | some (p', n', x) => if p' = p ∧ n' = n then samples p n h ++ [x] else samples p n h
          | none => samples p n h).Sublist
        (match o with
          | some (p', n', x) =>
            if p' ++ "::".toList ++ n' = p ++ "::".toList ++ n then samplesKey (p ++ "::".toList ++ n) h ++ [x]
            else samplesKey (p ++ "::".toList ++ n) h
          | none => samplesKey (p ++ "::".toList ++ n) h) := by
      rintro (_ | ⟨p', n', x⟩)
      · exact ih
      · by_cases hc : p' = p ∧ n' = n
        · obtain ⟨rfl, rfl⟩ := hc
          simp only [and_self, if_true]
          exact ih.append (List.Sublist.refl _)
        · simp only [hc, if_false]
          split
          · exact ih.trans (List.sublist_append_left _ _)
          · exact ih
    have key := key (sampleOf h op)
    cases op with
    | init m => exact List.Sublist.refl _
    | _ => exact key

/-- They are the same if no other prefix and name that something was recorded for gives this text. -/
theorem samplesKey_eq (p n : S) (h : List Op)
    (hc : ∀ op h', (op :: h') <:+ h → ∀ p' n' x, sampleOf h' op = some (p', n', x) →
      p' ++ "::".toList ++ n' = p ++ "::".toList ++ n → p' = p ∧ n' = n) :
    samplesKey (p ++ "::".toList ++ n) h = samples p n h := by
  induction h with
  | nil => rfl
  | cons op h ih =>
    have ih := ih fun op h' hs => hc op h' (hs.trans (List.suffix_cons _ _))
    have hop := hc op h (List.suffix_refl _)
    have key : ∀ o : Option (S × S × ℚ), (∀ p' n' x, o = some (p', n', x) →
          p' ++ "::".toList ++ n' = p ++ "::".toList ++ n → p' = p ∧ n' = n) →
        (match o with
          | some (p', n', x) =>
            if p' ++ "::".toList ++ n' = p ++ "::".toList ++ n then samplesKey (p ++ "::".toList ++ n) h ++ [x]
            else samplesKey (p ++ "::".toList ++ n) h
          | none => samplesKey (p ++ "::".toList ++ n) h) =
        (match o with
          | some (p', n', x) => if p' = p ∧ n' = n then samples p n h ++ [x] else samples p n h
          | none => samples p n h) := by
      rintro (_ | ⟨p', n', x⟩) ho
      · exact ih
      · have ho := ho p' n' x rfl
        by_cases hc : p' = p ∧ n' = n
        · obtain ⟨rfl, rfl⟩ := hc
          simp only [and_self, if_true, ih]
        · have : ¬ p' ++ "::".toList ++ n' = p ++ "::".toList ++ n := fun e => hc (ho e)
          simp only [hc, this, if_false, ih]
    cases op with
    | init m => rfl
    | _ => exact key _ hop

/-- C58: what is printed for a prefix and a name are the statistics of all samples whose prefix and
name give the same text `prefix::name`, and undefined behaviour if there are none; for every history, every
prefix and every name. -/
theorem c58_statistics_exact (h : List Op) (p n : S) :
    (samplesKey (p ++ "::".toList ++ n) h = [] → printSummary (run h) p n = .ub) ∧
    (samplesKey (p ++ "::".toList ++ n) h ≠ [] →
      ∃ st, printSummary (run h) p n = .ok st ∧ Correct st (samplesKey (p ++ "::".toList ++ n) h)) := by
  have hi := (kinv_run h).data (makeName p n)
  rw [makeName_eq] at hi
  constructor
  · intro hs
    rw [if_pos hs] at hi
    rw [printSummary, makeName_eq]
    exact summary_none _ _ hi
  · intro hs
    rw [if_neg hs] at hi
    rw [printSummary, makeName_eq]
    exact summary_correct _ _ _ hi hs

/-- C58: what is printed for a prefix and a name are the statistics of their samples if no other prefix
and name for which something was recorded gives the same text; for every history. -/
theorem c58_statistics_no_clash (h : List Op) (p n : S)
    (hc : ∀ op h', (op :: h') <:+ h → ∀ p' n' x, sampleOf h' op = some (p', n', x) →
      p' ++ "::".toList ++ n' = p ++ "::".toList ++ n → p' = p ∧ n' = n) (hs : samples p n h ≠ []) :
    ∃ st, printSummary (run h) p n = .ok st ∧ Correct st (samples p n h) := by
  have := (c58_statistics_exact h p n).2
  rw [samplesKey_eq p n h hc] at this
  exact this hs

/-- C58: in every history, the number of samples that is printed is at least that of the samples recorded. -/
theorem c58_statistics_at_least (h : List Op) (p n : S) (hs : samples p n h ≠ []) :
    ∃ st, printSummary (run h) p n = .ok st ∧ (samples p n h).length ≤ st.count ∧
      ∀ x ∈ samples p n h, st.min ≤ x ∧ x ≤ st.max := by
  have hsub := samples_sublist p n h
  have hne : samplesKey (p ++ "::".toList ++ n) h ≠ [] := by
    intro e; rw [e] at hsub; exact hs (List.sublist_nil.1 hsub)
  obtain ⟨st, h1, h2⟩ := (c58_statistics_exact h p n).2 hne
  refine ⟨st, h1, ?_, fun x hx => ⟨h2.min.2 x (hsub.subset hx), h2.max.2 x (hsub.subset hx)⟩⟩
  rw [h2.count]; exact hsub.length_le

/-- C58: a measurement returns the time since the last start of its timer, in milliseconds, or 0 if the
prefix is not enabled; in every history. -/
theorem c58_measurement (h : List Op) (t d p : S) (now : Int) :
    (measurement (run h) t d p now).1 = if Enabled h p = true then ((now - timerAt t h : Int) : ℚ) / 1000000 else 0 := by
  have := (kinv_run h).timer t
  rw [← c58_enabled]
  by_cases he : isEnabled (run h) p = true
  · simp only [measurement, he, if_true, millis, this]
  · simp [measurement, he]

/-- C58: `startStop` returns the time since the last start of its timer, in milliseconds, or 0
if the timer was not running or the prefix is not enabled; in every history. -/
theorem c58_startStop (h : List Op) (t d p : S) (now : Int) :
    (startStop (run h) t d p now).1 =
      if Enabled h p = true ∧ timerAt t h ≠ 0 then ((now - timerAt t h : Int) : ℚ) / 1000000 else 0 := by
  have := (kinv_run h).timer t
  rw [← c58_enabled]
  unfold startStop
  by_cases he : isEnabled (run h) p = true
  · by_cases ht : timerAt t h = 0
    · simp [he, this, ht]
    · simp [he, this, ht, millis]
  · simp [he]

theorem ofPrefix_not_plain {V : Type} {m : List (S × V)}
    (hk : ∀ k v, (k, v) ∈ m → ∃ p n, Plain p ∧ k = makeName p n) (p : S) (hp : ¬ Plain p) :
    ofPrefix p m = [] := by
  rw [ofPrefix, List.map_eq_nil_iff, List.filter_eq_nil_iff]
  rintro ⟨k, v⟩ he heq
  obtain ⟨q, n, hq, rfl⟩ := hk k v he
  rw [splitKey_makeName q n hq] at heq
  exact hp (by rw [beq_iff_eq] at heq; rw [heq]; exact hq)

/-- C58: the report of a prefix without `::` that does not end with a colon lists exactly the names
for which something was recorded under the text `prefix::name`, once each, with their statistics; for every history. -/
theorem c58_report_exact (h : List Op) (p : S) (hpc : Plain p) :
    ∃ r, printSummaryFromPrefix (run h) p = .ok r ∧
      ((r.time.map Prod.fst).Nodup ∧ (∀ n, n ∈ r.time.map Prod.fst ↔ samplesKey (p ++ "::".toList ++ n) h ≠ []) ∧
        ∀ n st, (n, st) ∈ r.time → Correct st (samplesKey (p ++ "::".toList ++ n) h)) ∧
      ((r.nontime.map Prod.fst).Nodup ∧
        (∀ n, n ∈ r.nontime.map Prod.fst ↔ nonTimeKey (p ++ "::".toList ++ n) h ≠ []) ∧
        ∀ n st, (n, st) ∈ r.nontime → Correct st (nonTimeKey (p ++ "::".toList ++ n) h)) ∧
      ((r.static.map Prod.fst).Nodup ∧
        ∀ n x, (n, x) ∈ r.static ↔ staticKey (p ++ "::".toList ++ n) h = some x) := by
  have hi := kinv_run h
  obtain ⟨t, ht, ht'⟩ := report_part p hpc (run h).data (fun n => samplesKey (p ++ "::".toList ++ n) h) hi.okD hi.keysD
    (fun n => by rw [makeName_eq]; exact hi.data _)
  obtain ⟨o, ho, ho'⟩ := report_part p hpc (run h).nontime (fun n => nonTimeKey (p ++ "::".toList ++ n) h) hi.okN hi.keysN
    (fun n => by rw [makeName_eq]; exact hi.nontime _)
  refine ⟨⟨ofPrefix p (run h).static, t, o⟩, ?_, ht', ho', nodup_ofPrefix hi.okS hi.keysS p, ?_⟩
  · simp [printSummaryFromPrefix, ht, ho, Outcome.bind]
  · intro n x
    rw [mem_ofPrefix hi.keysS p n hpc, mem_iff hi.okS, makeName_eq, hi.static]

/-- C58: the report of any other prefix is empty, in every history, whatever was recorded for it. -/
theorem c58_report_other_prefix (h : List Op) (p : S) (hpc : ¬ Plain p) :
    printSummaryFromPrefix (run h) p = .ok ⟨[], [], []⟩ := by
  have hi := kinv_run h
  simp [printSummaryFromPrefix, ofPrefix_not_plain hi.keysD p hpc, ofPrefix_not_plain hi.keysN p hpc,
    ofPrefix_not_plain hi.keysS p hpc, summaries, Outcome.bind]

/-- C95: in every history, whatever the prefixes, `printSummaryAll` is defined and writes one message for each prefix
that is enabled by name, at one level, with exactly the report that `printSummaryFromPrefix` gives
(see `c58_report_exact` and `c58_report_other_prefix`). -/
theorem c95_all_exact (h : List Op) (level : Nat) :
    ∃ l, printSummaryAll (run h) level = .ok l ∧ (l.map fun e => e.2.1).Nodup ∧
      (∀ p, p ∈ l.map (fun e => e.2.1) ↔ prefixAt p h = true) ∧
      ∀ e ∈ l, e.1 = (if level ≤ 2 then level else 2) ∧ printSummaryFromPrefix (run h) e.2.1 = .ok e.2.2 := by
  obtain ⟨l, h1, h2, h3⟩ := reportsOf_ok (run h) level ((run h).prefixes.map Prod.fst) (by
    intro p _
    by_cases hp : Plain p
    · obtain ⟨r, hr, _⟩ := c58_report_exact h p hp
      exact ⟨r, hr⟩
    · exact ⟨_, c58_report_other_prefix h p hp⟩)
  refine ⟨l, h1, by rw [h2]; exact nodup_keys (invE_run h).okP, fun p => by rw [h2]; exact mem_prefixes h p, ?_⟩
  intro e he
  refine ⟨(h3 e he).1.trans ?_, (h3 e he).2⟩
  split
  · exact c95_level_partial level ‹_›
  · exact (c95_level_lost level (by omega)).1

/-- Non-vacuity: a prefix with `::` shares its samples with another one, and is not `Plain`. -/
example :
    let h : List Op := [.addData "c".toList 5 "a::b".toList, .addData "b::c".toList 1 "a".toList, .enableAll true]
    samplesKey ("a::b".toList ++ "::".toList ++ "c".toList) h = [1, 5] ∧
    printSummary (run h) "a::b".toList "c".toList = .ok ⟨2, 3, 5, 1, 5⟩ ∧
    printSummary (run h) "a".toList "c".toList = .ub := by
  decide +kernel

example : ¬ Plain "a::b".toList := fun h => h ['a'] ['b', ':'] (by decide)

end Verif.Perf
