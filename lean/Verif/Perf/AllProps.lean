import Verif.Perf.All
import Verif.Perf.Props

/-! # C95: the summary of everything -/
namespace Verif.Perf
open Verif.StrMap

theorem reportsOf_ok (m : Mon) (level : Nat) (ps : List S) (h : ∀ p ∈ ps, ∃ r, printSummaryFromPrefix m p = .ok r) :
    ∃ l, reportsOf m level ps = .ok l ∧ l.map (fun e => e.2.1) = ps ∧
      ∀ e ∈ l, e.1 = printLevel level ∧ printSummaryFromPrefix m e.2.1 = .ok e.2.2 := by
  induction ps with
  | nil => exact ⟨[], rfl, rfl, by simp⟩
  | cons p ps ih =>
    obtain ⟨r, hr⟩ := h p List.mem_cons_self
    obtain ⟨l, h1, h2, h3⟩ := ih (fun q hq => h q (List.mem_cons_of_mem _ hq))
    refine ⟨(printLevel level, p, r) :: l, by simp [reportsOf, hr, h1, Outcome.bind], by simp [h2], ?_⟩
    intro e he
    rcases List.mem_cons.1 he with rfl | he
    · exact ⟨rfl, hr⟩
    · exact h3 e he

theorem mem_prefixes (h : List Op) (p : S) : p ∈ (run h).prefixes.map Prod.fst ↔ prefixAt p h = true := by
  have hi := invE_run h
  rw [← hi.pfx p, Option.isSome_iff_exists]
  constructor
  · intro hm
    obtain ⟨⟨k, v⟩, h1, h2⟩ := List.mem_map.1 hm
    simp only at h2
    subst h2
    exact ⟨v, (mem_iff hi.okP k v).1 h1⟩
  · rintro ⟨v, hv⟩
    exact List.mem_map.2 ⟨(p, v), (mem_iff hi.okP p v).2 hv, rfl⟩

/-- C95 (partial). For every history in which no prefix contains `::` or ends with a colon,
`printSummaryAll` is defined and writes exactly one message for each prefix that was enabled (and not
disabled again), with the right report of this prefix.
Missing: see `c95_data_missing` for recorded data that is not reported, and `c95_level_lost`. -/
theorem c95_all_partial (h : List Op) (hp : PlainPrefixes h) (hq : ∀ p, prefixAt p h = true → Plain p) (level : Nat) :
    ∃ l, printSummaryAll (run h) level = .ok l ∧ (l.map fun e => e.2.1).Nodup ∧
      (∀ p, p ∈ l.map (fun e => e.2.1) ↔ prefixAt p h = true) ∧
      ∀ e ∈ l, RightReport h e.2.1 e.2.2 := by
  have hdef : ∀ p ∈ (run h).prefixes.map Prod.fst, ∃ r, printSummaryFromPrefix (run h) p = .ok r := by
    intro p hm
    obtain ⟨r, hr, _⟩ := c58_report_partial h hp p (hq p ((mem_prefixes h p).1 hm))
    exact ⟨r, hr⟩
  obtain ⟨l, h1, h2, h3⟩ := reportsOf_ok (run h) level _ hdef
  refine ⟨l, h1, by rw [h2]; exact nodup_keys (invE_run h).okP, fun p => by rw [h2]; exact mem_prefixes h p, ?_⟩
  intro e he
  have hm : e.2.1 ∈ l.map (fun e => e.2.1) := List.mem_map.2 ⟨e, he, rfl⟩
  rw [h2, mem_prefixes] at hm
  obtain ⟨r, hr, hr2⟩ := c58_report_partial h hp e.2.1 (hq _ hm)
  have := (h3 e he).2
  rw [hr] at this
  cases this
  exact hr2

/-- C95. `printSummaryAll` reports all recorded data exactly if every prefix with data is still enabled
by name. -/
theorem c95_complete_iff (h : List Op) (hp : PlainPrefixes h) (hq : ∀ p, prefixAt p h = true → Plain p) (level : Nat) :
    ∃ l, printSummaryAll (run h) level = .ok l ∧
      ((∀ p, HasData h p → p ∈ l.map (fun e => e.2.1)) ↔ ∀ p, HasData h p → prefixAt p h = true) := by
  obtain ⟨l, h1, _, h3, _⟩ := c95_all_partial h hp hq level
  exact ⟨l, h1, by simp only [h3]⟩

/-- C95. A prefix has recorded data exactly if its own summary is not empty. -/
theorem c95_data_iff_report (h : List Op) (hp : PlainPrefixes h) (p : S) (hq : Plain p) :
    ∃ r, printSummaryFromPrefix (run h) p = .ok r ∧
      (HasData h p ↔ ¬ (r.time = [] ∧ r.nontime = [] ∧ r.static = [])) := by
  obtain ⟨r, hr, ⟨_, ht, _⟩, ⟨_, hn, _⟩, ⟨_, hs⟩⟩ := c58_report_partial h hp p hq
  refine ⟨r, hr, ?_⟩
  have e1 : (∃ n, samples p n h ≠ []) ↔ r.time ≠ [] := by
    constructor
    · rintro ⟨n, hx⟩ e
      have := (ht n).2 hx
      simp [e] at this
    · intro e
      obtain ⟨x, l, hx⟩ := List.exists_cons_of_ne_nil e
      exact ⟨x.1, (ht x.1).1 (by simp [hx])⟩
  have e2 : (∃ n, nonTime p n h ≠ []) ↔ r.nontime ≠ [] := by
    constructor
    · rintro ⟨n, hx⟩ e
      have := (hn n).2 hx
      simp [e] at this
    · intro e
      obtain ⟨x, l, hx⟩ := List.exists_cons_of_ne_nil e
      exact ⟨x.1, (hn x.1).1 (by simp [hx])⟩
  have e3 : (∃ n x, staticAt p n h = some x) ↔ r.static ≠ [] := by
    constructor
    · rintro ⟨n, x, hx⟩ e
      have := (hs n x).2 hx
      simp [e] at this
    · intro e
      obtain ⟨x, l, hx⟩ := List.exists_cons_of_ne_nil e
      exact ⟨x.1, x.2, (hs x.1 x.2).1 (by simp [hx])⟩
  unfold HasData
  rw [e1, e2, e3]
  tauto

/-- C95 violated (data). Whatever is recorded: the data of a prefix that was not enabled by name (because
`enableAll(true)` was used), or that was disabled after recording, is not reported. -/
theorem c95_data_missing (p : S) (hp : Plain p) (x : ℚ) (level : Nat) (hne : p ≠ []) :
    (HasData [.addData ['n'] x p, .enableAll true] p ∧
      printSummaryAll (run [.addData ['n'] x p, .enableAll true]) level = .ok []) ∧
    (HasData [.disablePrefix p, .addData ['n'] x p, .enablePrefix p] p ∧
      printSummaryAll (run [.disablePrefix p, .addData ['n'] x p, .enablePrefix p]) level = .ok []) := by
  have none_enabled : ∀ h : List Op, PlainPrefixes h → (∀ q, prefixAt q h = false) →
      printSummaryAll (run h) level = .ok [] := by
    intro h hp' hq
    obtain ⟨l, h1, _, h3, _⟩ := c95_all_partial h hp' (by intro q hq'; rw [hq] at hq'; cases hq') level
    cases l with
    | nil => exact h1
    | cons e l =>
      have := (h3 e.2.1).1 (by simp)
      rw [hq] at this; cases this
  refine ⟨⟨Or.inl ⟨['n'], by simp [samples, sampleOf, Enabled, allAt]⟩, none_enabled _ ?_ ?_⟩,
    ⟨Or.inl ⟨['n'], by simp [samples, sampleOf, Enabled, flagAt, prefixAt]⟩, none_enabled _ ?_ ?_⟩⟩
  · intro op hop q hq
    simp only [List.mem_cons, List.not_mem_nil, or_false] at hop
    rcases hop with rfl | rfl <;> simp [Op.pfx] at hq
    subst hq; exact hp
  · intro q; simp [prefixAt]
  · intro op hop q hq
    simp only [List.mem_cons, List.not_mem_nil, or_false] at hop
    rcases hop with rfl | rfl | rfl <;> simp [Op.pfx] at hq
    subst hq; exact hp
  · intro q; simp [prefixAt]

/-- C95 (level). A summary requested at trace, debug or info level is logged at this level. -/
theorem c95_level_partial (level : Nat) (h : level ≤ 2) : printLevel level = level := by
  match level, h with
  | 0, _ => rfl
  | 1, _ => rfl
  | 2, _ => rfl

/-- C95 violated (level). At every other level it is logged as info: a stream that shows only warnings and
errors does not show a summary requested as a warning or an error. -/
theorem c95_level_lost (level : Nat) (h : 2 < level) :
    printLevel level = 2 ∧ ∀ streamLevel, 2 < streamLevel → streamLevel ≤ level → ¬ streamLevel ≤ printLevel level := by
  have : printLevel level = 2 := by
    match level, h with
    | n + 3, _ => rfl
  exact ⟨this, fun s hs _ => by omega⟩

/-- C95: all messages of one call have the level determined by the argument, whatever the history. -/
theorem c95_same_level (h : List Op) (level : Nat) (l : List (Nat × S × Report))
    (hl : printSummaryAll (run h) level = .ok l) : ∀ e ∈ l, e.1 = printLevel level := by
  have key : ∀ (ps : List S) l, reportsOf (run h) level ps = .ok l → ∀ e ∈ l, e.1 = printLevel level := by
    intro ps
    induction ps with
    | nil => intro l hl; cases hl; simp
    | cons p ps ih =>
      intro l hl
      simp only [reportsOf] at hl
      cases h1 : printSummaryFromPrefix (run h) p with
      | ok r =>
        cases h2 : reportsOf (run h) level ps with
        | ok l' =>
          simp only [h1, h2, Outcome.bind, Outcome.ok.injEq] at hl
          subst hl
          intro e he
          rcases List.mem_cons.1 he with rfl | he
          · rfl
          · exact ih l' h2 e he
        | throws x => simp [h1, h2, Outcome.bind] at hl
        | ub => simp [h1, h2, Outcome.bind] at hl
      | throws x => simp [h1, Outcome.bind] at hl
      | ub => simp [h1, Outcome.bind] at hl
  exact key _ l hl

/-- Non-vacuity: two enabled prefixes, one with data. -/
example : printSummaryAll (run [.addData ['n'] 4 ['p'], .enablePrefix ['p'], .init 1]) 4 =
    .ok [(2, [], ⟨[], [], []⟩), (2, ['p'], ⟨[], [(['n'], ⟨1, 4, 4, 4, 4⟩)], []⟩)] := by
  decide +kernel

end Verif.Perf
