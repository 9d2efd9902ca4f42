import Verif.Testsuite.Model

/-! # The test runner (C111) -/
namespace Verif.Testsuite

/-! ## Specification -/

/-- The test case is somewhere in the tree. -/
inductive HasCase (n : S) (k : Nat) : Test → Prop where
  | here : HasCase n k (.case n k)
  | inside {m : S} {ts : List Test} {t : Test} : t ∈ ts → HasCase n k t → HasCase n k (.suite m ts)

/-- The status line of a test case: its name in a column of 60 characters, and the verdict. -/
def caseLine (n : S) (passed : Bool) : S :=
  "  Running ".toList ++ n ++ List.replicate (60 - n.length) ' ' ++ (if passed then "OK" else "FAILED").toList ++ "\n".toList

mutual
/-- The status lines of a tree. -/
def report : Test → List S
  | .case n k => [caseLine n (k == 0)]
  | .suite n ts => ("Running test suite ".toList ++ n ++ ":\n".toList) :: reportAll ts ++
      ["Test suite ".toList ++ n ++ " finished.\n".toList]
/-- The status lines of a list of trees. -/
def reportAll : List Test → List S
  | [] => []
  | t :: ts => report t ++ reportAll ts
end

/-! ## Proofs -/

theorem fold_failures (k : Nat) (l : Listener) :
    (List.replicate k Ev.addFailure).foldl Listener.step l = ⟨l.success && k == 0, l.out⟩ := by
  induction k generalizing l with
  | zero => simp
  | succ k ih => rw [List.replicate_succ, List.foldl_cons, ih]; simp [Listener.step]

theorem fold_case (l : Listener) (n : S) (k : Nat) :
    ((events (.case n k)).foldl Listener.step l).out = l.out ++ caseLine n (k == 0) := by
  have e1 : events (.case n k) = .startTest n :: (List.replicate k .addFailure ++ [.endTest]) := by rw [events]
  have e2 : ∀ l : Listener, (l.step .endTest).out =
      l.out ++ (if l.success then "OK".toList else "FAILED".toList) ++ ['\n'] := fun _ => rfl
  have e3 : (l.step (.startTest n)) = ⟨true, l.out ++ "  Running ".toList ++ setw60 n⟩ := rfl
  have e4 : (if (k == 0) = true then "OK".toList else "FAILED".toList) = (if (k == 0) = true then "OK" else "FAILED").toList := by
    split <;> rfl
  have e5 : ['\n'] = "\n".toList := rfl
  rw [e1, List.foldl_cons, List.foldl_append, fold_failures, List.foldl_cons, List.foldl_nil, e2, e3]
  simp only [Bool.true_and]
  rw [e4, e5]
  unfold setw60 caseLine
  generalize List.replicate (60 - n.length) ' ' = r
  generalize "  Running ".toList = a
  simp only [List.append_assoc]

theorem fold_suite (l : Listener) (n : S) (ts : List Test)
    (ih : ∀ l, ((eventsAll ts).foldl Listener.step l).out = l.out ++ (reportAll ts).flatten) :
    ((events (.suite n ts)).foldl Listener.step l).out = l.out ++ (report (.suite n ts)).flatten := by
  have e1 : events (.suite n ts) = .startSuite n :: (eventsAll ts ++ [.endSuite n]) := by rw [events]
  have e2 : report (.suite n ts) = ("Running test suite ".toList ++ n ++ ":\n".toList) :: reportAll ts ++
      ["Test suite ".toList ++ n ++ " finished.\n".toList] := by rw [report]
  have e3 : ∀ l : Listener, (l.step (.endSuite n)).out = l.out ++ "Test suite ".toList ++ n ++ " finished.\n".toList :=
    fun _ => rfl
  have e4 : (l.step (.startSuite n)).out = l.out ++ "Running test suite ".toList ++ n ++ ":\n".toList := rfl
  rw [e1, e2, List.foldl_cons, List.foldl_append, List.foldl_cons, List.foldl_nil, e3, ih, e4]
  simp only [List.flatten_cons, List.flatten_append, List.flatten_nil, List.append_nil, List.append_assoc, List.cons_append]

mutual
theorem fold_events (t : Test) : ∀ l : Listener, ((events t).foldl Listener.step l).out = l.out ++ (report t).flatten := by
  match t with
  | .case n k => intro l; rw [fold_case]; simp [report]
  | .suite n ts => intro l; exact fold_suite l n ts (fold_eventsAll ts)
theorem fold_eventsAll (ts : List Test) : ∀ l : Listener,
    ((eventsAll ts).foldl Listener.step l).out = l.out ++ (reportAll ts).flatten := by
  match ts with
  | [] => intro l; simp [eventsAll, reportAll]
  | t :: ts =>
    intro l
    rw [eventsAll, reportAll, List.foldl_append, fold_eventsAll ts, fold_events t, List.flatten_append, List.append_assoc]
end

/-- C111: the text and compiler modes write one status line for every test case, in order, between the lines of
the suites around it, and it says `OK` exactly if the test case had no failure. -/
theorem c111_lines (ty : OutputType) (t : Test) (garbage : Bool) (h : ty = .text ∨ ty = .compiler) :
    (runSuite ty t garbage).2 = (report t).flatten := by
  rcases h with rfl | rfl <;> simp [runSuite, fold_events]

mutual
theorem collected_zero : (t : Test) → (collected (events t) = 0 ↔ ∀ n k, HasCase n k t → k = 0)
  | .case n k => by
    have : collected (events (.case n k)) = k := by
      simp [collected, events, List.countP_append, List.countP_replicate]
    rw [this]
    constructor
    · intro h m j hj; cases hj; exact h
    · intro h; exact h n k .here
  | .suite n ts => by
    have : collected (events (.suite n ts)) = collected (eventsAll ts) := by
      simp [collected, events, List.countP_append]
    rw [this, collectedAll_zero ts]
    constructor
    · intro h m j hj
      cases hj with
      | inside ht hj => exact h _ ht m j hj
    · intro h t ht m j hj; exact h m j (.inside ht hj)
theorem collectedAll_zero : (ts : List Test) → (collected (eventsAll ts) = 0 ↔ ∀ t ∈ ts, ∀ n k, HasCase n k t → k = 0)
  | [] => by simp [eventsAll, collected]
  | t :: ts => by
    have : collected (eventsAll (t :: ts)) = collected (events t) + collected (eventsAll ts) := by
      simp [collected, eventsAll, List.countP_append]
    rw [this]
    have h1 := collected_zero t
    have h2 := collectedAll_zero ts
    simp only [List.forall_mem_cons, ← h1, ← h2]
    omega
end

/-- C111: with the documented output types the result is 0 exactly if every test case passed, else 1.
Missing: other values of the type, see `c111_unknown_type`. -/
theorem c111_result_partial (ty : OutputType) (t : Test) (garbage : Bool) (h : ty ≠ .other) :
    ((runSuite ty t garbage).1 = 0 ↔ ∀ n k, HasCase n k t → k = 0) ∧
    ((runSuite ty t garbage).1 = 0 ∨ (runSuite ty t garbage).1 = 1) := by
  have key : (runSuite ty t garbage).1 = if collected (events t) = 0 then 0 else 1 := by
    cases ty <;> simp_all [runSuite]
  rw [key, ← collected_zero t]
  by_cases hc : collected (events t) = 0 <;> simp [hc]

/-- C111: the result is 1 exactly if one of the status lines says `FAILED`. -/
theorem c111_failed_line (ty : OutputType) (t : Test) (garbage : Bool) (h : ty = .text ∨ ty = .compiler) :
    (runSuite ty t garbage).1 = 1 ↔ ∃ n k, HasCase n k t ∧ k ≠ 0 ∧ caseLine n false ∈ report t := by
  have h1 := c111_result_partial ty t garbage (by rcases h with rfl | rfl <;> simp)
  have hmem : ∀ (t : Test) n k, HasCase n k t → caseLine n (k == 0) ∈ report t := by
    intro t n k hc
    induction hc with
    | here => simp [report]
    | inside ht _ ih =>
      have : ∀ (ts : List Test) (t : Test) (x : S), t ∈ ts → x ∈ report t → x ∈ reportAll ts := by
        intro ts
        induction ts with
        | nil => intro t x h; cases h
        | cons a as ih =>
          intro t x h hx
          rcases List.mem_cons.1 h with rfl | h
          · simp [reportAll, hx]
          · simp [reportAll, ih t x h hx]
      simp [report, this _ _ _ ht ih]
  constructor
  · intro he
    have : ¬ ∀ n k, HasCase n k t → k = 0 := by
      intro hall
      rw [h1.1.2 hall] at he
      cases he
    simp only [Classical.not_forall] at this
    obtain ⟨n, k, hc, hk⟩ := this
    have := hmem t n k hc
    rw [show (k == 0) = false by simpa using hk] at this
    exact ⟨n, k, hc, hk, this⟩
  · rintro ⟨n, k, hc, hk, _⟩
    rcases h1.2 with h0 | h0
    · exact absurd (h1.1.1 h0 n k hc) hk
    · exact h0

/-- A suite with a passing and a failing test case. -/
def exampleSuite : Test :=
  .suite "all".toList [.case "a".toList 0, .suite "inner".toList [.case "b".toList 2, .case "c".toList 0]]

example : (runSuite .text exampleSuite false).1 = 1 ∧ HasCase "b".toList 2 exampleSuite ∧
    caseLine "b".toList false ∈ report exampleSuite :=
  ⟨by decide, .inside (t := .suite "inner".toList [.case "b".toList 2, .case "c".toList 0]) (by simp)
    (.inside (t := .case "b".toList 2) (by simp) .here), by decide⟩

example : caseLine "b".toList true =
    "  Running b                                                           OK\n".toList := by decide

/-- C111 violated for other values of the type: no test is run, and the result says that all passed. -/
theorem c111_unknown_type (t : Test) (garbage : Bool) : runSuite .other t garbage = (0, []) := rfl

end Verif.Testsuite
