import Verif.Logging.Line.Lemmas

/-!
# C109: each log output writes exactly the documented lines
-/
namespace Verif.Logging.Line
open Verif.Logging.Record Verif.Logging.Format

/-- The default format, LogOutputStream.cpp:43, as it is parsed by the constructors (53-85). -/
theorem c109_default_format (old : List Entry) :
    changeLogFormat old "<~T.~3M> ~S(~L)~ C~(O~::D: ~E".toList = .ok (defaultItems.map Item.entry) ∧ GoodFormat defaultItems := by
  have hg : GoodFormat defaultItems := by
    refine ⟨by decide, ?_, ?_⟩
    · have hsp : ¬ isLetter ' ' := not_letter_of _ (by decide)
      have hpa : ¬ isLetter '(' := not_letter_of _ (by decide)
      have hco : ¬ isLetter ':' := not_letter_of _ (by decide)
      simp [defaultItems, wfItems, Item.wf, hsp, hpa, hco]
    · intro i hi
      simp only [defaultItems, List.mem_cons, List.not_mem_nil, or_false] at hi
      rcases hi with rfl | rfl | rfl | rfl | rfl | rfl | rfl | rfl | rfl | rfl | rfl | rfl | rfl | rfl <;> decide
  refine ⟨?_, hg⟩
  rw [← format_ok old hg]
  rfl

theorem sim_init (name : Nat → List Char) (g g' : Nat → Nat → Char) :
    Sim name Cfg.init (World.init name (defaultItems.map Item.entry) g g') :=
  ⟨fun _ => rfl, fun _ => rfl, fun _ => rfl, fun _ => List.nodup_nil, fun s o => by simp [World.init, Cfg.init],
    fun k => sized_new 2 (g k) (g' k), fun _ => binv_new, fun _ => rfl, fun _ => rfl, fun _ => (c109_default_format []).2⟩

/-- C109, partial: whatever is called, with whatever memory and whichever thread streams are handed out, every log output
writes exactly one line for each log statement that passes the filters in force at that time, in the order
of the statements, showing the fields of the statement by the format in force, and nothing else.
(Missing: names beyond the documented lengths (`c76_long_names`), format strings with texts of 100 characters or
more or with a dangling `~` (`c49_overflow`, `c49_dangling`), where the program leaves its arrays.) -/
theorem c109_lines_partial (name : Nat → List Char) (g g' : Nat → Nat → Char) (calls : List Call)
    (h : ∀ c ∈ calls, c.Legal name) :
    ∃ w, run (World.init name (defaultItems.map Item.entry) g g') (calls.map Call.op) = some w ∧
      ∀ o, (w.out o).lines = lines name o Cfg.init calls := by
  obtain ⟨w, e, hl⟩ := run_ok calls h (sim_init name g g')
  exact ⟨w, e, fun o => by rw [hl]; rfl⟩

/-- C109: with the default format, a statement without class, object and function that reaches an output is written as
`<time.mmm> stream(Level): text`. -/
theorem c109_default_line (st : Stmt) (sname : List Char) (o : Nat) (h1 : st.cls = []) (h2 : st.obj = []) (h3 : st.fn = []) :
    (defaultItems.map (Item.show (st.message sname o))).flatten =
      '<' :: (st.time o).1 ++ '.' :: (List.replicate (3 - (Nat.toDigits 10 (st.time o).2).length) '0' ++
        Nat.toDigits 10 (st.time o).2) ++ ['>', ' '] ++ sname ++ '(' :: (logLevelDescription st.level).toList ++
        [')', ':', ' '] ++ st.msg.expected := by
  have hv : value ['3'] % 18446744073709551616 = 3 := by decide
  simp [defaultItems, Item.show, Stmt.message, h1, h2, h3, hv]

/-- C109: statements are delivered to one output independently of what is done with the others: calls that
concern only other outputs may be left out. -/
theorem c109_outputs_independent (name : Nat → List Char) (o o' : Nat) (hne : o' ≠ o) (c : Cfg) (a b : List Call) (x : Call)
    (hx : (∃ s, x = .addOutput s o') ∨ (∃ s, x = .removeOutput s o') ∨ (∃ l, x = .setOutLevel o' l) ∨ ∃ is, x = .setFormat o' is) :
    lines name o c (a ++ x :: b) = lines name o c (a ++ b) := by
  have key : ∀ (cs : List Call) (c c' : Cfg), c.active = c'.active → c.level = c'.level →
      (∀ s, c.attached s o = c'.attached s o) → c.outLevel o = c'.outLevel o → c.format o = c'.format o →
      lines name o c cs = lines name o c' cs := by
    intro cs
    induction cs with
    | nil => intros; rfl
    | cons y ys ih =>
      intro c c' e1 e2 e3 e4 e5
      cases y with
      | log st =>
        have : c.delivers st o = c'.delivers st o := by simp [Cfg.delivers, e1, e2, e3, e4]
        rw [lines, lines, this, e5, ih c c' e1 e2 e3 e4 e5]
      | setActive s b => exact ih _ _ (by simp only [Cfg.after, e1]) e2 e3 e4 e5
      | setLevel s l => exact ih _ _ e1 (by simp only [Cfg.after, e2]) e3 e4 e5
      | addOutput s p => exact ih _ _ e1 e2 (fun q => by simp only [Cfg.after, e3]) e4 e5
      | removeOutput s p => exact ih _ _ e1 e2 (fun q => by simp only [Cfg.after, e3]) e4 e5
      | setOutLevel p l => exact ih _ _ e1 e2 e3 (by simp only [Cfg.after, e4]) e5
      | setFormat p is => exact ih _ _ e1 e2 e3 e4 (by simp only [Cfg.after, e5])
  induction a generalizing c with
  | nil =>
    have hne' : ¬ o = o' := fun h => hne h.symm
    rcases hx with ⟨s, rfl⟩ | ⟨s, rfl⟩ | ⟨l, rfl⟩ | ⟨is, rfl⟩ <;>
      exact key b _ _ rfl rfl (fun q => by simp [Cfg.after, hne']) (by simp [Cfg.after, hne']) (by simp [Cfg.after, hne'])
  | cons y ys ih =>
    cases y with
    | log st => simp only [List.cons_append, lines, ih]
    | _ => exact ih _

/-! ## An example -/

/-- A statement. -/
def exStmt (level : Nat) (text : String) : Stmt :=
  ⟨0, level, "a.cpp".toList, 7, [], [], "main".toList, ⟨[text.toList], .flush⟩, 3, fun _ => ("T".toList, 42), fun _ _ _ => 'x'⟩

/-- Two outputs with different levels and formats. -/
def exCalls : List Call :=
  [.addOutput 0 0, .log (exStmt 2 "one"), .addOutput 0 1, .setOutLevel 0 4, .setFormat 1 [.field [] [] .filename, .lit [':'], .field [] [] .line,
    .lit [' '], .field [] [] .message], .log (exStmt 3 "two"), .log (exStmt 1 "three"), .log (exStmt 4 "four")]

example : (lines (fun _ => "S".toList) 0 Cfg.init exCalls).map String.ofList =
      ["<T.042> S(Info)::main: one", "<T.042> S(Error)::main: four"] ∧
    (lines (fun _ => "S".toList) 1 Cfg.init exCalls).map String.ofList = ["a.cpp:7 two", "a.cpp:7 four"] := by
  decide +kernel

/-- The example is within the limits. -/
example : ∀ c ∈ exCalls, c.Legal (fun _ => "S".toList) := by
  have hs : ∀ level text, (text.toList.length + 1 < 2 ^ 64) → (exStmt level text).Legal (fun _ => "S".toList) := by
    intro level text ht
    refine ⟨⟨by unfold CStr; decide, by decide⟩, ⟨?_, ?_⟩, ⟨?_, ?_⟩, ⟨?_, ?_⟩, ⟨?_, ?_⟩, ?_, fun _ => by show 42 < 1000; decide⟩
    · show '\x00' ∉ "a.cpp".toList; decide
    · show "a.cpp".toList.length ≤ 1024; decide
    · show '\x00' ∉ []; decide
    · show [].length ≤ 256; decide
    · show '\x00' ∉ []; decide
    · show [].length ≤ 1024; decide
    · show '\x00' ∉ "main".toList; decide
    · show "main".toList.length ≤ 256; decide
    intro p hp
    simp only [exStmt, List.mem_singleton] at hp
    subst hp
    exact ht
  intro c hc
  simp only [exCalls, List.mem_cons, List.not_mem_nil, or_false] at hc
  rcases hc with rfl | rfl | rfl | rfl | rfl | rfl | rfl | rfl
  · trivial
  · exact hs _ _ (by decide)
  · trivial
  · trivial
  · refine ⟨by simp, ?_, ?_⟩
    · simp [wfItems, Item.wf]
    · intro i hi
      simp only [List.mem_cons, List.not_mem_nil, or_false] at hi
      rcases hi with rfl | rfl | rfl | rfl | rfl <;> decide
  · exact hs _ _ (by decide)
  · exact hs _ _ (by decide)
  · exact hs _ _ (by decide)

end Verif.Logging.Line
