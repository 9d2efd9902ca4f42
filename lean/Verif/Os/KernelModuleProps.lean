import Verif.Os.KernelModule

/-!
# C88: the test for loaded kernel modules

Specification: the lines of the file, each beginning with the name of a module and a blank (proc(5)).
-/
namespace Verif.Os

/-- The lines of a text. -/
def lines : List Char → List (List Char)
  | [] => [[]]
  | c :: cs => if c = '\n' then [] :: lines cs else
    match lines cs with
    | [] => [[c]]
    | l :: ls => (c :: l) :: ls

/-- The name of the module a line of `/proc/modules` is about. -/
def moduleName (line : List Char) : List Char := line.takeWhile (· ≠ ' ')

/-- A module of this name is loaded. -/
def Loaded (text name : List Char) : Prop := ∃ l ∈ lines text, moduleName l = name

theorem lines_ne (t : List Char) : ∃ l ls, lines t = l :: ls := by
  induction t with
  | nil => exact ⟨_, _, rfl⟩
  | cons c cs ih =>
    obtain ⟨l, ls, e⟩ := ih
    by_cases h : c = '\n'
    · exact ⟨[], lines cs, by simp [lines, h]⟩
    · exact ⟨c :: l, ls, by simp [lines, h, e]⟩

theorem getline_spec (n : Nat) (t : List Char) : ∃ l ls, lines t = l :: ls ∧ (getline n t).1 = l.take n ∧
    ((l.length ≤ n ∧ ((ls = [] ∧ (getline n t).2.2 = .eof) ∨
        (ls ≠ [] ∧ (getline n t).2.2 = .good ∧ lines (getline n t).2.1 = ls))) ∨
     (n < l.length ∧ (getline n t).2.2 = .fail)) := by
  fun_induction getline n t with
  | case1 => exact ⟨[], [], rfl, by simp, .inl ⟨by simp, .inl ⟨rfl, rfl⟩⟩⟩
  | case2 n cs =>
    refine ⟨[], lines cs, by simp [lines], by simp, .inl ⟨by simp, .inr ⟨?_, rfl, rfl⟩⟩⟩
    obtain ⟨l, ls, e⟩ := lines_ne cs; simp [e]
  | case3 c cs h =>
    obtain ⟨l, ls, e⟩ := lines_ne cs
    exact ⟨c :: l, ls, by simp [lines, h, e], by simp, .inr ⟨by simp, rfl⟩⟩
  | case4 c cs h n ih =>
    obtain ⟨l, ls, e, e1, e2⟩ := ih
    refine ⟨c :: l, ls, by simp [lines, h, e], by simp [e1], ?_⟩
    simpa using e2

/-- What the scan looks at: the lines up to and including the first one of 200 or more characters. -/
def visible : List (List Char) → List (List Char)
  | [] => []
  | l :: ls => if l.length ≤ 199 then l :: visible ls else [l]

theorem scan_spec (name : List Char) (text : List Char) :
    scan name text = true ↔ ∃ l ∈ visible (lines text), name <+: l.take 199 := by
  have hm : ∀ l : List Char, matchesName l name = true ↔ name <+: l := by
    intro l; simp only [matchesName, decide_eq_true_eq]
    constructor
    · intro h; rw [← h]; exact List.take_prefix _ _
    · intro h; exact (List.prefix_iff_eq_take.mp h).symm
  fun_induction scan name text with
  | case1 text r h =>
    obtain ⟨l, ls, e, e1, _⟩ := getline_spec 199 text
    simp only [true_iff]
    refine ⟨l, by rw [e]; unfold visible; split <;> simp, ?_⟩
    rw [← e1]; exact (hm _).mp h
  | case2 text r h hg ih =>
    obtain ⟨l, ls, e, e1, e2⟩ := getline_spec 199 text
    refine ih.trans ?_
    rw [e]
    rcases e2 with ⟨hl, ⟨_, hb⟩ | ⟨_, _, hr⟩⟩ | ⟨_, hb⟩
    · rw [hb] at hg; cases hg
    · rw [visible, if_pos hl, hr]
      constructor
      · rintro ⟨x, hx, hp⟩; exact ⟨x, List.mem_cons_of_mem _ hx, hp⟩
      · rintro ⟨x, hx, hp⟩
        rcases List.mem_cons.mp hx with rfl | hx
        · exact absurd ((hm _).mpr (e1 ▸ hp)) h
        · exact ⟨x, hx, hp⟩
    · rw [hb] at hg; cases hg
  | case3 text r h hg =>
    obtain ⟨l, ls, e, e1, e2⟩ := getline_spec 199 text
    have hn : ¬ name <+: l.take 199 := fun hp => h ((hm _).mpr (e1 ▸ hp))
    simp only [Bool.false_eq_true, false_iff]
    rintro ⟨x, hx, hp⟩
    rw [e] at hx
    rcases e2 with ⟨hl, ⟨he, _⟩ | ⟨_, hb, _⟩⟩ | ⟨hl, _⟩
    · rw [visible, if_pos hl, he] at hx
      simp [visible] at hx; exact hn (hx ▸ hp)
    · exact absurd hb hg
    · rw [visible, if_neg (by omega)] at hx
      simp at hx; exact hn (hx ▸ hp)

/-- C88, exact. For every content of the file and every name: the answer is yes iff one of the lines, up
to and including the first line of 200 or more characters, begins with the name. -/
theorem c88_exact (text name : List Char) :
    checkKernelModule (some text) name = true ↔ ∃ l ∈ visible (lines text), name <+: l.take 199 :=
  scan_spec name text

theorem visible_all (ls : List (List Char)) (h : ∀ l ∈ ls, l.length ≤ 199) : visible ls = ls := by
  induction ls with
  | nil => rfl
  | cons l ls ih =>
    rw [visible, if_pos (h l (by simp)), ih fun x hx => h x (by simp [hx])]

theorem moduleName_prefix (l : List Char) : moduleName l <+: l := List.takeWhile_prefix _

/-- C88, partial: excluded are lines of 200 or more characters and loaded modules whose name continues
the name asked for. Then the answer is yes iff the module is loaded. -/
theorem c88_loaded_partial (text name : List Char) (hshort : ∀ l ∈ lines text, l.length ≤ 199)
    (hother : ∀ l ∈ lines text, name <+: l → moduleName l = name) :
    checkKernelModule (some text) name = true ↔ Loaded text name := by
  rw [c88_exact, visible_all _ hshort]
  constructor
  · rintro ⟨l, hl, hp⟩
    exact ⟨l, hl, hother l hl (hp.trans (List.take_prefix _ _))⟩
  · rintro ⟨l, hl, rfl⟩
    refine ⟨l, hl, ?_⟩
    rw [List.take_of_length_le (hshort l hl)]
    exact moduleName_prefix l

/-- The hypotheses are met by a file with two modules. -/
example : let t := "rtai_sem 28672 0 - Live\nrtai_hal 16384 2 rtai_sem,\n".toList
    (∀ l ∈ lines t, l.length ≤ 199) ∧ (∀ l ∈ lines t, "rtai_hal".toList <+: l → moduleName l = "rtai_hal".toList) ∧
    Loaded t "rtai_hal".toList ∧ ¬ Loaded t "rtai_lxrt".toList := by
  refine ⟨by decide, by decide, ⟨"rtai_hal 16384 2 rtai_sem,".toList, by decide, by decide⟩, ?_⟩
  have : ∀ l ∈ lines "rtai_sem 28672 0 - Live\nrtai_hal 16384 2 rtai_sem,\n".toList,
      moduleName l ≠ "rtai_lxrt".toList := by decide
  rintro ⟨l, hl, h⟩
  exact this l hl h

/-- C88. No module is reported if the file cannot be opened. -/
theorem c88_no_file (name : List Char) : checkKernelModule none name = false := rfl

theorem lines_single (l rest : List Char) (hl : '\n' ∉ l) : lines (l ++ '\n' :: rest) = l :: lines rest := by
  induction l with
  | nil => simp [lines]
  | cons c l ih =>
    have h1 : c ≠ '\n' := fun h => hl (by simp [h])
    simp only [List.cons_append, lines, if_neg h1, ih fun h => hl (by simp [h])]

/-- C88 is violated: a loaded module whose name only begins with the name asked for is taken for it, for
every name and every continuation. -/
theorem c88_prefix_suffices (name more rest : List Char) (h1 : '\n' ∉ name) (h2 : '\n' ∉ more)
    (h3 : name.length ≤ 199) : checkKernelModule (some (name ++ more ++ '\n' :: rest)) name = true := by
  rw [c88_exact, lines_single _ _ (by simp [h1, h2])]
  refine ⟨name ++ more, by unfold visible; split <;> simp, ?_⟩
  rw [List.take_append, List.take_of_length_le h3]
  exact ⟨_, rfl⟩

/-- C88 is violated: after a line of 200 or more characters (a module with many users) nothing is found
any more, whatever follows. -/
theorem c88_long_line_hides (line rest name : List Char) (h1 : '\n' ∉ line) (h2 : 200 ≤ line.length)
    (h3 : ¬ name <+: line) : checkKernelModule (some (line ++ '\n' :: rest)) name = false := by
  rw [← Bool.not_eq_true, c88_exact, lines_single _ _ h1, visible, if_neg (by omega)]
  rintro ⟨l, hl, hp⟩
  simp at hl
  exact h3 (hl ▸ hp.trans (List.take_prefix _ _))

/-- A concrete case of both: the module asked for is loaded but hidden; and it is not loaded but found. -/
example : Loaded (List.replicate 200 'a' ++ '\n' :: "rtai_hal 1".toList) "rtai_hal".toList ∧
    checkKernelModule (some (List.replicate 200 'a' ++ '\n' :: "rtai_hal 1".toList)) "rtai_hal".toList = false ∧
    ¬ Loaded "rtai_hal_x 1".toList "rtai_hal".toList := by
  have hn : '\n' ∉ List.replicate 200 'a' := fun h => absurd (List.eq_of_mem_replicate h) (by decide)
  refine ⟨⟨"rtai_hal 1".toList, ?_, by decide⟩, ?_, ?_⟩
  · rw [lines_single _ _ hn]
    exact List.mem_cons_of_mem _ (by decide)
  · apply c88_long_line_hides _ _ _ hn (by rw [List.length_replicate]; exact Nat.le_refl _)
    rintro ⟨t, ht⟩
    have hm : 'r' ∈ List.replicate 200 'a' := by rw [← ht]; exact List.mem_append_left _ (by decide)
    exact absurd (List.eq_of_mem_replicate hm) (by decide)
  · have : ∀ l ∈ lines "rtai_hal_x 1".toList, moduleName l ≠ "rtai_hal".toList := by decide
    rintro ⟨l, hl, h⟩
    exact this l hl h

/-- C88. `checkForLxrt()` succeeds iff all three modules are found, and then sets the flag returned by
`isLxrtAvailable()`; a failing check leaves the flag as it was, even if the modules have been unloaded
since. -/
theorem c88_checkForLxrt (modules : Option (List Char)) (flag : Bool) :
    let found := ∀ n ∈ ["rtai_hal".toList, "rtai_lxrt".toList, "rtai_sem".toList], checkKernelModule modules n = true
    ((checkForLxrt modules flag).1 = true ↔ found) ∧
    (checkForLxrt modules flag).2 = (flag || (checkForLxrt modules flag).1) := by
  simp only [checkForLxrt, List.mem_cons, List.not_mem_nil, or_false, forall_eq_or_imp, forall_eq]
  cases h1 : checkKernelModule modules "rtai_hal".toList <;>
  cases h2 : checkKernelModule modules "rtai_lxrt".toList <;>
  cases h3 : checkKernelModule modules "rtai_sem".toList <;> simp

end Verif.Os
