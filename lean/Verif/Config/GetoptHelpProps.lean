import Verif.Config.GetoptHelp
import Verif.Config.GetoptLemmas

/-! # The help text lists what is accepted (C92) -/
namespace Verif.Getopt

/-! ## Specification -/

/-- The same calls without the help texts, as in C38. -/
def plainCalls (h : List HCall) : List Call :=
  h.map fun c => match c with
    | .param o s _ b => .param o s b
    | .positional n _ b => .positional n b

/-- The registered options with their help texts, in order; `help` is the first. -/
def documented (h : List HCall) : List (Param × S) :=
  (helpCall :: h).filterMap fun c => match c with
    | .param o s t b => some (mkParam o s b, t)
    | _ => none

/-- `x` is an option, not a prefix option, and the first one registered with this name. -/
def FirstOption (h : List HCall) (x : Param × S) : Prop :=
  (documented h).find? (fun y => !y.1.isPrefix && y.1.option == x.1.option) = some x

/-- The required positional parameters with their help texts, in order. -/
def reqs (h : List HCall) : List (S × S) :=
  h.filterMap fun c => match c with
    | .positional n t false => some (n, t)
    | _ => none

/-- The optional positional parameters with their help texts, in order. -/
def opts (h : List HCall) : List (S × S) :=
  h.filterMap fun c => match c with
    | .positional n t true => some (n, t)
    | _ => none

/-- The options that concern every program. -/
def genericNames : List S :=
  ["configfile".toList, "dump-config".toList, "help".toList, "log-level".toList, "quick-debug".toList]

/-- Names in alphabetical order, none twice. -/
def Increasing (l : List (Param × S)) : Prop := l.Pairwise fun a b => slt a.1.option b.1.option = true

/-! ## The registrations -/

theorem mkParam_prefix (o s : S) (b : Bool) : (mkParam o s b).isPrefix = b := by
  unfold mkParam; split <;> rfl

/-- The entries of the options, in order of registration. -/
def optEntries (l : List HCall) : List (S × (Param × S)) :=
  l.filterMap fun c => match c with
    | .param o s t false => some ((mkParam o s false).option, (mkParam o s false, t))
    | _ => none

theorem hreg_params (l : List HCall) : Holds (l.foldl HCall.run {}).params (optEntries l) := by
  have key : ∀ (l l0 : List HCall) (g : HReg), Holds g.params (optEntries l0) →
      Holds (l.foldl HCall.run g).params (optEntries (l0 ++ l)) := by
    intro l
    induction l with
    | nil => intro l0 g h; simpa using h
    | cons c l ih =>
      intro l0 g h
      have e : l0 ++ c :: l = (l0 ++ [c]) ++ l := by simp
      rw [e]
      refine ih (l0 ++ [c]) (HCall.run g c) ?_
      cases c with
      | param o s t b =>
        cases b with
        | true => simpa [HCall.run, optEntries] using h
        | false =>
          have := h.ins (mkParam o s false).option (mkParam o s false, t)
          simpa [HCall.run, optEntries] using this
      | positional n t b =>
        cases b <;> simpa [HCall.run, optEntries] using h
  simpa using key l [] {} Holds.nil

theorem hreg_pos (l : List HCall) :
    (l.foldl HCall.run {}).required = reqs l ∧ (l.foldl HCall.run {}).optional = opts l := by
  have key : ∀ (l : List HCall) (g : HReg),
      (l.foldl HCall.run g).required = g.required ++ reqs l ∧
      (l.foldl HCall.run g).optional = g.optional ++ opts l := by
    intro l
    induction l with
    | nil => intro g; simp [reqs, opts]
    | cons c l ih =>
      intro g
      have := ih (HCall.run g c)
      simp only [List.foldl_cons, this.1, this.2]
      cases c with
      | param o s t b => cases b <;> simp [HCall.run, reqs, opts]
      | positional n t b => cases b <;> simp [HCall.run, reqs, opts]
  simpa using key l {}

theorem optEntries_find (l : List HCall) (k : S) (v : Param × S) :
    (optEntries l).find? (fun e => e.1 == k) = some (k, v) ↔
      (l.filterMap fun c => match c with
        | .param o s t b => some (mkParam o s b, t)
        | _ => none).find? (fun y => !y.1.isPrefix && y.1.option == k) = some v ∧ v.1.option = k := by
  induction l with
  | nil => simp [optEntries]
  | cons c l ih =>
    cases c with
    | positional n t b => simpa [optEntries] using ih
    | param o s t b =>
      cases b with
      | true => simpa [optEntries, mkParam_prefix] using ih
      | false =>
        by_cases hk : (mkParam o s false).option = k
        · subst hk
          simp [optEntries, mkParam_prefix]
          intro h; subst h; rfl
        · simpa [optEntries, mkParam_prefix, hk] using ih

theorem mem_params (h : List HCall) (k : S) (x : Param × S) :
    (k, x) ∈ (hreg h).params ↔ FirstOption h x ∧ k = x.1.option := by
  have hh := hreg_params (helpCall :: h)
  show (k, x) ∈ ((helpCall :: h).foldl HCall.run {}).params ↔ _
  rw [hh.2, optEntries_find]
  simp only [FirstOption, documented]
  constructor
  · rintro ⟨h1, rfl⟩; exact ⟨h1, rfl⟩
  · rintro ⟨h1, rfl⟩; exact ⟨h1, rfl⟩

theorem flatMap_if {α : Type} (l : List α) (p : α → Bool) (b : Bool) (f : α → S) :
    (l.flatMap fun e => if p e = b then f e else []) = (l.filter fun e => p e == b).flatMap f := by
  induction l with
  | nil => rfl
  | cons x l ih =>
    by_cases hx : p x = b
    · simp [hx, ih]
    · simp [hx, ih]

theorem filterMap_ext {α β : Type} {f g : α → Option β} {l : List α} (h : ∀ x ∈ l, f x = g x) :
    l.filterMap f = l.filterMap g := by
  induction l with
  | nil => rfl
  | cons x l ih =>
    simp only [List.filterMap_cons, h x (by simp), ih (fun y hy => h y (by simp [hy]))]

theorem isGeneric_iff (p : Param) : isGeneric p = true ↔ p.option ∈ genericNames := by
  simp [isGeneric, genericNames, or_assoc]

theorem frame (l : List (S × (Param × S))) (hd s1 s2 : S) :
    hd ++ (s1 ++ (l.flatMap fun e => if isGeneric e.2.1 = true then entryText e.2.1 e.2.2 else [])
        ++ ['\n'] ++ s2 ++ (l.flatMap fun e => if isGeneric e.2.1 = false then entryText e.2.1 e.2.2 else [])
        ++ ['\n'])
      = hd ++ s1 ++ ((l.filter fun e => isGeneric e.2.1 == true).flatMap fun e => entryText e.2.1 e.2.2)
        ++ (['\n'] ++ s2)
        ++ ((l.filter fun e => isGeneric e.2.1 == false).flatMap fun e => entryText e.2.1 e.2.2)
        ++ ['\n'] := by
  rw [← flatMap_if _ (fun e : S × (Param × S) => isGeneric e.2.1),
    ← flatMap_if _ (fun e : S × (Param × S) => isGeneric e.2.1)]
  simp only [List.append_assoc]

theorem help_text (g : HReg) (name version descr : S) : printHelp g name version descr
      = helpHead g name version descr ++ "Generic options:\n".toList
        ++ ((g.params.filter fun e => isGeneric e.2.1 == true).flatMap fun e => entryText e.2.1 e.2.2)
        ++ (['\n'] ++ "Options:\n".toList)
        ++ ((g.params.filter fun e => isGeneric e.2.1 == false).flatMap fun e => entryText e.2.1 e.2.2)
        ++ ['\n'] :=
  frame g.params (helpHead g name version descr) _ _

/-! ## C92 -/

/-- C92 (options). After any registrations the help text ends with two lists of entries, and
these list exactly the registered options that are not prefix options: each name once, in
alphabetical order, with the help text of its first registration; the five general options
are in the first list and all others in the second. -/
theorem c92_options_listed (h : List HCall) (name version descr : S) :
    ∃ head G O, printHelp (hreg h) name version descr
        = head ++ "Generic options:\n".toList ++ (G.flatMap fun x => entryText x.1 x.2) ++ (['\n'] ++ "Options:\n".toList)
          ++ (O.flatMap fun x => entryText x.1 x.2) ++ ['\n'] ∧
      Increasing G ∧ Increasing O ∧
      (∀ x, x ∈ G ↔ FirstOption h x ∧ x.1.option ∈ genericNames) ∧
      (∀ x, x ∈ O ↔ FirstOption h x ∧ x.1.option ∉ genericNames) := by
  have hs : Sorted (hreg h).params := (hreg_params (helpCall :: h)).1
  have key : ∀ b, Increasing (((hreg h).params.filter fun e => isGeneric e.2.1 == b).map (·.2)) ∧
      ∀ x, x ∈ ((hreg h).params.filter fun e => isGeneric e.2.1 == b).map (·.2) ↔
        FirstOption h x ∧ isGeneric x.1 = b := by
    intro b
    constructor
    · refine List.pairwise_map.2 ((hs.filter _).imp_of_mem ?_)
      intro a c ha hc hac
      have h1 := ((mem_params h a.1 a.2).1 (List.mem_filter.1 ha |>.1)).2
      have h2 := ((mem_params h c.1 c.2).1 (List.mem_filter.1 hc |>.1)).2
      rw [← h1, ← h2]; exact hac
    · intro x
      simp only [List.mem_map, List.mem_filter]
      constructor
      · rintro ⟨e, ⟨he, hg⟩, rfl⟩
        exact ⟨((mem_params h e.1 e.2).1 he).1, by simpa using hg⟩
      · rintro ⟨h1, h2⟩
        exact ⟨(x.1.option, x), ⟨(mem_params h _ _).2 ⟨h1, rfl⟩, by simpa using h2⟩, rfl⟩
  have text := help_text (hreg h) name version descr
  refine ⟨helpHead (hreg h) name version descr,
    ((hreg h).params.filter fun e => isGeneric e.2.1 == true).map (·.2),
    ((hreg h).params.filter fun e => isGeneric e.2.1 == false).map (·.2), ?_, (key true).1, (key false).1, ?_, ?_⟩
  · have hm : ∀ l : List (S × (Param × S)), ((l.map (·.2)).flatMap fun x => entryText x.1 x.2)
        = l.flatMap fun e => entryText e.2.1 e.2.2 := by
      intro l; rw [List.flatMap_map]
    rw [text, hm, hm]
  · intro x; rw [(key true).2, isGeneric_iff]
  · intro x
    rw [(key false).2, ← isGeneric_iff]
    cases isGeneric x.1 <;> simp

/-- C92 (positional parameters). The usage line names the program and then all positional
parameters in the order in which they are filled (C38: the required ones, then the optional
ones), the optional ones in brackets; each is explained once, in the same order. -/
theorem c92_positionals_listed (h : List HCall) (name version descr : S) :
    ∃ rest, printHelp (hreg h) name version descr
      = name ++ (if version = [] then [] else " (version ".toList ++ version ++ ")".toList) ++ "\n\nUsage: ".toList
        ++ name ++ " [OPTIONS...]".toList
        ++ ((reqs h).flatMap fun e => " <".toList ++ e.1 ++ ">".toList)
        ++ ((opts h).flatMap fun e => " [<".toList ++ e.1 ++ ">]".toList)
        ++ "\n\n".toList ++ descr ++ "\n\n".toList
        ++ (if reqs h ++ opts h = [] then [] else
            "Positional Parameters:\n".toList
            ++ ((reqs h ++ opts h).flatMap fun e => "  <".toList ++ e.1 ++ ">:\n\t".toList ++ indent e.2 ++ ['\n'])
            ++ ['\n'])
        ++ rest ∧
      (reqs h ++ opts h).map (·.1) = positionals (plainCalls h) := by
  obtain ⟨h1, h2⟩ := hreg_pos (helpCall :: h)
  have e1 : (hreg h).required = reqs h := by
    show ((helpCall :: h).foldl HCall.run {}).required = _
    rw [h1]; rfl
  have e2 : (hreg h).optional = opts h := by
    show ((helpCall :: h).foldl HCall.run {}).optional = _
    rw [h2]; rfl
  refine ⟨optionLists (hreg h), ?_, ?_⟩
  · simp only [printHelp, helpHead, e1, e2, List.flatMap_append, List.flatMap_map]
    have e4 : (List.map (fun e => (e, false)) (reqs h) ++ List.map (fun e => (e, true)) (opts h)).length > 0
        ↔ ¬ (reqs h ++ opts h = []) := by
      rw [gt_iff_lt, List.length_pos_iff]; simp
    by_cases hv : version = [] <;> by_cases hp : reqs h ++ opts h = [] <;>
      simp only [hv, hp, e4, List.append_assoc, if_true, if_false, ne_eq, not_true_eq_false,
        not_false_eq_true, Bool.false_eq_true] <;> rfl
  · simp only [positionals, requiredNames, optionalNames, reqs, opts, plainCalls, List.map_append,
      List.map_filterMap, List.filterMap_map]
    congr 1
    · apply filterMap_ext
      intro c _
      cases c with
      | param => rfl
      | positional n t b => cases b <;> rfl
    · apply filterMap_ext
      intro c _
      cases c with
      | param => rfl
      | positional n t b => cases b <;> rfl

theorem registered_plain (h : List HCall) : registered (plainCalls h) = (documented h).map (·.1) := by
  simp only [registered, documented, plainCalls, helpCall, List.filterMap_cons, List.map_cons,
    List.filterMap_map, List.map_filterMap]
  congr 1
  apply filterMap_ext
  intro c _
  cases c <;> rfl

/-- C92 (the list is true). The parser of C38 knows a long option exactly if the help text
lists it, and gives it the properties listed there. -/
theorem c92_listed_is_accepted (h : List HCall) (name : S) (p : Param) :
    longParam (plainCalls h) name = some p ↔ ∃ t, FirstOption h (p, t) ∧ p.option = name := by
  rw [longParam, registered_plain, List.find?_map]
  constructor
  · intro hf
    obtain ⟨x, hx, rfl⟩ := Option.map_eq_some_iff.1 hf
    have hn := List.find?_some hx
    simp only [Function.comp, Bool.and_eq_true, beq_iff_eq] at hn
    refine ⟨x.2, ?_, hn.2⟩
    simp only [FirstOption]
    rw [hn.2]; exact hx
  · rintro ⟨t, hf, rfl⟩
    rw [Option.map_eq_some_iff]
    exact ⟨(p, t), hf, rfl⟩

/-- C92 (the help text of an option is given). The entry of every first registered option
occurs in the help text. -/
theorem c92_entry_occurs (h : List HCall) (name version descr : S) (x : Param × S)
    (hx : FirstOption h x) : entryText x.1 x.2 <:+: printHelp (hreg h) name version descr := by
  obtain ⟨head, G, O, he, _, _, hG, hO⟩ := c92_options_listed h name version descr
  have infix_flat : ∀ l : List (Param × S), x ∈ l → ∃ a b, (l.flatMap fun x => entryText x.1 x.2) = a ++ entryText x.1 x.2 ++ b := by
    intro l hl
    obtain ⟨a, b, rfl⟩ := List.append_of_mem hl
    exact ⟨_, _, by simp only [List.flatMap_append, List.flatMap_cons, List.append_assoc]; rfl⟩
  rw [he]
  by_cases hg : x.1.option ∈ genericNames
  · obtain ⟨a, b, hab⟩ := infix_flat G ((hG x).2 ⟨hx, hg⟩)
    rw [hab]
    exact ⟨head ++ "Generic options:\n".toList ++ a, b ++ (['\n'] ++ "Options:\n".toList)
          ++ (O.flatMap fun x => entryText x.1 x.2) ++ ['\n'], by simp only [List.append_assoc]⟩
  · obtain ⟨a, b, hab⟩ := infix_flat O ((hO x).2 ⟨hx, hg⟩)
    rw [hab]
    exact ⟨head ++ "Generic options:\n".toList ++ (G.flatMap fun x => entryText x.1 x.2) ++ (['\n'] ++ "Options:\n".toList)
      ++ a, b ++ ['\n'], by simp only [List.append_assoc]⟩

/-- C92 (what an entry looks like), in the four cases of an option with or without a short name
and with or without a value. -/
theorem c92_entry_format (n t : S) (c : Char) (s : S) (b : Bool) :
    entryText ⟨n, [], false, b⟩ t = "  --".toList ++ n ++ ":\n\t".toList ++ indent t ++ "\n".toList ∧
    entryText ⟨n, [], true, b⟩ t = "  --".toList ++ n ++ "=<value>:\n\t".toList ++ indent t ++ "\n".toList ∧
    entryText ⟨n, c :: s, false, b⟩ t
      = "  -".toList ++ (c :: s) ++ ", --".toList ++ n ++ ":\n\t".toList ++ indent t ++ "\n".toList ∧
    entryText ⟨n, c :: s, true, b⟩ t
      = "  -".toList ++ (c :: s) ++ " <value>, --".toList ++ n ++ "=<value>:\n\t".toList ++ indent t ++ "\n".toList := by
  refine ⟨?_, ?_, ?_, ?_⟩ <;> simp [entryText]

/-- C92 (help texts). The help text is printed as it is, except that a tab follows each line
break. -/
theorem c92_indent (t : S) :
    ('\n' ∉ t → indent t = t) ∧
    ∀ a b, t = a ++ '\n' :: b → indent t = indent a ++ ['\n', '\t'] ++ indent b := by
  constructor
  · intro h
    induction t with
    | nil => rfl
    | cons c t ih =>
      simp only [List.mem_cons, not_or] at h
      have := ih h.2
      simp only [indent, List.flatMap_cons, Ne.symm h.1, if_false] at this ⊢
      rw [this]; rfl
  · rintro a b rfl
    simp [indent]

/-- The help text of a program with one option and one parameter. -/
example : printHelp (hreg [.param "out:".toList ['o'] "File.\nDefault: a".toList false,
      .positional "in".toList "Input.".toList false]) "prog".toList [] "Converts.".toList
    = ("prog\n\nUsage: prog [OPTIONS...] <in>\n\nConverts.\n\nPositional Parameters:\n  <in>:\n\tInput.\n\n" ++
      "Generic options:\n  -h, --help:\n\tPrint commandline help.\n\nOptions:\n" ++
      "  -o <value>, --out=<value>:\n\tFile.\n\tDefault: a\n\n").toList := by
  decide +kernel

example : FirstOption [.param "out:".toList ['o'] [] false] (⟨"out".toList, ['o'], true, false⟩, []) := by
  simp [FirstOption, documented, helpCall, mkParam]

/-- C92 (violation: prefix options are missing). Registering a prefix option never changes the
help text. -/
theorem c92_prefix_options_missing (h1 h2 : List HCall) (o s t name version descr : S) :
    printHelp (hreg (h1 ++ .param o s t true :: h2)) name version descr
      = printHelp (hreg (h1 ++ h2)) name version descr := by
  have : hreg (h1 ++ .param o s t true :: h2) = hreg (h1 ++ h2) := by
    simp only [hreg, List.foldl_cons, List.foldl_append, HCall.run, if_true]
  rw [this]

/-- C92 (violation: short names). Two options with the same short name are both listed with it,
although it stands for the first one only. -/
theorem c92_short_name_listed_twice :
    let h : List HCall := [.param "all".toList ['x'] [] false, .param "best".toList ['x'] [] false]
    "  -x, --best:\n".toList <:+: printHelp (hreg h) [] [] [] ∧
    shortParam (plainCalls h) ['x'] = some ⟨"all".toList, ['x'], false, false⟩ := by
  decide +kernel

end Verif.Getopt
