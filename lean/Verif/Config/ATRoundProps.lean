import Verif.Config.ATRound
import Verif.Config.ATProps

/-!
# Property C35: what `printSubTree` writes is read back by `get`
-/
namespace Verif.AT

/-- A whole tree that can be saved and loaded: an unnamed root that is written with braces
(it holds at least `csd` attributes), a representable attribute, distinct good children. -/
def GoodRoot (csd : Int) (t : Tree) : Prop :=
  (t.desc = none ∨ t.desc = some []) ∧ csd ≤ ((contains t : Nat) : Int) ∧
  (∀ v, t.attr = some v → GoodAttr v ∧ v ≠ []) ∧
  (t.kids.map Tree.desc).Nodup ∧ GoodL csd t.kids

/-- C35: printing a good tree succeeds, and if no printed line is longer than 1997
characters, reading the text into a tree without attributes returns `-1` (no error) and
gives a tree with the same attribute at every path; comments and includes settings do not
matter. -/
theorem c35_roundtrip_partial (csd : Int) (t : Tree) (h : GoodRoot csd t) :
    ∃ ls, printTree csd [] t = .ok ls ∧
      ((∀ l ∈ ls, l.length ≤ 1997) →
        ∀ (cfg : Cfg) (T : Tree), (∀ q, lookup q T = none) →
        ∃ T', (∀ k, ls.length ≤ k →
            get k cfg T (ls.flatMap (· ++ ['\n'])) = some (T', -1)) ∧
          ∀ q, lookup q T' = lookup q t) := by
  cases t with
  | node d a c ks =>
  obtain ⟨hd, hcnt, ha, hnod, hg⟩ := h
  simp only [Tree.desc, Tree.attr, Tree.kids] at hd ha hnod hg
  obtain ⟨ls, hl, _, hclean⟩ := printList_reads ⟨false, false, fun _ t => t⟩ csd ks hnod hg
  have hv1 : ¬ (d = some filePathStr ∨ d = some fileNameStr) := by
    rcases hd with rfl | rfl
    · simp
    · decide
  have hic : isComment (.node d a c ks) = false := by
    rcases hd with rfl | rfl
    · rfl
    · simp only [isComment, Tree.desc]; decide
  have hmc : isMultilineComment (.node d a c ks) = .ok false := by
    simp [isMultilineComment, hic]
  have htd : d.getD [] = [] := by rcases hd with rfl | rfl <;> rfl
  have hpr : printTree csd [] (.node d a c ks) = .ok ([['{']]
      ++ (if a.getD [] ≠ [] then [[':'] ++ a.getD []] else []) ++ ls ++ [['}']]) := by
    simp only [printTree, hv1, if_false, hmc]
    rw [if_pos (.inl hcnt)]
    simp only [List.nil_append, hl, htd, List.append_nil]
  refine ⟨_, hpr, ?_⟩
  intro hlen cfg T hT
  obtain ⟨ls', hl', hr, _⟩ := printList_reads cfg csd ks hnod hg
  rw [hl] at hl'; cases hl'
  -- the state after the lines before the children
  obtain ⟨T1, s1, a1, b1⟩ : ∃ T1,
      Steps cfg ([['{']] ++ (if a.getD [] ≠ [] then [[':'] ++ a.getD []] else []))
        (T, []) (T1, []) ∧ lookup [] T1 = a ∧ (∀ q, q ≠ [] → lookup q T1 = none) := by
    have l0 : ∀ x (U : Tree) q, lookup q (setThis x U) = if q = [] then x else lookup q U := by
      intro x U q
      exact lookup_setC x [] q U
    cases a with
    | none =>
      refine ⟨setThis none T, ⟨_, step_root_open cfg T, rfl⟩, ?_, ?_⟩
      · simp [l0]
      · intro q hq; rw [l0, if_neg hq]; exact hT q
    | some v =>
      obtain ⟨_, hv⟩ := ha v rfl
      have hst := step_own cfg [] (by simp) v (setThis none T) []
      refine ⟨setThis (some v) (setThis none T), ⟨_, step_root_open cfg T, ?_⟩, ?_, ?_⟩
      · have hif : (if (some v).getD [] ≠ [] then [[':'] ++ (some v).getD []] else [])
            = [[':'] ++ v] := by simp [hv]
        rw [hif]
        exact ⟨_, hst, rfl⟩
      · simp [l0]
      · intro q hq; rw [l0, if_neg hq, l0, if_neg hq]; exact hT q
  obtain ⟨T2, s2, _, a2, b2⟩ := hr T1 [] (by simp) rfl (by
    intro e r _; exact b1 _ (by simp))
  simp only [List.nil_append] at a2 b2
  refine ⟨T2, ?_, ?_⟩
  · intro k hk
    have hgl : ∀ l ∈ [['{']] ++ (if a.getD [] ≠ [] then [[':'] ++ a.getD []] else []) ++ ls
        ++ [['}']], GoodLine l := by
      intro l hl
      refine ⟨?_, hlen l hl, ?_⟩
      all_goals
        simp only [List.mem_append, List.mem_singleton] at hl
        rcases hl with ((rfl | hl) | hl) | rfl
      · decide
      · cases a with
        | none => simp at hl
        | some v =>
          simp only [Option.getD_some, ne_eq, (ha v rfl).2, not_false_eq_true, if_true,
            List.mem_singleton] at hl
          subst hl
          exact (clean_value [] v (by simp) (ha v rfl).1).1
      · exact (hclean l hl).1
      · decide
      · decide
      · cases a with
        | none => simp at hl
        | some v =>
          simp only [Option.getD_some, ne_eq, (ha v rfl).2, not_false_eq_true, if_true,
            List.mem_singleton] at hl
          subst hl
          exact (clean_value [] v (by simp) (ha v rfl).1).2
      · exact (hclean l hl).2
      · decide
    obtain ⟨m, rfl⟩ : ∃ m, k = (m + 1) + (([['{']] ++ (if a.getD [] ≠ [] then
        [[':'] ++ a.getD []] else []) ++ ls).length) := by
      refine ⟨k - (([['{']] ++ (if a.getD [] ≠ [] then
        [[':'] ++ a.getD []] else []) ++ ls).length) - 1, ?_⟩
      simp only [List.length_append, List.length_singleton] at hk ⊢
      omega
    have hfeed := feed_steps _ [['}']] (m + 1) 1 (s1.append s2) hgl
    have hget := get_feed (m + 1 + ([['{']] ++ (if a.getD [] ≠ [] then
        [[':'] ++ a.getD []] else []) ++ ls).length) cfg T ['{']
        ((if a.getD [] ≠ [] then [[':'] ++ a.getD []] else []) ++ ls ++ [['}']])
        (hgl _ (by simp))
    simp only [text] at hget
    have hsh : [['{']] ++ (if a.getD [] ≠ [] then [[':'] ++ a.getD []] else []) ++ ls ++ [['}']]
        = ['{'] :: ((if a.getD [] ≠ [] then [[':'] ++ a.getD []] else []) ++ ls ++ [['}']]) := by
      simp
    rw [hsh, hget, ← hsh, hfeed]
    rfl
  · intro q
    cases q with
    | nil =>
      rw [b2 [] (by simp), a1]; rfl
    | cons e r =>
      rw [lookup_node]
      cases hf : find e ks with
      | some k => exact a2 e r k hf
      | none =>
        rw [b2 (e :: r) (by
          intro d' r' he
          simp only [List.cons.injEq] at he
          rw [← he.1]; exact hf)]
        exact b1 _ (by simp)

/-- C35 in terms of the interface: after `save` and `load`, `getAttribute` finds every
attribute that was stored. -/
theorem c35_values_survive_partial (csd : Int) (t : Tree) (h : GoodRoot csd t) (ls : List S)
    (hp : printTree csd [] t = .ok ls) (hlen : ∀ l ∈ ls, l.length ≤ 1997) (cfg : Cfg)
    (d : Option S) :
    ∃ T', (∀ k, ls.length ≤ k →
        get k cfg (newNode d) (ls.flatMap (· ++ ['\n'])) = some (T', -1)) ∧
      ∀ s dflt v, ¬ Special s → getAttribute [] t (some s) none = .ok (some v) →
        getAttribute [] T' (some s) dflt = .ok (some v) := by
  obtain ⟨ls', hp', hr⟩ := c35_roundtrip_partial csd t h
  rw [hp] at hp'; cases hp'
  obtain ⟨T', h1, h2⟩ := hr hlen cfg (newNode d) (fun q => lookup_newNode q d)
  refine ⟨T', h1, ?_⟩
  intro s dflt v hs hg
  have := c33_get_is_lookup [] t s none (some v) hs hg
  apply c33_stored_is_found [] T' s dflt v hs
  rw [h2]
  simpa using this.symm

/-- A tree with three attributes in two levels. -/
def demo3 : Tree :=
  setAttribute (some (str "log.level")) (some (str "Debug"))
    (setAttribute (some (str "net.port")) (some (str "80"))
      (setAttribute (some (str "net.host.name")) (some (str "a:b {c} #")) (newNode none)))

example : printTree 3 [] demo3 = .ok [str "{", str " log.level:Debug", str " net.port:80",
    str " net.host.name:a:b {c} #", str "}"] := by decide +kernel

theorem goodDesc_word (d : S) (h0 : d ≠ []) (h : ∀ c ∈ d, 'a' ≤ c ∧ c ≤ 'z') : GoodDesc d := by
  have hs : ∀ c, ('a' ≤ c ∧ c ≤ 'z') → isSpace c = false ∧ c ≠ '#' ∧ c ≠ '.' ∧ c ≠ ':' ∧ c ≠ '{'
      ∧ c ≠ '\n' ∧ c ≠ '_' := by
    intro c hc
    have hne : ∀ x : Char, ¬ ('a' ≤ x) → c ≠ x := by
      rintro x hx rfl; exact hx hc.1
    have hne' : ∀ x : Char, ¬ (x ≤ 'z') → c ≠ x := by
      rintro x hx rfl; exact hx hc.2
    refine ⟨?_, hne _ (by decide), hne _ (by decide), hne _ (by decide), hne' _ (by decide),
      hne _ (by decide), hne _ (by decide)⟩
    simp only [isSpace, Bool.or_eq_false_iff, beq_eq_false_iff_ne]
    exact ⟨⟨⟨⟨⟨hne _ (by decide), hne _ (by decide)⟩, hne _ (by decide)⟩, hne _ (by decide)⟩,
      hne _ (by decide)⟩, hne _ (by decide)⟩
  have hm : ∀ x : S, '_' ∈ x → ¬ x <:+: d := by
    intro x hx hi
    exact (hs _ (h _ (hi.subset hx))).2.2.2.2.2.2 rfl
  refine ⟨h0, fun hc => (hs _ (h _ hc)).2.2.1 rfl, fun hc => (hs _ (h _ hc)).2.2.2.1 rfl,
    fun hc => (hs _ (h _ hc)).2.2.2.2.1 rfl, fun hc => (hs _ (h _ hc)).2.2.2.2.2.1 rfl, ?_, ?_, ?_,
    hm _ (by decide), ?_, ?_⟩
  · intro c hc; have := hs c (h c (List.mem_of_head? hc)); exact ⟨this.1, this.2.1⟩
  · intro c hc; exact (hs c (h c (List.mem_of_getLast? hc))).1
  · rintro rfl; exact hm _ (by decide) (List.infix_refl _)
  · rintro rfl; exact hm _ (by decide) (List.infix_refl _)
  · rintro rfl; exact hm _ (by decide) (List.infix_refl _)

/-- The hypotheses of `c35_roundtrip_partial` hold for it. -/
theorem demo3_good : GoodRoot 3 demo3 := by
  have e : demo3 = .node none none false [
      .node (some (str "log")) none false [.node (some (str "level")) (some (str "Debug")) true []],
      .node (some (str "net")) none false [
        .node (some (str "port")) (some (str "80")) true [],
        .node (some (str "host")) none false [
          .node (some (str "name")) (some (str "a:b {c} #")) true []]]] := by rfl
  have w : ∀ s : S, s ≠ [] → (s.all fun c => decide ('a' ≤ c ∧ c ≤ 'z')) = true →
      ∃ x, some s = some x ∧ GoodDesc x := by
    intro s h0 h
    exact ⟨s, rfl, goodDesc_word s h0 (by simpa using h)⟩
  have g : ∀ s : S, ('\n' ∉ s ∧ s.getLast? ≠ some '\r') → ∀ v, some s = some v → GoodAttr v := by
    rintro s h v hv; cases hv; exact ⟨h.1, h.2⟩
  rw [e]
  refine ⟨.inl rfl, by decide +kernel, by simp [Tree.attr], by decide +kernel, ?_⟩
  simp only [Tree.kids, GoodL, Good, and_true]
  refine ⟨⟨w _ (by decide +kernel) (by decide +kernel), by simp, by simp, by decide +kernel,
    w _ (by decide +kernel) (by decide +kernel), g _ (by decide +kernel), by decide +kernel,
    by simp⟩, ?_⟩
  refine ⟨w _ (by decide +kernel) (by decide +kernel), by simp, by simp, by decide +kernel,
    ⟨w _ (by decide +kernel) (by decide +kernel), g _ (by decide +kernel), by decide +kernel,
      by simp⟩,
    w _ (by decide +kernel) (by decide +kernel), by simp, by simp, by decide +kernel,
    w _ (by decide +kernel) (by decide +kernel), g _ (by decide +kernel), by decide +kernel,
    by simp⟩

/-- The settings used by `ConfigManager`: includes processed, comments not loaded. -/
def plainCfg : Cfg := ⟨true, false, fun _ t => t⟩

/-- Value read from a tree that was printed with the default depth 3 and read back. -/
def reread (t : Tree) (csd : Int) (s : S) : Option (Outcome (Option S)) :=
  match printText csd [] t with
  | .ok x => (get 50 plainCfg (newNode none) x).map fun r => getAttribute [] r.1 (some s) none
  | _ => none

example : reread demo3 3 (str "net.host.name") = some (.ok (some (str "a:b {c} #"))) := by
  decide +kernel

/-- C35 fails for a tree with fewer attributes than `change_style_depth`: the root is then
written with a leading dot, and reading puts the value into the root itself. -/
theorem c35_small_tree_fails :
    getAttribute [] demo (some (str "net.port")) none = .ok (some (str "80")) ∧
    reread demo 3 (str "net.port") = some .ub := by
  decide +kernel

/-- C35 fails for an empty attribute in a node written with braces: it is not written, and
is `NULL` after reading. -/
theorem c35_empty_attribute_fails :
    getAttribute [] (setAttribute (some (str "x")) (some []) demo3) (some (str "x")) none
      = .ok (some []) ∧
    reread (setAttribute (some (str "x")) (some []) demo3) 0 (str "x") = some (.ok none) := by
  decide +kernel

/-- C35 fails for a multi-line comment two levels down: the dot between the two levels is
not written (`ab{` instead of `a.b{`). -/
theorem c35_nested_comment_fails :
    let t := setAttribute (some (str "p.q.r")) (some (str "1"))
      (setAttribute (some (str "u")) (some (str "2"))
        (setAttribute (some (str "a.b._COMMENT_")) (some ['x', '\n', 'y']) (newNode none)))
    getAttribute [] t (some (str "a.b._COMMENT_")) none = .ok (some ['x', '\n', 'y']) ∧
    (printTree 3 [] t).map (fun ls => ls.elem (str " ab{")) = .ok true := by
  decide +kernel

/-- A last line without line break is ignored. -/
theorem c35_unterminated_line_ignored :
    (get 50 plainCfg (newNode none) ['a', ':', '1', '\n', 'b', ':', '2']).map
      (fun r => (getAttribute [] r.1 (some ['a']) none, getAttribute [] r.1 (some ['b']) none, r.2))
    = some (.ok (some ['1']), .ok none, -1) := by
  decide +kernel

/-- A stream in which a `getline` has overrun the buffer never reaches its end: `get` does
not return. -/
theorem getLoop_fail (k : Nat) (cfg : Cfg) (T : Tree) (P : List S) (s : Stream) (ln : Nat)
    (hf : s.fail = true) (he : s.eof = false) : getLoop k cfg T P s ln [] = none := by
  induction k generalizing ln with
  | zero => rfl
  | succ k ih =>
    have hd : doLine k cfg T P s (ln + 1) [] = some (.next T P s (ln + 1)) := by
      simp [doLine, cut]
    have hr : readNextLine s = ([], s) := by
      simp only [readNextLine, getline, hf, or_true, if_true]
      cases s; simp_all
    simp only [getLoop, hd, hr, he]
    exact ih (ln + 1)

theorem getlineGo_long (n : Nat) (l r : S) (h : '\n' ∉ l) (hl : n < l.length) :
    (getlineGo n (l ++ r)).1 = l.take n ∧ (getlineGo n (l ++ r)).2.fail = true ∧
      (getlineGo n (l ++ r)).2.eof = false := by
  induction n generalizing l with
  | zero =>
    cases l with
    | nil => simp at hl
    | cons c cs =>
      simp only [List.mem_cons, not_or] at h
      have hc : ¬ c = '\n' := fun x => h.1 x.symm
      simp [getlineGo, hc]
  | succ n ih =>
    cases l with
    | nil => simp at hl
    | cons c cs =>
      simp only [List.mem_cons, not_or] at h
      have hc : ¬ c = '\n' := fun x => h.1 x.symm
      have := ih cs h.2 (by simpa using hl)
      simp [getlineGo, hc, this]

/-- A `name:value` line of 1998 or more characters makes `get` loop forever: it does not
return within any number of iterations. -/
theorem c35_long_line_never_returns (cfg : Cfg) (T : Tree) (d v rest : S) (hd : GoodDesc d)
    (hv : '\n' ∉ v) (hshort : d.length < 1997) (hlong : 1998 ≤ d.length + 1 + v.length) (k : Nat) :
    get k cfg T (d ++ ':' :: v ++ '\n' :: rest) = none := by
  have hnl : '\n' ∉ d ++ ':' :: v := by
    simp only [List.mem_append, List.mem_cons, not_or]
    exact ⟨hd.nl, by decide, hv⟩
  obtain ⟨h1, h2, h3⟩ := getlineGo_long 1997 (d ++ ':' :: v) ('\n' :: rest) hnl (by simp; omega)
  have hb : (d ++ ':' :: v).take 1997 = d ++ ':' :: v.take (1996 - d.length) := by
    rw [List.take_append, List.take_of_length_le (by omega)]
    have : 1997 - d.length = (1996 - d.length) + 1 := by omega
    rw [this, List.take_succ_cons]
  have hne : d ++ ':' :: v ++ '\n' :: rest ≠ [] := by simp
  generalize hR : getlineGo 1997 (d ++ ':' :: v ++ '\n' :: rest) = R at h1 h2 h3
  have hgl : getline { rest := d ++ ':' :: v ++ '\n' :: rest } = R := by
    simp only [getline, hne, if_false, hR]
    simp
  have hread : ∃ w, readNextLine { rest := d ++ ':' :: v ++ '\n' :: rest } = (d ++ ':' :: w, R.2) := by
    simp only [readNextLine, hgl, h1, hb]
    split
    · rename_i hl
      generalize hw : v.take (1996 - d.length) = w at hl
      cases w with
      | nil => simp [List.getLast?_append] at hl
      | cons c cs =>
        refine ⟨(c :: cs).dropLast, ?_⟩
        rw [List.dropLast_append_of_ne_nil (by simp)]
        rfl
    · exact ⟨_, rfl⟩
  obtain ⟨w, hread⟩ := hread
  simp only [get, hread]
  cases k with
  | zero => rfl
  | succ k =>
    have hst := step_attr cfg [] (by simp) [d] (by simp) (by simpa using hd) w T []
    have := hst k R.2 (1 + 1)
    simp only [List.nil_append, dotted, List.append_assoc, List.singleton_append] at this
    simp only [getLoop, this]
    have hr : readNextLine R.2 = ([], R.2) := by
      simp only [readNextLine, getline, h2, or_true, if_true]
      generalize R.2 = s at h2 h3
      cases s; simp_all
    simp only [hr, h3]
    exact getLoop_fail k cfg _ _ R.2 _ h2 h3

theorem getlineGo_infix (n : Nat) (s : S) :
    (getlineGo n s).1 <:+: s ∧ (getlineGo n s).2.rest <:+: s ∧
      ∃ u, s = (getlineGo n s).1 ++ u := by
  induction s generalizing n with
  | nil => simp [getlineGo]
  | cons c cs ih =>
    rw [getlineGo.eq_def]
    simp only
    by_cases hc : c = '\n'
    · simp only [hc, if_true]
      exact ⟨List.nil_infix, (List.suffix_cons _ _).isInfix, _, rfl⟩
    · simp only [hc, if_false]
      cases n with
      | zero => exact ⟨List.nil_infix, List.infix_refl _, _, rfl⟩
      | succ n =>
        obtain ⟨h1, h2, u, h3⟩ := ih n
        refine ⟨?_, h2.trans (List.suffix_cons _ _).isInfix, u, ?_⟩
        · exact (List.prefix_iff_exists_append_eq.2 ⟨u, by simpa using h3.symm⟩).isInfix
        · simpa using h3

/-- Reading a line gives a piece of the remaining text, and leaves a piece of it. -/
theorem readNextLine_infix (s : Stream) :
    (readNextLine s).1 <:+: s.rest ∧ (readNextLine s).2.rest <:+: s.rest := by
  have key : (getline s).1 <:+: s.rest ∧ (getline s).2.rest <:+: s.rest := by
    simp only [getline]
    split
    · exact ⟨List.nil_infix, List.infix_refl _⟩
    · split
      · exact ⟨List.nil_infix, List.nil_infix⟩
      · exact ⟨(getlineGo_infix _ _).1, (getlineGo_infix _ _).2.1⟩
  simp only [readNextLine]
  refine ⟨?_, key.2⟩
  split
  · exact (List.dropLast_prefix _).isInfix.trans key.1
  · exact key.1

/-- A multi-line comment that is not closed makes `get` loop forever. -/
theorem c35_open_comment_never_returns (cfg : Cfg) (T : Tree) (body : S)
    (h : ¬ commentEndStr <:+: body) (k : Nat) :
    get k cfg T (commentStr ++ '{' :: '\n' :: body) = none := by
  have hrc : ∀ k (s : Stream) ln acc, ¬ commentEndStr <:+: s.rest → readComment k s ln acc = none := by
    intro k
    induction k with
    | zero => intro s ln acc _; rfl
    | succ k ih =>
      intro s ln acc hs
      obtain ⟨h1, h2⟩ := readNextLine_infix s
      simp only [readComment]
      have hn : hasInfix commentEndStr
          (((readNextLine s).1.reverse.dropWhile isSpace).reverse.dropWhile isSpace) = false := by
        cases hh : hasInfix commentEndStr
          (((readNextLine s).1.reverse.dropWhile isSpace).reverse.dropWhile isSpace) with
        | false => rfl
        | true =>
          refine absurd ?_ hs
          refine ((hasInfix_iff _ _).1 hh).trans (((List.dropWhile_suffix _).isInfix).trans ?_)
          refine List.IsInfix.trans ?_ h1
          have := (List.dropWhile_suffix isSpace (l := (readNextLine s).1.reverse)).isInfix
          rw [← List.reverse_infix] at this
          simpa using this
      rw [if_neg (by simpa using hn)]
      exact ih _ _ _ (fun x => hs (x.trans h2))
  have hline : GoodLine (commentStr ++ ['{']) := by
    refine ⟨by decide, by decide, by decide⟩
  have hr : readNextLine { rest := commentStr ++ '{' :: '\n' :: body }
      = (commentStr ++ ['{'], { rest := body }) := by
    have := readNextLine_line (commentStr ++ ['{']) body hline
    simpa using this
  simp only [get, hr]
  cases k with
  | zero => rfl
  | succ k =>
    have hd : doLine k cfg T [] { rest := body } (1 + 1) (commentStr ++ ['{']) = none := by
      have e1 : (commentStr ++ ['{']).dropWhile isSpace = commentStr ++ ['{'] := by decide
      have e2 : (commentStr ++ ['{']).head? ≠ some '#' := by decide
      have e3 : cut ':' (commentStr ++ ['{']) = none := by decide
      have e4 : cut '{' (commentStr ++ ['{']) = some (commentStr, []) := by decide
      simp only [doLine, e1, e2, if_false, e3, e4, if_true, hrc k { rest := body } _ none h]
    simp only [getLoop, hd]

example : ¬ commentEndStr <:+: str "some text" := by
  rw [← hasInfix_iff]; decide +kernel

end Verif.AT
