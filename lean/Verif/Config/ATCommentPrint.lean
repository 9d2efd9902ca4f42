import Verif.Config.ATCommentProps

/-! # C108: writing a multi-line comment and reading it back -/
namespace Verif.AT.Comment
open Verif.AT.Err

theorem joined_text : ∀ cs : List S, (∀ c ∈ cs, trim c = c) → cs ≠ [] →
    ∃ a, joined cs = some a ∧ a ++ ['\n'] = text cs
  | [], _, h => absurd rfl h
  | [l], h, _ => ⟨l, by simp [joined, h l (by simp)], by simp [text]⟩
  | l :: m :: ls, h, _ => by
    obtain ⟨a, h1, h2⟩ := joined_text (m :: ls) (fun c hc => h c (List.mem_cons_of_mem _ hc)) (by simp)
    refine ⟨l ++ '\n' :: a, ?_, ?_⟩
    · simp only [joined, h1, Option.map_some, h l (by simp)]
    · have : text (l :: m :: ls) = l ++ ['\n'] ++ text (m :: ls) := by simp [text]
      rw [this, ← h2]; simp

theorem joined_newline (l m : S) (ls : List S) (a : S) (h : joined (l :: m :: ls) = some a) : '\n' ∈ a := by
  simp only [joined, Option.map_eq_some_iff] at h
  obtain ⟨x, _, rfl⟩ := h
  simp

theorem blanks_dropWhile (upper x : S) (h : ∀ c ∈ upper, c = ' ') :
    (upper ++ x).dropWhile isSpace = x.dropWhile isSpace := by
  induction upper with
  | nil => rfl
  | cons c cs ih =>
    have hc := h c (by simp); subst hc
    simp only [List.cons_append, List.dropWhile_cons]
    rw [if_pos (by decide)]
    exact ih (fun c hc => h c (List.mem_cons_of_mem _ hc))

theorem op_opens (upper : S) (h : ∀ c ∈ upper, c = ' ') : opensComment (upper ++ commentStr ++ ['{']) := by
  refine ⟨?_, by simp, ?_⟩
  · intro hm
    simp only [List.append_assoc, List.mem_append] at hm
    rcases hm with hm | hm | hm
    · have := h _ hm; revert this; decide
    · revert hm; decide
    · revert hm; decide
  · unfold beforeBrace
    rw [List.append_assoc, blanks_dropWhile _ _ h]
    decide

theorem cl_ends (upper : S) : endsComment (upper ++ ['}'] ++ commentStr) :=
  ⟨upper, [], by simp [commentEndStr, commentStr]⟩

theorem op_good (upper : S) (h : ∀ c ∈ upper, c = ' ') (hl : upper.length ≤ 1987) :
    GoodLine (upper ++ commentStr ++ ['{']) := by
  refine ⟨?_, ?_, by simp⟩
  · intro hm
    simp only [List.append_assoc, List.mem_append] at hm
    rcases hm with hm | hm | hm
    · have := h _ hm; revert this; decide
    · revert hm; decide
    · revert hm; decide
  · simp [commentStr]; omega

theorem cl_good (upper : S) (h : ∀ c ∈ upper, c = ' ') (hl : upper.length ≤ 1987) :
    GoodLine (upper ++ ['}'] ++ commentStr) := by
  refine ⟨?_, ?_, by simp [commentStr]⟩
  · intro hm
    simp only [List.append_assoc, List.mem_append] at hm
    rcases hm with hm | hm | hm
    · have := h _ hm; revert this; decide
    · revert hm; decide
    · revert hm; decide
  · simp [commentStr]; omega

theorem uncomment_block (post : List S) (cl : S) (hcl : endsComment cl) : ∀ cs : List S, (∀ c ∈ cs, ¬ endsComment c) →
    uncomment true (cs ++ cl :: post) = uncomment false post
  | [], _ => by simp [uncomment, hcl]
  | c :: cs, h => by
    have hc := h c (by simp)
    simp only [List.cons_append, uncomment, hc, decide_false, Bool.not_false]
    exact uncomment_block post cl hcl cs (fun x hx => h x (List.mem_cons_of_mem _ hx))

/-- C108: a multi-line comment is written as a text that is read back as the same comment.  The comment's text is
that of at least two lines `cs`, without white space at their ends and without `}_COMMENT_`; it is written at
any indentation, in front of any further lines.  A reader that loads comments finds the same comment (without
the children the comment node had: they are not written) as its new first child and goes on with the further lines; a
reader that does not load comments goes on with the further lines at once. -/
theorem c108_comment_written_back (csd : Int) (upper : S) (hu : ∀ c ∈ upper, c = ' ') (hl : upper.length ≤ 1987)
    (l m : S) (ls : List S) (htr : ∀ c ∈ l :: m :: ls, trim c = c)
    (hend : ∀ c ∈ l :: m :: ls, ¬ endsComment c) (hgood : ∀ c ∈ l :: m :: ls, GoodLine c)
    (ch : Bool) (kids : List Tree) :
    ∃ out, printText csd upper (.node (some ['_', 'C', 'O', 'M', 'M', 'E', 'N', 'T', '_']) (joined (l :: m :: ls)) ch kids) = .ok out ∧
      (∀ (cfg : Cfg) (post : List S) (d a : Option S) (c : Bool) (ks : List Tree) (k : Nat),
        cfg.loadComments = true → (∀ x ∈ post, GoodLine x) → ls.length + post.length + 4 < k →
        (get k cfg (.node d a c ks) (out ++ text post)).map (fun r => (r.1, decide (r.2 = -1))) =
          (get k cfg (.node d a c (.node (some ['_', 'C', 'O', 'M', 'M', 'E', 'N', 'T', '_']) (joined (l :: m :: ls)) true [] :: ks))
            (text post)).map (fun r => (r.1, decide (r.2 = -1)))) ∧
      (∀ (cfg : Cfg) (post : List S) (t : Tree) (k : Nat),
        cfg.loadComments = false → (∀ x ∈ post, GoodLine x) → uncomment false post ≠ none →
        ls.length + post.length + 4 < k →
        ∃ T c c', get k cfg t (out ++ text post) = some (T, c) ∧ get k cfg t (text post) = some (T, c') ∧
          (c = -1 ↔ c' = -1)) := by
  obtain ⟨x, hx, hxt⟩ := joined_text (l :: m :: ls) htr (by simp)
  have hxn : '\n' ∈ x := joined_newline l m ls x hx
  have hp : printTree csd upper (.node (some commentStr) (some x) ch kids) =
      .ok [upper ++ commentStr ++ ['{'], x, upper ++ ['}'] ++ commentStr] := by
    have h1 : ¬ ((some commentStr : Option S) = some filePathStr ∨ (some commentStr : Option S) = some fileNameStr) := by decide
    have h2 : isMultilineComment (.node (some commentStr) (some x) ch kids) = .ok true := by
      simp [isMultilineComment, isComment, Tree.attr, Tree.desc, hxn]
    rw [printTree, if_neg h1]
    simp only [h2, Option.getD_some]
  have ho := op_opens upper hu
  have hcl := cl_ends upper
  have hgo := op_good upper hu hl
  have hgc := cl_good upper hu hl
  generalize upper ++ commentStr ++ ['{'] = op at hp ho hgo
  generalize upper ++ ['}'] ++ commentStr = cl at hp hcl hgc
  have hall : ∀ post : List S, (∀ x ∈ post, GoodLine x) → ∀ y ∈ op :: (l :: m :: ls) ++ cl :: post, GoodLine y := by
    intro post hpost y hy
    simp only [List.cons_append, List.mem_cons, List.mem_append] at hy
    rcases hy with rfl | rfl | rfl | hy | rfl | hy
    · exact hgo
    · exact hgood _ (by simp)
    · exact hgood _ (by simp)
    · exact hgood _ (by simp [hy])
    · exact hgc
    · exact hpost _ hy
  have htext : ∀ post : List S, op ++ ['\n'] ++ (x ++ ['\n']) ++ (cl ++ ['\n']) ++ text post =
      text (op :: (l :: m :: ls) ++ cl :: post) := by
    intro post
    rw [hxt]; simp [text]
  refine ⟨op ++ ['\n'] ++ (x ++ ['\n']) ++ (cl ++ ['\n']), ?_, ?_, ?_⟩
  · rw [hx]
    show (printTree csd upper (.node (some commentStr) (some x) ch kids)).map _ = _
    rw [hp]
    simp [Outcome.map]
  · intro cfg post d a c ks k hc hpost hk
    rw [htext post]
    exact c108_comment_loaded cfg hc d a c ks op cl (l :: m :: ls) post ho hend hcl (hall post hpost) k (by simp; omega)
  · intro cfg post t k hc hpost hun hk
    rw [htext post]
    cases hu' : uncomment false post with
    | none => exact absurd hu' hun
    | some post' =>
      have hb : uncomment false (op :: (l :: m :: ls) ++ cl :: post) = some post' := by
        have := uncomment_block post cl hcl (l :: m :: ls) hend
        rw [← hu', ← this, List.cons_append, uncomment, if_pos ho]
      have hlen : post'.length ≤ post.length := by
        have : ∀ (p : List S) (b : Bool) (p' : List S), uncomment b p = some p' → p'.length ≤ p.length := by
          intro p
          induction p with
          | nil => intro b p' h; cases b <;> simp [uncomment] at h; subst h; simp
          | cons y ys ih =>
            intro b p' h
            cases b with
            | true =>
              rw [uncomment] at h
              have := ih _ _ h
              simp; omega
            | false =>
              rw [uncomment] at h
              split at h
              · have := ih _ _ h; simp; omega
              · split at h
                · have := ih _ _ h; simp; omega
                · simp only [Option.map_eq_some_iff] at h
                  obtain ⟨z, hz, rfl⟩ := h
                  have := ih _ _ hz; simp; omega
        exact this post false post' hu'
      obtain ⟨T, c, c', h1, h2, h3⟩ := c108_comments_no_effect cfg hc t _ post' (hall post hpost) hb k k (by simp; omega) (by omega)
      obtain ⟨T2, c2, c2', h4, h5, h6⟩ := c108_comments_no_effect cfg hc t post post' hpost hu' k k (by omega) (by omega)
      rw [h2] at h5
      cases h5
      exact ⟨T, c, c2, h1, h4, h3.trans h6.symm⟩


/-- A tree with a multi-line comment two levels below a node that is written in the dotted style. -/
def deepComment : Tree := .node none none false
  [.node (some ['a']) none false [.node (some ['b']) none false [.node (some commentStr) (some "x\ny".toList) true []]],
   .node (some ['c']) (some ['1']) true [], .node (some ['d']) (some ['2']) true [], .node (some ['e']) (some ['3']) true []]

/-- C108, not below a node that is written in the dotted style: the first line of the comment then starts with the
name of that node and is read as the start of a sub tree; the comment is lost. -/
theorem c108_comment_below_dotted_lost :
    getAttribute [] deepComment (some "a.b._COMMENT_".toList) none = .ok (some "x\ny".toList) ∧
    ∃ out, printText 3 [] deepComment = .ok out ∧
      (get 20 { plainCfg with loadComments := true } (newNode none) out).map
        (fun r => getAttribute [] r.1 (some "a.b._COMMENT_".toList) none) = some (.ok none) :=
  ⟨by decide +kernel, "{\n ab{\n a _COMMENT_{\nx\ny\n a }_COMMENT_\n a}b\n c:1\n d:2\n e:3\n}\n".toList,
    by decide +kernel, by decide +kernel⟩

example : trim "see below".toList = "see below".toList ∧ ¬ endsComment "see below".toList ∧ GoodLine "see below".toList := by
  refine ⟨by decide +kernel, by decide +kernel, by decide +kernel, by decide +kernel, by decide +kernel⟩
example : printText 3 "  ".toList (.node (some commentStr) (joined ["see".toList, "below".toList]) true []) =
    .ok "  _COMMENT_{\nsee\nbelow\n  }_COMMENT_\n".toList := by decide +kernel

end Verif.AT.Comment
