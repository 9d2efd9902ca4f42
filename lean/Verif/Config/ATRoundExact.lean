import Verif.Config.ATRoundExactSpec
import Verif.Config.ATTextProps
import Verif.Config.ATRoundProps

/-! # Lemmas for the exact form of C35 -/
namespace Verif.AT.Round
open Text Err

theorem contains_values (t : Tree) : contains t = (values t).length := by
  refine Tree.rec (motive_1 := fun t => contains t = (values t).length)
    (motive_2 := fun ks => containsL ks = (valuesL ks).length) ?_ ?_ ?_ t
  · intro d a c ks ih
    cases a <;> simp [contains, values, ih, Nat.add_comm]
  · rfl
  · intro k ks h1 h2
    simp [containsL, valuesL, h1, h2]

theorem containsL_values (ks : List Tree) : containsL ks = (valuesL ks).length := by
  induction ks with
  | nil => rfl
  | cons k ks ih => simp [containsL, valuesL, contains_values, ih]

/-- A name in front of a colon that is not special. -/
structure NameOK (w : S) : Prop where
  ne : w ≠ []
  colon : ':' ∉ w
  nl : '\n' ∉ w
  head : ∀ c, w.head? = some c → isSpace c = false ∧ c ≠ '#'
  last : ∀ c, w.getLast? = some c → isSpace c = false
  notInclude : w ≠ reservedInclude
  notComment : ¬ reservedComment <:+: w

theorem nameOK_good {d : S} (h : GoodDesc d) : NameOK d :=
  ⟨h.ne, h.colon, h.nl, h.head, h.last, h.notInclude, h.notComment⟩

theorem nameOK_dot : NameOK ['.'] where
  ne := by simp
  colon := by decide
  nl := by decide
  head := by intro c hc; cases hc; decide
  last := by intro c hc; cases hc; decide
  notInclude := by decide
  notComment := by decide

theorem infix_split (x w d : S) (hx : '.' ∉ x) (h : x <:+: w ++ '.' :: d) : x <:+: w ∨ x <:+: d := by
  obtain ⟨a, b, e⟩ := h
  rw [List.append_assoc, List.append_eq_append_iff] at e
  rcases e with ⟨r, e1, e2⟩ | ⟨r, e1, e2⟩
  · -- x ++ b = r ++ '.' :: d
    rw [List.append_eq_append_iff] at e2
    rcases e2 with ⟨s, f1, f2⟩ | ⟨s, f1, f2⟩
    · left; exact ⟨a, s, by rw [e1, f1, List.append_assoc]⟩
    · cases s with
      | nil => left; refine ⟨a, [], ?_⟩; simp at f1; rw [e1, f1]; simp
      | cons c s =>
        simp only [List.cons_append, List.cons.injEq] at f2
        exact absurd (by rw [f1, ← f2.1]; simp) hx
  · cases r with
    | nil =>
      cases x with
      | nil => left; exact List.nil_infix
      | cons c x =>
        simp only [List.nil_append, List.cons_append, List.cons.injEq] at e2
        exact absurd (by rw [← e2.1]; simp) hx
    | cons c r =>
      simp only [List.cons_append, List.cons.injEq] at e2
      right; exact ⟨r, b, by rw [e2.2, List.append_assoc]⟩

theorem nameOK_snoc {w d : S} (hw : NameOK w) (hd : GoodDesc d) : NameOK (w ++ '.' :: d) where
  ne := by simp
  colon := by
    intro h
    rcases List.mem_append.1 h with h | h
    · exact hw.colon h
    · rcases List.mem_cons.1 h with h | h
      · exact absurd h (by decide)
      · exact hd.colon h
  nl := by
    intro h
    rcases List.mem_append.1 h with h | h
    · exact hw.nl h
    · rcases List.mem_cons.1 h with h | h
      · exact absurd h (by decide)
      · exact hd.nl h
  head := by
    intro c hc
    obtain ⟨x, xs, rfl⟩ := List.exists_cons_of_ne_nil hw.ne
    simp at hc
    exact hw.head c (by simp [hc])
  last := by
    intro c hc
    obtain ⟨x, xs, rfl⟩ := List.exists_cons_of_ne_nil hd.ne
    rw [List.getLast?_append, List.getLast?_cons_cons] at hc
    cases hq : (x :: xs).getLast? with
    | none => simp at hq
    | some y =>
      rw [hq] at hc; simp at hc; subst hc
      exact hd.last y hq
  notInclude := by
    intro h
    have : '.' ∈ reservedInclude := by rw [← h]; simp
    exact absurd this (by decide)
  notComment := by
    intro h
    rcases infix_split _ _ _ (by decide) h with h | h
    · exact hw.notComment h
    · exact hd.notComment h

/-! ## Single lines -/

/-- These lines, read at the path `P`, make these changes and stay there. -/
def Does (ls : List S) (P : List S) (cs : List Change) : Prop :=
  (∀ rest, changes P false (ls ++ rest) = cs ++ changes P false rest) ∧
  ∀ rest i, scan P.length false i (ls ++ rest) = scan P.length false (i + ls.length) rest

theorem Does.nil (P : List S) : Does [] P [] := ⟨fun _ => rfl, fun _ _ => rfl⟩

theorem Does.append {l1 l2 P c1 c2} (h1 : Does l1 P c1) (h2 : Does l2 P c2) : Does (l1 ++ l2) P (c1 ++ c2) := by
  refine ⟨fun rest => ?_, fun rest i => ?_⟩
  · rw [List.append_assoc, h1.1, h2.1, List.append_assoc]
  · rw [List.append_assoc, h1.2, h2.2, List.length_append, Nat.add_assoc]

theorem head_sp (sp x : S) (hs : ∀ c ∈ sp, c = ' ') (hx : ∀ c, x.head? = some c → isSpace c = false) :
    (sp ++ x).dropWhile isSpace = x := dropWhile_sp sp x hs hx

theorem takeWhile_stop (w v : S) (ch : Char) (h : ch ∉ w) : (w ++ ch :: v).takeWhile (fun c => c ≠ ch) = w := by
  induction w with
  | nil => simp
  | cons c w ih =>
    simp only [List.mem_cons, not_or] at h
    rw [List.cons_append, List.takeWhile_cons_of_pos (by simpa using Ne.symm h.1), ih h.2]

theorem dropWhile_stop (w v : S) (ch : Char) (h : ch ∉ w) : (w ++ ch :: v).dropWhile (fun c => c ≠ ch) = ch :: v := by
  induction w with
  | nil => simp
  | cons c w ih =>
    simp only [List.mem_cons, not_or] at h
    rw [List.cons_append, List.dropWhile_cons_of_pos (by simpa using Ne.symm h.1), ih h.2]

/-- A line `name:value`. -/
theorem does_line (sp : S) (hs : ∀ c ∈ sp, c = ' ') (w : S) (hw : w = [] ∨ NameOK w) (v : S) (P : List S) :
    Does [sp ++ w ++ [':'] ++ v] P [(P ++ pieces w, some v)] := by
  have hcol : ':' ∉ w := by rcases hw with rfl | h; · simp
                            · exact h.colon
  have hdw : (sp ++ w ++ [':'] ++ v).dropWhile isSpace = w ++ ':' :: v := by
    have := head_sp sp (w ++ ':' :: v) hs (by
      intro c hc
      rcases hw with rfl | h
      · cases hc; decide
      · obtain ⟨x, xs, rfl⟩ := List.exists_cons_of_ne_nil h.ne
        simp at hc; exact (h.head c (by simp [hc])).1)
    simpa using this
  have hh : (w ++ ':' :: v).head? ≠ some '#' := by
    rcases hw with rfl | h
    · simp
    · obtain ⟨x, xs, rfl⟩ := List.exists_cons_of_ne_nil h.ne
      intro hc; simp at hc
      exact (h.head x (by simp)).2 hc
  have hmem : ':' ∈ sp ++ w ++ [':'] ++ v := by simp
  have hk : kind (sp ++ w ++ [':'] ++ v) = .plain := by
    simp only [kind, hdw, hh, if_false, hmem, if_true]
  have hn : nameOf (sp ++ w ++ [':'] ++ v) = w := by rw [nameOf, hdw, takeWhile_stop _ _ _ hcol]
  have hv : valueOf (sp ++ w ++ [':'] ++ v) = v := by rw [valueOf, hdw, dropWhile_stop _ _ _ hcol]; rfl
  have hsp : ¬ (reservedComment <:+: w ∨ w = reservedInclude) := by
    rcases hw with rfl | h
    · decide
    · rintro (x | x)
      · exact h.notComment x
      · exact h.notInclude x
  have hl : lineChanges P (sp ++ w ++ [':'] ++ v) = [(P ++ pieces w, some v)] := by
    simp only [lineChanges, hdw, hh, if_false, hmem, if_true, hn, hv, hsp]
  refine ⟨fun rest => ?_, fun rest i => ?_⟩
  · rw [List.singleton_append, changes, hk]; simp only [hl]
  · rw [List.singleton_append, scan, hk]; rfl

/-- `sp ++ name ++ "{"`, lines, `sp ++ "}" ++ name`. -/
theorem does_braces (sp : S) (hs : ∀ c ∈ sp, c = ' ') (d : S) (hd : GoodDesc d) (ls : List S) (P : List S) (cs : List Change)
    (h : Does ls (P ++ [d]) cs) :
    Does ([sp ++ d ++ ['{']] ++ ls ++ [sp ++ ['}'] ++ d]) P ((P ++ [d], none) :: cs) := by
  obtain ⟨x, xs, hxx⟩ := List.exists_cons_of_ne_nil hd.ne
  have hdx : d.head? = some x := by rw [hxx]; rfl
  have spc : ∀ ch : Char, ch ≠ ' ' → ch ∉ sp := fun ch hc hm => hc (hs ch hm)
  -- the opening line
  have hdw : (sp ++ d ++ ['{']).dropWhile isSpace = d ++ ['{'] := by
    have := head_sp sp (d ++ ['{']) hs (by
      intro c hc; rw [hxx] at hc; simp at hc
      exact (hd.head c (by rw [hdx, hc])).1)
    simpa using this
  have hh : (d ++ ['{']).head? ≠ some '#' := by
    intro hc; rw [hxx] at hc; simp at hc
    exact (hd.head x hdx).2 hc
  have hcol : ':' ∉ sp ++ d ++ ['{'] := by
    simp only [List.mem_append, not_or, List.mem_singleton]
    exact ⟨⟨spc _ (by decide), hd.colon⟩, by decide⟩
  have hbr : '{' ∈ sp ++ d ++ ['{'] := by simp
  have hbb : beforeBrace (sp ++ d ++ ['{']) = d := by rw [beforeBrace, hdw, takeWhile_stop _ _ _ hd.brace]
  have hpc : pieces d = [d] := by
    have := comps_dotted [d] (by simp) (by simpa using hd.dot)
    simp only [dotted] at this
    simp [pieces, this, hd.ne]
  have hnc : d ≠ commentStr := goodDesc_ne_comment hd
  have hk : kind (sp ++ d ++ ['{']) = .opens 1 := by
    have e : ((comps d).takeWhile (fun d => d ≠ [])).length = 1 := by
      show (pieces d).length = 1
      rw [hpc]; rfl
    simp only [kind, hdw, hh, if_false, hcol, hbr, if_true, hbb, hnc, e]
  have hl : lineChanges P (sp ++ d ++ ['{']) = [(P ++ [d], none)] := by
    simp only [lineChanges, hdw, hh, if_false, hcol, hbr, if_true, hbb, hpc]
  -- the closing line
  have cdw : (sp ++ ['}'] ++ d).dropWhile isSpace = '}' :: d := by
    have := head_sp sp ('}' :: d) hs (by intro c hc; cases hc; decide)
    simpa using this
  have chh : ('}' :: d).head? ≠ some '#' := by simp
  have ccol : ':' ∉ sp ++ ['}'] ++ d := by
    simp only [List.mem_append, not_or, List.mem_singleton]
    exact ⟨⟨spc _ (by decide), by decide⟩, hd.colon⟩
  have cbr : '{' ∉ sp ++ ['}'] ++ d := by
    simp only [List.mem_append, not_or, List.mem_singleton]
    exact ⟨⟨spc _ (by decide), by decide⟩, hd.brace⟩
  have ccl : '}' ∈ sp ++ ['}'] ++ d := by simp
  have ck : kind (sp ++ ['}'] ++ d) = .closes := by
    simp only [kind, cdw, chh, if_false, ccol, cbr, ccl, if_true]
  refine ⟨fun rest => ?_, fun rest i => ?_⟩
  · rw [List.append_assoc, List.append_assoc, List.singleton_append, changes, hk]
    simp only [hl, hbb, hpc]
    rw [h.1]
    have e : changes (P ++ [d]) false ([sp ++ ['}'] ++ d] ++ rest) = changes P false rest := by
      rw [List.singleton_append, changes, ck]; simp
    rw [e]; simp
  · rw [List.append_assoc, List.append_assoc, List.singleton_append, scan, hk]
    show scan (P.length + 1) false (i + 1) _ = _
    have e : P.length + 1 = (P ++ [d]).length := by simp
    rw [e, h.2, List.singleton_append, scan, ck]
    simp only [List.length_append, List.length_cons, List.length_nil]
    rw [if_neg (by omega)]
    congr 1 <;> omega

/-! ## Names -/

/-- The name written for the path `p` below the name `w`. -/
def nm (w : S) (p : List S) : S := if p = [] then w else w ++ '.' :: dotted p

theorem nm_cons (w d : S) (p : List S) : nm w (d :: p) = nm (w ++ '.' :: d) p := by
  cases p with
  | nil => simp [nm, dotted]
  | cons e p => simp [nm, dotted]

theorem nm_good (d : S) (p : List S) : nm d p = dotted (d :: p) := by
  cases p with
  | nil => simp [nm, dotted]
  | cons e p => simp [nm, dotted]

theorem pieces_dotted (p : List S) (hp : p ≠ []) (h : ∀ d ∈ p, GoodDesc d) : pieces (dotted p) = p := by
  rw [pieces, comps_dotted p hp (fun d hd => (h d hd).dot)]
  exact effective_plain p (fun d hd => (h d hd).ne)

theorem pieces_leading (x : S) : pieces ('.' :: x) = [] := by
  simp [pieces, comps]

theorem notVirtual {d : S} (h : GoodDesc d) : ¬ (some d = some filePathStr ∨ some d = some fileNameStr) := by
  rintro (e | e)
  · cases e; exact h.notVirtual.1 rfl
  · cases e; exact h.notVirtual.2 rfl

theorem noMulti {d : S} (h : GoodDesc d) (a c ks) : isMultilineComment (.node (some d) a c ks) = .ok false := by
  have : isComment (.node (some d) a c ks) = false := by
    simp only [isComment, Tree.desc]
    simpa using goodDesc_ne_comment h
  simp [isMultilineComment, this]

theorem comment_printable {ks : List Tree} (h : PrintableL ks) : comment ks = [] := by
  induction ks with
  | nil => rfl
  | cons k ks ih =>
    obtain ⟨h1, h2⟩ := h
    cases k with
    | node d a c ls =>
    simp only [Printable] at h1
    obtain ⟨⟨x, rfl, hx⟩, -, -⟩ := h1
    have : isComment (.node (some x) a c ls) = false := by
      simp only [isComment, Tree.desc]
      simpa using goodDesc_ne_comment hx
    simp [comment, this, ih h2]

theorem noMultiL {ks : List Tree} (h : PrintableL ks) : hasMultilineComment ks = false := by
  simp [hasMultilineComment, comment_printable h]

/-! ## Subtrees without braces -/

theorem clean_name (sp w v : S) (hs : ∀ c ∈ sp, c = ' ') (hw : '\n' ∉ w) (hv : GoodAttr v) : Clean (sp ++ w ++ [':'] ++ v) := by
  refine clean_value (sp ++ w) v ?_ hv
  simp only [List.mem_append, not_or]
  exact ⟨sp_nl sp hs, hw⟩

/-- The attribute line of a node with name `w`. -/
def ownLine (sp w : S) : Option S → List S
  | some v => [sp ++ w ++ [':'] ++ v]
  | none => []

theorem does_own (sp : S) (hs : ∀ c ∈ sp, c = ' ') (w : S) (hw : NameOK w) (a : Option S) (P : List S) :
    Does (ownLine sp w a) P ((a.toList.map fun v => (([] : List S), v)).map fun x => (P ++ pieces (nm w x.1), some x.2)) := by
  cases a with
  | none => exact Does.nil P
  | some v => simpa [nm, ownLine] using does_line sp hs w (.inr hw) v P

theorem ends_name (sp w : S) (hw : NameOK w) : endsWithSpace (sp ++ w) = false := by
  obtain ⟨x, xs, hx⟩ := List.exists_cons_of_ne_nil hw.ne
  unfold endsWithSpace
  rw [List.getLast?_append]
  cases hq : w.getLast? with
  | none => rw [hx] at hq; simp at hq
  | some y =>
    have := hw.last y hq
    simp only [Option.some_or]
    by_cases hy : y = ' '
    · subst hy; exact absurd this (by decide)
    · simpa using hy

theorem small_list (csd : Int) (ks : List Tree) :
    PrintableL ks → ∀ (sp w : S), (∀ c ∈ sp, c = ' ') → NameOK w → ((containsL ks : Nat) : Int) < csd →
    ∃ ls, printList csd (sp ++ w) ks = .ok ls ∧ (∀ l ∈ ls, Clean l) ∧
      ∀ P, Does ls P ((valuesL ks).map fun x => (P ++ pieces (nm w x.1), some x.2)) := by
  refine Tree.rec_1
    (motive_1 := fun k => Printable k → ∀ (sp w : S), (∀ c ∈ sp, c = ' ') → NameOK w → ((contains k : Nat) : Int) < csd →
      ∃ ls, printTree csd (sp ++ w) k = .ok ls ∧ (∀ l ∈ ls, Clean l) ∧
        ∀ P, Does ls P (((values k).map fun x => (k.desc.getD [] :: x.1, x.2)).map fun x => (P ++ pieces (nm w x.1), some x.2)))
    (motive_2 := fun ks => PrintableL ks → ∀ (sp w : S), (∀ c ∈ sp, c = ' ') → NameOK w → ((containsL ks : Nat) : Int) < csd →
      ∃ ls, printList csd (sp ++ w) ks = .ok ls ∧ (∀ l ∈ ls, Clean l) ∧
        ∀ P, Does ls P ((valuesL ks).map fun x => (P ++ pieces (nm w x.1), some x.2)))
    ?_ ?_ ?_ ks
  · intro d a c ks ih hp sp w hs hw hlt
    simp only [Printable] at hp
    obtain ⟨⟨d', rfl, hd⟩, ha, hks⟩ := hp
    have hlt' : ((containsL ks : Nat) : Int) < csd := by
      simp only [contains] at hlt
      push_cast at hlt
      split at hlt <;> omega
    have hw' := nameOK_snoc hw hd
    obtain ⟨ls, hl, hcl, hdo⟩ := ih hks sp (w ++ '.' :: d') hs hw' hlt'
    have hl' : printList csd (sp ++ w ++ ['.'] ++ d') ks = .ok ls := by simpa using hl
    refine ⟨ownLine sp (w ++ '.' :: d') a ++ ls, ?_, ?_, ?_⟩
    · simp only [printTree, notVirtual hd, if_false, noMulti hd, noMultiL hks, Bool.false_eq_true, or_false, Option.getD_some,
        ends_name sp w hw]
      rw [if_neg (by omega), hl']
      cases a <;> simp [ownLine]
    · intro l hl
      rcases List.mem_append.1 hl with hl | hl
      · cases a with
        | none => simp [ownLine] at hl
        | some v =>
          simp only [ownLine, List.mem_singleton] at hl; subst hl
          exact clean_name sp _ v hs hw'.nl (ha v rfl)
      · exact hcl l hl
    · intro P
      have h1 := (does_own sp hs _ hw' a P).append (hdo P)
      simp only [values, List.map_append, List.map_map] at h1 ⊢
      convert h1 using 2
      · cases a <;> simp [nm, dotted, Tree.desc]
      · refine List.map_congr_left fun x _ => ?_
        simp [nm_cons, Tree.desc]
  · intro _ sp w _ _ _
    exact ⟨[], rfl, by simp, fun P => Does.nil P⟩
  · intro k ks h1 h2 hp sp w hs hw hlt
    simp only [containsL] at hlt
    push_cast at hlt
    obtain ⟨l1, e1, c1, d1⟩ := h1 hp.1 sp w hs hw (by omega)
    obtain ⟨l2, e2, c2, d2⟩ := h2 hp.2 sp w hs hw (by omega)
    refine ⟨l1 ++ l2, by simp [printList, e1, e2], ?_, fun P => ?_⟩
    · intro l hl
      rcases List.mem_append.1 hl with hl | hl
      · exact c1 l hl
      · exact c2 l hl
    · simp only [valuesL, List.map_append]
      exact (d1 P).append (d2 P)

theorem values_good (t : Tree) : Printable t → ∀ x ∈ values t, ∀ d ∈ x.1, GoodDesc d := by
  refine Tree.rec (motive_1 := fun t => Printable t → ∀ x ∈ values t, ∀ d ∈ x.1, GoodDesc d)
    (motive_2 := fun ks => PrintableL ks → ∀ x ∈ valuesL ks, ∀ d ∈ x.1, GoodDesc d) ?_ ?_ ?_ t
  · intro d a c ks ih hp x hx e he
    simp only [Printable] at hp
    simp only [values, List.mem_append] at hx
    rcases hx with hx | hx
    · obtain ⟨v, -, rfl⟩ := List.mem_map.1 hx
      cases he
    · exact ih hp.2.2 x hx e he
  · intro _ x hx; simp [valuesL] at hx
  · intro k ks h1 h2 hp x hx e he
    simp only [valuesL, List.mem_append] at hx
    rcases hx with hx | hx
    · obtain ⟨y, hy, rfl⟩ := List.mem_map.1 hx
      rcases List.mem_cons.1 he with rfl | he
      · have hk := hp.1
        cases k with
        | node d a c ls =>
        simp only [Printable] at hk
        obtain ⟨⟨z, rfl, hz⟩, -, -⟩ := hk
        exact hz
      · exact h1 hp.1 y hy e he
    · exact h2 hp.2 x hx e he

theorem valuesL_good (ks : List Tree) (h : PrintableL ks) : ∀ x ∈ valuesL ks, ∀ d ∈ x.1, GoodDesc d := by
  induction ks with
  | nil => intro x hx; simp [valuesL] at hx
  | cons k ks ih =>
    intro x hx e he
    have := values_good (.node (some ['a']) none false (k :: ks))
    refine this ?_ x (by simpa [values] using hx) e he
    simp only [Printable]
    refine ⟨⟨_, rfl, ?_⟩, by simp, h⟩
    constructor <;> decide

/-- Without braces the entries are the values. -/
theorem entries_small (csd : Int) (t : Tree) : ∀ p, ((contains t : Nat) : Int) < csd →
    entries csd p t = (values t).map fun x => (p ++ x.1, some x.2) := by
  refine Tree.rec
    (motive_1 := fun t => ∀ p, ((contains t : Nat) : Int) < csd → entries csd p t = (values t).map fun x => (p ++ x.1, some x.2))
    (motive_2 := fun ks => ∀ p, ((containsL ks : Nat) : Int) < csd → entriesL csd p ks = (valuesL ks).map fun x => (p ++ x.1, some x.2))
    ?_ ?_ ?_ t
  · intro d a c ks ih p hlt
    have hb : ¬ Braced csd (.node d a c ks) := by
      unfold Braced; rw [← contains_values]; omega
    have hlt' : ((containsL ks : Nat) : Int) < csd := by
      simp only [contains] at hlt
      push_cast at hlt
      split at hlt <;> omega
    simp only [entries, hb, if_false, ih p hlt', values, List.map_append]
    cases a <;> simp
  · intro p _; rfl
  · intro k ks h1 h2 p hlt
    simp only [containsL] at hlt
    push_cast at hlt
    simp only [entriesL, valuesL, h1 _ (show ((contains k : Nat) : Int) < csd by omega), h2 p (by omega), List.map_append, List.map_map]
    congr 1
    refine List.map_congr_left fun x _ => ?_
    simp

/-! ## Subtrees inside braces -/

theorem print_does (csd : Int) (ks : List Tree) :
    PrintableL ks → ∀ (sp : S), (∀ c ∈ sp, c = ' ') → sp ≠ [] →
    ∃ ls, printList csd sp ks = .ok ls ∧ (∀ l ∈ ls, Clean l) ∧ ∀ P, Does ls P (entriesL csd P ks) := by
  refine Tree.rec_1
    (motive_1 := fun k => Printable k → ∀ (sp : S), (∀ c ∈ sp, c = ' ') → sp ≠ [] →
      ∃ ls, printTree csd sp k = .ok ls ∧ (∀ l ∈ ls, Clean l) ∧ ∀ P, Does ls P (entries csd (P ++ [k.desc.getD []]) k))
    (motive_2 := fun ks => PrintableL ks → ∀ (sp : S), (∀ c ∈ sp, c = ' ') → sp ≠ [] →
      ∃ ls, printList csd sp ks = .ok ls ∧ (∀ l ∈ ls, Clean l) ∧ ∀ P, Does ls P (entriesL csd P ks))
    ?_ ?_ ?_ ks
  · intro d a c ks ih hp sp hs h0
    have hpp := hp
    simp only [Printable] at hp
    obtain ⟨⟨d', rfl, hd⟩, ha, hks⟩ := hp
    by_cases hb : Braced csd (.node (some d') a c ks)
    · have hsp' : ∀ c ∈ sp ++ [' '], c = ' ' := by
        intro c hc
        rcases List.mem_append.1 hc with hc | hc
        · exact hs c hc
        · simpa using hc
      obtain ⟨ls, hl, hcl, hdo⟩ := ih hks (sp ++ [' ']) hsp' (by simp)
      have hb' : csd ≤ ((contains (.node (some d') a c ks) : Nat) : Int) := by
        rw [contains_values]; exact hb
      refine ⟨[sp ++ d' ++ ['{']] ++ ((if a.getD [] ≠ [] then [sp ++ [':'] ++ a.getD []] else []) ++ ls) ++ [sp ++ ['}'] ++ d'],
        ?_, ?_, ?_⟩
      · simp only [printTree, notVirtual hd, if_false, noMulti hd, Option.getD_some]
        rw [if_pos (.inl hb'), hl]
        simp
      · intro l hl
        have hspn := sp_nl sp hs
        simp only [List.mem_append, List.mem_singleton] at hl
        rcases hl with (rfl | hl | hl) | rfl
        · refine ⟨?_, by simp⟩
          simp only [List.mem_append, not_or, List.mem_singleton]
          exact ⟨⟨hspn, hd.nl⟩, by decide⟩
        · split at hl
          · simp only [List.mem_singleton] at hl
            subst hl
            cases a with
            | none => simp at *
            | some v => exact clean_value sp v hspn (ha v rfl)
          · simp at hl
        · exact hcl l hl
        · refine ⟨?_, ?_⟩
          · simp only [List.mem_append, not_or, List.mem_singleton]
            exact ⟨⟨hspn, by decide⟩, hd.nl⟩
          · rw [List.getLast?_append]
            obtain ⟨x, xs, hx⟩ := List.exists_cons_of_ne_nil hd.ne
            cases hq : d'.getLast? with
            | none => rw [hx] at hq; simp at hq
            | some y =>
              simp only [Option.some_or, ne_eq, Option.some.injEq]
              exact not_r_of_not_space (hd.last y hq)
      · intro P
        have own : Does (if a.getD [] ≠ [] then [sp ++ [':'] ++ a.getD []] else []) (P ++ [d'])
            ((a.toList.filter (fun v => v ≠ [])).map fun v => (P ++ [d'], some v)) := by
          cases a with
          | none => simpa using Does.nil _
          | some v =>
            by_cases hv : v = []
            · subst hv; simpa using Does.nil _
            · have := does_line sp hs [] (.inl rfl) v (P ++ [d'])
              have e : pieces [] = [] := by simp [pieces, comps]
              simpa [hv, e] using this
        have := does_braces sp hs d' hd _ P _ (own.append (hdo (P ++ [d'])))
        simp only [entries, hb, if_true, Tree.desc, Option.getD_some]
        simpa using this
    · have hlt : ((contains (.node (some d') a c ks) : Nat) : Int) < csd := by
        rw [contains_values]; unfold Braced at hb; omega
      have hlt' : ((containsL ks : Nat) : Int) < csd := by
        simp only [contains] at hlt
        push_cast at hlt
        split at hlt <;> omega
      obtain ⟨ls, hl, hcl, hdo⟩ := small_list csd ks hks sp d' hs (nameOK_good hd) hlt'
      refine ⟨ownLine sp d' a ++ ls, ?_, ?_, ?_⟩
      · have hend : endsWithSpace sp = true := by
          unfold endsWithSpace
          cases hq : sp.getLast? with
          | none => simp at hq; exact absurd hq h0
          | some y => rw [hs y (List.mem_of_getLast? hq)]; rfl
        simp only [printTree, notVirtual hd, if_false, noMulti hd, noMultiL hks, Bool.false_eq_true, or_false, Option.getD_some,
          hend, if_true]
        rw [if_neg (by omega), hl]
        cases a <;> simp [ownLine]
      · intro l hl
        rcases List.mem_append.1 hl with hl | hl
        · cases a with
          | none => simp [ownLine] at hl
          | some v =>
            simp only [ownLine, List.mem_singleton] at hl; subst hl
            exact clean_name sp _ v hs hd.nl (ha v rfl)
        · exact hcl l hl
      · intro P
        have h1 := (does_own sp hs d' (nameOK_good hd) a P).append (hdo P)
        rw [entries_small csd _ _ hlt]
        simp only [values, Tree.desc, Option.getD_some]
        rw [← List.map_append] at h1
        have hmap : ∀ x ∈ (a.toList.map fun v => (([] : List S), v)) ++ valuesL ks,
            (P ++ [d'] ++ x.1, some x.2) = (P ++ pieces (nm d' x.1), some x.2) := by
          intro x hx
          have hg : ∀ e ∈ x.1, GoodDesc e := values_good _ hpp x (by simpa [values] using hx)
          rw [nm_good, pieces_dotted _ (by simp) (by
            intro e he
            rcases List.mem_cons.1 he with rfl | he
            · exact hd
            · exact hg e he)]
          simp
        rw [List.map_congr_left hmap]
        exact h1
  · intro _ sp _ _
    exact ⟨[], rfl, by simp, fun P => Does.nil P⟩
  · intro k ks h1 h2 hp sp hs h0
    obtain ⟨l1, e1, c1, d1⟩ := h1 hp.1 sp hs h0
    obtain ⟨l2, e2, c2, d2⟩ := h2 hp.2 sp hs h0
    refine ⟨l1 ++ l2, by simp [printList, e1, e2], ?_, fun P => ?_⟩
    · intro l hl
      rcases List.mem_append.1 hl with hl | hl
      · exact c1 l hl
      · exact c2 l hl
    · exact (d1 P).append (d2 P)

end Verif.AT.Round
