import Verif.Config.ATCrash
import Verif.Config.ATLoad

/-! # C141: a file of which only a part was written -/
namespace Verif.AT.Crash
open Err Text Every Round

theorem shown_clean {l : S} (h : Clean l) : shown l = l := by
  unfold shown; rw [if_neg h.2]

theorem map_shown {ls : List S} (h : ∀ l ∈ ls, Clean l) : ls.map shown = ls := by
  conv_rhs => rw [← List.map_id ls]
  exact List.map_congr_left fun l hl => shown_clean (h l hl)

theorem shown_prefix (l : S) : shown l <+: l := by
  unfold shown
  split
  · exact List.dropLast_prefix l
  · exact List.prefix_refl l

theorem dropWhile_all {p : S → Bool} {ls : List S} (h : ∀ l ∈ ls, p l = true) : ls.dropWhile p = [] := by
  induction ls with
  | nil => rfl
  | cons a as ih => rw [List.dropWhile_cons, if_pos (h a (by simp))]; exact ih fun l hl => h l (by simp [hl])

theorem prefix_with_last {p d : S} {c : Char} (h : p <+: d ++ [c]) (hc : c ∈ p) (hd : c ∉ d) : p = d ++ [c] := by
  rcases List.prefix_concat_iff.1 h with e | e
  · exact e
  · exact absurd (e.subset hc) hd

theorem outcome_lines (ls : List S) (tail : S) (h : ∀ l ∈ ls, Clean l ∧ l.length ≤ 1997) (hne : ls ≠ []) (ht : '\n' ∉ tail)
    (htl : tail.length ≤ 1997) (hin : ∀ Q, ending [] false 0 ls ≠ .inside Q) (hw : ∀ j, ending [] false 0 ls ≠ .wrong j) :
    outcome (text ls ++ tail) = .returns (-1) ls := by
  unfold outcome
  rw [linesOf_eq ls tail (fun l hl => (h l hl).1.1) ht]
  simp only
  rw [dropWhile_all (p := fits) (ls := ls ++ [tail]) (by
    intro l hl
    rcases List.mem_append.1 hl with hl | hl
    · simpa [fits] using (h l hl).2
    · rw [List.mem_singleton.1 hl]; simpa [fits] using htl)]
  simp only [hne, if_false, map_shown (fun l hl => (h l hl).1)]
  cases hq : ending [] false 0 ls with
  | closed => rfl
  | wrong j => exact absurd hq (hw j)
  | reading _ => rfl
  | inside Q => exact absurd hq (hin Q)

theorem outcome_single (tail : S) (ht : '\n' ∉ tail) (htl : tail.length ≤ 1997) (hk : kind (shown tail) ≠ .comment) :
    outcome tail = .returns (-1) [shown tail] := by
  unfold outcome
  have : linesOf tail = ([], tail) := linesOf_eq [] tail (by simp) ht
  rw [this]
  simp only
  rw [dropWhile_all (p := fits) (ls := [] ++ [tail]) (by
    intro l hl
    simp only [List.nil_append, List.mem_singleton] at hl
    rw [hl]; simpa [fits] using htl)]
  simp only [if_true, hk, if_false]

theorem root_name {t : Tree} (h : PrintableRoot t) : t.desc.getD [] = [] ∨ GoodDesc (t.desc.getD []) := by
  rcases h.1 with e | e | ⟨x, e, hx⟩
  · left; rw [e]; rfl
  · left; rw [e]; rfl
  · right; rw [e]; exact hx

/-- C141: save any tree (without comments); if at least one line is in the file, then loading it into any tree reports success, however many of the
characters are there, and makes the first changes of the saved tree, up to some point, and no others. -/
theorem c141_part_of_file (csd : Int) (t : Tree) (h : PrintableRoot t) (ls : List S) (hp : printTree csd [] t = .ok ls)
    (hlen : ∀ l ∈ ls, l.length ≤ 1997) (n : Nat) (hn : '\n' ∈ (ls.flatMap (· ++ ['\n'])).take n) (T : Tree) :
    ∃ k T' cs, get k { processInclude := true, loadComments := false, load := fun _ t => t } T ((ls.flatMap (· ++ ['\n'])).take n) = some (T', -1) ∧
      cs <+: written csd t ∧ ∀ q, lookup q T' = valueAfter q (lookup q T) cs := by
  obtain ⟨ls', hp', hcl, hch, hsc⟩ := print_root csd t h
  rw [hp] at hp'; cases hp'
  have hkind := lines_kind csd t (root_name h) h.2.2 [] ls (.inl (by simp)) hp
  obtain ⟨m, part, htk, hpart⟩ := take_text ls n
  have htk' : (ls.flatMap (· ++ ['\n'])).take n = text (ls.take m) ++ part := htk
  rw [htk'] at hn ⊢
  have hpnl : '\n' ∉ part ∧ part.length ≤ 1997 := by
    rcases hpart with rfl | ⟨l, rest, hl, hpl⟩
    · exact ⟨by simp, by simp⟩
    · have hmem : l ∈ ls := List.mem_of_mem_drop (by rw [hl]; simp)
      exact ⟨fun hx => (hcl l hmem).1 (hpl.subset hx), Nat.le_trans hpl.length_le (hlen l hmem)⟩
  have hne : ls.take m ≠ [] := by
    intro e
    rw [e] at hn
    simp only [text, List.flatMap_nil, List.nil_append] at hn
    exact hpnl.1 hn
  have happ := ending_append (ls.drop m) (ls.take m) [] false 0
  rw [List.take_append_drop] at happ
  have hscan := scan_ending ls [] false 0
  rw [List.length_nil, hsc] at hscan
  have hout := outcome_lines (ls.take m) part (fun l hl => ⟨hcl l (List.mem_of_mem_take hl), hlen l (List.mem_of_mem_take hl)⟩) hne hpnl.1 hpnl.2
    (never_inside _ (fun l hl => hkind l (List.mem_of_mem_take hl)) [] 0)
    (by
      intro j hj
      rw [hj] at happ
      simp only at happ
      rw [happ] at hscan
      cases hscan)
  have := c140_every_text T (text (ls.take m) ++ part)
  rw [hout] at this
  obtain ⟨k, T', hget, hval⟩ := this
  refine ⟨k, T', changes [] false (ls.take m), hget, ?_, hval⟩
  have hca := changes_append (ls.drop m) (ls.take m) [] false 0
  rw [List.take_append_drop, hch] at hca
  exact ⟨_, hca.symm⟩

theorem first_line (csd : Int) (t : Tree) (h : PrintableRoot t) (hb : Braced csd t) (ls : List S) (hp : printTree csd [] t = .ok ls) :
    ∃ rest, ls = (t.desc.getD [] ++ ['{']) :: rest := by
  cases t with
  | node d a c ks =>
  have hmc : isMultilineComment (.node d a c ks) = .ok false := by
    have : isComment (.node d a c ks) = false := by
      simp only [isComment, Tree.desc]
      cases d with
      | none => rfl
      | some d =>
        have := name_ne_comment (root_name h)
        simpa [Tree.desc] using this
    simp [isMultilineComment, this]
  have hge : ((contains (.node d a c ks) : Nat) : Int) ≥ csd := by rw [contains_values]; exact hb
  rw [printTree] at hp
  split at hp
  · rename_i hv
    exfalso
    rcases h.1 with e | e | ⟨x, e, hx⟩
    · simp only [Tree.desc] at e; subst e; simp at hv
    · simp only [Tree.desc] at e; subst e; revert hv; decide
    · simp only [Tree.desc] at e; subst e; exact notVirtual hx hv
  · simp only [hmc] at hp
    rw [if_pos (.inl hge)] at hp
    split at hp
    · cases hp; exact ⟨_, by simp [Tree.desc]; rfl⟩
    · cases hp
    · cases hp

/-- C141: for a tree with different siblings and at least `csd` attributes this holds for every number of characters, and no value is wrong:
every value found afterwards is an old one of the tree loaded into, or the one that was saved. -/
theorem c141_no_wrong_value (csd : Int) (t : Tree) (h : PrintableRoot t) (hu : Uniq t) (hb : Braced csd t) (ls : List S)
    (hp : printTree csd [] t = .ok ls) (hlen : ∀ l ∈ ls, l.length ≤ 1997) (n : Nat) (T : Tree) :
    ∃ k T', get k { processInclude := true, loadComments := false, load := fun _ t => t } T ((ls.flatMap (· ++ ['\n'])).take n) = some (T', -1) ∧
      ∀ q v, lookup q T' = some v → lookup q T = some v ∨ ∃ r, q = rootPath t ++ r ∧ lookup r t = some v := by
  by_cases hn : '\n' ∈ (ls.flatMap (· ++ ['\n'])).take n
  · obtain ⟨k, T', cs, hget, hpre, hval⟩ := c141_part_of_file csd t h ls hp hlen n hn T
    refine ⟨k, T', hget, fun q v hv => ?_⟩
    rw [hval] at hv
    rcases valueAfter_last q cs _ _ hv with h1 | h1
    · exact .inl h1
    · right
      have hmem := hpre.subset h1
      rw [written, if_pos hb] at hmem
      obtain ⟨x, hx, e1, e2⟩ := entries_mem csd t _ q v hmem
      exact ⟨x.1, e1, by rw [e2]; exact values_lookup t hu h.2.2 x hx⟩
  · obtain ⟨rest, hls⟩ := first_line csd t h hb ls hp
    obtain ⟨m, part, htk, hpart⟩ := take_text ls n
    have htk' : (ls.flatMap (· ++ ['\n'])).take n = text (ls.take m) ++ part := htk
    rw [htk'] at hn ⊢
    have hm : ls.take m = [] := by
      cases hq : ls.take m with
      | nil => rfl
      | cons a as => rw [hq, text_cons] at hn; exact absurd (by simp) hn
    rw [hm] at hn ⊢
    have e0 : text [] ++ part = part := rfl
    rw [e0] at hn ⊢
    have hpp : part <+: t.desc.getD [] ++ ['{'] := by
      rcases hpart with rfl | ⟨l, rst, hl, hpl⟩
      · exact List.nil_prefix
      · have : m = 0 := by
          rw [hls] at hm
          cases m with
          | zero => rfl
          | succ m => simp at hm
        subst this
        rw [hls] at hl
        simp only [List.drop_zero, List.cons.injEq] at hl
        rw [hl.1]; exact hpl
    have hsp := (shown_prefix part).trans hpp
    have hname := root_name h
    have hcol : ':' ∉ shown part := by
      intro hx
      have := hsp.subset hx
      simp only [List.mem_append, List.mem_singleton] at this
      rcases this with hx | hx
      · rcases hname with e | e
        · rw [e] at hx; cases hx
        · exact e.colon hx
      · exact absurd hx (by decide)
    have hkc : kind (shown part) ≠ .comment := by
      intro hk
      have h2 := (kind_comment hk).2.1
      have h3 := (kind_comment hk).2.2
      have hbr : '{' ∉ t.desc.getD [] := by
        rcases hname with e | e
        · rw [e]; simp
        · exact e.brace
      have heq : shown part = t.desc.getD [] ++ ['{'] := by
        exact prefix_with_last hsp h2 hbr
      rw [heq] at h3
      have := open_line (sp := []) (by simp) hname
      rw [List.nil_append] at this
      rw [this] at h3
      exact name_ne_comment hname h3
    have hplen : part.length ≤ 1997 :=
      Nat.le_trans hpp.length_le (hlen _ (by rw [hls]; simp))
    have hout := outcome_single part hn hplen hkc
    have := c140_every_text T part
    rw [hout] at this
    obtain ⟨k, T', hget, hval⟩ := this
    refine ⟨k, T', hget, fun q v hv => ?_⟩
    rw [hval] at hv
    rcases valueAfter_last q _ _ _ hv with h1 | h1
    · exact .inl h1
    · exfalso
      have hlc : ∀ c ∈ lineChanges [] (shown part), c.2 = none := by
        intro c hc
        unfold lineChanges at hc
        split at hc
        · cases hc
        · split at hc
          · rw [List.mem_singleton] at hc; rw [hc]
          · cases hc
      rw [changes] at h1
      cases hk : kind (shown part) with
      | plain => rw [hk] at h1; simp only [changes, List.append_nil] at h1; have := hlc _ h1; cases this
      | opens j => rw [hk] at h1; simp only [changes, List.append_nil] at h1; have := hlc _ h1; cases this
      | comment => exact hkc hk
      | closes => rw [hk] at h1; simp [changes] at h1
      | bad => rw [hk] at h1; simp at h1

/-- C141: the full disk. `save` reports success and, if asked, forgets the marks of the changes, however few characters reached the file; a
later `load` of what is there reports success, too. -/
theorem c141_full_disk (csd : Int) (um : Bool) (t : Tree) (h : PrintableRoot t) (hu : Uniq t) (hb : Braced csd t) (ls : List S)
    (hp : printTree csd [] t = .ok ls) (hlen : ∀ l ∈ ls, l.length ≤ 1997) (room : Nat) (T : Tree) :
    ∃ x, saveOnDisk csd um room t = .ok (if um then unmark t else t, eOK, x) ∧ x.length ≤ room ∧
      ∃ k T', get k { processInclude := true, loadComments := false, load := fun _ t => t } T x = some (T', -1) ∧
        ∀ q v, lookup q T' = some v → lookup q T = some v ∨ ∃ r, q = rootPath t ++ r ∧ lookup r t = some v := by
  refine ⟨(ls.flatMap (· ++ ['\n'])).take room, ?_, by rw [List.length_take]; omega, c141_no_wrong_value csd t h hu hb ls hp hlen room T⟩
  simp [saveOnDisk, printText, hp, Outcome.map]

/-- C141: the old content of the file is lost with the first step of saving: a stop before the first character leaves an empty file, which is
loaded with success and has no values. -/
theorem c141_old_file_gone (csd : Int) (um : Bool) (t : Tree) (h : PrintableRoot t) (T : Tree) :
    saveOnDisk csd um 0 t = .ok (if um then unmark t else t, eOK, []) ∧
    ∃ k T', get k { processInclude := true, loadComments := false, load := fun _ t => t } T [] = some (T', -1) ∧ ∀ q, lookup q T' = lookup q T := by
  obtain ⟨ls, hp, -⟩ := print_root csd t h
  refine ⟨by simp [saveOnDisk, printText, hp, Outcome.map], ?_⟩
  have := c140_every_text T []
  rw [outcome_single [] (by simp) (by simp) (by decide)] at this
  obtain ⟨k, T', h1, h2⟩ := this
  exact ⟨k, T', h1, fun q => by rw [h2, show changes [] false [shown []] = [] by decide]; rfl⟩

/-! ## Cases -/

/-- Two values. -/
def two : Tree := .node (some ['m']) none true [.node (some ['a']) (some ['1']) true [], .node (some ['b']) (some ['2']) true []]

theorem two_printable : PrintableRoot two := by
  have hm : GoodDesc ['m'] := ⟨by decide, by decide, by decide, by decide, by decide, by simp; decide, by simp; decide, by decide, by decide, by decide⟩
  have ha := goodDesc_letters ['a'] (.inl rfl)
  have hb := goodDesc_letters ['b'] (.inr rfl)
  have h1 := goodAttr_short ['1'] (by simp)
  have h2 := goodAttr_short ['2'] (by simp)
  refine ⟨.inr (.inr ⟨_, rfl, hm⟩), by simp [two, Tree.attr], ?_⟩
  simp only [two, Tree.kids, PrintableL, Printable]
  refine ⟨⟨⟨_, rfl, ha⟩, ?_, trivial⟩, ⟨⟨_, rfl, hb⟩, ?_, trivial⟩, trivial⟩
  · intro v hv; cases hv; exact h1
  · intro v hv; cases hv; exact h2

/-- `two` meets the hypotheses of `c141_no_wrong_value`. -/
example : PrintableRoot two ∧ Uniq two ∧ Braced 2 two ∧
    printTree 2 [] two = .ok ["m{".toList, " a:1".toList, " b:2".toList, "}m".toList] :=
  ⟨two_printable, by simp [two, Uniq, UniqL, Tree.desc], by decide, by decide⟩

/-- C141, a stop in the middle: `a` is there, `b` is missing although its line has begun, and the loader does not notice. -/
theorem c141_half_a_file :
    saveOnDisk 2 true 11 two = .ok (unmark two, eOK, "m{\n a:1\n b:".toList) ∧
    (get 9 { processInclude := true, loadComments := false, load := fun _ t => t } (newNode none) "m{\n a:1\n b:".toList).map
      (fun r => (lookup [['m'], ['a']] r.1, lookup [['m'], ['b']] r.1, r.2)) = some (some ['1'], none, -1) := by
  constructor
  · rfl
  · decide +kernel

/-- C141 is false for trees with fewer than `csd` attributes: their file has no braces, and half of its first line is read as a whole line. A saved
value `100` becomes `1`, and the loader reports success. -/
theorem c141_small_tree_wrong_value :
    saveOnDisk 2 false 3 (.node none (some "100".toList) true []) = .ok (.node none (some "100".toList) true [], eOK, ".:1".toList) ∧
    (get 9 { processInclude := true, loadComments := false, load := fun _ t => t } (newNode none) ".:1".toList).map
      (fun r => (lookup [] r.1, r.2)) = some (some ['1'], -1) := by
  constructor
  · rfl
  · decide +kernel

end Verif.AT.Crash
