import Verif.Config.ATIncludeLemmas
import Verif.Config.ATLoadProps
import Verif.Config.FilePathProps

/-! # C113: include lines act like the text of the included file -/
namespace Verif.AT.Inc
open Err

theorem getAttribute_path {t : Tree} {v : S} (h : getAttribute [] t (some filePathStr) none = .ok (some v)) : HasPath t := by
  have hsuf : filePathStr.isSuffixOf filePathStr = true := by decide +kernel
  have hc : comps filePathStr = [filePathStr] := by decide +kernel
  have hr : reservedPath = filePathStr := rfl
  unfold HasPath
  rw [hr, lookup_cons]
  simp only [getAttribute, hsuf, if_true, hc] at h
  simp only [getSpecial, specialLoop, subTreeOf] at h
  by_cases he : t.kids.isEmpty = true
  · simp [he, Outcome.map] at h
  · simp only [he] at h
    cases hf : find filePathStr t.kids with
    | none =>
      simp [hf, Outcome.map, walk, subTreeOf, he] at h
    | some x =>
      cases hx : x.attr with
      | some v => simp [lookup_nil, hx]
      | none =>
        simp [hf, Outcome.map, walk, subTreeOf, he, hx] at h

theorem setVirtual_hasPath {p n : S} {t t1 : Tree} (h : setVirtual [] p n t = .ok t1) : HasPath t1 := by
  unfold setVirtual at h
  cases hg : getAttribute [] t (some filePathStr) none with
  | ub => rw [hg] at h; cases h
  | throws e => rw [hg] at h; cases h
  | ok o =>
    rw [hg] at h
    cases o with
    | some v => cases h; exact getAttribute_path hg
    | none =>
      simp only [Outcome.ok.injEq] at h
      subst h
      have h1 : comps fileNameStr = [fileNameStr] := by decide +kernel
      have h2 : comps filePathStr = [filePathStr] := by decide +kernel
      have h3 : effective [fileNameStr] = [fileNameStr] := by decide +kernel
      have h4 : effective [filePathStr] = [filePathStr] := by decide +kernel
      have hr : reservedPath = filePathStr := rfl
      unfold HasPath
      simp only [setAttribute, h1, h2, lookup_setC, h3, h4, hr]
      split
      · rfl
      · simp

/-- C113: loading a file with include lines gives the same tree and the same result as loading one file with
the text that it stands for: every include line replaced by the text of the file it names (with its own
include lines replaced), or removed if that file cannot be opened. For every tree, position in the tree and
file, if every included file closes the braces that it opens and (when loading into a root) no line mentions
the reserved name that holds the path. -/
theorem c113_expand (w : World) (file : S) (ls ls' : List S) (hf : file ≠ []) (hc : w.content file = some (text ls))
    (hg : ∀ l ∈ ls, GoodLine l) (he : Expands w file ls ls') (anc : List Tree)
    (hr : anc = [] → ∀ l ∈ ls', ¬ reservedPath <:+: l) (t : Tree) :
    ∃ K, ∀ k, K ≤ k → ∃ o, loadFile k w anc.isEmpty file t = o ∧ o ≠ .ok none ∧
      load k { processInclude := true, loadComments := w.loadComments, load := fun _ t => t } anc false
        (w.path file) (w.name file) (some (text ls')) false false t = o := by
  have hgl' := expands_good he hg
  -- the virtual attributes
  have hv : (if anc.isEmpty = true then setVirtual [] (w.path file) (w.name file) t else .ok t) =
      setVirtual anc (w.path file) (w.name file) t := by
    cases anc <;> rfl
  cases hs : setVirtual anc (w.path file) (w.name file) t with
  | ub =>
    refine ⟨0, fun k _ => ⟨.ub, ?_, by simp, ?_⟩⟩
    · unfold loadFile loadVia
      rw [if_neg hf, hv, hs]
    · unfold load
      simp only [Bool.false_eq_true, if_false, hs]
  | throws e =>
    refine ⟨0, fun k _ => ⟨.throws e, ?_, by simp, ?_⟩⟩
    · unfold loadFile loadVia
      rw [if_neg hf, hv, hs]
    · unfold load
      simp only [Bool.false_eq_true, if_false, hs]
  | ok t1 =>
    obtain ⟨K, T, σ, hK⟩ := expand_main w he hg anc.isEmpty t1 [] rfl (fun h => by
      have ha : anc = [] := by simpa using h
      subst ha
      exact ⟨setVirtual_hasPath hs, by simp, hr rfl⟩)
    refine ⟨K + 1, fun k hk => ?_⟩
    obtain ⟨k, rfl⟩ : ∃ j, k = j + 1 := ⟨k - 1, by omega⟩
    obtain ⟨c, c', h1, h2, h3, h4⟩ := hK (k + 1) (by omega) 1 1
    refine ⟨.ok (some (T, if c ≥ 0 then eFILE_LOAD_ERROR else eOK)), ?_, by simp, ?_⟩
    · unfold loadFile loadVia
      rw [if_neg hf, hv, hs]
      simp only [hc]
      rw [getText_feedI k w file _ t1 ls hg, h1]
    · have h2' : feed (k + 1) { processInclude := true, loadComments := w.loadComments, load := fun _ t => t } t1 [] 1 ls' = some (T, c') := h2
      unfold load
      simp only [Bool.false_eq_true, if_false, hs, get_feed' k _ t1 ls' hgl', h2']
      by_cases hcc : c ≥ 0
      · have : c' ≥ 0 := by
          by_cases h : c' ≥ 0
          · exact h
          · have := h3.2 (h4.1 (by omega)); omega
        simp [hcc, this]
      · have : ¬ c' ≥ 0 := by
          intro h
          have := h4.2 (h3.1 (by omega)); omega
        simp [hcc, this]

/-- C113: which lines are include lines: white space, `_INCLUDE_`, a colon and the text. -/
theorem c113_include_lines (l raw : S) : includeText l = some raw ↔
    ∃ sp : S, (∀ c ∈ sp, isSpace c = true) ∧ l = sp ++ "_INCLUDE_:".toList ++ raw := by
  rw [includeText_iff]
  constructor <;> rintro ⟨sp, h1, h2⟩ <;> exact ⟨sp, h1, by rw [h2]; simp [reservedInclude]⟩

/-- C113: the result of loading an included file is not passed on: a file that only includes another one
is loaded successfully whatever happens there, and everything that was read up to an error is kept. (Into a
subtree, or into a root that already has a path.) -/
theorem c113_included_error_not_reported (w : World) (file raw l : S) (hf : file ≠ []) (hc : w.content file = some (text [l]))
    (hg : GoodLine l) (hi : IsInclude l raw) (r : Bool) (t T : Tree) (code : Int) (hr : r = true → (lookup [reservedPath] t).isSome)
    (k : Nat) (h : loadFile k w r (w.target file raw) t = .ok (some (T, code))) :
    loadFile (k + 1) w r file t = .ok (some (T, eOK)) := by
  have hv : (if r = true then setVirtual [] (w.path file) (w.name file) t else .ok t) = .ok t := by
    split
    · rename_i h'; exact setVirtual_same _ _ _ (hr h')
    · rfl
  unfold loadFile loadVia
  rw [if_neg hf, hv]
  simp only [hc]
  rw [getText_feedI k w file r t [l] (by simpa using hg)]
  have := feedI_include ((includeText_iff l raw).2 hi) file r k t [] t T code 1 [] rfl (by simpa [loadFile] using h) (by simp)
  rw [this]
  simp [feedI, updAt]

/-- C113: if every file of a set includes a file of that set (behind lines that are understood), loading any
of them never returns: the recursion does not end. -/
theorem c113_cycle_never_returns (w : World) (C : S → Prop)
    (hC : ∀ f, C f → ∃ pre l raw post d, w.content f = some (text (pre ++ l :: post)) ∧
      (∀ x ∈ pre ++ l :: post, GoodLine x) ∧ (∀ x ∈ pre, ∀ y, ¬ IsInclude x y) ∧ depthAfter 0 false pre = some d ∧
      IsInclude l raw ∧ w.target f raw ≠ [] ∧ C (w.target f raw)) :
    ∀ (k : Nat) (f : S) (r : Bool) (t T : Tree) (code : Int), C f → f ≠ [] → loadFile k w r f t ≠ .ok (some (T, code)) := by
  -- the same for `get`
  have hget : ∀ (k : Nat) (f : S) (r : Bool) (t T : Tree) (code : Int) (x : S), C f → w.content f = some x →
      getText k w f r t x ≠ .ok (some (T, code)) := by
    intro k
    induction k using Nat.strongRecOn with
    | ind k ih =>
      intro f r t T code x hf hx
      obtain ⟨pre, l, raw, post, d, h1, h2, h3, h4, h5, h6, h7⟩ := hC f hf
      rw [h1] at hx
      cases hx
      cases k with
      | zero => intro h; simp [getText, getI] at h
      | succ k =>
        rw [getText_feedI k w f r t _ h2]
        -- walk through `pre`
        have walk : ∀ (n : Nat) (pre : List S), pre.length ≤ n → (∀ x ∈ pre ++ l :: post, GoodLine x) → (∀ x ∈ pre, ∀ y, ¬ IsInclude x y) →
            ∀ (P : List S), (∃ d, depthAfter P.length false pre = some d) → ∀ (j : Nat), j ≤ k + 1 → ∀ (t : Tree) (ln : Nat),
            feedI j w f r t P ln (pre ++ l :: post) ≠ .ok (some (T, code)) := by
          intro n
          induction n with
          | zero =>
            intro pre hn h2 h3 P hd j hj t ln
            have hp : pre = [] := List.length_eq_zero_iff.1 (by omega)
            subst hp
            cases j with
            | zero => intro h; simp [feedI, getI] at h
            | succ j =>
              rw [List.nil_append, feedI, getI, (includeText_iff l raw).2 h5]
              simp only [subAt_eq]
              cases hN : nodeAt P t with
              | none => intro h; cases h
              | some N =>
                simp only
                cases hl : loadVia w (fun t1 x => getI j w (w.target f raw) (r && P.isEmpty) t1 []
                    (readNextLine { rest := x }).2 1 (readNextLine { rest := x }).1) (r && P.isEmpty) (w.target f raw) N with
                | ub => intro h; cases h
                | throws e => intro h; cases h
                | ok o =>
                  cases o with
                  | none => intro h; cases h
                  | some nc =>
                    exfalso
                    obtain ⟨n', c'⟩ := nc
                    unfold loadVia at hl
                    rw [if_neg h6] at hl
                    generalize (if (r && P.isEmpty) = true then setVirtual [] (w.path (w.target f raw)) (w.name (w.target f raw)) N else .ok N) = o at hl
                    cases o with
                    | ub => cases hl
                    | throws e => cases hl
                    | ok t1 =>
                      simp only at hl
                      obtain ⟨pre2, l2, _, post2, _, hx2, _⟩ := hC _ h7
                      rw [hx2] at hl
                      simp only at hl
                      have := ih j (by omega) (w.target f raw) (r && P.isEmpty) t1
                      cases hq : getI j w (w.target f raw) (r && P.isEmpty) t1 [] (readNextLine { rest := text (pre2 ++ l2 :: post2) }).2 1
                          (readNextLine { rest := text (pre2 ++ l2 :: post2) }).1 with
                      | ub => rw [hq] at hl; cases hl
                      | throws e => rw [hq] at hl; cases hl
                      | ok o =>
                        cases o with
                        | none => rw [hq] at hl; cases hl
                        | some v =>
                          obtain ⟨T2, e2⟩ := v
                          exact this T2 e2 _ h7 hx2 hq
          | succ n ihn =>
            intro pre hn h2 h3 P hd j hj t ln
            cases pre with
            | nil => exact ihn [] (by simp) h2 h3 P hd j hj t ln
            | cons x pre =>
              obtain ⟨d, hd⟩ := hd
              have main : ∀ cs b' fn mv P1, pre = cs ++ b' → Move (lineCfg w) x cs fn mv → mv P = some P1 →
                  depthAfter P1.length false b' = some d → feedI j w f r t P ln (x :: pre ++ l :: post) ≠ .ok (some (T, code)) := by
                intro cs b' fn mv P1 hb hmv hm hdep
                subst hb
                have hinc : includeText x = none := includeText_none x (fun ⟨y, hy⟩ => h3 x (by simp) y hy)
                have hgr : ∀ y ∈ b' ++ l :: post, GoodLine y := fun y hy => h2 y (by
                  simp only [List.mem_append, List.mem_cons] at hy ⊢
                  grind)
                cases j with
                | zero => intro h; simp [feedI, getI] at h
                | succ j =>
                  have hrec : ∀ j', j' ≤ k + 1 → ∀ t ln, feedI j' w f r t P1 ln (b' ++ l :: post) ≠ .ok (some (T, code)) :=
                    fun j' hj' => ihn b' (by simp at hn; omega) hgr (fun y hy => h3 y (by simp [hy])) P1 ⟨d, hdep⟩ j' hj'
                  have hsplit : x :: (cs ++ b') ++ l :: post = x :: (cs ++ (b' ++ l :: post)) := by simp
                  rw [hsplit]
                  by_cases hjc : cs.length ≤ j
                  · obtain ⟨ln1, e1⟩ := feedI_move hmv hinc f r j t P P1 ln (b' ++ l :: post) hjc hm hgr
                    rw [e1]
                    exact hrec j (by omega) _ _
                  · -- not enough fuel for the comment: with more it would be the same
                    intro h
                    obtain ⟨ln', hrun⟩ := hmv.run cs.length t P P1 (ln + 1) (b' ++ l :: post) (Nat.le_refl _) hm
                    rw [feedI, getI, hinc] at h
                    simp only at h
                    cases hdl : doLine j (lineCfg w) t P { rest := text (cs ++ (b' ++ l :: post)) } (ln + 1) x with
                    | none => rw [hdl] at h; cases h
                    | some res =>
                      have hmono : ∀ m, doLine (j + m) (lineCfg w) t P { rest := text (cs ++ (b' ++ l :: post)) } (ln + 1) x = some res := by
                        intro m
                        induction m with
                        | zero => exact hdl
                        | succ m ihm => exact doLine_mono _ _ _ _ _ _ _ _ ihm
                      have h8 := hmono (cs.length - j)
                      rw [show j + (cs.length - j) = cs.length by omega, hrun] at h8
                      cases h8
                      rw [hdl] at h
                      simp only at h
                      exact hrec j (by omega) _ _ ((next_feedI j w f r (updAt P fn t) P1 ln' (b' ++ l :: post) hgr).symm.trans h)
              rw [depthAfter] at hd
              have hact := doLine_act (lineCfg w) (lineCfg_ok w) x
              cases hk : kind x with
              | plain =>
                rw [hk] at hd hact
                obtain ⟨fn, hfn, hkp, hrun⟩ := hact
                exact main [] pre fn some P rfl (move_plain hfn hkp hrun) rfl hd
              | opens m =>
                rw [hk] at hd
                obtain ⟨q, hq, hmv⟩ := move_opens (lineCfg_ok w) hk
                refine main [] pre _ _ (P ++ q) rfl hmv rfl ?_
                rw [List.length_append, hq]; exact hd
              | comment =>
                rw [hk] at hd
                obtain ⟨cs, e, rest, rfl, c1, c2, c3⟩ := depthAfter_inside _ _ _ hd
                obtain ⟨fn, hmv⟩ := move_comment (lineCfg_ok w) hk cs e c1 c2 (fun c hc => h2 c (by simp [hc])) (h2 e (by simp))
                exact main (cs ++ [e]) rest fn some P (by simp) hmv rfl c3
              | closes =>
                rw [hk] at hd
                by_cases hQ : P = []
                · subst hQ; simp at hd
                · have h0 : P.length ≠ 0 := fun h => hQ (List.length_eq_zero_iff.1 h)
                  simp only [h0, if_false] at hd
                  refine main [] pre _ _ P.dropLast rfl (move_closes (lineCfg_ok w) hk) (by simp [pop, hQ]) ?_
                  rw [List.length_dropLast]; exact hd
              | bad => rw [hk] at hd; cases hd
        exact walk pre.length pre (Nat.le_refl _) h2 h3 [] ⟨d, h4⟩ (k + 1) (Nat.le_refl _) t 1
  intro k f r t T code hf hne h
  unfold loadFile loadVia at h
  rw [if_neg hne] at h
  generalize (if r = true then setVirtual [] (w.path f) (w.name f) t else .ok t) = o at h
  cases o with
  | ub => cases h
  | throws e => cases h
  | ok t1 =>
    simp only at h
    cases hx : w.content f with
    | none =>
      obtain ⟨_, _, _, _, _, h1, _⟩ := hC f hf
      rw [h1] at hx; cases hx
    | some x =>
      rw [hx] at h
      simp only at h
      cases hq : getText k w f r t1 x with
      | ub => rw [hq] at h; cases h
      | throws e => rw [hq] at h; cases h
      | ok o =>
        cases o with
        | none => rw [hq] at h; cases h
        | some v => obtain ⟨T2, e2⟩ := v; exact hget k f r t1 T2 e2 x hf hx hq

/-- C113: without `process_include` an include line is kept: the text becomes the attribute of a new first child
`_INCLUDE_` of the current node, and `printSubTree` writes the line again. -/
theorem c113_include_kept (l raw : S) (hg : GoodLine l) (hi : IsInclude l raw) (lc : Bool) (load : S → Tree → Tree) (t : Tree) (k : Nat)
    (csd : Int) (hcsd : 1 < csd) (upper : S) (hu : upper.getLast? = some ' ') :
    get (k + 1) { processInclude := false, loadComments := lc, load := load } t (text [l]) =
      some (t.withKids (.node (some reservedInclude) (some raw) true [] :: t.kids), -1) ∧
    printTree csd upper (.node (some reservedInclude) (some raw) true []) = .ok [upper ++ "_INCLUDE_:".toList ++ raw] := by
  constructor
  · rw [get_feed' k _ t [l] (by simpa using hg)]
    obtain ⟨sp, hs, rfl⟩ := hi
    have hd : (sp ++ reservedInclude ++ ':' :: raw).dropWhile isSpace = reservedInclude ++ ':' :: raw := by
      rw [List.append_assoc]
      rw [List.dropWhile_append_of_pos hs]
      rfl
    have hc := cut_append ':' reservedInclude raw (by decide)
    have h1 : reservedInclude ≠ [] := by decide
    have h2 : reservedInclude = includeStr := rfl
    have h3 : (reservedInclude ++ ':' :: raw).head? ≠ some '#' := by simp [reservedInclude]
    rw [feed, getLoop]
    simp only [doLine, hd, hc, h1, if_false, h3]
    simp only [h2, if_true]
    simp [text, readNextLine_end, updAt, newNode, setThis]
  · have h1 : ¬ (some reservedInclude = some filePathStr ∨ some reservedInclude = some fileNameStr) := by decide
    have h2 : (reservedInclude == commentStr) = false := by decide
    have h3 : isMultilineComment (.node (some reservedInclude) (some raw) true []) = .ok false := by
      simp [isMultilineComment, isComment, Tree.desc, h2]
    have h4 : endsWithSpace upper = true := by simp [endsWithSpace, hu]
    have h5 : ¬ 1 ≥ csd := by omega
    simp only [printTree, h1, if_false, h3, contains, containsL, hasMultilineComment, comment, h4, if_true, printList]
    simp [h5, reservedInclude]

/-! ## The name of the included file -/

/-- C113: an absolute name is taken as it is. -/
theorem c113_target_absolute (env : FP.Env) (k : Nat) (hk : 0 < k) (dir x : S) (h1 : x.head? = some '/') (h2 : '$' ∉ x) (h3 : '\\' ∉ x) :
    includeTarget env k dir x = some x := by
  obtain ⟨k, rfl⟩ : ∃ j, k = j + 1 := ⟨k - 1, by omega⟩
  cases x with
  | nil => cases h1
  | cons c cs =>
    simp only [List.head?_cons, Option.some.injEq] at h1
    subst h1
    simp [includeTarget, FP.replaceEnvironment, FP.envLoop, FP.find_none_of_not_mem ['{'] '$' _ h2, FP.exchange_id _ h3, FP.isRelative]

/-- C113: a relative name is taken relative to the directory of the file with the include line, not to the current
directory, and `.` and `..` are resolved. -/
theorem c113_target_relative (env : FP.Env) (cs us : List S) (last : S) (k : Nat)
    (hcs : ∀ c ∈ cs ++ us, FP.Comp c) (hl : '/' ∉ last ∧ '\\' ∉ last ∧ '$' ∉ last) (hd : ∀ c ∈ us, '$' ∉ c)
    (hsafe : FP.StaysBelowRoot [] (cs ++ us)) (hk : (cs ++ us).length < k) :
    includeTarget env k (FP.render cs ++ ['/']) (us.flatMap (· ++ ['/']) ++ last) =
      some (FP.render (FP.resolve [] (cs ++ us)) ++ '/' :: last) := by
  obtain ⟨k, rfl⟩ : ∃ j, k = j + 1 := ⟨k - 1, by omega⟩
  have hb : '\\' ∉ us.flatMap (· ++ ['/']) ++ last := by
    simp only [List.mem_append, List.mem_flatMap, not_or]
    refine ⟨?_, hl.2.1⟩
    rintro ⟨c, hc, hm⟩
    rcases hm with hm | hm
    · exact (hcs c (by simp [hc])).back hm
    · simp at hm
  have hdd : '$' ∉ us.flatMap (· ++ ['/']) ++ last := by
    simp only [List.mem_append, List.mem_flatMap, not_or]
    refine ⟨?_, hl.2.2⟩
    rintro ⟨c, hc, hm⟩
    rcases hm with hm | hm
    · exact hd c hc hm
    · simp at hm
  have hrel : FP.isRelative (us.flatMap (· ++ ['/']) ++ last) = true := by
    cases us with
    | nil =>
      cases last with
      | nil => rfl
      | cons c r =>
        have : c ≠ '/' := fun h => hl.1 (by simp [h])
        simp [FP.isRelative, this]
    | cons u us =>
      have hu := hcs u (by simp)
      cases u with
      | nil => exact absurd rfl hu.ne
      | cons c r =>
        have : c ≠ '/' := fun h => hu.slash (by simp [h])
        simp [FP.isRelative, this]
  have henv : FP.replaceEnvironment env (k + 1) (us.flatMap (· ++ ['/']) ++ last) = some (us.flatMap (· ++ ['/']) ++ last) := by
    unfold FP.replaceEnvironment
    split
    · rfl
    · simp only [FP.envLoop, FP.find_none_of_not_mem ['{'] '$' _ hdd]
  have hjoin : FP.render cs ++ ['/'] ++ (us.flatMap (· ++ ['/']) ++ last) = FP.render (cs ++ us) ++ '/' :: last := by
    rw [FP.render_append]
    have : ∀ us : List S, '/' :: (us.flatMap (· ++ ['/']) ++ last) = FP.render us ++ '/' :: last := by
      intro us
      induction us with
      | nil => rfl
      | cons u us ih =>
        have : FP.render (u :: us) = '/' :: u ++ FP.render us := rfl
        rw [this, List.append_assoc, ← ih]
        simp
    rw [List.append_assoc, List.append_assoc, ← this us]
    rfl
  simp only [includeTarget, henv, FP.exchange_id _ hb, hrel, if_true, hjoin]
  exact FP.c37_normalize_resolves_partial (cs ++ us) last (k + 1) hcs ⟨hl.1, hl.2.1⟩ hsafe (by omega)

/-! ## Examples -/

instance (l : S) : Decidable (GoodLine l) := by unfold GoodLine; infer_instance

/-- Files with include lines: `m` includes `x` inside a block, `x` includes `y` and a missing file; `c` and `d` include
each other; `e` has a wrong line; `f` includes `e`. -/
def demo : World where
  target := fun _ raw => raw
  path := fun _ => ['/']
  name := fun f => f
  content := fun f =>
    if f = ['m'] then some (text ["a{".toList, "  _INCLUDE_:x".toList, "}".toList, "b:2".toList])
    else if f = ['x'] then some (text ["_COMMENT_{".toList, "_INCLUDE_:c".toList, "}_COMMENT_".toList, "p{".toList, "q:1".toList, "}".toList, "_INCLUDE_:z".toList, "_INCLUDE_:y".toList])
    else if f = ['y'] then some (text ["r:3".toList])
    else if f = ['c'] then some (text ["s:1".toList, "_INCLUDE_:d".toList])
    else if f = ['d'] then some (text ["_INCLUDE_:c".toList])
    else if f = ['e'] then some (text ["k:1".toList, "wrong".toList, "n:2".toList])
    else if f = ['f'] then some (text ["_INCLUDE_:e".toList])
    else none
  loadComments := false

theorem demo_x : Expands demo ['x']
    ["_COMMENT_{".toList, "_INCLUDE_:c".toList, "}_COMMENT_".toList, "p{".toList, "q:1".toList, "}".toList, "_INCLUDE_:z".toList, "_INCLUDE_:y".toList]
    ["_COMMENT_{".toList, "_INCLUDE_:c".toList, "}_COMMENT_".toList, "p{".toList, "q:1".toList, "}".toList, "r:3".toList] := by
  have hy : Expands demo ['y'] ["r:3".toList] ["r:3".toList] :=
    .line _ _ _ _ (fun ⟨raw, h⟩ => by have := (includeText_iff _ _).2 h; simp [includeText, cut, isSpace, includeStr] at this)
      (by decide +kernel) (.nil _)
  have noInc : ∀ l : S, includeText l = none → ¬ ∃ raw, IsInclude l raw := fun l hl ⟨raw, h⟩ => by
    rw [(includeText_iff l raw).2 h] at hl; cases hl
  refine .comment _ _ ["_INCLUDE_:c".toList] "}_COMMENT_".toList _ _ (by decide +kernel) (by decide +kernel) (by decide +kernel) ?_
  refine .line _ _ _ _ (noInc _ (by decide +kernel)) (by decide +kernel) ?_
  refine .line _ _ _ _ (noInc _ (by decide +kernel)) (by decide +kernel) ?_
  refine .line _ _ _ _ (noInc _ (by decide +kernel)) (by decide +kernel) ?_
  refine .missing _ _ ['z'] _ _ ⟨[], by simp, by decide +kernel⟩ (.inr (by decide +kernel)) ?_
  exact .found _ _ ['y'] ["r:3".toList] ["r:3".toList] [] [] ⟨[], by simp, by decide +kernel⟩ (by decide) (by decide +kernel)
    (by intro l hl; simp only [List.mem_singleton] at hl; subst hl; exact ⟨by decide +kernel, by decide +kernel, by decide +kernel⟩)
    hy (by decide +kernel) (.nil _)

/-- The file `m` stands for this text. -/
theorem demo_m : Expands demo ['m'] ["a{".toList, "  _INCLUDE_:x".toList, "}".toList, "b:2".toList]
    (["a{".toList] ++ (["_COMMENT_{".toList, "_INCLUDE_:c".toList, "}_COMMENT_".toList, "p{".toList, "q:1".toList, "}".toList, "r:3".toList] ++
      ["}".toList, "b:2".toList])) := by
  have noInc : ∀ l : S, includeText l = none → ¬ ∃ raw, IsInclude l raw := fun l hl ⟨raw, h⟩ => by
    rw [(includeText_iff l raw).2 h] at hl; cases hl
  refine .line _ _ _ _ (noInc _ (by decide +kernel)) (by decide +kernel) ?_
  refine .found _ _ ['x'] _ ["_COMMENT_{".toList, "_INCLUDE_:c".toList, "}_COMMENT_".toList, "p{".toList, "q:1".toList, "}".toList, "r:3".toList] _ _ ⟨"  ".toList, by decide +kernel, by decide +kernel⟩ (by decide) rfl ?_ demo_x (by decide +kernel) ?_
  · decide +kernel
  · refine .line _ _ _ _ (noInc _ (by decide +kernel)) (by decide +kernel) ?_
    exact .line _ _ _ _ (noInc _ (by decide +kernel)) (by decide +kernel) (.nil _)

/-- A tree with some child, as `load` needs it. -/
def demoTree : Tree := setAttribute (some ['o']) (some ['0']) (newNode none)

example : (loadFile 20 demo true ['m'] demoTree).map
    (fun r => r.map fun r => ([lookup ["a".toList, "p".toList, "q".toList] r.1, lookup ["a".toList, "r".toList] r.1, lookup ["b".toList] r.1,
      lookup [reservedName] r.1], r.2)) =
    .ok (some ([some ['1'], some ['3'], some ['2'], some ['m']], 0)) := by decide +kernel

/-- The hypotheses of `c113_cycle_never_returns` are met by the files `c` and `d`. -/
example (k : Nat) (t T : Tree) (code : Int) : loadFile k demo true ['c'] t ≠ .ok (some (T, code)) := by
  refine c113_cycle_never_returns demo (fun f => f = ['c'] ∨ f = ['d']) ?_ k ['c'] true t T code (.inl rfl) (by decide)
  rintro f (rfl | rfl)
  · refine ⟨["s:1".toList], "_INCLUDE_:d".toList, ['d'], [], 0, by decide +kernel, by decide +kernel, ?_, by decide +kernel,
      ⟨[], by simp, by decide +kernel⟩, by decide, .inr rfl⟩
    intro x hx y hy
    simp only [List.mem_singleton] at hx
    subst hx
    have := (includeText_iff _ _).2 hy
    have h2 : includeText "s:1".toList = none := by decide +kernel
    rw [h2] at this; cases this
  · exact ⟨[], "_INCLUDE_:c".toList, ['c'], [], 0, by decide +kernel, by decide +kernel, by simp, by decide +kernel,
      ⟨[], by simp, by decide +kernel⟩, by decide, .inl rfl⟩

/-- The wrong line of `e` is reported for `e`, not for `f`. -/
example : (loadFile 20 demo false ['e'] demoTree).map (fun r => r.map fun r => ([lookup [['k']] r.1, lookup [['n']] r.1], r.2)) =
      .ok (some ([some ['1'], none], 3)) ∧
    (loadFile 20 demo false ['f'] demoTree).map (fun r => r.map fun r => ([lookup [['k']] r.1, lookup [['n']] r.1], r.2)) =
      .ok (some ([some ['1'], none], 0)) := ⟨by decide +kernel, by decide +kernel⟩

example : includeTarget (fun _ => none) 9 "/etc/app/".toList "../common.conf".toList = some "/etc/common.conf".toList := by decide +kernel

end Verif.AT.Inc
