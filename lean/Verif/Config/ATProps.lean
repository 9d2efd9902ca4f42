import Verif.Config.ATLemmas

/-!
# Properties C32, C33, C34, C36 of `AttributeTree`
-/
namespace Verif.AT

/-- The C string of a literal. -/
def str (s : String) : S := s.toList

/-! ## What `getAttribute` computes -/

theorem getAttribute_plain (anc : List Tree) (t : Tree) (s : S) (dflt : Option S)
    (hs : ¬ Special s) :
    getAttribute anc t (some s) dflt =
      (walk (comps s) t).map (fun r => (r.bind Tree.attr).or dflt) := by
  have h1 : filePathStr.isSuffixOf s = false := by
    cases h : filePathStr.isSuffixOf s with
    | false => rfl
    | true => exact absurd (.inl (List.isSuffixOf_iff_suffix.1 h)) hs
  have h2 : fileNameStr.isSuffixOf s = false := by
    cases h : fileNameStr.isSuffixOf s with
    | false => rfl
    | true => exact absurd (.inr (List.isSuffixOf_iff_suffix.1 h)) hs
  simp only [getAttribute, h1, h2, Bool.false_eq_true, if_false]
  cases walk (comps s) t with
  | ok r =>
    cases r with
    | none => simp [Outcome.map]
    | some n => cases hn : n.attr <;> simp [Outcome.map, hn]
  | throws e => rfl
  | ub => rfl

/-- `getAttribute` never returns a wrong value: when it returns, the result is the
attribute stored at that path, or the default if there is none. -/
theorem c33_get_is_lookup (anc : List Tree) (t : Tree) (s : S) (dflt r : Option S)
    (hs : ¬ Special s) (h : getAttribute anc t (some s) dflt = .ok r) :
    r = (lookup (comps s) t).or dflt := by
  rw [getAttribute_plain anc t s dflt hs] at h
  cases hw : walk (comps s) t with
  | ok x =>
    rw [hw] at h
    simp only [Outcome.map, Outcome.ok.injEq] at h
    rw [← h, walk_ok hw]; rfl
  | throws e => rw [hw] at h; simp [Outcome.map] at h
  | ub => rw [hw] at h; simp [Outcome.map] at h

/-- A stored attribute is always found. -/
theorem c33_stored_is_found (anc : List Tree) (t : Tree) (s : S) (dflt : Option S) (v : S)
    (hs : ¬ Special s) (h : lookup (comps s) t = some v) :
    getAttribute anc t (some s) dflt = .ok (some v) := by
  rw [getAttribute_plain anc t s dflt hs]
  obtain ⟨n, h1, h2⟩ := walk_of_lookup h
  simp [h1, h2, Outcome.map]

/-- `getAttribute` is undefined exactly if a proper prefix of the path leads to a node
without children (the code then calls `subTree` through a `NULL` pointer). -/
theorem c33_get_undefined_iff (anc : List Tree) (t : Tree) (s : S) (dflt : Option S)
    (hs : ¬ Special s) :
    getAttribute anc t (some s) dflt = .ub ↔
      ∃ r d q n, comps s = r ++ d :: q ∧ nodeAt r t = some n ∧ n.kids = [] := by
  rw [getAttribute_plain anc t s dflt hs, ← walk_ub]
  cases walk (comps s) t <;> simp [Outcome.map]

/-! ## C32: get after set -/

/-- C32: after `setAttribute(path, v)`, `getAttribute(path)` returns `v`, for every dotted
path of non-empty components (not ending in one of the two reserved names), in every tree. -/
theorem c32_get_after_set_partial (anc : List Tree) (t : Tree) (p : List S) (v : S)
    (dflt : Option S) (hp : p ≠ []) (hc : ∀ d ∈ p, Plain d) (hs : ¬ Special (dotted p)) :
    getAttribute anc (setAttribute (some (dotted p)) (some v) t) (some (dotted p)) dflt
      = .ok (some v) := by
  have hcd := comps_dotted p hp (fun d hd => (hc d hd).2)
  apply c33_stored_is_found _ _ _ _ _ hs
  simp only [setAttribute, hcd, lookup_setC, effective_plain p (fun d hd => (hc d hd).1), if_true]

/-- C32, the reserved names, exactly, in a tree that is its own root: for a path that ends in a reserved name
(`_ATTRIBUTE_TREE_FILE_PATH_` counts first) but is not that name itself, `getAttribute` after `setAttribute`
returns the attribute stored under the reserved name at the root, and the value just set only if there is none. -/
theorem c32_get_after_set_reserved (t : Tree) (p : List S) (v : S) (dflt : Option S) (hp : p ≠ [])
    (hc : ∀ d ∈ p, Plain d) (d : S) (hd : d = if reservedPath <:+ dotted p then reservedPath else reservedName)
    (hs : d <:+ dotted p) (hne : p ≠ [d]) :
    getAttribute [] (setAttribute (some (dotted p)) (some v) t) (some (dotted p)) dflt
      = .ok (some ((lookup [d] t).getD v)) := by
  change d = if filePathStr <:+ dotted p then filePathStr else fileNameStr at hd
  have hcd := comps_dotted p hp (fun d hd => (hc d hd).2)
  have hee := effective_plain p (fun d hd => (hc d hd).1)
  have hl : lookup p (setC (some v) p t) = some v := by simp [lookup_setC, hee]
  have hl2 : lookup [d] (setC (some v) p t) = lookup [d] t := by
    rw [lookup_setC, hee, if_neg (fun h => hne h.symm)]
  obtain ⟨n, h1, h2⟩ := walk_of_lookup hl
  have hk : (setC (some v) p t).kids.isEmpty = false := by
    cases p with
    | nil => exact absurd rfl hp
    | cons e es =>
      have hf := find_setC (some v) e es t (hc e (by simp)).1 e
      rw [if_pos rfl] at hf
      exact find_some_ne_nil hf
  have hspec : (if filePathStr.isSuffixOf (dotted p) then getSpecial [] (setC (some v) p t) filePathStr
      else if fileNameStr.isSuffixOf (dotted p) then getSpecial [] (setC (some v) p t) fileNameStr else .ok none)
      = .ok (lookup [d] t) := by
    have hg : getSpecial [] (setC (some v) p t) d = .ok (lookup [d] t) := by
      rw [← hl2]
      simp only [getSpecial, specialLoop, subTreeOf, hk, lookup, nodeAt_cons]
      cases find d (setC (some v) p t).kids <;> simp [Outcome.map, nodeAt]
    by_cases hfp : filePathStr <:+ dotted p
    · rw [if_pos hfp] at hd
      rw [if_pos (List.isSuffixOf_iff_suffix.2 hfp), ← hd, hg]
    · rw [if_neg hfp] at hd
      have : filePathStr.isSuffixOf (dotted p) = false := by
        cases h : filePathStr.isSuffixOf (dotted p) with
        | false => rfl
        | true => exact absurd (List.isSuffixOf_iff_suffix.1 h) hfp
      rw [hd] at hs
      rw [this, if_neg (by simp), if_pos (List.isSuffixOf_iff_suffix.2 hs), ← hd, hg]
  simp only [setAttribute, hcd, getAttribute, hspec]
  cases lookup [d] t with
  | some x => simp
  | none => simp [h1, h2]

/-- After setting `NULL`, `getAttribute(path)` returns the default. -/
theorem c32_get_after_reset (anc : List Tree) (t : Tree) (p : List S)
    (dflt : Option S) (hp : p ≠ []) (hc : ∀ d ∈ p, Plain d) (hs : ¬ Special (dotted p)) :
    getAttribute anc (setAttribute (some (dotted p)) none t) (some (dotted p)) dflt
      = .ok dflt := by
  have hcd := comps_dotted p hp (fun d hd => (hc d hd).2)
  have hl : lookup p (setC none p t) = none := by
    simp [lookup_setC, effective_plain p (fun d hd => (hc d hd).1)]
  have hn : ∃ n, nodeAt p (setC none p t) = some n := by
    have hc' := fun d hd => (hc d hd).1
    clear hl hs hcd hp hc
    induction p generalizing t with
    | nil => exact ⟨_, rfl⟩
    | cons d ds ih =>
      rw [nodeAt_cons, find_setC none d ds t (hc' d (by simp))]
      simpa using ih _ (fun x hx => hc' x (by simp [hx]))
  obtain ⟨n, hn⟩ := hn
  rw [getAttribute_plain _ _ _ _ hs, hcd]
  simp only [setAttribute, hcd, walk_some hn]
  have : n.attr = none := by simpa [lookup, hn] using hl
  simp [Outcome.map, this]

/-- `isAttribute` compares with, or tests the presence of, what `getAttribute` returns. -/
theorem c32_isAttribute (anc : List Tree) (t : Tree) (p : Option S) (v : Option S) (x : S)
    (h : getAttribute anc t p none = .ok v) :
    (isAttribute anc t p (some x) = .ok true ↔ v = some x) ∧ (isAttribute anc t p (some x) = .ok false ↔ v ≠ some x) ∧
    (isAttribute anc t p none = .ok true ↔ v ≠ none) ∧ (isAttribute anc t p none = .ok false ↔ v = none) := by
  simp only [isAttribute, h, Outcome.map]
  cases v <;> simp

/-- After `setAttribute(path, v)`, `isAttribute(path, w)` holds iff `w = v`. -/
theorem c32_isAttribute_after_set (anc : List Tree) (t : Tree) (p : List S) (v w : S)
    (hp : p ≠ []) (hc : ∀ d ∈ p, Plain d) (hs : ¬ Special (dotted p)) :
    isAttribute anc (setAttribute (some (dotted p)) (some v) t) (some (dotted p)) (some w) = .ok (decide (w = v)) := by
  have h := c32_get_after_set_partial anc t p v none hp hc hs
  have := c32_isAttribute anc _ _ _ w h
  by_cases hw : w = v
  · rw [decide_eq_true hw]; exact this.1.2 (by rw [hw])
  · rw [decide_eq_false hw]; exact this.2.1.2 (by simpa using fun h => hw h.symm)

/-- C32, `getOrSetDefault`, for every tree, path and default: an attribute stored at the path is returned and the tree
stays as it is; if there is none, the default is returned and stored, at that path only, and every later call returns
it whatever its default; and nothing else can happen except the undefined read through a missing child list. -/
theorem c32_get_or_set_default (anc : List Tree) (t : Tree) (p : List S) (v : S) (hp : p ≠ [])
    (hc : ∀ d ∈ p, Plain d) (hs : ¬ Special (dotted p)) :
    (∀ w, lookup p t = some w → getOrSetDefault anc t (some (dotted p)) (some v) = .ok (some w, t)) ∧
    (lookup p t = none → getOrSetDefault anc t (some (dotted p)) (some v) = .ub ∨
      ∃ t', getOrSetDefault anc t (some (dotted p)) (some v) = .ok (some v, t') ∧
        (∀ q, lookup q t' = if q = p then some v else lookup q t) ∧
        ∀ w, getOrSetDefault anc t' (some (dotted p)) (some w) = .ok (some v, t')) ∧
    (getOrSetDefault anc t (some (dotted p)) (some v) = .ub ↔
      ∃ r d q n, p = r ++ d :: q ∧ nodeAt r t = some n ∧ n.kids = []) := by
  have hcd := comps_dotted p hp (fun d hd => (hc d hd).2)
  have hee := effective_plain p (fun d hd => (hc d hd).1)
  have hfound : ∀ (t : Tree) (w : S) (d : Option S), lookup p t = some w →
      getOrSetDefault anc t (some (dotted p)) d = .ok (some w, t) := by
    intro t w d h
    have := c33_stored_is_found anc t (dotted p) none w hs (by rw [hcd]; exact h)
    simp only [getOrSetDefault, this]
  have hnone : ∀ r, getAttribute anc t (some (dotted p)) none = .ok r → r = lookup p t := by
    intro r h
    have := c33_get_is_lookup anc t (dotted p) none r hs h
    rw [this, hcd]; cases lookup p t <;> rfl
  have hub := c33_get_undefined_iff anc t (dotted p) none hs
  rw [hcd] at hub
  have hgu : getOrSetDefault anc t (some (dotted p)) (some v) = .ub ↔ getAttribute anc t (some (dotted p)) none = .ub := by
    unfold getOrSetDefault
    split <;> simp_all
  refine ⟨fun w h => hfound t w _ h, fun h => ?_, hgu.trans hub⟩
  cases hg : getAttribute anc t (some (dotted p)) none with
  | ub => exact Or.inl (hgu.2 hg)
  | throws e =>
    exfalso
    rw [getAttribute_plain anc t _ none hs] at hg
    cases hw : walk (comps (dotted p)) t with
    | ok x => rw [hw] at hg; cases hg
    | ub => rw [hw] at hg; cases hg
    | throws e' => exact absurd hw (by
        have : ∀ (q : List S) (t : Tree), walk q t ≠ .throws e' := by
          intro q
          induction q with
          | nil => intro t; simp [walk]
          | cons d ds ih =>
            intro t
            rw [walk, subTreeOf]
            by_cases hk : t.kids.isEmpty = true
            · rw [if_pos hk]; simp
            · rw [if_neg hk]
              cases find d t.kids with
              | none => simp
              | some k => exact ih k
        exact this _ _)
  | ok r =>
    have hr := hnone r hg
    rw [h] at hr; subst hr
    have hl : ∀ q, lookup q (setAttribute (some (dotted p)) (some v) t) = if q = p then some v else lookup q t := by
      intro q
      rw [show setAttribute (some (dotted p)) (some v) t = setC (some v) p t by simp only [setAttribute, hcd], lookup_setC, hee]
    exact Or.inr ⟨_, by simp only [getOrSetDefault, hg], hl, fun w => hfound _ v _ (by rw [hl, if_pos rfl])⟩

/-- Finding: on a new tree `getOrSetDefault` is undefined (the child list is a null pointer). -/
theorem c32_get_or_set_default_new : getOrSetDefault [] (newNode none) (some ['a']) (some ['x']) = .ub := by rfl

/-- On a tree with a child it stores the default, once. -/
example : getOrSetDefault [] (setAttribute (some ['b']) (some ['1']) (newNode none)) (some ['a']) (some ['x']) =
    .ok (some ['x'], setAttribute (some ['a']) (some ['x']) (setAttribute (some ['b']) (some ['1']) (newNode none))) ∧
    Plain ['a'] ∧ ¬ Special (dotted [['a']]) := by
  refine ⟨by rfl, ⟨by simp, by simp⟩, ?_⟩
  unfold Special dotted reservedPath reservedName
  decide

/-- The reserved names of the file format, as literal text. -/
theorem c32_reserved_names :
    String.ofList filePathStr = "_ATTRIBUTE_TREE_FILE_PATH_" ∧ String.ofList fileNameStr = "_ATTRIBUTE_TREE_FILE_NAME_" ∧
    String.ofList commentStr = "_COMMENT_" ∧ String.ofList commentEndStr = "}_COMMENT_" ∧
    String.ofList includeStr = "_INCLUDE_" := by decide +kernel

/-- The reserved names themselves can be set and read back. -/
theorem c32_virtual_get_after_set (anc : List Tree) (t : Tree) (v : S) (dflt : Option S) :
    getAttribute anc (setAttribute (some reservedPath) (some v) t) (some reservedPath) dflt
        = .ok (some v) ∧
    getAttribute anc (setAttribute (some reservedName) (some v) t) (some reservedName) dflt
        = .ok (some v) := by
  change getAttribute anc (setAttribute (some filePathStr) (some v) t) (some filePathStr) dflt = .ok (some v) ∧
    getAttribute anc (setAttribute (some fileNameStr) (some v) t) (some fileNameStr) dflt = .ok (some v)
  have key : ∀ d : S, comps d = [d] → d ≠ [] → ∀ t : Tree,
      getSpecial anc (setAttribute (some d) (some v) t) d = .ok (some v) := by
    intro d hd h0 t
    simp only [setAttribute, hd, getSpecial, specialLoop, subTreeOf]
    have hf := find_setC (some v) d [] t h0 d
    rw [if_pos rfl] at hf
    rw [find_some_ne_nil hf, hf]
    simp [Outcome.map, setC]
  constructor
  · have hsuf : filePathStr.isSuffixOf filePathStr = true := by decide +kernel
    simp only [getAttribute, hsuf, if_true,
      key filePathStr (by decide +kernel) (by decide +kernel) t]
  · have hsuf : fileNameStr.isSuffixOf fileNameStr = true := by decide +kernel
    have hsuf' : filePathStr.isSuffixOf fileNameStr = false := by decide +kernel
    simp only [getAttribute, hsuf, hsuf', if_true, Bool.false_eq_true, if_false,
      key fileNameStr (by decide +kernel) (by decide +kernel) t]

/-- A concrete case: replace an attribute three levels down. -/
def demo : Tree :=
  setAttribute (some (str "net.port")) (some (str "80"))
    (setAttribute (some (str "net.host.name")) (some (str "a")) (newNode none))

example : dotted [str "net", str "port"] = str "net.port" := by decide +kernel
example : Plain (str "net") ∧ Plain (str "port") := by unfold Plain; decide +kernel
example : ¬ Special (str "net.port") := by
  unfold Special
  rw [← List.isSuffixOf_iff_suffix, ← List.isSuffixOf_iff_suffix]; decide
example : getAttribute [] (setAttribute (some (str "net.port")) (some (str "8080")) demo)
    (some (str "net.port")) none = .ok (some (str "8080")) := by decide +kernel

/-- C32 fails for a path that ends in a reserved name but is not that name: the value of
the root is returned instead. -/
theorem c32_reserved_suffix_fails :
    ∃ t : Tree, ∃ p v, getAttribute [] (setAttribute (some p) (some v) t) (some p) none
      ≠ .ok (some v) :=
  ⟨setAttribute (some filePathStr) (some (str "/etc/")) (newNode none),
    str "backup._ATTRIBUTE_TREE_FILE_PATH_", str "/tmp/", by decide +kernel⟩

/-- C32 fails for a path with an empty component: the value is stored at the node before the
empty component, and reading the path back is undefined behaviour. -/
theorem c32_empty_component_fails :
    getAttribute [] (setAttribute (some (str "a..b")) (some (str "v")) (newNode none))
      (some (str "a..b")) none = .ub ∧
    getAttribute [] (setAttribute (some (str "a..b")) (some (str "v")) (newNode none))
      (some (str "a")) none = .ok (some (str "v")) := by
  decide +kernel

/-- Reading any path from a tree without children is undefined behaviour; `load` does this
on every tree that is still empty (AttributeTree.cpp:1250). -/
theorem c32_get_on_empty_tree_is_undefined (anc : List Tree) (d a : Option S) (c : Bool) (s : S)
    (dflt : Option S) : getAttribute anc (.node d a c []) (some s) dflt = .ub := by
  simp only [getAttribute]
  have hw : walk (comps s) (.node d a c []) = .ub := by
    cases h : comps s with
    | nil => exact absurd h (comps_ne_nil s)
    | cons x xs => simp [walk, subTreeOf, Tree.kids]
  have hg : ∀ x, getSpecial anc (.node d a c []) x = .ub := by
    intro x; simp [getSpecial, specialLoop, subTreeOf, Tree.kids, Outcome.map]
  simp only [hg, hw]
  by_cases h1 : filePathStr.isSuffixOf s = true
  · simp [h1]
  · by_cases h2 : fileNameStr.isSuffixOf s = true <;> simp [h1, h2]

/-! ## C33: frame -/

/-- C33: `setAttribute(p, a)` changes the attribute stored at exactly one path: the pieces
of `p` up to the first empty one. -/
theorem c33_set_changes_one_path (t : Tree) (p : S) (a : Option S) (q : List S) :
    lookup q (setAttribute (some p) a t) =
      if q = effective (comps p) then a else lookup q t := by
  simp only [setAttribute, lookup_setC]

/-- C33: a value found at another path is still found after `setAttribute(p, a)`. -/
theorem c33_other_values_stay_partial (anc : List Tree) (t : Tree) (p q : S) (a dflt : Option S)
    (v : S) (hs : ¬ Special q) (hq : comps q ≠ effective (comps p))
    (h : lookup (comps q) t = some v) :
    getAttribute anc t (some q) dflt = .ok (some v) ∧
    getAttribute anc (setAttribute (some p) a t) (some q) dflt = .ok (some v) := by
  refine ⟨c33_stored_is_found anc t q dflt v hs h, ?_⟩
  apply c33_stored_is_found anc _ q dflt v hs
  rw [c33_set_changes_one_path, if_neg hq, h]

/-- C33: whenever both calls return, `setAttribute(p, a)` has not changed what
`getAttribute(q)` returns. -/
theorem c33_unchanged_when_defined (anc : List Tree) (t : Tree) (p q : S) (a dflt r r' : Option S)
    (hs : ¬ Special q) (hq : comps q ≠ effective (comps p))
    (h : getAttribute anc t (some q) dflt = .ok r)
    (h' : getAttribute anc (setAttribute (some p) a t) (some q) dflt = .ok r') : r' = r := by
  rw [c33_get_is_lookup anc t q dflt r hs h, c33_get_is_lookup anc _ q dflt r' hs h',
    c33_set_changes_one_path, if_neg hq]

/-- C33 fails literally: setting `a` turns reading the absent `a.b` (which returned the
default) into undefined behaviour. -/
theorem c33_set_can_make_get_undefined :
    getAttribute [] demo (some (str "a.b")) (some (str "dflt")) = .ok (some (str "dflt")) ∧
    getAttribute [] (setAttribute (some (str "a")) (some (str "1")) demo) (some (str "a.b"))
      (some (str "dflt")) = .ub := by
  decide +kernel

example : lookup (comps (str "net.host.name")) demo = some (str "a") := by decide +kernel
example : comps (str "net.host.name") ≠ effective (comps (str "net.port")) := by decide +kernel

/-! ## C34: change tracking -/

/-- The tree after a series of `setAttribute(path, value)` calls. -/
def setAll (ops : List (S × Option S)) (t : Tree) : Tree :=
  ops.foldl (fun t o => setAttribute (some o.1) o.2 t) t

/-- C34: after `unmarkChanges()` and any series of `setAttribute` calls, `changed()` is true
iff one of the calls set `NULL` or a value different from the one stored at its path just
before. -/
theorem c34_changed_iff (t : Tree) (ops : List (S × Option S)) :
    changed (setAll ops (unmark t)) = true ↔
      ∃ pre o post, ops = pre ++ o :: post ∧
        (o.2 = none ∨ lookup (effective (comps o.1)) (setAll pre (unmark t)) ≠ o.2) := by
  have gen : ∀ (ops : List (S × Option S)) (u : Tree), changed (setAll ops u) = true ↔
      changed u = true ∨ ∃ pre o post, ops = pre ++ o :: post ∧
        (o.2 = none ∨ lookup (effective (comps o.1)) (setAll pre u) ≠ o.2) := by
    intro ops
    induction ops with
    | nil => intro u; simp [setAll]
    | cons o os ih =>
      intro u
      have : setAll (o :: os) u = setAll os (setAttribute (some o.1) o.2 u) := rfl
      rw [this, ih]
      simp only [setAttribute, changed_setC, Bool.or_eq_true, decide_eq_true_eq]
      constructor
      · rintro ((h | h) | ⟨pre, o', post, h1, h2⟩)
        · exact .inl h
        · exact .inr ⟨[], o, os, rfl, h⟩
        · exact .inr ⟨o :: pre, o', post, by rw [h1]; rfl, h2⟩
      · rintro (h | ⟨pre, o', post, h1, h2⟩)
        · exact .inl (.inl h)
        · cases pre with
          | nil =>
            simp only [List.nil_append, List.cons.injEq] at h1
            obtain ⟨rfl, rfl⟩ := h1
            exact .inl (.inr h2)
          | cons x xs =>
            simp only [List.cons_append, List.cons.injEq] at h1
            obtain ⟨rfl, rfl⟩ := h1
            exact .inr ⟨xs, o', post, rfl, h2⟩
  rw [gen, changed_unmark]
  simp

/-- C34 for values other than `NULL`: `changed()` iff some call stored a different value. -/
theorem c34_changed_iff_different (t : Tree) (ops : List (S × S)) :
    changed (setAll (ops.map fun o => (o.1, some o.2)) (unmark t)) = true ↔
      ∃ pre p v post, ops = pre ++ (p, v) :: post ∧
        lookup (effective (comps p)) (setAll (pre.map fun o => (o.1, some o.2)) (unmark t))
          ≠ some v := by
  rw [c34_changed_iff]
  constructor
  · rintro ⟨pre, o, post, h1, h2⟩
    obtain ⟨l1, l2, rfl, h3, h4⟩ := List.map_eq_append_iff.1 h1
    obtain ⟨x, l3, rfl, h5, h6⟩ := List.map_eq_cons_iff.1 h4
    refine ⟨l1, x.1, x.2, l3, rfl, ?_⟩
    subst h3 h5
    simpa using h2
  · rintro ⟨pre, p, v, post, rfl, h⟩
    exact ⟨pre.map fun o => (o.1, some o.2), (p, some v), post.map fun o => (o.1, some o.2),
      by simp, .inr h⟩

/-- `unmarkChanges` clears `changed()` and changes no attribute. -/
theorem c34_unmark (anc : List Tree) (t : Tree) (s : S) (dflt : Option S) (hs : ¬ Special s) :
    changed (unmark t) = false ∧
    getAttribute anc (unmark t) (some s) dflt = getAttribute anc t (some s) dflt := by
  refine ⟨changed_unmark t, ?_⟩
  rw [getAttribute_plain _ _ _ _ hs, getAttribute_plain _ _ _ _ hs,
    walk_map unmark_desc unmark_kids]
  cases walk (comps s) t with
  | ok r => cases r <;> simp [Outcome.map]
  | throws e => rfl
  | ub => rfl

/-- Setting `NULL` where there was no attribute reports a change although nothing differs. -/
theorem c34_null_marks_changed (t : Tree) (p : S) :
    changed (setAttribute (some p) none t) = true := by
  simp [setAttribute, changed_setC]

example : changed (setAll [(str "net.port", some (str "80"))] (unmark demo)) = false := by decide +kernel
example : changed (setAll [(str "net.port", some (str "81")), (str "net.port", some (str "80"))]
    (unmark demo)) = true := by decide +kernel

/-! ## C36: copies -/

/-- C36: a copy of a tree without duplicate siblings answers every `getAttribute` call like
the original (including where that is undefined), and is unchanged. -/
theorem c36_copy_partial (t : Tree) (s : Option S) (dflt : Option S) (hu : Uniq t) :
    getAttribute [] (copy t) s dflt = getAttribute [] t s dflt := by
  cases s with
  | none => rfl
  | some s =>
    have hsp : ∀ d, getSpecial [] (copy t) d = getSpecial [] t d := by
      intro d
      obtain ⟨hn, hc⟩ := (uniq_iff t).1 hu
      simp only [getSpecial, specialLoop, subTreeOf, copy_kids, find_rev_map copy_desc hn]
      have he : (t.kids.map copy).reverse.isEmpty = t.kids.isEmpty := by simp
      rw [he]
      by_cases hk : t.kids.isEmpty
      · simp [hk, Outcome.map]
      · simp only [hk]
        cases find d t.kids <;> simp [Outcome.map]
    simp only [getAttribute, hsp, walk_rev copy_desc copy_kids _ t hu]
    cases walk (comps s) t with
    | ok r => cases r <;> simp [Outcome.map]
    | throws e => rfl
    | ub => rfl

/-- A copy reports no changes. -/
theorem c36_copy_unchanged (t : Tree) : changed (copy t) = false := by
  have : ∀ t : Tree, changed (copy t) = false := by
    intro t
    refine Tree.rec (motive_1 := fun t => changed (copy t) = false)
      (motive_2 := fun ks => ∀ k ∈ ks, changed (copy k) = false) ?_ ?_ ?_ t
    · intro d a c ks ih
      rw [changed_eq, copy_kids]
      simp only [copy, Tree.flag, Tree.kids, Bool.false_or, List.any_reverse, List.any_map]
      rw [List.any_eq_false]
      intro k hk
      simp [ih k hk]
    · simp
    · intro k ks h1 h2 x hx
      rcases List.mem_cons.1 hx with rfl | hx
      · exact h1
      · exact h2 x hx
  exact this t

/-- Every tree built by `setAttribute` from an empty node is free of duplicate siblings. -/
theorem c36_uniq_of_sets (d : Option S) (ops : List (S × Option S)) :
    Uniq (setAll ops (newNode d)) := by
  have : ∀ (ops : List (S × Option S)) (u : Tree), Uniq u → Uniq (setAll ops u) := by
    intro ops
    induction ops with
    | nil => exact fun _ h => h
    | cons o os ih => exact fun u h => ih _ (uniq_setC _ _ u h)
  exact this ops _ (by rw [uniq_iff]; simp)

/-- With duplicate siblings (the constructor makes them, and so does reading a file with two
include lines without processing them) a copy answers differently: it finds the other one. -/
theorem c36_copy_fails_with_duplicates :
    ∃ t : Tree, getAttribute [] (copy t) (some (str "_INCLUDE_")) none
      ≠ getAttribute [] t (some (str "_INCLUDE_")) none :=
  ⟨.node none none false [.node (some includeStr) (some (str "b")) false [],
    .node (some includeStr) (some (str "a")) false []], by decide +kernel⟩

/-- C36, exactly, for every tree: the copy holds at each path what the original holds when at each level the last
child of the description is taken instead of the first. -/
theorem c36_copy_exact (t : Tree) (p : List S) : lookup p (copy t) = lastLookup p t := by
  have key : ∀ (p : List S) (t : Tree), nodeAt p (copy t) = (lastNodeAt p t).map copy := by
    intro p
    induction p with
    | nil => intro t; rfl
    | cons d ds ih =>
      intro t
      rw [nodeAt, lastNodeAt, copy_kids, ← List.map_reverse, List.find?_map]
      have : ((fun k : Tree => k.desc == some d) ∘ copy) = fun k => k.desc == some d := by
        funext k; simp
      rw [this]
      cases t.kids.reverse.find? (fun k => k.desc == some d) with
      | none => rfl
      | some k => exact ih k
  rw [lookup, lastLookup, key]
  cases lastNodeAt p t <;> simp

/-- C36: the copy of a copy is the original, duplicates or not, with all changes unmarked. -/
theorem c36_copy_twice (t : Tree) : copy (copy t) = unmark t := by
  have hL : ∀ ks : List Tree, unmarkL ks = ks.map unmark := by
    intro ks
    induction ks with
    | nil => rfl
    | cons k ks ih => simp [unmarkL, ih]
  refine Tree.rec (motive_1 := fun t => copy (copy t) = unmark t)
    (motive_2 := fun ks => (ks.map copy).map copy = ks.map unmark) ?_ ?_ ?_ t
  · intro d a c ks ih
    simp only [copy, copyL_eq, List.append_nil, List.map_reverse, List.reverse_reverse, unmark, hL, ih]
  · rfl
  · intro k ks h1 h2
    simp only [List.map_cons, h1, h2]

/-- `revertOrder` changes no answer and is its own inverse. -/
theorem c36_revert (t : Tree) (s : S) (dflt : Option S) (hu : Uniq t) (hs : ¬ Special s) :
    getAttribute [] (revert t) (some s) dflt = getAttribute [] t (some s) dflt ∧
    revert (revert t) = t := by
  constructor
  · rw [getAttribute_plain _ _ _ _ hs, getAttribute_plain _ _ _ _ hs,
      walk_rev revert_desc revert_kids _ t hu]
    cases walk (comps s) t with
    | ok r => cases r <;> simp [Outcome.map]
    | throws e => rfl
    | ub => rfl
  · refine Tree.rec (motive_1 := fun t => revert (revert t) = t)
      (motive_2 := fun ks => (ks.map revert).map revert = ks) ?_ ?_ ?_ t
    · intro d a c ks ih
      simp only [revert, revertL_eq, List.append_nil, List.map_reverse, List.reverse_reverse, ih]
    · rfl
    · intro k ks h1 h2
      simp only [List.map_cons, h1, h2]

example : Uniq demo := c36_uniq_of_sets none
  [(str "net.host.name", some (str "a")), (str "net.port", some (str "80"))]
example : getAttribute [] (copy demo) (some (str "net.host.name")) none
    = .ok (some (str "a")) := by decide +kernel

end Verif.AT
