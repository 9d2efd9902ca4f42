import Verif.Config.ATSearch

/-!
# C80: searching, comments, appending
-/
namespace Verif.AT

/-! ### Specification -/

/-- The node at a position. -/
def nodeAtPos : Tree → List Nat → Option Tree
  | t, [] => some t
  | t, i :: p =>
    match t.kids[i]? with
    | some k => nodeAtPos k p
    | none => none

/-- `p` comes before `q` when the tree is read from top to bottom: a node comes before what is below it,
and earlier subtrees before later ones. -/
inductive Before : List Nat → List Nat → Prop where
  | top {i : Nat} {q : List Nat} : Before [] (i :: q)
  | left {i j : Nat} {p q : List Nat} : i < j → Before (i :: p) (j :: q)
  | deeper {i : Nat} {p q : List Nat} : Before p q → Before (i :: p) (i :: q)

/-- The node has the description and, if one is given, the attribute. -/
def Matches (d : S) (a : Option S) (t : Tree) : Prop := t.desc = some d ∧ (a = none ∨ t.attr = a)

/-! ### search -/

mutual
theorem search_spec (d : S) (a : Option S) : ∀ t : Tree,
    (∀ p, search (some d) a t = some p → (∃ n, nodeAtPos t p = some n ∧ Matches d a n) ∧
      ∀ q n, nodeAtPos t q = some n → Before q p → ¬ Matches d a n) ∧
    (search (some d) a t = none → ∀ q n, nodeAtPos t q = some n → ¬ Matches d a n)
  | .node td ta c ks => by
    have hL := searchL_spec d a ks 0
    by_cases h : td = some d ∧ (a = none ∨ ta = a)
    · constructor
      · intro p hp
        simp only [search, h, and_self, if_true] at hp
        simp only [if_pos h, Option.some.injEq] at hp
        subst hp
        refine ⟨⟨_, rfl, h⟩, fun q n _ hb => ?_⟩
        cases hb
      · intro hp
        simp only [search] at hp
        rw [if_pos h] at hp
        cases hp
    · constructor
      · intro p hp
        simp only [search] at hp
        rw [if_neg h] at hp
        obtain ⟨i, q, e, k, hk, ⟨n, h1, h2⟩, h3, h4⟩ := hL.1 p hp
        simp only [Nat.zero_add] at e
        subst e
        refine ⟨⟨n, ?_, h2⟩, fun q' n' hq hb => ?_⟩
        · simp only [nodeAtPos, Tree.kids, hk]; exact h1
        · cases q' with
          | nil => cases hq; exact h
          | cons j q' =>
            simp only [nodeAtPos, Tree.kids] at hq
            cases hk' : ks[j]? with
            | none => rw [hk'] at hq; cases hq
            | some k' =>
              rw [hk'] at hq
              cases hb with
              | left hlt => exact h4 j k' hlt hk' q' n' hq
              | deeper hb =>
                rw [hk] at hk'
                cases hk'
                exact h3 q' n' hq hb
      · intro hp q n hq
        simp only [search] at hp
        rw [if_neg h] at hp
        cases q with
        | nil => cases hq; exact h
        | cons j q =>
          simp only [nodeAtPos, Tree.kids] at hq
          cases hk' : ks[j]? with
          | none => rw [hk'] at hq; cases hq
          | some k' =>
            rw [hk'] at hq
            exact hL.2 hp j k' hk' q n hq
theorem searchL_spec (d : S) (a : Option S) : ∀ (ks : List Tree) (i : Nat),
    (∀ p, searchL (some d) a i ks = some p → ∃ (j : Nat) (q : List Nat), p = (i + j) :: q ∧ ∃ k, ks[j]? = some k ∧
      (∃ n, nodeAtPos k q = some n ∧ Matches d a n) ∧ (∀ q' n, nodeAtPos k q' = some n → Before q' q → ¬ Matches d a n) ∧
      ∀ (j' : Nat) (k' : Tree), j' < j → ks[j']? = some k' → ∀ q' n, nodeAtPos k' q' = some n → ¬ Matches d a n) ∧
    (searchL (some d) a i ks = none → ∀ (j : Nat) (k : Tree), ks[j]? = some k → ∀ q n, nodeAtPos k q = some n → ¬ Matches d a n)
  | [], i => by
    constructor
    · intro p hp; cases hp
    · intro _ j k hk; simp at hk
  | k :: ks, i => by
    have hk := search_spec d a k
    have hL := searchL_spec d a ks (i + 1)
    cases hs : search (some d) a k with
    | some p0 =>
      have e : searchL (some d) a i (k :: ks) = some (i :: p0) := by simp only [searchL, hs]
      constructor
      · intro p hp
        rw [e] at hp
        cases hp
        exact ⟨0, p0, rfl, k, rfl, (hk.1 p0 hs).1, (hk.1 p0 hs).2, fun j' k' hj => by omega⟩
      · intro hp
        rw [e] at hp
        cases hp
    | none =>
      have e : searchL (some d) a i (k :: ks) = searchL (some d) a (i + 1) ks := by simp only [searchL, hs]
      rw [e]
      constructor
      · intro p hp
        obtain ⟨j, q, e, k', h1, h2, h3, h4⟩ := hL.1 p hp
        refine ⟨j + 1, q, by rw [e]; congr 1; omega, k', by simpa using h1, h2, h3, fun j' k'' hj hk' => ?_⟩
        cases j' with
        | zero =>
          simp only [List.getElem?_cons_zero, Option.some.injEq] at hk'
          subst hk'
          exact hk.2 hs
        | succ j' =>
          rw [List.getElem?_cons_succ] at hk'
          exact h4 j' k'' (by omega) hk'
      · intro hp j k' hk'
        cases j with
        | zero =>
          simp only [List.getElem?_cons_zero, Option.some.injEq] at hk'
          subst hk'
          exact hk.2 hs
        | succ j =>
          rw [List.getElem?_cons_succ] at hk'
          exact hL.2 hp j k' hk'
end

/-- **C80.** What `search` returns is a matching node of the tree, and no node before it matches. -/
theorem c80_search_first (d : S) (a : Option S) (t : Tree) (p : List Nat) (h : search (some d) a t = some p) :
    (∃ n, nodeAtPos t p = some n ∧ Matches d a n) ∧ ∀ q n, nodeAtPos t q = some n → Before q p → ¬ Matches d a n :=
  (search_spec d a t).1 p h

/-- **C80.** `search` returns `NULL` exactly if no node matches. -/
theorem c80_search_null (d : S) (a : Option S) (t : Tree) :
    search (some d) a t = none ↔ ∀ q n, nodeAtPos t q = some n → ¬ Matches d a n := by
  refine ⟨(search_spec d a t).2, fun h => ?_⟩
  cases hs : search (some d) a t with
  | none => rfl
  | some p =>
    obtain ⟨⟨n, h1, h2⟩, _⟩ := (search_spec d a t).1 p hs
    exact absurd h2 (h p n h1)

/-- **C80.** Without a description nothing is found. -/
theorem c80_search_no_description (a : Option S) (t : Tree) : search none a t = none := by
  cases t; rfl

/-! ### Comments -/

theorem comps_comment : comps commentStr = [commentStr] := by decide +kernel

theorem setComment_kids (c : Option S) (t : Tree) :
    (setComment c t).desc = t.desc ∧ (setComment c t).attr = t.attr ∧
    ((∃ l1 k l2, t.kids = l1 ++ k :: l2 ∧ (∀ x ∈ l1, isComment x = false) ∧ isComment k = true ∧
      (setComment c t).kids = l1 ++ setThis c k :: l2) ∨
     ((∀ x ∈ t.kids, isComment x = false) ∧ (setComment c t).kids = setThis c (newNode (some commentStr)) :: t.kids)) := by
  have hu : ∀ ks : List Tree, (∃ l1 k l2, ks = l1 ++ k :: l2 ∧ (∀ x ∈ l1, isComment x = false) ∧ isComment k = true ∧
      updFirst commentStr (setC c []) ks = some (l1 ++ setThis c k :: l2)) ∨
      ((∀ x ∈ ks, isComment x = false) ∧ updFirst commentStr (setC c []) ks = none) := by
    intro ks
    induction ks with
    | nil => exact Or.inr ⟨fun x hx => (by cases hx), rfl⟩
    | cons k ks ih =>
      by_cases e : k.desc = some commentStr
      · refine Or.inl ⟨[], k, ks, rfl, fun x hx => (by cases hx), by simp [isComment, e], ?_⟩
        simp only [updFirst, if_pos e, setC, List.nil_append]
      · rcases ih with ⟨l1, k', l2, h1, h2, h3, h4⟩ | ⟨h1, h2⟩
        · refine Or.inl ⟨k :: l1, k', l2, by rw [h1]; rfl, fun x hx => ?_, h3, ?_⟩
          · rcases List.mem_cons.1 hx with rfl | hx
            · simp [isComment, e]
            · exact h2 x hx
          · simp only [updFirst, if_neg e, h4, Option.map_some, List.cons_append]
        · refine Or.inr ⟨fun x hx => ?_, ?_⟩
          · rcases List.mem_cons.1 hx with rfl | hx
            · simp [isComment, e]
            · exact h1 x hx
          · simp only [updFirst, if_neg e, h2, Option.map_none]
  have hs : setComment c t = match updFirst commentStr (setC c []) t.kids with
      | some ks => t.withKids ks
      | none => t.withKids (setC c [] (newNode (some commentStr)) :: t.kids) := by
    show setC c (comps commentStr) t = _
    rw [comps_comment]
    simp only [setC]
    rw [if_neg (by simp [commentStr])]
    rfl
  cases t with
  | node d a f ks =>
    simp only [Tree.kids, Tree.desc, Tree.attr] at hs ⊢
    rcases hu ks with ⟨l1, k, l2, h1, h2, h3, h4⟩ | ⟨h1, h2⟩
    · rw [hs, h4]
      exact ⟨rfl, rfl, Or.inl ⟨l1, k, l2, h1, h2, h3, rfl⟩⟩
    · rw [hs, h2]
      exact ⟨rfl, rfl, Or.inr ⟨h1, rfl⟩⟩

theorem setThis_desc_eq (a : Option S) (t : Tree) : (setThis a t).desc = t.desc := by
  cases t with
  | node d o c ks => simp only [setThis]; split <;> rfl

theorem setThis_attr_eq (a : Option S) (t : Tree) : (setThis a t).attr = a := by
  cases t with
  | node d o c ks =>
    simp only [setThis]
    split
    · rfl
    · rename_i h
      simp only [not_or, ne_eq, Decidable.not_not] at h
      exact h.2.2

theorem comment_skip (l1 l2 : List Tree) (h : ∀ x ∈ l1, isComment x = false) : comment (l1 ++ l2) = comment l2 := by
  induction l1 with
  | nil => rfl
  | cons x l ih =>
    simp only [List.cons_append, comment]
    rw [if_neg (by rw [h x (by simp)]; simp)]
    exact ih fun y hy => h y (List.mem_cons_of_mem _ hy)

theorem hasComment_skip (l1 l2 : List Tree) (h : ∀ x ∈ l1, isComment x = false) : hasComment (l1 ++ l2) = hasComment l2 := by
  induction l1 with
  | nil => rfl
  | cons x l ih =>
    simp only [List.cons_append, hasComment, h x (by simp), Bool.false_and, Bool.false_or]
    exact ih fun y hy => h y (List.mem_cons_of_mem _ hy)

/-- **C80.** `comment()` yields what `setComment` set last, and `hasComment()` is true. -/
theorem c80_comment_round_trip (c : S) (t : Tree) :
    comment (setComment (some c) t).kids = c ∧ hasComment (setComment (some c) t).kids = true := by
  obtain ⟨_, _, h⟩ := setComment_kids (some c) t
  have hk : ∀ k : Tree, isComment k = true → ∀ l, comment (setThis (some c) k :: l) = c ∧ hasComment (setThis (some c) k :: l) = true := by
    intro k hk l
    have h1 : isComment (setThis (some c) k) = true := by
      unfold isComment at hk ⊢
      rw [setThis_desc_eq]; exact hk
    constructor
    · simp only [comment, h1, if_true, setThis_attr_eq]
    · simp only [hasComment, h1, setThis_attr_eq, Option.isSome_some, Bool.and_self, Bool.true_or]
  rcases h with ⟨l1, k, l2, _, h2, h3, h4⟩ | ⟨_, h2⟩
  · rw [h4, comment_skip _ _ h2, hasComment_skip _ _ h2]
    exact hk k h3 l2
  · rw [h2]
    exact hk _ (by simp [isComment, newNode, Tree.desc]) _

/-- **C80.** Setting a comment changes neither the node itself nor any subtree that is not a comment. -/
theorem c80_comment_touches_nothing_else (c : Option S) (t : Tree) :
    (setComment c t).desc = t.desc ∧ (setComment c t).attr = t.attr ∧
    (setComment c t).kids.filter (fun k => !isComment k) = t.kids.filter (fun k => !isComment k) := by
  obtain ⟨h1, h2, h⟩ := setComment_kids c t
  refine ⟨h1, h2, ?_⟩
  have hset : ∀ k, isComment (setThis c k) = isComment k := fun k => by unfold isComment; rw [setThis_desc_eq]
  rcases h with ⟨l1, k, l2, e, _, h3, h4⟩ | ⟨_, h2⟩
  · rw [h4, e]
    simp [List.filter_append, List.filter_cons, hset, h3]
  · rw [h2]
    simp only [List.filter_cons, hset]
    simp [isComment, newNode, Tree.desc]

/-- **C80 (partial).** `setComment(NULL)` removes the comment if there is at most one comment node.
Missing: several comment nodes, `c80_removed_comment_shows_next`. -/
theorem c80_comment_removed_partial (t : Tree) (h1 : (t.kids.filter isComment).length ≤ 1) :
    comment (setComment none t).kids = [] ∧ hasComment (setComment none t).kids = false := by
  obtain ⟨_, _, h⟩ := setComment_kids none t
  have hno : ∀ l : List Tree, (∀ x ∈ l, isComment x = false) → comment l = [] ∧ hasComment l = false := by
    intro l hl
    have a := comment_skip l [] hl
    have b := hasComment_skip l [] hl
    rw [List.append_nil] at a b
    exact ⟨a, b⟩
  have hk : ∀ k : Tree, ∀ l, comment (setThis none k :: l) = comment l ∧ hasComment (setThis none k :: l) = hasComment l := by
    intro k l
    constructor
    · simp only [comment, setThis_attr_eq]
      split <;> rfl
    · simp only [hasComment, setThis_attr_eq, Option.isSome_none, Bool.and_false, Bool.false_or]
  rcases h with ⟨l1, k, l2, e, h2, h3, h4⟩ | ⟨h0, h2⟩
  · have hl2 : ∀ x ∈ l2, isComment x = false := by
      intro x hx
      rw [e, List.filter_append, List.filter_cons, if_pos h3] at h1
      simp only [List.length_append, List.length_cons] at h1
      have : (l2.filter isComment).length = 0 := by omega
      have := List.eq_nil_of_length_eq_zero this
      rw [List.filter_eq_nil_iff] at this
      simpa using this x hx
    rw [h4, comment_skip _ _ h2, hasComment_skip _ _ h2, (hk k l2).1, (hk k l2).2]
    exact hno l2 hl2
  · rw [h2, (hk _ _).1, (hk _ _).2]
    exact hno _ h0

/-- A node with two comments, as `load` with `load_comments` makes them. -/
def twoComments : Tree :=
  .node (some ['n']) none false [.node (some commentStr) (some ['x']) false [], .node (some commentStr) (some ['y']) false []]

/-- **C80.** With several comments, removing the comment makes the next one appear. -/
theorem c80_removed_comment_shows_next :
    comment twoComments.kids = ['x'] ∧ comment (setComment none twoComments).kids = ['y'] := by decide +kernel

mutual
theorem printTree_no_throw (csd : Int) : ∀ (upper : S) (t : Tree), printTree csd upper t = .ub ∨ ∃ l, printTree csd upper t = .ok l
  | upper, .node d a c ks => by
    have hL := fun u => printList_no_throw csd u ks
    simp only [printTree]
    split
    · exact Or.inr ⟨_, rfl⟩
    · cases hm : isMultilineComment (.node d a c ks) with
      | ub => exact Or.inl rfl
      | throws e =>
        unfold isMultilineComment at hm
        split at hm
        · split at hm <;> cases hm
        · cases hm
      | ok b =>
        cases b with
        | true => exact Or.inr ⟨_, rfl⟩
        | false =>
          simp only
          split
          · rcases hL (upper ++ [' ']) with h | ⟨l, h⟩ <;> rw [h]
            · exact Or.inl rfl
            · exact Or.inr ⟨_, rfl⟩
          · rcases hL (if endsWithSpace upper then upper ++ d.getD [] else upper ++ ['.'] ++ d.getD []) with h | ⟨l, h⟩ <;> rw [h]
            · exact Or.inl rfl
            · exact Or.inr ⟨_, rfl⟩
theorem printList_no_throw (csd : Int) : ∀ (upper : S) (ks : List Tree), printList csd upper ks = .ub ∨ ∃ l, printList csd upper ks = .ok l
  | _, [] => Or.inr ⟨_, rfl⟩
  | upper, k :: ks => by
    simp only [printList]
    rcases printTree_no_throw csd upper k with h | ⟨l, h⟩ <;> rw [h]
    · exact Or.inl rfl
    · rcases printList_no_throw csd upper ks with h | ⟨l, h⟩ <;> rw [h]
      · exact Or.inl rfl
      · exact Or.inr ⟨_, rfl⟩
end

theorem printList_ub (csd : Int) (upper : S) : ∀ (l1 : List Tree) (k : Tree) (l2 : List Tree),
    printTree csd upper k = .ub → printList csd upper (l1 ++ k :: l2) = .ub := by
  intro l1
  induction l1 with
  | nil => intro k l2 h; simp only [List.nil_append, printList, h]
  | cons x l ih =>
    intro k l2 h
    simp only [List.cons_append, printList]
    rcases printTree_no_throw csd upper x with h1 | ⟨y, h1⟩ <;> rw [h1]
    simp only [ih k l2 h]

/-- **C80.** After `setComment(NULL)` the tree can no longer be printed: the comment node is still there
without an attribute, and `isMultilineComment` passes the missing attribute to `strchr`.  (Holds for every
node that is itself printed: not a comment, and not one of the two reserved names.) -/
theorem c80_removed_comment_breaks_print (t : Tree) (csd : Int) (upper : S)
    (hd : t.desc ≠ some filePathStr ∧ t.desc ≠ some fileNameStr ∧ isComment t = false) :
    printTree csd upper (setComment none t) = .ub := by
  obtain ⟨e1, e2, h⟩ := setComment_kids none t
  have hbad : ∀ (k : Tree) (u : S), isComment k = true → printTree csd u (setThis none k) = .ub := by
    intro k u hk
    have h1 : isComment (setThis none k) = true := by unfold isComment at hk ⊢; rw [setThis_desc_eq]; exact hk
    have h2 := setThis_attr_eq none k
    cases hs : setThis none k with
    | node d a c ks =>
      rw [hs] at h1 h2
      have h2 : a = none := h2
      subst h2
      have hdd : d = some commentStr := by simpa [isComment, Tree.desc] using h1
      subst hdd
      simp only [printTree]
      rw [if_neg (by decide +kernel)]
      simp only [isMultilineComment, h1, if_true, Tree.attr]
  have hl : ∀ u, printList csd u (setComment none t).kids = .ub := by
    intro u
    rcases h with ⟨l1, k, l2, _, _, h3, h4⟩ | ⟨_, h2⟩
    · rw [h4]; exact printList_ub csd u l1 _ l2 (hbad k u h3)
    · rw [h2]; exact printList_ub csd u [] _ _ (hbad _ u (by simp [isComment, newNode, Tree.desc]))
  cases hs : setComment none t with
  | node d a c ks =>
    rw [hs] at e1 hl
    have e1 : d = t.desc := e1
    simp only [printTree]
    rw [if_neg (by rw [e1]; exact not_or.2 ⟨hd.1, hd.2.1⟩)]
    have : isMultilineComment (.node d a c ks) = .ok false := by
      have : isComment (.node d a c ks) = false := by
        rw [← hd.2.2]; unfold isComment; rw [← e1]; rfl
      simp [isMultilineComment, this]
    rw [this]
    simp only
    have hl' : ∀ u, printList csd u ks = .ub := hl
    split
    · rw [hl']
    · rw [hl']

/-! ### Appending -/

/-- **C80.** Appending to a node without attribute piece by piece gives the pieces, separated by the
separator (this is how a comment of several lines is read). -/
theorem c80_append_joins (sep : S) (x : S) (xs : List S) (t : Tree) (h : t.attr = none) :
    ((x :: xs).foldl (fun t y => appendAttribute (some y) (some sep) t) t).attr = some (List.intercalate sep (x :: xs)) ∧
    ((x :: xs).foldl (fun t y => appendAttribute (some y) (some sep) t) t).flag = true := by
  have gen : ∀ (xs : List S) (t : Tree) (o : S), t.attr = some o → t.flag = true →
      (xs.foldl (fun t y => appendAttribute (some y) (some sep) t) t).attr = some (o ++ (xs.map (sep ++ ·)).flatten) ∧
      (xs.foldl (fun t y => appendAttribute (some y) (some sep) t) t).flag = true := by
    intro xs
    induction xs with
    | nil => intro t o h1 h2; simp [h1, h2]
    | cons y ys ih =>
      intro t o h1 h2
      cases t with
      | node d a c ks =>
        have h1 : a = some o := h1
        subst h1
        obtain ⟨a1, a2⟩ := ih (appendAttribute (some y) (some sep) (.node d (some o) c ks)) (o ++ sep ++ y) rfl (by
          simp [appendAttribute, appendString, Tree.flag])
        refine ⟨?_, a2⟩
        rw [List.foldl_cons, a1]
        simp [List.append_assoc]
  have hj : ∀ (x : S) (xs : List S), List.intercalate sep (x :: xs) = x ++ (xs.map (sep ++ ·)).flatten := by
    intro x xs
    induction xs generalizing x with
    | nil => simp [List.intercalate, List.intersperse]
    | cons y ys ih =>
      have := ih y
      simp only [List.intercalate, List.intersperse, List.flatten_cons, List.map_cons] at this ⊢
      rw [this]
      simp [List.append_assoc]
  cases t with
  | node d a c ks =>
    have h : a = none := h
    subst h
    rw [hj]
    exact gen xs _ x rfl (by simp [appendAttribute, appendString, Tree.flag])

/-- **C80.** Appending `NULL` has no effect; appending anything else marks the node as changed and keeps
the rest of it. -/
theorem c80_append_effect (x sep : Option S) (t : Tree) :
    (appendAttribute none sep t = t) ∧ (appendAttribute x sep t).kids = t.kids ∧
    (appendAttribute x sep t).desc = t.desc ∧ (x ≠ none → (appendAttribute x sep t).flag = true) := by
  cases t with
  | node d a c ks =>
    refine ⟨by simp [appendAttribute, appendString], rfl, rfl, fun h => ?_⟩
    cases x with
    | none => exact absurd rfl h
    | some x => cases a <;> simp [appendAttribute, appendString, Tree.flag]

/-- **C80.** The same for descriptions. -/
theorem c80_append_description (x sep : Option S) (t : Tree) :
    (appendDescription none sep t = t) ∧ (appendDescription x sep t).kids = t.kids ∧
    (appendDescription x sep t).attr = t.attr ∧ (x ≠ none → (appendDescription x sep t).flag = true) ∧
    (∀ y, x = some y → (appendDescription x sep t).desc = some ((t.desc.map (· ++ sep.getD [])).getD [] ++ y)) := by
  cases t with
  | node d a c ks =>
    refine ⟨by simp [appendDescription, appendString], rfl, rfl, fun h => ?_, fun y h => ?_⟩
    · cases x with
      | none => exact absurd rfl h
      | some x => cases d <;> simp [appendDescription, appendString, Tree.flag]
    · subst h
      cases d <;> simp [appendDescription, appendString, Tree.desc]

/-! ### Examples -/

/-- A tree with two matching nodes: the upper one is found, not the one in the earlier subtree's subtree. -/
example : search (some ['b']) (some ['1']) (.node none none false
    [.node (some ['a']) none false [.node (some ['b']) (some ['2']) false []], .node (some ['b']) (some ['1']) false []])
    = some [1] := by decide +kernel

example : (twoComments.kids.filter isComment).length = 2 := by decide +kernel

example : (Tree.node (some ['n']) none false []).desc ≠ some filePathStr ∧
    printTree 3 [' '] (setComment none (.node (some ['n']) none false [])) = .ub :=
  ⟨by decide +kernel, c80_removed_comment_breaks_print _ _ _ ⟨by decide +kernel, by decide +kernel, by decide +kernel⟩⟩

end Verif.AT
