import Verif.Config.ATSpec
import Mathlib.Data.List.Nodup

/-! # Helper lemmas for the `AttributeTree` properties -/
namespace Verif.AT

@[simp] theorem withKids_desc (t : Tree) (k) : (t.withKids k).desc = t.desc := by cases t; rfl
@[simp] theorem withKids_attr (t : Tree) (k) : (t.withKids k).attr = t.attr := by cases t; rfl
@[simp] theorem withKids_kids (t : Tree) (k) : (t.withKids k).kids = k := by cases t; rfl
@[simp] theorem withKids_flag (t : Tree) (k) : (t.withKids k).flag = t.flag := by cases t; rfl
@[simp] theorem setThis_desc (a) (t : Tree) : (setThis a t).desc = t.desc := by
  cases t; simp only [setThis]; split <;> rfl
@[simp] theorem setThis_kids (a) (t : Tree) : (setThis a t).kids = t.kids := by
  cases t; simp only [setThis]; split <;> rfl
@[simp] theorem setThis_attr (a) (t : Tree) : (setThis a t).attr = a := by
  cases t with
  | node d o c ks =>
    simp only [setThis]
    split
    · rfl
    · rename_i h
      simp only [not_or, Decidable.not_not] at h
      exact h.2.2
@[simp] theorem setC_desc (a p) (t : Tree) : (setC a p t).desc = t.desc := by
  cases p with
  | nil => simp [setC]
  | cons d ds =>
    simp only [setC]
    split
    · simp
    · split <;> simp
@[simp] theorem newNode_desc (d) : (newNode d).desc = d := rfl
@[simp] theorem newNode_kids (d) : (newNode d).kids = [] := rfl
@[simp] theorem newNode_attr (d) : (newNode d).attr = none := rfl
@[simp] theorem newNode_flag (d) : (newNode d).flag = false := rfl

theorem find_eq (d : S) (ks : List Tree) : find d ks = ks.find? (fun k => k.desc == some d) := by
  induction ks with
  | nil => rfl
  | cons k ks ih =>
    simp only [find, List.find?_cons]
    by_cases h : k.desc = some d
    · simp [h]
    · have : (k.desc == some d) = false := by simpa using h
      simp [h, this, ih]

theorem nodeAt_cons (d ds) (t : Tree) : nodeAt (d :: ds) t = (find d t.kids).bind (nodeAt ds) := by
  rw [find_eq]; rfl

theorem find_desc {d ks k} (h : find d ks = some k) : k.desc = some d := by
  rw [find_eq] at h
  simpa using List.find?_some h

theorem updFirst_none {d f ks} : updFirst d f ks = none ↔ find d ks = none := by
  induction ks with
  | nil => simp [updFirst, find]
  | cons k ks ih => simp only [updFirst, find]; split <;> simp_all

theorem find_updFirst {d f ks ks'} (hf : ∀ k, (f k).desc = k.desc)
    (h : updFirst d f ks = some ks') (e : S) :
    find e ks' = if e = d then (find d ks).map f else find e ks := by
  induction ks generalizing ks' with
  | nil => simp [updFirst] at h
  | cons k ks ih =>
    simp only [updFirst] at h
    split at h
    · rename_i hk
      cases h
      simp only [find, hf, hk, Option.some.injEq]
      by_cases he : e = d
      · subst he; simp
      · have : ¬ d = e := fun x => he x.symm
        simp [he, this]
    · rename_i hk
      simp only [Option.map_eq_some_iff] at h
      obtain ⟨l, hl, rfl⟩ := h
      have := ih hl
      simp only [find, this]
      by_cases he : e = d
      · subst he; simp [hk]
      · simp [he]

theorem updFirst_ne_nil {d f ks ks'} (h : updFirst d f ks = some ks') : ks' ≠ [] ∧ ks ≠ [] := by
  cases ks with
  | nil => simp [updFirst] at h
  | cons k ks =>
    simp only [updFirst] at h
    split at h
    · cases h; simp
    · simp only [Option.map_eq_some_iff] at h
      obtain ⟨l, hl, rfl⟩ := h; simp

/-- children of a tree after `setC` -/
theorem find_setC (a d ds) (t : Tree) (hd : d ≠ []) (e : S) :
    find e (setC a (d :: ds) t).kids =
      if e = d then some (setC a ds ((find d t.kids).getD (newNode (some d)))) else find e t.kids := by
  simp only [setC, hd, if_false]
  split
  · rename_i ks hk
    rw [withKids_kids, find_updFirst (fun k => setC_desc a ds k) hk]
    split
    · cases h : find d t.kids with
      | none => rw [updFirst_none.2 h] at hk; cases hk
      | some k => rfl
    · rfl
  · rename_i hk
    have hn := updFirst_none.1 hk
    simp only [withKids_kids, find, setC_desc, newNode_desc, Option.some.injEq]
    by_cases he : e = d
    · subst he; simp [hn]
    · have : ¬ d = e := fun x => he x.symm
      simp [he, this]

theorem setC_attr (a d ds) (t : Tree) (hd : d ≠ []) : (setC a (d :: ds) t).attr = t.attr := by
  simp only [setC, hd, if_false]
  split <;> simp

@[simp] theorem effective_nil : effective [] = [] := rfl
theorem effective_cons (d ds) : effective (d :: ds) = if d = [] then [] else d :: effective ds := by
  by_cases h : d = [] <;> simp [effective, h]

theorem lookup_nil (t : Tree) : lookup [] t = t.attr := rfl
theorem lookup_cons (d ds) (t : Tree) : lookup (d :: ds) t = (find d t.kids).bind (lookup ds) := by
  simp only [lookup, nodeAt_cons, Option.bind_assoc]
  rfl

theorem lookup_newNode (p d) : lookup p (newNode d) = none := by
  cases p with
  | nil => rfl
  | cons e es => simp [lookup_cons, find]

theorem lookup_setC (a) (p q : List S) (t : Tree) :
    lookup q (setC a p t) = if q = effective p then a else lookup q t := by
  induction p generalizing q t with
  | nil =>
    simp only [setC, effective_nil]
    cases q with
    | nil => simp [lookup_nil]
    | cons e es => simp [lookup_cons]
  | cons d ds ih =>
    rw [effective_cons]
    by_cases hd : d = []
    · simp only [setC, hd, if_true]
      cases q with
      | nil => simp [lookup_nil]
      | cons e es => simp [lookup_cons]
    · simp only [hd, if_false]
      cases q with
      | nil => simp [lookup_nil, setC_attr a d ds t hd]
      | cons e es =>
        simp only [lookup_cons, find_setC a d ds t hd, List.cons.injEq]
        by_cases he : e = d
        · subst he
          simp only [if_true, Option.bind_some, ih, true_and]
          split
          · rfl
          · cases find e t.kids with
            | none => simp [lookup_newNode]
            | some k => rfl
        · simp [he]

theorem comps_ne_nil (s : S) : comps s ≠ [] := by
  cases s with
  | nil => simp [comps]
  | cons c cs => simp only [comps]; split
                 · simp
                 · split <;> simp

/-- `comps` is repeated `split`. -/
theorem comps_split (s : S) :
    comps s = match (split s).2 with
      | none => [(split s).1]
      | some r => (split s).1 :: comps r := by
  induction s with
  | nil => rfl
  | cons c cs ih =>
    simp only [comps, split]
    by_cases h : c = '.'
    · simp [h]
    · simp only [h, if_false]
      rw [ih]
      cases (split cs).2 <;> rfl

theorem comps_append (d : S) (hd : '.' ∉ d) (r : S) : comps (d ++ '.' :: r) = d :: comps r := by
  induction d with
  | nil => simp [comps]
  | cons c cs ih =>
    simp only [List.mem_cons, not_or] at hd
    have hc : ¬ c = '.' := fun x => hd.1 x.symm
    simp [comps, hc, ih hd.2]

theorem comps_plain (d : S) (hd : '.' ∉ d) : comps d = [d] := by
  induction d with
  | nil => simp [comps]
  | cons c cs ih =>
    simp only [List.mem_cons, not_or] at hd
    have hc : ¬ c = '.' := fun x => hd.1 x.symm
    simp [comps, hc, ih hd.2]

theorem comps_dotted (p : List S) (hp : p ≠ []) (h : ∀ d ∈ p, '.' ∉ d) : comps (dotted p) = p := by
  induction p with
  | nil => exact absurd rfl hp
  | cons d ds ih =>
    cases ds with
    | nil => simp only [dotted]; exact comps_plain d (h d (by simp))
    | cons e es =>
      simp only [dotted]
      rw [comps_append d (h d (by simp)), ih (by simp) (fun x hx => h x (by simp [hx]))]

theorem effective_plain (p : List S) (h : ∀ d ∈ p, d ≠ []) : effective p = p := by
  induction p with
  | nil => rfl
  | cons d ds ih =>
    rw [effective_cons, if_neg (h d (by simp)), ih (fun x hx => h x (by simp [hx]))]

/-- The walk of `getAttribute`: undefined behaviour at a childless node, otherwise the node
of the path. -/
theorem walk_ok {p : List S} {t : Tree} {r} (h : walk p t = .ok r) : r = nodeAt p t := by
  induction p generalizing t with
  | nil => simp only [walk, Outcome.ok.injEq] at h; simp [nodeAt, ← h]
  | cons d ds ih =>
    rw [nodeAt_cons]
    simp only [walk, subTreeOf] at h
    by_cases hk : t.kids.isEmpty
    · simp [hk] at h
    · simp only [hk] at h
      cases hf : find d t.kids with
      | none => simp [hf] at h; simp [← h]
      | some k => simp only [hf] at h; simpa using ih h

theorem walk_no_throw {p : List S} {t : Tree} {e} : walk p t ≠ .throws e := by
  induction p generalizing t with
  | nil => simp [walk]
  | cons d ds ih =>
    simp only [walk, subTreeOf]
    by_cases hk : t.kids.isEmpty
    · simp [hk]
    · simp only [hk]
      cases hf : find d t.kids with
      | none => simp
      | some k => simpa using ih

theorem find_some_ne_nil {d ks k} (h : find d ks = some k) : ks.isEmpty = false := by
  cases ks with
  | nil => simp [find] at h
  | cons => rfl

theorem walk_some {p : List S} {t n : Tree} (h : nodeAt p t = some n) : walk p t = .ok (some n) := by
  induction p generalizing t with
  | nil => simp only [nodeAt, Option.some.injEq] at h; simp [walk, h]
  | cons d ds ih =>
    rw [nodeAt_cons] at h
    cases hf : find d t.kids with
    | none => simp [hf] at h
    | some k =>
      simp only [hf, Option.bind_some] at h
      simp only [walk, subTreeOf, find_some_ne_nil hf, hf]
      exact ih h

theorem walk_of_lookup {p : List S} {t : Tree} {v} (h : lookup p t = some v) :
    ∃ n, walk p t = .ok (some n) ∧ n.attr = some v := by
  unfold lookup at h
  cases hn : nodeAt p t with
  | none => simp [hn] at h
  | some n => exact ⟨n, walk_some hn, by simpa [hn] using h⟩

/-- `walk` is undefined exactly if a proper prefix of the path leads to a childless node. -/
theorem walk_ub (p : List S) (t : Tree) :
    walk p t = .ub ↔ ∃ r d s n, p = r ++ d :: s ∧ nodeAt r t = some n ∧ n.kids = [] := by
  induction p generalizing t with
  | nil => simp [walk]
  | cons d ds ih =>
    simp only [walk, subTreeOf]
    by_cases hk : t.kids = []
    · simp only [hk, List.isEmpty_nil, if_true, true_iff]
      exact ⟨[], d, ds, t, rfl, rfl, hk⟩
    · have hk' : t.kids.isEmpty = false := by simpa using hk
      simp only [hk']
      constructor
      · intro h
        cases hf : find d t.kids with
        | none => simp [hf] at h
        | some k =>
          simp only [hf] at h
          obtain ⟨r, e, s, n, h1, h2, h3⟩ := (ih k).1 (by simpa using h)
          exact ⟨d :: r, e, s, n, by rw [h1]; rfl, by rw [nodeAt_cons, hf]; exact h2, h3⟩
      · rintro ⟨r, e, s, n, h1, h2, h3⟩
        cases r with
        | nil =>
          simp only [nodeAt, Option.some.injEq] at h2
          exact absurd (h2 ▸ h3) hk
        | cons x xs =>
          simp only [List.cons_append, List.cons.injEq] at h1
          obtain ⟨rfl, rfl⟩ := h1
          rw [nodeAt_cons] at h2
          cases hf : find d t.kids with
          | none => simp [hf] at h2
          | some k =>
            simp only [hf, Option.bind_some] at h2
            simpa using (ih k).2 ⟨xs, e, s, n, rfl, h2, h3⟩

/-! ## Copying and reversing -/

theorem copyL_eq (ks acc : List Tree) : copyL ks acc = (ks.map copy).reverse ++ acc := by
  induction ks generalizing acc with
  | nil => simp [copyL]
  | cons k ks ih => simp [copyL, ih]

theorem revertL_eq (ks acc : List Tree) : revertL ks acc = (ks.map revert).reverse ++ acc := by
  induction ks generalizing acc with
  | nil => simp [revertL]
  | cons k ks ih => simp [revertL, ih]

theorem uniqL_iff (ks : List Tree) : UniqL ks ↔ ∀ k ∈ ks, Uniq k := by
  induction ks with
  | nil => simp [UniqL]
  | cons k ks ih => simp [UniqL, ih]

theorem uniq_iff (t : Tree) : Uniq t ↔ (t.kids.map Tree.desc).Nodup ∧ ∀ k ∈ t.kids, Uniq k := by
  cases t with
  | node d a c ks => simp only [Uniq, uniqL_iff]; rfl

/-- In a list with distinct descriptions `find` does not depend on the order. -/
theorem find_mem {d : S} {ks : List Tree} (hn : (ks.map Tree.desc).Nodup) {k : Tree} :
    find d ks = some k ↔ k ∈ ks ∧ k.desc = some d := by
  induction ks with
  | nil => simp [find]
  | cons x xs ih =>
    simp only [List.map_cons, List.nodup_cons] at hn
    simp only [find, List.mem_cons]
    split
    · rename_i hx
      constructor
      · intro h; cases h; exact ⟨.inl rfl, hx⟩
      · rintro ⟨rfl | hk, h⟩
        · rfl
        · exact absurd (List.mem_map.2 ⟨k, hk, by rw [h, hx]⟩) hn.1
    · rename_i hx
      rw [ih hn.2]
      constructor
      · exact fun h => ⟨.inr h.1, h.2⟩
      · rintro ⟨rfl | hk, h⟩
        · exact absurd h hx
        · exact ⟨hk, h⟩

theorem find_rev_map {d : S} {ks : List Tree} {f : Tree → Tree} (hf : ∀ k, (f k).desc = k.desc)
    (hn : (ks.map Tree.desc).Nodup) :
    find d (ks.map f).reverse = (find d ks).map f := by
  have hm : ((ks.map f).map Tree.desc) = ks.map Tree.desc := by
    simp [List.map_map, Function.comp_def, hf]
  have hn' : (((ks.map f).reverse).map Tree.desc).Nodup := by
    rw [List.map_reverse, hm]; exact (List.nodup_reverse).2 hn
  cases h : find d ks with
  | none =>
    cases h' : find d (ks.map f).reverse with
    | none => rfl
    | some k =>
      obtain ⟨hk, hd⟩ := (find_mem hn').1 h'
      simp only [List.mem_reverse, List.mem_map] at hk
      obtain ⟨x, hx, rfl⟩ := hk
      rw [hf] at hd
      rw [(find_mem hn).2 ⟨hx, hd⟩] at h
      cases h
  | some k =>
    obtain ⟨hk, hd⟩ := (find_mem hn).1 h
    exact (find_mem hn').2 ⟨by simpa using ⟨k, hk, rfl⟩, by rw [hf]; exact hd⟩

@[simp] theorem copy_desc (t : Tree) : (copy t).desc = t.desc := by cases t; simp [copy, Tree.desc]
@[simp] theorem copy_attr (t : Tree) : (copy t).attr = t.attr := by cases t; simp [copy, Tree.attr]
theorem copy_kids (t : Tree) : (copy t).kids = (t.kids.map copy).reverse := by
  cases t; simp [copy, Tree.kids, copyL_eq]
@[simp] theorem revert_desc (t : Tree) : (revert t).desc = t.desc := by
  cases t; simp [revert, Tree.desc]
@[simp] theorem revert_attr (t : Tree) : (revert t).attr = t.attr := by
  cases t; simp [revert, Tree.attr]
theorem revert_kids (t : Tree) : (revert t).kids = (t.kids.map revert).reverse := by
  cases t; simp [revert, Tree.kids, revertL_eq]

/-- A function that keeps descriptions and attributes and reverses all lists is not visible
to `walk`. -/
theorem walk_rev {f : Tree → Tree} (hd : ∀ t, (f t).desc = t.desc)
    (hk : ∀ t, (f t).kids = (t.kids.map f).reverse) (p : List S) (t : Tree) (hu : Uniq t) :
    walk p (f t) = (walk p t).map (Option.map f) := by
  induction p generalizing t with
  | nil => rfl
  | cons d ds ih =>
    obtain ⟨hn, hc⟩ := (uniq_iff t).1 hu
    simp only [walk, subTreeOf, hk, find_rev_map hd hn]
    have he : (t.kids.map f).reverse.isEmpty = t.kids.isEmpty := by simp
    rw [he]
    by_cases hk0 : t.kids.isEmpty
    · simp [hk0, Outcome.map]
    · simp only [hk0]
      cases hf : find d t.kids with
      | none => rfl
      | some k =>
        have := ((find_mem hn).1 hf).1
        simpa using ih k (hc k this)

theorem updFirst_uniq {d : S} {f : Tree → Tree} (hf : ∀ k, (f k).desc = k.desc)
    (hu : ∀ k, Uniq k → Uniq (f k)) {ks ks'} (h : updFirst d f ks = some ks')
    (hn : ∀ k ∈ ks, Uniq k) :
    ks'.map Tree.desc = ks.map Tree.desc ∧ ∀ k ∈ ks', Uniq k := by
  induction ks generalizing ks' with
  | nil => simp [updFirst] at h
  | cons k ks ih =>
    simp only [updFirst] at h
    split at h
    · cases h
      refine ⟨by simp [hf], ?_⟩
      intro x hx
      rcases List.mem_cons.1 hx with rfl | hx
      · exact hu _ (hn _ (by simp))
      · exact hn _ (by simp [hx])
    · simp only [Option.map_eq_some_iff] at h
      obtain ⟨l, hl, rfl⟩ := h
      obtain ⟨h1, h2⟩ := ih hl (fun x hx => hn x (by simp [hx]))
      refine ⟨by simp [h1], ?_⟩
      intro x hx
      rcases List.mem_cons.1 hx with rfl | hx
      · exact hn _ (by simp)
      · exact h2 _ hx

theorem find_none_desc {d : S} {ks : List Tree} (h : find d ks = none) :
    some d ∉ ks.map Tree.desc := by
  induction ks with
  | nil => simp
  | cons k ks ih =>
    simp only [find] at h
    split at h
    · cases h
    · rename_i hk
      simp only [List.map_cons, List.mem_cons, not_or]
      exact ⟨fun x => hk x.symm, ih h⟩

theorem uniq_setThis (a) (t : Tree) (h : Uniq t) : Uniq (setThis a t) := by
  rw [uniq_iff] at h ⊢; simpa using h

theorem uniq_setC (a) (p : List S) (t : Tree) (h : Uniq t) : Uniq (setC a p t) := by
  induction p generalizing t with
  | nil => exact uniq_setThis a t h
  | cons d ds ih =>
    simp only [setC]
    split
    · exact uniq_setThis a t h
    · obtain ⟨hn, hc⟩ := (uniq_iff t).1 h
      split
      · rename_i ks hk
        obtain ⟨h1, h2⟩ := updFirst_uniq (fun k => setC_desc a ds k) ih hk hc
        rw [uniq_iff]
        simpa [h1, hn] using h2
      · rename_i hk
        have hd := find_none_desc (updFirst_none.1 hk)
        rw [uniq_iff]
        simp only [withKids_kids, List.map_cons, setC_desc, newNode_desc, List.nodup_cons, hd,
          not_false_eq_true, hn, true_and, List.mem_cons]
        rintro k (rfl | hk)
        · exact ih _ (by rw [uniq_iff]; simp)
        · exact hc k hk

/-! ## Change flags -/

theorem changedL_eq (ks : List Tree) : changedL ks = ks.any changed := by
  induction ks with
  | nil => rfl
  | cons k ks ih => simp only [changedL, ih, List.any_cons]; cases changed k <;> rfl

theorem changed_eq (t : Tree) : changed t = (t.flag || t.kids.any changed) := by
  cases t with
  | node d a c ks => simp only [changed, changedL_eq, Tree.flag, Tree.kids]; cases c <;> rfl

theorem changed_setThis (a) (t : Tree) :
    changed (setThis a t) = (changed t || decide (a = none ∨ t.attr ≠ a)) := by
  cases t with
  | node d o c ks =>
    simp only [setThis, Tree.attr]
    split
    · rename_i h
      have : (a = none ∨ o ≠ a) := by
        rcases h with h | h | h
        · subst h
          cases a with
          | none => exact .inl rfl
          | some => exact .inr (by simp)
        · exact .inl h
        · exact .inr h
      simp [changed_eq, Tree.flag, this]
    · rename_i h
      have : ¬ (a = none ∨ o ≠ a) := fun x => h (x.elim (fun y => .inr (.inl y)) (fun y => .inr (.inr y)))
      simp [this]

theorem any_updFirst {d : S} {f : Tree → Tree} {b : Bool}
    {ks ks' : List Tree} {k : Tree} (hk : find d ks = some k)
    (hg : changed (f k) = (changed k || b)) (h : updFirst d f ks = some ks') :
    ks'.any changed = (ks.any changed || b) := by
  induction ks generalizing ks' with
  | nil => simp [updFirst] at h
  | cons x xs ih =>
    simp only [updFirst, find] at h hk
    split at h
    · rename_i hx
      simp only [hx, if_true, Option.some.injEq] at hk
      subst hk; cases h
      simp only [List.any_cons, hg]
      cases changed x <;> cases b <;> cases xs.any changed <;> rfl
    · rename_i hx
      simp only [hx, if_false] at hk
      simp only [Option.map_eq_some_iff] at h
      obtain ⟨l, hl, rfl⟩ := h
      simp only [List.any_cons, ih hk hl, Bool.or_assoc]

theorem changed_setC (a) (p : List S) (t : Tree) :
    changed (setC a p t) = (changed t || decide (a = none ∨ lookup (effective p) t ≠ a)) := by
  induction p generalizing t with
  | nil => exact changed_setThis a t
  | cons d ds ih =>
    rw [effective_cons]
    simp only [setC]
    split
    · exact changed_setThis a t
    · rw [lookup_cons]
      split
      · rename_i ks hk
        cases hf : find d t.kids with
        | none => rw [updFirst_none.2 hf] at hk; cases hk
        | some k =>
          rw [changed_eq, withKids_kids, withKids_flag,
            any_updFirst hf (ih k) hk, changed_eq t, Bool.or_assoc]
          simp
      · rename_i hk
        have hf := updFirst_none.1 hk
        rw [changed_eq, withKids_kids, withKids_flag, List.any_cons, ih, hf, changed_eq t,
          changed_eq (newNode _)]
        simp only [newNode_flag, newNode_kids, List.any_nil, Bool.or_self, Bool.false_or,
          lookup_newNode, Option.bind_none]
        cases t.flag <;> cases t.kids.any changed <;> simp

mutual
theorem changed_unmark : ∀ t : Tree, changed (unmark t) = false
  | .node d a c ks => by simp [unmark, changed, changedL_unmark ks]
theorem changedL_unmark : ∀ ks : List Tree, changedL (unmarkL ks) = false
  | [] => rfl
  | k :: ks => by simp [unmarkL, changedL, changed_unmark k, changedL_unmark ks]
end

theorem unmarkL_eq (ks : List Tree) : unmarkL ks = ks.map unmark := by
  induction ks with
  | nil => rfl
  | cons k ks ih => simp [unmarkL, ih]

@[simp] theorem unmark_desc (t : Tree) : (unmark t).desc = t.desc := by cases t; simp [unmark, Tree.desc]
@[simp] theorem unmark_attr (t : Tree) : (unmark t).attr = t.attr := by cases t; simp [unmark, Tree.attr]
theorem unmark_kids (t : Tree) : (unmark t).kids = t.kids.map unmark := by
  cases t; simp [unmark, Tree.kids, unmarkL_eq]

theorem find_map {d : S} {ks : List Tree} {f : Tree → Tree} (hf : ∀ k, (f k).desc = k.desc) :
    find d (ks.map f) = (find d ks).map f := by
  induction ks with
  | nil => rfl
  | cons k ks ih => simp only [List.map_cons, find, hf, ih]; split <;> rfl

theorem walk_map {f : Tree → Tree} (hd : ∀ t, (f t).desc = t.desc)
    (hk : ∀ t, (f t).kids = t.kids.map f) (p : List S) (t : Tree) :
    walk p (f t) = (walk p t).map (Option.map f) := by
  induction p generalizing t with
  | nil => rfl
  | cons d ds ih =>
    simp only [walk, subTreeOf, hk, find_map hd]
    have he : (t.kids.map f).isEmpty = t.kids.isEmpty := by simp
    rw [he]
    by_cases hk0 : t.kids.isEmpty
    · simp [hk0, Outcome.map]
    · simp only [hk0]
      cases hf : find d t.kids with
      | none => rfl
      | some k => simpa using ih k

end Verif.AT
