import Verif.Config.CfgProps

/-! # Configuration files: C40 -/
namespace Verif.Cfg
open Verif.StdMap

theorem keyOf_append (p q : List S) : keyOf (p ++ q) = keyOf p ++ keyOf q := by
  simp [keyOf]

theorem keyOf_single (n : S) : keyOf [n] = '/' :: n := by simp [keyOf]

/-! ### XML files -/

theorem hasElem_cons {name : S} {x : Xml} {xs : List Xml} (h : HasElem name xs) :
    HasElem name (x :: xs) := by
  cases h with
  | here hm => exact .here (List.mem_cons_of_mem _ hm)
  | down hm hk => exact .down (List.mem_cons_of_mem _ hm) hk

theorem readKids_docTexts (inc : S → Mgr → Option (Outcome (Bool × Mgr))) (path : S) :
    ∀ (kids : List Xml) (p : List S) (m : Mgr), ¬ HasElem includeName kids →
      readKids inc path (keyOf p) kids m = some (.ok ((entries (docTexts p kids)).foldl put m)) := by
  have key : ∀ x : Xml, ∀ (p : List S) (m : Mgr), ¬ HasElem includeName [x] →
      readKid inc path (keyOf p) x m = some (.ok ((entries (docText p x)).foldl put m)) := by
    intro x
    refine Xml.rec
      (motive_1 := fun x => ∀ (p : List S) (m : Mgr), ¬ HasElem includeName [x] →
        readKid inc path (keyOf p) x m = some (.ok ((entries (docText p x)).foldl put m)))
      (motive_2 := fun kids => ∀ (p : List S) (m : Mgr), ¬ HasElem includeName kids →
        readKids inc path (keyOf p) kids m = some (.ok ((entries (docTexts p kids)).foldl put m)))
      ?_ ?_ ?_ ?_ ?_ x
    · intro name kids ih p m h
      have hn : name ≠ includeName := fun e => h (.here (ks := kids) (by simp [e]))
      have hk : ¬ HasElem includeName kids := fun e => h (.down (ks := kids) (n := name) (by simp) e)
      have := ih (p ++ [name]) m hk
      rw [keyOf_append, keyOf_single] at this
      simp only [readKid, hn, if_false, docText, this]
    · intro s p m _
      simp [readKid, docText, entries]
    · intro p m _
      simp [readKid, docText, entries]
    · intro p m _
      simp [readKids, docTexts, entries]
    · intro x xs ih1 ih2 p m h
      have h1 : ¬ HasElem includeName [x] := by
        intro e
        apply h
        cases e with
        | here hm => exact .here (List.mem_cons.2 (.inl (List.mem_singleton.1 hm)))
        | down hm hk => exact .down (List.mem_cons.2 (.inl (List.mem_singleton.1 hm))) hk
      have h2 : ¬ HasElem includeName xs := fun e => h (hasElem_cons e)
      simp only [readKids, ih1 p m h1, ih2 p _ h2, docTexts, entries, List.map_append,
        List.foldl_append]
  intro kids
  induction kids with
  | nil => intro p m _; simp [readKids, docTexts, entries]
  | cons x xs ih =>
    intro p m h
    have h1 : ¬ HasElem includeName [x] := by
      intro e
      apply h
      cases e with
      | here hm => exact .here (List.mem_cons.2 (.inl (List.mem_singleton.1 hm)))
      | down hm hk => exact .down (List.mem_cons.2 (.inl (List.mem_singleton.1 hm))) hk
    have h2 : ¬ HasElem includeName xs := fun e => h (hasElem_cons e)
    simp only [readKids, key x p m h1, ih p _ h2, docTexts, entries, List.map_append,
      List.foldl_append]

theorem textAt_cons {x : Xml} {xs : List Xml} {q : List S} {s : S} :
    TextAt (x :: xs) q s ↔ TextAt [x] q s ∨ TextAt xs q s := by
  constructor
  · intro h
    cases h with
    | here hm =>
      rcases List.mem_cons.1 hm with h | h
      · exact .inl (.here (by simp [h]))
      · exact .inr (.here h)
    | down hm hk =>
      rcases List.mem_cons.1 hm with h | h
      · exact .inl (.down (List.mem_singleton.2 h) hk)
      · exact .inr (.down h hk)
  · rintro (h | h)
    · cases h with
      | here hm => exact .here (List.mem_cons.2 (.inl (List.mem_singleton.1 hm)))
      | down hm hk => exact .down (List.mem_cons.2 (.inl (List.mem_singleton.1 hm))) hk
    · cases h with
      | here hm => exact .here (List.mem_cons_of_mem _ hm)
      | down hm hk => exact .down (List.mem_cons_of_mem _ hm) hk

theorem docTexts_mem (kids : List Xml) : ∀ (p : List S) (e : List S × S),
    e ∈ docTexts p kids ↔ ∃ q, e.1 = p ++ q ∧ TextAt kids q e.2 := by
  have key : ∀ x : Xml, ∀ (p : List S) (e : List S × S),
      e ∈ docText p x ↔ ∃ q, e.1 = p ++ q ∧ TextAt [x] q e.2 := by
    intro x
    refine Xml.rec
      (motive_1 := fun x => ∀ (p : List S) (e : List S × S),
        e ∈ docText p x ↔ ∃ q, e.1 = p ++ q ∧ TextAt [x] q e.2)
      (motive_2 := fun kids => ∀ (p : List S) (e : List S × S),
        e ∈ docTexts p kids ↔ ∃ q, e.1 = p ++ q ∧ TextAt kids q e.2) ?_ ?_ ?_ ?_ ?_ x
    · intro name kids ih p e
      rw [docText, ih]
      constructor
      · rintro ⟨q, h1, h2⟩
        exact ⟨name :: q, by simp [h1], .down (ks := kids) (by simp) h2⟩
      · rintro ⟨q, h1, h2⟩
        cases h2 with
        | here hm => simp at hm
        | down hm hk =>
          simp only [List.mem_singleton, Xml.elem.injEq] at hm
          obtain ⟨rfl, rfl⟩ := hm
          exact ⟨_, by simp [h1], hk⟩
    · intro s p e
      simp only [docText, List.mem_singleton]
      constructor
      · rintro rfl; exact ⟨[], by simp, .here (by simp)⟩
      · rintro ⟨q, h1, h2⟩
        cases h2 with
        | here hm =>
          simp only [List.mem_singleton, Xml.text.injEq] at hm
          exact Prod.ext (by simpa using h1) hm
        | down hm hk => simp at hm
    · intro p e
      simp only [docText, List.not_mem_nil, false_iff]
      rintro ⟨q, _, h2⟩
      cases h2 with
      | here hm => simp at hm
      | down hm hk => simp at hm
    · intro p e
      simp only [docTexts, List.not_mem_nil, false_iff]
      rintro ⟨q, _, h2⟩
      cases h2 with
      | here hm => simp at hm
      | down hm hk => simp at hm
    · intro x xs ih1 ih2 p e
      simp only [docTexts, List.mem_append, ih1, ih2, textAt_cons (xs := xs), and_or_left, exists_or]
  induction kids with
  | nil =>
    intro p e
    simp only [docTexts, List.not_mem_nil, false_iff]
    rintro ⟨q, _, h2⟩
    cases h2 with
    | here hm => simp at hm
    | down hm hk => simp at hm
  | cons x xs ih =>
    intro p e
    simp only [docTexts, List.mem_append, key, ih, textAt_cons (xs := xs), and_or_left, exists_or]

/-- C40: `docTexts` lists exactly the texts of the document. -/
theorem c40_document_texts (kids : List Xml) (p : List S) (s : S) :
    (p, s) ∈ docTexts [] kids ↔ TextAt kids p s := by
  rw [docTexts_mem]
  simp

/-- C40: loading an XML file without inclusions succeeds and gives every key `/a/b/c` the last
text below the elements `a`, `b`, `c` of the document, and leaves all other keys alone. -/
theorem c40_xml_file (fs : Files) (k : Nat) (rx : S → S → Bool) (ops : List Op) (m : Mgr)
    (hm : runOps fs k rx newMgr ops = some m) (f : S) (kids : List Xml) (fp : FP.FilePath) (ext : S)
    (hfp : FP.init fs.env (FP.initBudget fs.env f) f = some fp) (hext : fp.extension = .ok ext)
    (hnt : isTreeExt ext = false) (hx : fs.xml f = some (some kids))
    (hinc : ¬ HasElem includeName kids) (j : Nat) :
    ∃ m', load fs (j + 1) f m = some (.ok (true, m')) ∧
      ∀ key, lookup m'.items key = (lastValue (entries (docTexts [] kids)) key).or (lookup m.items key) := by
  have := readKids_docTexts (load fs j) fp.path kids [] m hinc
  refine ⟨(entries (docTexts [] kids)).foldl put m, ?_, (putAll_spec _ _ (inv_run ops hm).items).2⟩
  have hk : keyOf [] = [] := rfl
  rw [hk] at this
  simp [load, hfp, hext, hnt, hx, this, Outcome.map]

/-! ### Attribute tree files -/

theorem treesEntries_attrs (ks : List AT.Tree) : ∀ p, treesEntries (keyOf p) ks = entries (kidsAttrs p ks) := by
  have key : ∀ t : AT.Tree, ∀ p, treeEntries (keyOf p) t = entries (treeAttrs (p ++ [t.desc.getD []]) t) := by
    intro t
    refine AT.Tree.rec
      (motive_1 := fun t => ∀ p, treeEntries (keyOf p) t
        = entries (treeAttrs (p ++ [t.desc.getD []]) t))
      (motive_2 := fun ks => ∀ p, treesEntries (keyOf p) ks = entries (kidsAttrs p ks)) ?_ ?_ ?_ t
    · intro d a c ks ih p
      have hk : keyOf p ++ '/' :: d.getD [] = keyOf (p ++ [d.getD []]) := by
        rw [keyOf_append, keyOf_single]
      simp only [treeEntries, treeAttrs, AT.Tree.desc, hk, ih, entries, List.map_append]
      congr 1
      cases a <;> by_cases hd : d = some AT.commentStr <;> simp [hd, hk]
    · intro p; simp [treesEntries, kidsAttrs, entries]
    · intro t ts ih1 ih2 p
      simp only [treesEntries, kidsAttrs, ih1, ih2, entries, List.map_append]
  induction ks with
  | nil => intro p; simp [treesEntries, kidsAttrs, entries]
  | cons t ts ih =>
    intro p
    simp only [treesEntries, kidsAttrs, ih, key, entries, List.map_append]

theorem rootEntries_attrs (t : AT.Tree) : rootEntries t = entries (treeAttrs [] t) := by
  cases t with
  | node d a c ks =>
    have := treesEntries_attrs ks []
    have hk : keyOf [] = [] := rfl
    rw [hk] at this
    simp only [rootEntries, AT.Tree.desc, AT.Tree.attr, AT.Tree.kids, this, treeAttrs, entries,
      List.map_append]
    congr 1
    cases a <;> by_cases hd : d = some AT.commentStr <;> simp [hd, hk]

/-- C40: `treeAttrs` lists exactly the attributes of the tree that are not comments. -/
theorem c40_tree_attributes (t : AT.Tree) (p : List S) (v : S) :
    (p, v) ∈ treeAttrs [] t ↔ AttrAt t p v := by
  have key : ∀ t : AT.Tree, ∀ (p : List S) (e : List S × S),
      e ∈ treeAttrs p t ↔ ∃ q, e.1 = p ++ q ∧ AttrAt t q e.2 := by
    intro t
    refine AT.Tree.rec
      (motive_1 := fun t => ∀ (p : List S) (e : List S × S),
        e ∈ treeAttrs p t ↔ ∃ q, e.1 = p ++ q ∧ AttrAt t q e.2)
      (motive_2 := fun ks => ∀ (p : List S) (e : List S × S),
        e ∈ kidsAttrs p ks ↔ ∃ t ∈ ks, ∃ q, e.1 = p ++ t.desc.getD [] :: q ∧ AttrAt t q e.2)
      ?_ ?_ ?_ t
    · intro d a c ks ih p e
      rw [treeAttrs.eq_def]
      simp only [List.mem_append, ih]
      constructor
      · rintro (h | ⟨t, ht, q, h1, h2⟩)
        · cases a with
          | none => simp at h
          | some v =>
            by_cases hd : d = some AT.commentStr
            · simp [hd] at h
            · simp only [hd, if_false, List.mem_singleton] at h
              subst h
              exact ⟨[], by simp, .here hd⟩
        · exact ⟨_, h1, .down ht h2⟩
      · rintro ⟨q, h1, h2⟩
        cases h2 with
        | here hd =>
          left
          simp only [hd, if_false, List.mem_singleton]
          exact Prod.ext (by simpa using h1) rfl
        | down ht h2 => exact .inr ⟨_, ht, _, h1, h2⟩
    · intro p e; simp [kidsAttrs]
    · intro t ts ih1 ih2 p e
      rw [kidsAttrs.eq_def]
      simp only [List.mem_append, ih1, ih2]
      constructor
      · rintro (⟨q, h1, h2⟩ | ⟨u, hu, q, h1, h2⟩)
        · exact ⟨t, by simp, q, by simp [h1], h2⟩
        · exact ⟨u, by simp [hu], q, h1, h2⟩
      · rintro ⟨u, hu, q, h1, h2⟩
        rcases List.mem_cons.1 hu with rfl | hu
        · exact .inl ⟨q, by simp [h1], h2⟩
        · exact .inr ⟨u, hu, q, h1, h2⟩
  rw [key]
  simp

/-- C40: loading an attribute tree file succeeds and gives every key `/a/b/c` the last
attribute of a node reached by the descriptions `a`, `b`, `c`, and leaves all other keys
alone. -/
theorem c40_tree_file (fs : Files) (k : Nat) (rx : S → S → Bool) (ops : List Op) (m : Mgr)
    (hm : runOps fs k rx newMgr ops = some m) (f : S) (t : AT.Tree) (fp : FP.FilePath) (ext : S)
    (hfp : FP.init fs.env (FP.initBudget fs.env f) f = some fp) (hext : fp.extension = .ok ext)
    (hnt : isTreeExt ext = true) (hx : fs.tree f = some t) (j : Nat) :
    ∃ m', load fs (j + 1) f m = some (.ok (true, m')) ∧
      ∀ key, lookup m'.items key = (lastValue (entries (treeAttrs [] t)) key).or (lookup m.items key) := by
  refine ⟨(entries (treeAttrs [] t)).foldl put m, ?_, (putAll_spec _ _ (inv_run ops hm).items).2⟩
  rw [← rootEntries_attrs, ← readRoot_entries]
  simp [load, hfp, hext, hnt, hx]

/-! ### Inclusions -/

theorem includes_cons {f : S} {x : Xml} {xs : List Xml} (h : Includes f xs) : Includes f (x :: xs) := by
  cases h with
  | here hm hk => exact .here (List.mem_cons_of_mem _ hm) hk
  | down hm hn hk => exact .down (List.mem_cons_of_mem _ hm) hn hk

theorem includes_one {f : S} {x : Xml} {xs : List Xml} (h : Includes f [x]) : Includes f (x :: xs) := by
  cases h with
  | here hm hk => exact .here (List.mem_cons.2 (.inl (List.mem_singleton.1 hm))) hk
  | down hm hn hk => exact .down (List.mem_cons.2 (.inl (List.mem_singleton.1 hm))) hn hk

theorem readKids_finishes (inc : S → Mgr → Option (Outcome (Bool × Mgr))) (path : S)
    (kids : List Xml) (hinc : ∀ f, Includes f kids → ∀ m, inc (path ++ f) m ≠ none) :
    ∀ fq m, readKids inc path fq kids m ≠ none := by
  have key : ∀ x : Xml, (∀ f, Includes f [x] → ∀ m, inc (path ++ f) m ≠ none) →
      ∀ fq m, readKid inc path fq x m ≠ none := by
    intro x
    refine Xml.rec
      (motive_1 := fun x => (∀ f, Includes f [x] → ∀ m, inc (path ++ f) m ≠ none) →
        ∀ fq m, readKid inc path fq x m ≠ none)
      (motive_2 := fun kids => (∀ f, Includes f kids → ∀ m, inc (path ++ f) m ≠ none) →
        ∀ fq m, readKids inc path fq kids m ≠ none) ?_ ?_ ?_ ?_ ?_ x
    · intro name kids ih h fq m
      by_cases hn : name = includeName
      · cases kids with
        | nil => simp [readKid, hn, getText]
        | cons y ys =>
          cases y with
          | text s =>
            have := h s (.here (ks := .text s :: ys) (rest := ys) (by simp [hn]) rfl) m
            simp [readKid, hn, getText, this]
          | elem a b => simp [readKid, hn, getText]
          | other => simp [readKid, hn, getText]
      · simp only [readKid, hn, if_false]
        exact ih (fun f hf => h f (.down (ks := kids) (by simp) hn hf)) _ m
    · intro s _ fq m; simp [readKid]
    · intro _ fq m; simp [readKid]
    · intro _ fq m; simp [readKids]
    · intro x xs ih1 ih2 h fq m
      have a := ih1 (fun f hf => h f (includes_one hf)) fq m
      simp only [readKids]
      split
      · exact ih2 (fun f hf => h f (includes_cons hf)) _ _
      · exact a
  induction kids with
  | nil => intro fq m; simp [readKids]
  | cons x xs ih =>
    intro fq m
    have a := key x (fun f hf => hinc f (includes_one hf)) fq m
    simp only [readKids]
    split
    · exact ih (fun f hf => hinc f (includes_cons hf)) _ _
    · exact a

/-- C40: if the files include each other without cycles, loading finishes, whatever the
files are. -/
theorem c40_load_terminates (fs : Files) (rank : S → Nat)
    (hr : ∀ f kids fp g, fs.xml f = some (some kids) →
      FP.init fs.env (FP.initBudget fs.env f) f = some fp → Includes g kids →
      rank (fp.path ++ g) < rank f) :
    ∀ (k : Nat) (f : S) (m : Mgr), rank f < k → load fs k f m ≠ none := by
  intro k
  induction k with
  | zero => intro f m h; omega
  | succ k ih =>
    intro f m h
    obtain ⟨fp, hfp⟩ := FP.c37_init_terminates fs.env f _ (Nat.le_refl _)
    simp only [load, hfp]
    split
    · simp
    · simp
    · split
      · split <;> simp
      · split
        · rename_i kids hx
          have := readKids_finishes (load fs k) fp.path kids
            (fun g hg m' => ih _ m' (by have := hr f kids fp g hx hfp hg; omega)) [] m
          simpa using this
        · simp
        · simp

/-- The files of the example: `/a.xml` includes itself. -/
def selfInclude : Files :=
  { xml := fun f => if f = "/a.xml".toList then
      some (some [.elem includeName [.text "a.xml".toList]]) else none
    tree := fun _ => none
    env := fun _ => none }

/-- C40 fails for a file that includes itself: loading it never returns. -/
theorem c40_self_include_never_returns (k : Nat) (m : Mgr) :
    load selfInclude k "/a.xml".toList m = none := by
  have h1 : ((FP.init (fun _ => none) (FP.initBudget (fun _ => none) "/a.xml".toList)
      "/a.xml".toList).map fun fp => (fp.path, fp.extension))
      = some ("/".toList, .ok ".xml".toList) := by decide +kernel
  cases hfp : FP.init (fun _ => none) (FP.initBudget (fun _ => none) "/a.xml".toList)
      "/a.xml".toList with
  | none => rw [hfp] at h1; cases h1
  | some fp =>
    rw [hfp] at h1
    simp only [Option.map_some, Option.some.injEq, Prod.mk.injEq] at h1
    obtain ⟨hp, he⟩ := h1
    induction k with
    | zero => rfl
    | succ k ih =>
      have hx : selfInclude.xml "/a.xml".toList
          = some (some [.elem includeName [.text "a.xml".toList]]) := by
        simp [selfInclude]
      have hfp' : FP.init selfInclude.env (FP.initBudget selfInclude.env "/a.xml".toList)
          "/a.xml".toList = some fp := hfp
      have hnt : isTreeExt ".xml".toList = false := by decide +kernel
      have hcat : "/".toList ++ "a.xml".toList = "/a.xml".toList := by decide +kernel
      simp only [load, hfp', he, hnt, hx, readKids, readKid, getText, hp, hcat, ih]
      simp

/-! ### A concrete case -/

/-- `/c/main.xml` sets `/net/port` twice and includes `/c/more.xml`. -/
def demoFiles : Files :=
  { xml := fun f =>
      if f = "/c/main.xml".toList then
        some (some [.other, .elem "net".toList [.elem "port".toList [.text "80".toList],
          .elem "port".toList [.text "81".toList]],
          .elem includeName [.text "more.xml".toList]])
      else if f = "/c/more.xml".toList then
        some (some [.elem "log".toList [.text "on".toList]])
      else none
    tree := fun f => if f = "/c/t.tree".toList then
        some (.node none none false [.node (some "net".toList) (some "v".toList) false
          [.node (some "port".toList) (some "82".toList) false []]])
      else none
    env := fun _ => none }

example : ((load demoFiles 2 "/c/main.xml".toList newMgr).map fun r => match r with
      | .ok x => some (x.1, x.2.items)
      | _ => none)
    = some (some (true, [("/log".toList, "on".toList), ("/net/port".toList, "81".toList)])) := by
  decide +kernel

example : ((load demoFiles 1 "/c/t.tree".toList newMgr).map fun r => match r with
      | .ok x => some (x.1, x.2.items)
      | _ => none)
    = some (some (true, [("/net".toList, "v".toList), ("/net/port".toList, "82".toList)])) := by
  decide +kernel

example : ((FP.init demoFiles.env (FP.initBudget demoFiles.env "/c/more.xml".toList)
    "/c/more.xml".toList).map (·.extension)) = some (.ok ".xml".toList) ∧
    isTreeExt ".xml".toList = false := by decide +kernel

example : entries (docTexts [] [.elem "log".toList [.text "on".toList, .elem "l".toList [.text "3".toList]]])
    = [("/log".toList, "on".toList), ("/log/l".toList, "3".toList)] := by decide +kernel

/-- `docTexts` and the absence of inclusions for the second demo file. -/
example : ¬ HasElem includeName [.elem "log".toList [.text "on".toList]] := by
  intro h
  cases h with
  | here hm =>
    simp only [List.mem_singleton, Xml.elem.injEq] at hm
    exact absurd hm.1 (by decide +kernel)
  | down hm hk =>
    simp only [List.mem_singleton, Xml.elem.injEq] at hm
    obtain ⟨-, rfl⟩ := hm
    cases hk with
    | here h => simp at h
    | down h _ => simp at h

/-- The inclusions of the demo files have no cycle. -/
example : ∃ rank : S → Nat, rank "/c/main.xml".toList < 2 ∧
    ∀ f kids fp g, demoFiles.xml f = some (some kids) →
      FP.init demoFiles.env (FP.initBudget demoFiles.env f) f = some fp → Includes g kids →
      rank (fp.path ++ g) < rank f := by
  refine ⟨fun f => if f = "/c/main.xml".toList then 1 else 0, by decide +kernel, ?_⟩
  intro f kids fp g hx hfp hg
  have one : ∀ (n s : S), n ≠ includeName → ¬ Includes g [.elem n [.text s]] := by
    intro n s hn h
    cases h with
    | here hm _ =>
      simp only [List.mem_singleton, Xml.elem.injEq] at hm
      exact hn hm.1.symm
    | down hm _ hk =>
      simp only [List.mem_singleton, Xml.elem.injEq] at hm
      obtain ⟨-, rfl⟩ := hm
      cases hk with
      | here h _ => simp at h
      | down h _ _ => simp at h
  by_cases h1 : f = "/c/main.xml".toList
  · subst h1
    have h2 : ((FP.init demoFiles.env (FP.initBudget demoFiles.env "/c/main.xml".toList)
        "/c/main.xml".toList).map (·.path)) = some "/c/".toList := by decide +kernel
    rw [hfp] at h2
    simp only [Option.map_some, Option.some.injEq] at h2
    have hx' : kids = [.other, .elem "net".toList [.elem "port".toList [.text "80".toList],
          .elem "port".toList [.text "81".toList]],
          .elem includeName [.text "more.xml".toList]] := by
      simp only [demoFiles, if_true, Option.some.injEq] at hx
      exact hx.symm
    subst hx'
    have hg' : g = "more.xml".toList := by
      cases hg with
      | here hm hk =>
        simp only [List.mem_cons, Xml.elem.injEq, List.not_mem_nil, or_false, reduceCtorEq,
          false_or] at hm
        rcases hm with hm | hm
        · exact absurd hm.1 (by decide +kernel)
        · rw [hm.2] at hk
          simp only [List.cons.injEq, Xml.text.injEq] at hk
          exact hk.1.symm
      | down hm hn hk =>
        simp only [List.mem_cons, Xml.elem.injEq, List.not_mem_nil, or_false, reduceCtorEq,
          false_or] at hm
        rcases hm with hm | hm
        · rw [hm.2] at hk
          cases hk with
          | here h _ =>
            simp only [List.mem_cons, Xml.elem.injEq, List.not_mem_nil, or_false] at h
            rcases h with h | h <;> exact absurd h.1 (by decide +kernel)
          | down h _ hk =>
            simp only [List.mem_cons, Xml.elem.injEq, List.not_mem_nil, or_false] at h
            rcases h with h | h <;> (rw [h.2] at hk; cases hk with
              | here h _ => simp at h
              | down h _ _ => simp at h)
        · exact absurd hm.1 hn
    rw [h2, hg']
    decide +kernel
  · by_cases h2 : f = "/c/more.xml".toList
    · subst h2
      have hx' : kids = [.elem "log".toList [.text "on".toList]] := by
        simp only [demoFiles, h1, if_false, if_true, Option.some.injEq] at hx
        exact hx.symm
      subst hx'
      exact absurd hg (one _ _ (by decide +kernel))
    · exact absurd hx (by
        have : demoFiles.xml f = none := by
          show (if _ then _ else if _ then _ else none) = none
          rw [if_neg h1, if_neg h2]
        rw [this]; intro h; cases h)

/-- The value of some keys after the registration of three parameters and `initialize()`. -/
def demoRun (o : Getopt.Out) (keys : List String) : Option (List (Option S)) :=
  (runOps demoFiles 2 (fun _ _ => false) newMgr
      [.param ⟨"mode".toList, "/mode".toList, "fast".toList⟩,
       .param ⟨"port".toList, "/net/port".toList, "1".toList⟩,
       .param ⟨"log".toList, "/log".toList, "off".toList⟩]).bind fun m =>
    match init demoFiles 2 o m with
    | some (.ok x) => if x.1 then some (keys.map fun k => lookup x.2.items k.toList) else none
    | _ => none

/-- What Getopt has stored after `-c /c/main.xml`. -/
def demoOut1 : Getopt.Out :=
  { opt := fun n => if n = configfileOpt then some "/c/main.xml".toList else none }
/-- What Getopt has stored after `-c /c/main.xml --port=90`. -/
def demoOut2 : Getopt.Out :=
  { opt := fun n => if n = configfileOpt then some "/c/main.xml".toList
      else if n = "port".toList then some "90".toList else none }
/-- What Getopt has stored after `-c /c/main.xml --port=90 -o/net/port=91`. -/
def demoOut3 : Getopt.Out :=
  { demoOut2 with pre := fun n => if n = configOptionOpt
      then [("/net/port".toList, "91".toList)] else [] }

/-- Defaults only; a file; a file and a command-line value; and `-o` above all. -/
example : demoRun {} ["/mode", "/net/port", "/log"]
    = some [some "fast".toList, some "1".toList, some "off".toList] := by decide +kernel
example : demoRun demoOut1 ["/mode", "/net/port", "/log", "/configfile"]
    = some [some "fast".toList, some "81".toList, some "on".toList,
        some "/c/main.xml".toList] := by decide +kernel
example : demoRun demoOut2 ["/net/port", "/log"]
    = some [some "90".toList, some "on".toList] := by decide +kernel
example : demoRun demoOut3 ["/net/port", "/log"]
    = some [some "91".toList, some "on".toList] := by decide +kernel

/-- C40 fails for a configuration file whose absolute name has no dot: `initialize()` ends
with an exception. -/
theorem c40_file_without_dot_throws (fs : Files) (k : Nat) (o : Getopt.Out) (m : Mgr)
    (hi : m.initialized = false) (hp : o.paramOptPresent configfileOpt = true) (fp : FP.FilePath)
    (hfp : FP.init fs.env (FP.initBudget fs.env (o.paramOpt configfileOpt))
      (o.paramOpt configfileOpt) = some fp) (hdot : '.' ∉ fp.absoluteName) :
    init fs (k + 1) o m = some (.throws .outOfRange) := by
  have hs : fp.extSplit = none := by
    simp only [FP.init, Option.bind_eq_bind, Option.bind_eq_some_iff] at hfp
    obtain ⟨pw, h1, abs, h2, file, h3, h⟩ := hfp
    cases h
    exact FP.rfind_none _ _ hdot
  have he : fp.extension = .throws .outOfRange := by simp [FP.FilePath.extension, hs]
  simp [init, hi, hp, load, hfp, he]

end Verif.Cfg
