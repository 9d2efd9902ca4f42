import Verif.Config.ATTextProps
import Verif.Config.CfgFileProps

/-! # C138: the configuration given by an attribute tree file -/
namespace Verif.AT.Text
open Err

/-- `ConfigManager::load` on an attribute tree file, ConfigManager.cpp:193-202, with AttributeTree.cpp:1239-1286 `load` into a
new tree: the tree that is then read into the configuration; outer `none`: does not return within `k` lines, inner
`none`: `eFILE_LOAD_ERROR`. Simplification: the first thing `load` does, looking up an attribute in a new tree, is a call through a null pointer
(`c98_load_into_new_tree`); here it finds nothing, as `SubTreeList::subTree` (AttributeTree.cpp:535-548), which begins by comparing
`this` with the null pointer, does when compiled without assuming that pointers are valid. Include lines are taken to be expanded (C113). -/
def loadNew (k : Nat) (path name : S) (content : Option S) : Option (Option Tree) :=
  let t1 := setAttribute (some fileNameStr) (some name) (setAttribute (some filePathStr) (some path) (newNode none))
  match content with
  | none => some none
  | some x =>
    match get k { processInclude := true, loadComments := false, load := fun _ t => t } t1 x with
    | none => none
    | some (t2, error) => some (if error ≥ 0 then none else some (unmark t2))

/-- The two changes that `load` makes before it reads the file. -/
def fileChanges (path name : S) : List Change := [([reservedPath], some path), ([reservedName], some name)]

/-! ## Lemmas -/

/-- All nodes below the root have a description. -/
inductive Named : Tree → Prop
  | mk {d a : Option S} {c : Bool} {ks : List Tree} : (∀ k ∈ ks, k.desc.isSome) → (∀ k ∈ ks, Named k) → Named (.node d a c ks)

theorem named_iff (t : Tree) : Named t ↔ ∀ k ∈ t.kids, k.desc.isSome ∧ Named k := by
  constructor
  · rintro ⟨h, h'⟩ k hk; exact ⟨h k hk, h' k hk⟩
  · cases t; exact fun h => ⟨fun k hk => (h k hk).1, fun k hk => (h k hk).2⟩

theorem named_updFirst {d : S} {f : Tree → Tree} (hf : ∀ k, (f k).desc = k.desc) (hn : ∀ k, Named k → Named (f k)) :
    ∀ {ks ks' : List Tree}, updFirst d f ks = some ks' → (∀ k ∈ ks, k.desc.isSome ∧ Named k) → ∀ k ∈ ks', k.desc.isSome ∧ Named k := by
  intro ks
  induction ks with
  | nil => intro ks' h; simp [updFirst] at h
  | cons x xs ih =>
    intro ks' h hk k hk'
    simp only [updFirst] at h
    split at h
    · cases h
      rcases List.mem_cons.1 hk' with rfl | hk'
      · have := hk x (by simp)
        exact ⟨by rw [hf]; exact this.1, hn x this.2⟩
      · exact hk k (by simp [hk'])
    · simp only [Option.map_eq_some_iff] at h
      obtain ⟨l, hl, rfl⟩ := h
      rcases List.mem_cons.1 hk' with rfl | hk'
      · exact hk k (by simp)
      · exact ih hl (fun k hx => hk k (by simp [hx])) k hk'

theorem named_setThis (a : Option S) (t : Tree) (h : Named t) : Named (setThis a t) := by
  rw [named_iff] at h ⊢; simpa using h

theorem named_setC (a : Option S) (p : List S) (t : Tree) (h : Named t) : Named (setC a p t) := by
  induction p generalizing t with
  | nil => exact named_setThis a t h
  | cons d ds ih =>
    simp only [setC]
    split
    · exact named_setThis a t h
    · have hc := (named_iff t).1 h
      split
      · rename_i ks hk
        rw [named_iff]
        simpa using named_updFirst (fun k => setC_desc a ds k) ih hk hc
      · rw [named_iff]
        simp only [withKids_kids, List.mem_cons]
        rintro k (rfl | hk)
        · exact ⟨by rw [setC_desc]; rfl, ih _ (by rw [named_iff]; simp)⟩
        · exact hc k hk

theorem named_unmark (t : Tree) (h : Named t) : Named (unmark t) := by
  induction h with
  | @mk d a c ks hk _ ih =>
    rw [named_iff, unmark_kids]
    intro k hk'
    obtain ⟨x, hx, rfl⟩ := List.mem_map.1 hk'
    exact ⟨by rw [unmark_desc]; exact hk x hx, ih x hx⟩

theorem uniq_unmark (t : Tree) (h : Uniq t) (hn : Named t) : Uniq (unmark t) := by
  induction hn with
  | @mk d a c ks hk _ ih =>
    rw [uniq_iff] at h ⊢
    rw [unmark_kids]
    refine ⟨?_, fun k hk' => ?_⟩
    · rw [List.map_map]
      have : (Tree.desc ∘ unmark) = Tree.desc := funext fun k => unmark_desc k
      rw [this]; exact h.1
    · obtain ⟨x, hx, rfl⟩ := List.mem_map.1 hk'
      exact ih x hx (h.2 x hx)

theorem lookup_unmark (q : List S) (t : Tree) : lookup q (unmark t) = lookup q t := by
  induction q generalizing t with
  | nil => cases t; rfl
  | cons d ds ih =>
    rw [lookup_cons, lookup_cons, unmark_kids, find_map (fun k => unmark_desc k)]
    cases find d t.kids with
    | none => rfl
    | some k => exact ih k

theorem named_calls (cs : List Change) (h : ∀ c ∈ cs, GoodPath c.1) (t : Tree) (hn : Named t) (hu : Uniq t) :
    Named (calls cs t) ∧ Uniq (calls cs t) := by
  induction cs generalizing t with
  | nil => exact ⟨hn, hu⟩
  | cons c cs ih =>
    obtain ⟨p, v⟩ := c
    show Named (calls cs (call (p, v) t)) ∧ Uniq (calls cs (call (p, v) t))
    refine ih (fun x hx => h x (by simp [hx])) _ ?_ ?_
    · rw [call_eq (h (p, v) (by simp))]; exact named_setC v p t hn
    · rw [call_eq (h (p, v) (by simp))]; exact uniq_setC v p t hu

/-- In a tree with named, different siblings there is one node at each path. -/
theorem attrAt_iff (t : Tree) (hn : Named t) (hu : Uniq t) (p : List S) (v : S) :
    Verif.Cfg.AttrAt t p v ↔ lookup p t = some v ∧ (∀ n, nodeAt p t = some n → n.desc ≠ some commentStr) := by
  induction hn generalizing p with
  | @mk d a c ks hk _ ih =>
    rw [uniq_iff] at hu
    constructor
    · intro h
      cases h with
      | here hd => exact ⟨rfl, fun n hn => by simp only [nodeAt, Option.some.injEq] at hn; rw [← hn]; exact hd⟩
      | @down _ _ _ _ k p' _ hk' h =>
        have hd := hk k hk'
        obtain ⟨e, he⟩ := Option.isSome_iff_exists.1 hd
        have hf : find e ks = some k := (find_mem hu.1).2 ⟨hk', he⟩
        obtain ⟨h1, h2⟩ := (ih k hk' (hu.2 k hk') p').1 h
        rw [he]
        refine ⟨?_, ?_⟩
        · rw [Option.getD_some, lookup_cons]
          show (find e ks).bind (lookup p') = some v
          rw [hf]; exact h1
        · rw [Option.getD_some, nodeAt_cons]
          show ∀ n, (find e ks).bind (nodeAt p') = some n → _
          rw [hf]; exact h2
    · rintro ⟨h1, h2⟩
      cases p with
      | nil =>
        have ha : a = some v := h1
        subst ha
        exact .here (h2 _ rfl)
      | cons e p' =>
        rw [lookup_cons] at h1
        rw [nodeAt_cons] at h2
        have e1 : (Tree.node d a c ks).kids = ks := rfl
        rw [e1] at h1 h2
        cases hf : find e ks with
        | none => rw [hf] at h1; cases h1
        | some k =>
          rw [hf] at h1 h2
          obtain ⟨hk', he⟩ := (find_mem hu.1).1 hf
          have := (ih k hk' (hu.2 k hk') p').2 ⟨h1, h2⟩
          have h3 := Verif.Cfg.AttrAt.down (d := d) (a := a) (c := c) hk' this
          rw [he] at h3; exact h3

theorem nodeAt_desc (p : List S) (t n : Tree) (h : nodeAt p t = some n) (hp : p ≠ []) : n.desc = p.getLast? := by
  induction p generalizing t with
  | nil => exact absurd rfl hp
  | cons d ds ih =>
    rw [nodeAt_cons] at h
    cases hf : find d t.kids with
    | none => rw [hf] at h; cases h
    | some k =>
      rw [hf] at h
      cases ds with
      | nil =>
        simp only [Option.bind_some, nodeAt, Option.some.injEq] at h
        rw [← h]; simpa using find_desc hf
      | cons e es => rw [ih k h (by simp)]; simp

/-- Keys determine their paths. -/
theorem keyOf_inj (p q : List S) (hp : ∀ d ∈ p, '/' ∉ d) (hq : ∀ d ∈ q, '/' ∉ d) (h : Verif.Cfg.keyOf p = Verif.Cfg.keyOf q) : p = q := by
  have tail : ∀ (x y : S) (r r' : List S), '/' ∉ x → '/' ∉ y → x ++ Verif.Cfg.keyOf r = y ++ Verif.Cfg.keyOf r' → x = y ∧ Verif.Cfg.keyOf r = Verif.Cfg.keyOf r' := by
    intro x
    induction x with
    | nil =>
      intro y r r' _ hy h
      cases y with
      | nil => exact ⟨rfl, h⟩
      | cons c cs =>
        exfalso
        cases r with
        | nil => simp [Verif.Cfg.keyOf] at h
        | cons a as =>
          simp only [Verif.Cfg.keyOf, List.flatMap_cons, List.nil_append, List.cons_append, List.cons.injEq] at h
          exact hy (by rw [← h.1]; simp)
    | cons c cs ih =>
      intro y r r' hx hy h
      cases y with
      | nil =>
        exfalso
        cases r' with
        | nil => simp [Verif.Cfg.keyOf] at h
        | cons a as =>
          simp only [Verif.Cfg.keyOf, List.flatMap_cons, List.nil_append, List.cons_append, List.cons.injEq] at h
          exact hx (by rw [h.1]; simp)
      | cons c' cs' =>
        simp only [List.cons_append, List.cons.injEq] at h
        obtain ⟨h1, h2⟩ := ih cs' r r' (fun hh => hx (by simp [hh])) (fun hh => hy (by simp [hh])) h.2
        exact ⟨by rw [h.1, h1], h2⟩
  induction p generalizing q with
  | nil =>
    cases q with
    | nil => rfl
    | cons d ds => simp [Verif.Cfg.keyOf] at h
  | cons d ds ih =>
    cases q with
    | nil => simp [Verif.Cfg.keyOf] at h
    | cons e es =>
      have h' : d ++ Verif.Cfg.keyOf ds = e ++ Verif.Cfg.keyOf es := by
        simpa [Verif.Cfg.keyOf] using h
      obtain ⟨h1, h2⟩ := tail d e ds es (hp d (by simp)) (hq e (by simp)) h'
      rw [h1, ih es (fun x hx => hp x (by simp [hx])) (fun x hx => hq x (by simp [hx])) h2]

theorem valueAfter_mem (q : List S) (cs : List Change) (v : S) (h : valueAfter q none cs = some v) : ∃ c ∈ cs, c.1 = q := by
  have : ∀ (cs : List Change) (o : Option S), (∀ c ∈ cs, c.1 ≠ q) → valueAfter q o cs = o := by
    intro cs
    induction cs with
    | nil => intro o _; rfl
    | cons c cs ih =>
      intro o hc
      show valueAfter q (if c.1 = q then c.2 else o) cs = o
      rw [if_neg (hc c (by simp))]
      exact ih o fun x hx => hc x (by simp [hx])
  refine Classical.byContradiction fun hn => ?_
  rw [this cs none (fun c hc hq => hn ⟨c, hc, hq⟩)] at h
  cases h

/-! ## The property -/

/-- C138: a configuration file in attribute tree format with lines that are all understood, whose names contain no slash: each
configuration key `/a/b` has afterwards the value of the last line that changes the path `a`, `b`; keys that no line gives a value keep
their value. The file also sets two keys to its own path and name. (Paths that end with the comment name are
left out; `loadNew` says how the first look-up, which is undefined in C++, is read.) -/
theorem c138_config (fs : Verif.Cfg.Files) (k : Nat) (rx : S → S → Bool) (ops : List Verif.Cfg.Op) (m : Verif.Cfg.Mgr)
    (hm : Verif.Cfg.runOps fs k rx Verif.Cfg.newMgr ops = some m) (f : S) (fp : FP.FilePath) (ext : S)
    (hfp : FP.init fs.env (FP.initBudget fs.env f) f = some fp) (hext : fp.extension = .ok ext)
    (hnt : Verif.Cfg.isTreeExt ext = true) (path name : S) (ls : List S) (hg : ∀ l ∈ ls, GoodLine l)
    (hs : scan 0 false 0 ls = .fine) (hsl : ∀ c ∈ changes [] false ls, ∀ d ∈ c.1, '/' ∉ d)
    (b : Nat) (hb : ls.length < b) (hx : loadNew b path name (some (text ls)) = some (fs.tree f)) (j : Nat) :
    ∃ m', Verif.Cfg.load fs (j + 1) f m = some (.ok (true, m')) ∧
      (∀ q : List S, (∀ d ∈ q, '/' ∉ d) → q.getLast? ≠ some reservedComment →
        Verif.Cfg.lookup m'.items (Verif.Cfg.keyOf q) =
          (valueAfter q none (fileChanges path name ++ changes [] false ls)).or (Verif.Cfg.lookup m.items (Verif.Cfg.keyOf q))) ∧
      (∀ key, (∀ q : List S, (∀ d ∈ q, '/' ∉ d) → key ≠ Verif.Cfg.keyOf q) → Verif.Cfg.lookup m'.items key = Verif.Cfg.lookup m.items key) := by
  -- the tree
  have hr1 : comps reservedPath = [reservedPath] := by decide +kernel
  have hr2 : comps reservedName = [reservedName] := by decide +kernel
  have hgp : ∀ c ∈ fileChanges path name ++ changes [] false ls, GoodPath c.1 := by
    intro c hc
    rcases List.mem_append.1 hc with hc | hc
    · simp only [fileChanges, List.mem_cons, List.not_mem_nil, or_false] at hc
      rcases hc with rfl | rfl
      · intro d hd; rw [List.mem_singleton] at hd; subst hd; exact ⟨by decide, by decide⟩
      · intro d hd; rw [List.mem_singleton] at hd; subst hd; exact ⟨by decide, by decide⟩
    · exact goodPath_changes ls [] false (by intro d hd; cases hd) c hc
  have ht1 : setAttribute (some fileNameStr) (some name) (setAttribute (some filePathStr) (some path) (newNode none)) =
      calls (fileChanges path name) (newNode none) := by
    show _ = call ([reservedName], some name) (call ([reservedPath], some path) (newNode none))
    rw [call_eq (hgp ([reservedName], some name) (by simp [fileChanges])), call_eq (hgp ([reservedPath], some path) (by simp [fileChanges]))]
    show setC _ (comps reservedName) (setC _ (comps reservedPath) _) = _
    rw [hr1, hr2]
  have htree : fs.tree f = some (unmark (calls (fileChanges path name ++ changes [] false ls) (newNode none))) := by
    unfold loadNew at hx
    simp only [ht1] at hx
    obtain ⟨code, hget⟩ := c138_reads_as_calls (calls (fileChanges path name) (newNode none)) ls hg (by rw [hs]; simp) b hb
    have hret := c97_return_value { processInclude := true, loadComments := false, load := fun _ t => t }
      (calls (fileChanges path name) (newNode none)) ls hg b hb
    rw [hs, hget] at hret
    simp only [Option.map_some, Option.some.injEq] at hret
    rw [hget] at hx
    simp only [hret] at hx
    rw [calls_append]
    simpa using hx.symm
  obtain ⟨m', h1, h2⟩ := Verif.Cfg.c40_tree_file fs k rx ops m hm f _ fp ext hfp hext hnt htree j
  have h0 : Named (newNode none) ∧ Uniq (newNode none) := ⟨by rw [named_iff]; simp, by rw [uniq_iff]; simp⟩
  obtain ⟨hn1, hu1⟩ := named_calls _ hgp (newNode none) h0.1 h0.2
  have hn := named_unmark _ hn1
  have hu := uniq_unmark _ hu1 hn1
  -- the entries
  have hlook : ∀ q, lookup q (unmark (calls (fileChanges path name ++ changes [] false ls) (newNode none))) =
      valueAfter q none (fileChanges path name ++ changes [] false ls) := by
    intro q
    rw [lookup_unmark, lookup_calls _ hgp, lookup_newNode]
  have hent : ∀ p v, (p, v) ∈ Verif.Cfg.treeAttrs [] (unmark (calls (fileChanges path name ++ changes [] false ls) (newNode none))) →
      valueAfter p none (fileChanges path name ++ changes [] false ls) = some v ∧ ∀ d ∈ p, '/' ∉ d := by
    intro p v hp
    rw [Verif.Cfg.c40_tree_attributes, attrAt_iff _ hn hu] at hp
    rw [← hlook]
    refine ⟨hp.1, ?_⟩
    rw [hlook] at hp
    obtain ⟨c, hc, rfl⟩ := valueAfter_mem _ _ _ hp.1
    rcases List.mem_append.1 hc with hc | hc
    · simp only [fileChanges, List.mem_cons, List.not_mem_nil, or_false] at hc
      rcases hc with rfl | rfl
      · intro d hd; rw [List.mem_singleton] at hd; subst hd; decide
      · intro d hd; rw [List.mem_singleton] at hd; subst hd; decide
    · exact hsl c hc
  refine ⟨m', h1, ?_, ?_⟩
  · intro q hq hqc
    rw [h2]
    congr 1
    cases hv : valueAfter q none (fileChanges path name ++ changes [] false ls) with
    | none =>
      have : ((Verif.Cfg.entries (Verif.Cfg.treeAttrs [] (unmark (calls (fileChanges path name ++ changes [] false ls) (newNode none))))).filter
          fun e => e.1 = Verif.Cfg.keyOf q) = [] := by
        rw [List.filter_eq_nil_iff]
        intro e he
        obtain ⟨⟨p, v⟩, hp, rfl⟩ := List.mem_map.1 he
        obtain ⟨h3, h4⟩ := hent p v hp
        simp only [decide_eq_true_eq]
        intro hk
        rw [keyOf_inj p q h4 hq hk, hv] at h3
        cases h3
      rw [Verif.Cfg.lastValue, this]; rfl
    | some v =>
      have hmem : (q, v) ∈ Verif.Cfg.treeAttrs [] (unmark (calls (fileChanges path name ++ changes [] false ls) (newNode none))) := by
        rw [Verif.Cfg.c40_tree_attributes, attrAt_iff _ hn hu, hlook]
        refine ⟨hv, fun n hnode => ?_⟩
        by_cases hq0 : q = []
        · subst hq0
          simp only [nodeAt, Option.some.injEq] at hnode
          rw [← hnode, unmark_desc]
          have hd : ∀ (cs : List Change), (∀ c ∈ cs, GoodPath c.1) → ∀ t : Tree, (calls cs t).desc = t.desc := by
            intro cs
            induction cs with
            | nil => intro _ t; rfl
            | cons c cs ih =>
              intro hc t
              obtain ⟨p, v⟩ := c
              show (calls cs (call (p, v) t)).desc = t.desc
              rw [ih (fun x hx => hc x (by simp [hx])), call_eq (hc (p, v) (by simp)), setC_desc]
          rw [hd _ hgp]; simp
        · rw [nodeAt_desc q _ n hnode hq0]; exact hqc
      have hall : ∀ x ∈ (((Verif.Cfg.entries (Verif.Cfg.treeAttrs [] (unmark (calls (fileChanges path name ++ changes [] false ls) (newNode none))))).filter
          fun e => e.1 = Verif.Cfg.keyOf q).map (·.2)), x = v := by
        intro x hx
        obtain ⟨e, he, rfl⟩ := List.mem_map.1 hx
        obtain ⟨he1, he2⟩ := List.mem_filter.1 he
        obtain ⟨⟨p, w⟩, hp, rfl⟩ := List.mem_map.1 he1
        obtain ⟨h3, h4⟩ := hent p w hp
        simp only [decide_eq_true_eq] at he2
        rw [keyOf_inj p q h4 hq he2, hv] at h3
        exact (Option.some.inj h3).symm
      have hin : v ∈ (((Verif.Cfg.entries (Verif.Cfg.treeAttrs [] (unmark (calls (fileChanges path name ++ changes [] false ls) (newNode none))))).filter
          fun e => e.1 = Verif.Cfg.keyOf q).map (·.2)) :=
        List.mem_map.2 ⟨(Verif.Cfg.keyOf q, v), List.mem_filter.2 ⟨List.mem_map.2 ⟨(q, v), hmem, rfl⟩, by simp⟩, rfl⟩
      rw [Verif.Cfg.lastValue]
      cases hl : (((Verif.Cfg.entries (Verif.Cfg.treeAttrs [] (unmark (calls (fileChanges path name ++ changes [] false ls) (newNode none))))).filter
          fun e => e.1 = Verif.Cfg.keyOf q).map (·.2)).getLast? with
      | none => rw [List.getLast?_eq_none_iff] at hl; rw [hl] at hin; cases hin
      | some x => rw [hall x (List.mem_of_getLast? hl)]
  · intro key hkey
    rw [h2]
    have : ((Verif.Cfg.entries (Verif.Cfg.treeAttrs [] (unmark (calls (fileChanges path name ++ changes [] false ls) (newNode none))))).filter
        fun e => e.1 = key) = [] := by
      rw [List.filter_eq_nil_iff]
      intro e he
      obtain ⟨⟨p, v⟩, hp, rfl⟩ := List.mem_map.1 he
      simp only [decide_eq_true_eq]
      exact fun hk => hkey p (hent p v hp).2 hk.symm
    rw [Verif.Cfg.lastValue, this]; rfl

/-! ## Findings and examples -/

/-- The text used below: a value, a block with two values, a comment, an override. -/
def demoText : List S :=
  ["# settings".toList, "net{".toList, " :v".toList, " port:80".toList, " _COMMENT_{".toList, " port:1".toList, " }_COMMENT_".toList,
    "}".toList, "log.level:3".toList, "net.port:81".toList]

/-- The configuration files with the demo text in `/c/t.tree`. -/
def demoTreeFiles (ls : List S) : Verif.Cfg.Files :=
  { xml := fun _ => none, tree := fun _ => (loadNew 20 "/c/".toList "t.tree".toList (some (text ls))).join,
    env := fun _ => none }

example : changes [] false demoText = [(["net".toList], none), (["net".toList], some "v".toList), (["net".toList, "port".toList], some "80".toList),
    (["log".toList, "level".toList], some "3".toList), (["net".toList, "port".toList], some "81".toList)] := by decide +kernel

/-- The hypotheses of `c138_config` hold for the demo text. -/
example : (∀ l ∈ demoText, GoodLine l) ∧ scan 0 false 0 demoText = .fine ∧ (∀ c ∈ changes [] false demoText, ∀ d ∈ c.1, '/' ∉ d) ∧
    (loadNew 20 "/c/".toList "t.tree".toList (some (text demoText))).isSome ∧
    (FP.init (demoTreeFiles demoText).env (FP.initBudget (demoTreeFiles demoText).env "/c/t.tree".toList) "/c/t.tree".toList).map (·.extension)
      = some (.ok ".tree".toList) ∧ Verif.Cfg.isTreeExt ".tree".toList = true := by
  refine ⟨?_, ?_, ?_, ?_, ?_, ?_⟩
  · simp only [demoText, GoodLine]; decide +kernel
  all_goals decide +kernel

/-- What is in the configuration after loading a text into an empty manager. -/
def demoLoad (ls : List S) : Option (Option (List (S × S))) :=
  (Verif.Cfg.load (demoTreeFiles ls) 1 "/c/t.tree".toList Verif.Cfg.newMgr).map fun r => match r with
    | .ok x => some x.2.items
    | _ => none

/-- C138, a finding: the name and the path of the file become configuration keys. -/
theorem c138_internal_keys : demoLoad demoText = some (some
    [("/_ATTRIBUTE_TREE_FILE_NAME_".toList, "t.tree".toList), ("/_ATTRIBUTE_TREE_FILE_PATH_".toList, "/c/".toList),
     ("/log/level".toList, "3".toList), ("/net".toList, "v".toList), ("/net/port".toList, "81".toList)]) := by decide +kernel

/-- C138, a finding: opening a block removes the value that its name had, in every tree and at every depth. -/
theorem c138_brace_erases (t : Tree) (n : S) (hn : ∀ c ∈ n, c ≠ ':' ∧ c ≠ '{' ∧ c ≠ '\n') (hs : n.dropWhile isSpace = n) (hh : n.head? ≠ some '#')
    (hc : n ≠ commentStr) (hl : n.length < 1997) (k : Nat) :
    ∃ t' code, get (k + 2) { processInclude := true, loadComments := false, load := fun _ t => t } t (text [n ++ ['{']]) = some (t', code) ∧
      lookup (pieces n) t' = none := by
  have hcol : ':' ∉ n ++ ['{'] := by
    intro h
    rcases List.mem_append.1 h with h | h
    · exact (hn _ h).1 rfl
    · simp at h
  have hdw : (n ++ ['{']).dropWhile isSpace = n ++ ['{'] := by
    cases n with
    | nil => decide
    | cons c cs =>
      have : isSpace c = false := by
        cases hsp : isSpace c with
        | false => rfl
        | true =>
          rw [List.dropWhile_cons, if_pos hsp] at hs
          have h1 := congrArg List.length hs
          have h2 := (List.dropWhile_sublist isSpace (l := cs)).length_le
          simp at h1; omega
      rw [List.cons_append, List.dropWhile_cons, if_neg (by simp [this])]
  have hhead : ((n ++ ['{']).dropWhile isSpace).head? ≠ some '#' := by
    rw [hdw]
    cases n with
    | nil => decide
    | cons c cs => simpa using hh
  have hbb : beforeBrace (n ++ ['{']) = n := by
    unfold beforeBrace
    rw [hdw, List.takeWhile_append_of_pos (by intro c hc; simpa using (hn c hc).2.1)]
    simp
  have hkind : kind (n ++ ['{']) = .opens (pieces n).length := by
    unfold kind
    rw [if_neg hhead, if_neg hcol, if_pos (by simp), hbb, if_neg hc]; rfl
  have hgl : GoodLine (n ++ ['{']) := by
    refine ⟨?_, by simp; omega, by simp⟩
    intro h
    rcases List.mem_append.1 h with h | h
    · exact (hn _ h).2.2 rfl
    · simp at h
  have hscan : scan 0 false 0 [n ++ ['{']] ≠ .unclosed := by
    rw [scan, hkind]; simp [scan]
  obtain ⟨t', code, h1, h2⟩ := c138_values t [n ++ ['{']] (by simpa using hgl) hscan (k + 2) (by simp)
  refine ⟨t', code, h1, ?_⟩
  rw [h2]
  have : changes [] false [n ++ ['{']] = [(pieces n, none)] := by
    rw [changes, hkind]
    simp only [changes, List.append_nil]
    unfold lineChanges
    rw [if_neg hhead, if_neg hcol, if_pos (by simp), hbb]; rfl
  rw [this]
  simp [valueAfter]

/-- An instance: a value, then a block of the same name. -/
example : demoLoad ["net:v".toList, "net{".toList, "port:80".toList, "}".toList] = some (some
    [("/_ATTRIBUTE_TREE_FILE_NAME_".toList, "t.tree".toList), ("/_ATTRIBUTE_TREE_FILE_PATH_".toList, "/c/".toList),
     ("/net/port".toList, "80".toList)]) := by decide +kernel

/-- C138, a finding: `a.b{` enters two levels and its closing brace leaves only one, so the next line belongs to `a`. -/
theorem c138_close_one_level : demoLoad ["a.b{".toList, "c:1".toList, "}".toList, "d:2".toList] = some (some
    [("/_ATTRIBUTE_TREE_FILE_NAME_".toList, "t.tree".toList), ("/_ATTRIBUTE_TREE_FILE_PATH_".toList, "/c/".toList),
     ("/a/b/c".toList, "1".toList), ("/a/d".toList, "2".toList)]) := by decide +kernel

/-- C138 needs names without slashes: here two lines give values to the same key, and the first one wins, although for the same path the
last one does. -/
theorem c138_slash_first_wins : demoLoad ["a/b:1".toList, "a.b:2".toList] = some (some
    [("/_ATTRIBUTE_TREE_FILE_NAME_".toList, "t.tree".toList), ("/_ATTRIBUTE_TREE_FILE_PATH_".toList, "/c/".toList),
     ("/a/b".toList, "1".toList)]) := by decide +kernel

/-- C138: blanks around the colon belong to the name and to the value. -/
theorem c138_blanks_kept : demoLoad ["a : 1".toList] = some (some
    [("/_ATTRIBUTE_TREE_FILE_NAME_".toList, "t.tree".toList), ("/_ATTRIBUTE_TREE_FILE_PATH_".toList, "/c/".toList),
     ("/a ".toList, " 1".toList)]) := by decide +kernel

end Verif.AT.Text
