import Verif.Config.CfgSpec
import Verif.Config.FilePathProps

/-! # Helper lemmas for the configuration manager -/
namespace Verif.Cfg
open Verif.StdMap

theorem lastValue_cons (e : S × S) (es : List (S × S)) (k : S) :
    lastValue (e :: es) k = (lastValue es k).or (if e.1 = k then some e.2 else none) := by
  simp only [lastValue, List.filter_cons]
  by_cases h : e.1 = k
  · simp only [h, decide_true, if_true, List.map_cons, List.getLast?_cons]
    cases (List.getLast? _) <;> simp
  · simp [h]

theorem lastValue_append (es fs : List (S × S)) (k : S) :
    lastValue (es ++ fs) k = (lastValue fs k).or (lastValue es k) := by
  simp [lastValue, List.filter_append, List.getLast?_append]

theorem firstValue_cons (e : S × S) (es : List (S × S)) (k : S) :
    firstValue (e :: es) k = (if e.1 = k then some e.2 else none).or (firstValue es k) := by
  simp only [firstValue, List.filter_cons]
  by_cases h : e.1 = k <;> simp [h]

theorem lookup_assign {V : Type} {m : List (S × V)} (hs : Sorted m) (key : S) (v : V) (k : S) :
    lookup (assign m key v) k = if k = key then some v else lookup m k := by
  have := find_assign hs key v k
  simp only [lookup]
  rw [this]
  by_cases h : k = key <;> simp [h]

theorem hasKey_lookup (m : List (S × S)) (k : S) : KeyValue.hasKey m k = (lookup m k).isSome := rfl

theorem find_insert {m : Mgr} (hs : Sorted m.items) (key v k : S) :
    lookup (insert key v m).items k = if k = key then some v else lookup m.items k := by
  simp only [insert, KeyValue.insert]
  exact lookup_assign hs key v k

theorem sorted_insert {m : Mgr} (hs : Sorted m.items) (key v : S) : Sorted (insert key v m).items := by
  simp only [insert, KeyValue.insert]
  exact sorted_assign hs key v

theorem find_put {m : Mgr} (hs : Sorted m.items) (e : S × S) (k : S) :
    lookup (put m e).items k = if k = e.1 then some e.2 else lookup m.items k := by
  simp only [put, notify]
  exact find_insert hs _ _ _

theorem sorted_put {m : Mgr} (hs : Sorted m.items) (e : S × S) : Sorted (put m e).items := by
  simp only [put, notify]
  exact sorted_insert hs _ _

theorem putAll_spec (es : List (S × S)) (m : Mgr) (hs : Sorted m.items) :
    Sorted (es.foldl put m).items ∧
    ∀ k, lookup (es.foldl put m).items k = (lastValue es k).or (lookup m.items k) := by
  induction es generalizing m with
  | nil => exact ⟨hs, fun k => by simp [lastValue]⟩
  | cons e es ih =>
    obtain ⟨h1, h2⟩ := ih (put m e) (sorted_put hs e)
    refine ⟨h1, fun k => ?_⟩
    rw [List.foldl_cons, h2, find_put hs, lastValue_cons]
    by_cases hk : k = e.1
    · simp [hk]
    · have : ¬ e.1 = k := fun e' => hk e'.symm
      simp [hk, this]

/-- Loading does nothing else than a fixed sequence of `insert`/`notify`. -/
def Uniform {α : Type} (F : Mgr → Option (Outcome (α × Mgr))) : Prop :=
  (∃ (b : α) (es : List (S × S)), ∀ m, F m = some (.ok (b, es.foldl put m))) ∨
  (∃ e, ∀ m, F m = some (.throws e)) ∨ (∀ m, F m = some .ub) ∨ (∀ m, F m = none)

/-- The same for a function without result. -/
def Uniform' (F : Mgr → Option (Outcome Mgr)) : Prop :=
  (∃ es : List (S × S), ∀ m, F m = some (.ok (es.foldl put m))) ∨
  (∃ e, ∀ m, F m = some (.throws e)) ∨ (∀ m, F m = some .ub) ∨ (∀ m, F m = none)

theorem uniform_readKids (inc : S → Mgr → Option (Outcome (Bool × Mgr)))
    (hinc : ∀ f, Uniform (inc f)) (path : S) :
    ∀ kids fq, Uniform' (readKids inc path fq kids) := by
  have key : ∀ x : Xml, ∀ fq, Uniform' (readKid inc path fq x) := by
    intro x
    refine Xml.rec (motive_1 := fun x => ∀ fq, Uniform' (readKid inc path fq x))
      (motive_2 := fun kids => ∀ fq, Uniform' (readKids inc path fq kids)) ?_ ?_ ?_ ?_ ?_ x
    · intro name kids ih fq
      by_cases hn : name = includeName
      · cases ht : getText kids with
        | none => exact .inl ⟨[], fun m => by simp [readKid, hn, ht]⟩
        | some f =>
          rcases hinc (path ++ f) with ⟨b, es, h⟩ | ⟨e, h⟩ | h | h
          · exact .inl ⟨es, fun m => by simp [readKid, hn, ht, h, Outcome.map]⟩
          · exact .inr (.inl ⟨e, fun m => by simp [readKid, hn, ht, h, Outcome.map]⟩)
          · exact .inr (.inr (.inl fun m => by simp [readKid, hn, ht, h, Outcome.map]))
          · exact .inr (.inr (.inr fun m => by simp [readKid, hn, ht, h]))
      · have : readKid inc path fq (.elem name kids) = readKids inc path (fq ++ '/' :: name) kids := by
          funext m; simp [readKid, hn]
        rw [this]
        exact ih _
    · intro s fq
      exact .inl ⟨[(fq, s)], fun m => by simp [readKid]⟩
    · intro fq
      exact .inl ⟨[], fun m => by simp [readKid]⟩
    · intro fq
      exact .inl ⟨[], fun m => by simp [readKids]⟩
    · intro x xs ih1 ih2 fq
      rcases ih1 fq with ⟨es, h⟩ | ⟨e, h⟩ | h | h
      · rcases ih2 fq with ⟨es2, h2⟩ | ⟨e, h2⟩ | h2 | h2
        · exact .inl ⟨es ++ es2, fun m => by simp [readKids, h, h2]⟩
        · exact .inr (.inl ⟨e, fun m => by simp [readKids, h, h2]⟩)
        · exact .inr (.inr (.inl fun m => by simp [readKids, h, h2]))
        · exact .inr (.inr (.inr fun m => by simp [readKids, h, h2]))
      · exact .inr (.inl ⟨e, fun m => by simp [readKids, h]⟩)
      · exact .inr (.inr (.inl fun m => by simp [readKids, h]))
      · exact .inr (.inr (.inr fun m => by simp [readKids, h]))
  intro kids
  induction kids with
  | nil => intro fq; exact .inl ⟨[], fun m => by simp [readKids]⟩
  | cons x xs ih =>
    intro fq
    rcases key x fq with ⟨es, h⟩ | ⟨e, h⟩ | h | h
    · rcases ih fq with ⟨es2, h2⟩ | ⟨e, h2⟩ | h2 | h2
      · exact .inl ⟨es ++ es2, fun m => by simp [readKids, h, h2]⟩
      · exact .inr (.inl ⟨e, fun m => by simp [readKids, h, h2]⟩)
      · exact .inr (.inr (.inl fun m => by simp [readKids, h, h2]))
      · exact .inr (.inr (.inr fun m => by simp [readKids, h, h2]))
    · exact .inr (.inl ⟨e, fun m => by simp [readKids, h]⟩)
    · exact .inr (.inr (.inl fun m => by simp [readKids, h]))
    · exact .inr (.inr (.inr fun m => by simp [readKids, h]))

/-! ### The entries of an attribute tree -/

mutual
/-- The entries `readAttributeTree` makes, in order. -/
def treeEntries (pfx : S) : AT.Tree → List (S × S)
  | .node d a _ ks =>
    (if d = some AT.commentStr then [] else match a with
      | some v => [(pfx ++ '/' :: d.getD [], v)]
      | none => []) ++ treesEntries (pfx ++ '/' :: d.getD []) ks
/-- The same for a list of children. -/
def treesEntries (fq : S) : List AT.Tree → List (S × S)
  | [] => []
  | t :: ts => treeEntries fq t ++ treesEntries fq ts
end

theorem readTree_entries (t : AT.Tree) : ∀ pfx m, readTree pfx t m = (treeEntries pfx t).foldl put m := by
  refine AT.Tree.rec
    (motive_1 := fun t => ∀ pfx m, readTree pfx t m = (treeEntries pfx t).foldl put m)
    (motive_2 := fun ts => ∀ fq m, readTrees fq ts m = (treesEntries fq ts).foldl put m) ?_ ?_ ?_ t
  · intro d a c ks ih pfx m
    simp only [readTree, treeEntries, List.foldl_append]
    rw [ih]
    by_cases hd : d = some AT.commentStr
    · simp [hd]
    · cases a <;> simp [hd]
  · intro fq m; simp [readTrees, treesEntries]
  · intro t ts ih1 ih2 fq m
    simp [readTrees, treesEntries, List.foldl_append, ih1, ih2]

theorem readTrees_entries (ts : List AT.Tree) : ∀ fq m,
    readTrees fq ts m = (treesEntries fq ts).foldl put m := by
  induction ts with
  | nil => intro fq m; simp [readTrees, treesEntries]
  | cons t ts ih => intro fq m; simp [readTrees, treesEntries, List.foldl_append, ih, readTree_entries]

/-- The entries of the whole tree. -/
def rootEntries (t : AT.Tree) : List (S × S) :=
  (if t.desc = some AT.commentStr then [] else match t.attr with
    | some v => [([], v)]
    | none => []) ++ treesEntries [] t.kids

theorem readRoot_entries (t : AT.Tree) (m : Mgr) :
    readRoot t m = (rootEntries t).foldl put m := by
  simp only [readRoot, rootEntries, List.foldl_append, readTrees_entries]
  by_cases hd : t.desc = some AT.commentStr
  · simp [hd]
  · cases t.attr <;> simp [hd]

theorem uniform_load (fs : Files) (k : Nat) : ∀ f, Uniform (load fs k f) := by
  induction k with
  | zero => intro f; exact .inr (.inr (.inr fun m => rfl))
  | succ k ih =>
    intro f
    cases hfp : FP.init fs.env (FP.initBudget fs.env f) f with
    | none => exact .inr (.inr (.inr fun m => by simp [load, hfp]))
    | some fp =>
      cases hext : fp.extension with
      | throws e => exact .inr (.inl ⟨e, fun m => by simp [load, hfp, hext]⟩)
      | ub => exact .inr (.inr (.inl fun m => by simp [load, hfp, hext]))
      | ok ext =>
        by_cases ht : isTreeExt ext = true
        · cases htree : fs.tree f with
          | some t =>
            exact .inl ⟨true, rootEntries t, fun m => by
              simp [load, hfp, hext, ht, htree, readRoot_entries]⟩
          | none => exact .inl ⟨false, [], fun m => by simp [load, hfp, hext, ht, htree]⟩
        · cases hx : fs.xml f with
          | none => exact .inl ⟨false, [], fun m => by simp [load, hfp, hext, ht, hx]⟩
          | some r =>
            cases r with
            | none => exact .inl ⟨true, [], fun m => by simp [load, hfp, hext, ht, hx]⟩
            | some kids =>
              rcases uniform_readKids (load fs k) ih fp.path kids [] with ⟨es, h⟩ | ⟨e, h⟩ | h | h
              · exact .inl ⟨true, es, fun m => by simp [load, hfp, hext, ht, hx, h, Outcome.map]⟩
              · exact .inr (.inl ⟨e, fun m => by simp [load, hfp, hext, ht, hx, h, Outcome.map]⟩)
              · exact .inr (.inr (.inl fun m => by simp [load, hfp, hext, ht, hx, h, Outcome.map]))
              · exact .inr (.inr (.inr fun m => by simp [load, hfp, hext, ht, hx, h]))

theorem load_uniform {fs : Files} {k : Nat} {f : S} {m m' : Mgr} {b : Bool}
    (h : load fs k f m = some (.ok (b, m'))) :
    ∃ es : List (S × S), m' = es.foldl put m ∧ ∀ m0, load fs k f m0 = some (.ok (b, es.foldl put m0)) := by
  rcases uniform_load fs k f with ⟨b', es, h'⟩ | ⟨e, h'⟩ | h' | h'
  · rw [h'] at h
    simp only [Option.some.injEq, Outcome.ok.injEq, Prod.mk.injEq] at h
    obtain ⟨rfl, rfl⟩ := h
    exact ⟨es, rfl, h'⟩
  all_goals (rw [h'] at h; cases h)

/-! ### The registered parameters -/

theorem put_fields (m : Mgr) (e : S × S) :
    (put m e).params = m.params ∧ (put m e).positional = m.positional ∧
    (put m e).observers = m.observers ∧ (put m e).initialized = m.initialized := ⟨rfl, rfl, rfl, rfl⟩

theorem putAll_fields (es : List (S × S)) (m : Mgr) :
    (es.foldl put m).params = m.params ∧ (es.foldl put m).positional = m.positional ∧
    (es.foldl put m).observers = m.observers ∧ (es.foldl put m).initialized = m.initialized := by
  induction es generalizing m with
  | nil => exact ⟨rfl, rfl, rfl, rfl⟩
  | cons e es ih => exact ih (put m e)

theorem fill_cases (o : Getopt.Out) (m : Mgr) (p : Param) :
    fill o m p = m ∨ ∃ e, fill o m p = put m e := by
  simp only [fill]
  split
  · split
    · exact .inr ⟨_, rfl⟩
    · split
      · exact .inr ⟨_, rfl⟩
      · exact .inl rfl
  · exact .inl rfl

theorem fillAll_puts (o : Getopt.Out) (ps : List Param) (m : Mgr) :
    ∃ es : List (S × S), ps.foldl (fill o) m = es.foldl put m := by
  induction ps generalizing m with
  | nil => exact ⟨[], rfl⟩
  | cons p ps ih =>
    obtain ⟨es, h⟩ := ih (fill o m p)
    rcases fill_cases o m p with h1 | ⟨e, h1⟩
    · exact ⟨es, by rw [List.foldl_cons, h, h1]⟩
    · exact ⟨e :: es, by rw [List.foldl_cons, h, h1]; rfl⟩

theorem fillAll_find (o : Getopt.Out) (ps : List Param) (m : Mgr) (hs : Sorted m.items) (k : S) :
    lookup (ps.foldl (fill o) m).items k
      = (lastValue (fromCommandLine ps o) k).or
          ((lookup m.items k).or (firstValue (defaults ps) k)) := by
  induction ps generalizing m with
  | nil => simp [fromCommandLine, lastValue, defaults, firstValue]
  | cons p ps ih =>
    rw [List.foldl_cons]
    have hs' : Sorted (fill o m p).items := by
      rcases fill_cases o m p with h | ⟨e, h⟩
      · rw [h]; exact hs
      · rw [h]; exact sorted_put hs e
    rw [ih _ hs']
    by_cases hk0 : p.key = []
    · have h1 : fill o m p = m := by simp [fill, hk0]
      have h2 : fromCommandLine (p :: ps) o = fromCommandLine ps o := by simp [fromCommandLine, hk0]
      have h3 : defaults (p :: ps) = defaults ps := by simp [defaults, hk0]
      rw [h1, h2, h3]
    · by_cases hp : o.paramOptPresent p.option = true
      · have h1 : fill o m p = put m (p.key, o.paramOpt p.option) := by simp [fill, hk0, hp]
        have h2 : fromCommandLine (p :: ps) o
            = (p.key, o.paramOpt p.option) :: fromCommandLine ps o := by
          simp [fromCommandLine, hk0, hp]
        rw [h1, h2, lastValue_cons, find_put hs]
        by_cases hk : p.key = k
        · subst hk
          simp only [if_true]
          cases lastValue (fromCommandLine ps o) p.key <;> simp
        · have hk' : ¬ k = p.key := fun e => hk e.symm
          have h3 : firstValue (defaults (p :: ps)) k = firstValue (defaults ps) k := by
            by_cases hd : p.dflt = []
            · have : defaults (p :: ps) = defaults ps := by simp [defaults, hd]
              rw [this]
            · have : defaults (p :: ps) = (p.key, p.dflt) :: defaults ps := by
                simp [defaults, hd, hk0]
              rw [this, firstValue_cons]
              simp [hk]
          simp [hk, hk', h3]
      · have hp' : o.paramOptPresent p.option = false := by simpa using hp
        have h2 : fromCommandLine (p :: ps) o = fromCommandLine ps o := by
          simp [fromCommandLine, hp']
        rw [h2]
        by_cases hd : p.dflt = []
        · have h1 : fill o m p = m := by simp [fill, hp', hd]
          have h3 : defaults (p :: ps) = defaults ps := by simp [defaults, hd]
          rw [h1, h3]
        · have h3 : defaults (p :: ps) = (p.key, p.dflt) :: defaults ps := by
            simp [defaults, hd, hk0]
          rw [h3, firstValue_cons]
          cases hf : lookup m.items p.key with
          | some w =>
            have h1 : fill o m p = m := by simp [fill, hp', hasKey_lookup, hf]
            rw [h1]
            by_cases hk : p.key = k
            · subst hk; simp [hf]
            · simp [hk]
          | none =>
            have h1 : fill o m p = put m (p.key, p.dflt) := by
              simp [fill, hp', hasKey_lookup, hf, hk0, hd]
            rw [h1, find_put hs]
            by_cases hk : p.key = k
            · subst hk; simp [hf]
            · have hk' : ¬ k = p.key := fun e => hk e.symm
              simp [hk, hk']

end Verif.Cfg
