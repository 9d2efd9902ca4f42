import Verif.Config.Heap.Browse

/-!
# C79: the structure of `AttributeTree`s

Read `Model.lean` (the code) and `Spec.lean` (the forest) first.
-/
namespace Verif.ATHeap

open Verif.AT (S newSubNode)

/-- **C79.** In a heap made by legal calls, every legal call returns, touches only objects that exist and
does to the structure what the specification says. -/
theorem c79_legal_calls {ops : List Op} {h : Heap} {f : Forest} (R : Reach ops h f) {op : Op} (hl : Legal f op) :
    ∃ r h' f', Runs h op r h' ∧ SStep f op r f' ∧ Reach (op :: ops) h' f' := by
  obtain ⟨r, h', f', a, b, _⟩ := good (reach_rep R) op hl
  exact ⟨r, h', f', a, b, .step R hl a b⟩

/-- **C79.** Whatever a legal call returns is what the specification says, and the specification leaves no
choice. -/
theorem c79_calls_unique {ops : List Op} {h : Heap} {f : Forest} (R : Reach ops h f) {op : Op} (hl : Legal f op)
    {r : Option Addr} {h' : Heap} (hr : Runs h op r h') :
    ∃ f', SStep f op r f' ∧ Reach (op :: ops) h' f' ∧ ∀ f2, SStep f op r f2 → f2 = f' := by
  obtain ⟨r2, h2, f', a, b, _⟩ := good (reach_rep R) op hl
  obtain ⟨rfl, rfl⟩ := hr.unique a
  refine ⟨f', b, .step R hl hr b, fun f2 hs => ?_⟩
  obtain ⟨cs, I, rfl, _⟩ := reach_rep R
  exact SStep.unique (uniq_child I) hs b

/-- **C79.** The trees always form a forest: subtrees exist, no tree is listed twice or below two trees,
and no tree is below itself. -/
theorem c79_forest {ops : List Op} {h : Heap} {f : Forest} (R : Reach ops h f) :
    (∀ t s, Child f t s → (f s).isSome) ∧ (∀ t n, f t = some n → n.kids.Nodup) ∧
    (∀ t t' s, Child f t s → Child f t' s → t = t') ∧ (∀ t s, Child f t s → ¬ Below f s t) := by
  obtain ⟨cs, I, rfl, _⟩ := reach_rep R
  refine ⟨fun t s hc => ?_, fun t n hn => ?_, fun t t' s => uniq_child I t t' s, fun t s hc hb => ?_⟩
  · obtain ⟨c, hc⟩ := (child_iff I t s).1 hc
    obtain ⟨n, hn, _⟩ := I.kid _ _ _ hc
    rw [absF_some hn]
    rfl
  · obtain ⟨m, _, rfl⟩ := absF_inv hn
    exact I.shape.nodupS t
  · obtain ⟨c, hc⟩ := (child_iff I t s).1 hc
    exact not_sub_child I.shape hc ((below_iff I s t).1 hb)

/-- **C79.** An object exists exactly if the specification has it, with the same description and changed
mark. -/
theorem c79_objects {ops : List Op} {h : Heap} {f : Forest} (R : Reach ops h f) (t : Addr) :
    (h.trees t).map (fun n => (n.desc, n.changed)) = (f t).map fun n => (n.desc, n.changed) := by
  obtain ⟨cs, I, rfl, _⟩ := reach_rep R
  unfold absF
  cases h.trees t <;> rfl

/-- **C79.** `firstSubTree` yields the first subtree, `nextSubTree` the one behind the given one: the loop
`for (s = t->firstSubTree(); s; s = t->nextSubTree(s))` visits the subtrees once, in their order. -/
theorem c79_iterate {ops : List Op} {h : Heap} {f : Forest} (R : Reach ops h f) {t : Addr} {n : SNode} (hn : f t = some n) :
    firstSubTree h t = .ok n.kids.head? ∧ ∃ k0, ∀ k ≥ k0, ∀ s, nextSubTree k h t s = .ok (after s n.kids) := by
  obtain ⟨cs, I, rfl, _⟩ := reach_rep R
  obtain ⟨m, hm, rfl⟩ := absF_inv hn
  have hch := I.chain t m hm
  constructor
  · simp only [firstSubTree, rdT_eq hm, Res.ok_bind]
    cases hcs : cs t with
    | nil =>
      rw [hcs] at hch
      have hch : m.list = none := hch
      simp only [hch]
      rfl
    | cons x l =>
      rw [hcs] at hch
      obtain ⟨e, m', hcell, _⟩ := hch
      simp only [e, rdC_eq hcell, Res.ok_bind]
      rfl
  · refine ⟨(cs t).length + 1, fun k hk s => ?_⟩
    simp only [nextSubTree, rdT_eq hm, Res.ok_bind]
    exact next_spec h s (cs t) m.list k hch (I.shape.nodupS t) (by omega)

/-- **C79.** `parentTree` yields the tree whose subtree it is, or `NULL`. -/
theorem c79_parent {ops : List Op} {h : Heap} {f : Forest} (R : Reach ops h f) {t : Addr} (ht : (f t).isSome) :
    ∃ o, parentTree h t = .ok o ∧ ∀ p, o = some p ↔ Child f p t := by
  obtain ⟨cs, I, rfl, _⟩ := reach_rep R
  obtain ⟨m, hm⟩ := Option.isSome_iff_exists.1 ht
  obtain ⟨n, hn, rfl⟩ := absF_inv hm
  refine ⟨n.parent, by simp only [parentTree, rdT_eq hn, Res.ok_bind], fun p => ?_⟩
  rw [child_iff I]
  constructor
  · exact I.par t n p hn
  · rintro ⟨c, hc⟩
    obtain ⟨n', h1, h2⟩ := I.kid _ _ _ hc
    rw [hn] at h1
    cases h1
    exact h2

/-- **C79.** `root` returns, and yields the tree at the top. -/
theorem c79_root {ops : List Op} {h : Heap} {f : Forest} (R : Reach ops h f) {t : Addr} (ht : (f t).isSome) :
    ∃ r, (∃ k0, ∀ k ≥ k0, root k h t = .ok r) ∧ Below f r t ∧ ∀ p, ¬ Child f p r := by
  obtain ⟨cs, I, rfl, _⟩ := reach_rep R
  obtain ⟨m, hm⟩ := Option.isSome_iff_exists.1 ht
  obtain ⟨n, hn, rfl⟩ := absF_inv hm
  obtain ⟨r, k0, h1, h2, h3⟩ := root_ok I hn
  refine ⟨r, ⟨k0, h3⟩, (below_iff I r t).2 h2, fun p hc => ?_⟩
  obtain ⟨c, hc⟩ := (child_iff I p r).1 hc
  exact h1 p c hc

/-- **C79.** `getSubTree` finds the first subtree with the given description. -/
theorem c79_get {ops : List Op} {h : Heap} {f : Forest} (R : Reach ops h f) {t : Addr} {n : SNode} (hn : f t = some n) (d : S) :
    ∃ k0, ∀ k ≥ k0, getSubTree k h t d = .ok (n.kids.find? fun s => (f s).bind SNode.desc == some d) := by
  obtain ⟨cs, I, rfl, _⟩ := reach_rep R
  obtain ⟨m, hm, rfl⟩ := absF_inv hn
  have hch := I.chain t m hm
  refine ⟨(cs t).length + 1, fun k hk => ?_⟩
  have hf : (fun s => (absF h cs s).bind SNode.desc == some d) = fun s => (h.trees s).bind Node.desc == some d := by
    funext s
    unfold absF
    cases h.trees s <;> rfl
  rw [hf]
  simp only [getSubTree, rdT_eq hm, Res.ok_bind]
  have hs := findName_spec h d (cs t) m.list k hch (fun x hx => by
    obtain ⟨n, h1, _⟩ := I.kid t x.1 x.2 hx
    exact ⟨n, h1⟩) (by omega)
  cases hl : m.list with
  | none =>
    have : cs t = [] := by
      rw [hl] at hch
      cases hc : cs t with
      | nil => rfl
      | cons x l => rw [hc] at hch; cases hch.1
    simp [this]
  | some c => rw [hl] at hs; exact hs

/-- **C79.** As long as `unlinkSub` is not used, every `SubTreeList` that exists belongs to exactly one
entry of one tree; once all trees are deleted, none is left. -/
theorem c79_no_leak {ops : List Op} {h : Heap} {f : Forest} (R : Reach ops h f) (hu : ∀ t, Op.unlinkSub t ∉ ops) :
    (∀ c, h.cells c ≠ none → ∃ t s, Child f t s ∧ (h.cells c).bind Cell.sub = some s) ∧
    (∀ c c' s, (h.cells c).bind Cell.sub = some s → (h.cells c').bind Cell.sub = some s → c = c') ∧
    ((∀ t, f t = none) → ∀ c, h.cells c = none) := by
  obtain ⟨cs, I, rfl, L⟩ := reach_rep R
  have L := L hu
  have key : ∀ c, h.cells c ≠ none → ∃ t s, (c, s) ∈ cs t ∧ (h.cells c).bind Cell.sub = some s := by
    intro c hc
    obtain ⟨t, s, hm⟩ := L c hc
    obtain ⟨n, hn⟩ := I.cell hm
    exact ⟨t, s, hm, by rw [hn]; rfl⟩
  have hne : ∀ c s, (h.cells c).bind Cell.sub = some s → h.cells c ≠ none := by
    intro c s hc e
    rw [e] at hc
    cases hc
  refine ⟨fun c hc => ?_, fun c c' s h1 h2 => ?_, fun hf c => ?_⟩
  · obtain ⟨t, s, hm, he⟩ := key c hc
    exact ⟨t, s, (child_iff I t s).2 ⟨c, hm⟩, he⟩
  · obtain ⟨t, x, hm, he⟩ := key c (hne c s h1)
    obtain ⟨t', x', hm', he'⟩ := key c' (hne c' s h2)
    rw [h1] at he
    rw [h2] at he'
    cases he
    cases he'
    have := I.shape.uniq _ _ _ _ _ hm hm'
    subst this
    exact congrArg Prod.fst ((List.inj_on_of_nodup_map (I.shape.nodupS t)) hm hm' rfl)
  · cases hc : h.cells c with
    | none => rfl
    | some x =>
      obtain ⟨t, s, hm, _⟩ := key c (by rw [hc]; simp)
      obtain ⟨n, hn⟩ := I.live hm
      have := hf t
      rw [absF_some hn] at this
      cases this

/-! ### Calls that are not legal -/

/-- **C79.** `addSubTree` on a tree without subtrees is undefined behaviour, whatever is added. -/
theorem c79_add_to_leaf_undefined {ops : List Op} {h : Heap} {f : Forest} (R : Reach ops h f) {p t : Addr} {np : SNode}
    (hp : f p = some np) (hk : np.kids = []) (ht : (f t).isSome) (k : Nat) : step k h (.add p t) = .ub := by
  obtain ⟨cs, I, rfl, _⟩ := reach_rep R
  obtain ⟨m, hm, rfl⟩ := absF_inv hp
  obtain ⟨m', hm'⟩ := Option.isSome_iff_exists.1 ht
  obtain ⟨nt, hnt, rfl⟩ := absF_inv hm'
  have hcs : cs p = [] := by simpa using hk
  have hch := I.chain p m hm
  rw [hcs] at hch
  have hch : m.list = none := hch
  show (addSubTree k h p t none >>= _) = _
  simp only [addSubTree, rdT_eq hm, rdT_eq hnt, Res.ok_bind, hch]
  rfl

/-- **C79.** Every call with an object that was deleted is undefined behaviour. -/
theorem c79_use_after_delete {ops : List Op} {h : Heap} {f : Forest} (R : Reach ops h f) {t : Addr} (ht : f t = none)
    (k : Nat) (d : Option S) : step k h (.unlink t) = .ub ∧ step k h (.unlinkSub t) = .ub ∧
      step (k + 1) h (.delete t) = .ub ∧ step k h (.setDesc t d) = .ub ∧ (∀ x, step k h (.add t x) = .ub) ∧
      (∀ x, step k h (.addNext t x) = .ub) := by
  obtain ⟨cs, I, rfl, _⟩ := reach_rep R
  have hn : h.trees t = none := by
    unfold absF at ht
    cases hh : h.trees t with
    | none => rfl
    | some n => rw [hh] at ht; cases ht
  have hr : rdT h t = .ub := by simp [rdT, hn]
  refine ⟨?_, ?_, ?_, ?_, fun x => ?_, fun x => ?_⟩ <;>
    simp only [step, ATHeap.unlink, ATHeap.unlinkSub, deleteTree, setDescription, addSubTree, addNextTree, hr, Res.ub_bind]

/-- Several calls. -/
def exec (k : Nat) (h : Heap) : List Op → Res Heap
  | [] => .ok h
  | op :: l => do
    let r ← step k h op
    exec k r.2 l

/-- The calls of the following witnesses: two trees 0 and 3 with the subtrees 1 and 4. -/
def twoTrees : List Op :=
  [.new (some ['a']), .newIn (some ['b']) 0, .new (some ['c']), .newIn (some ['d']) 3]

/-- Did the calls return? -/
def Res.isOk {α : Type} : Res α → Bool
  | .ok _ => true
  | _ => false

/-- Was the behaviour undefined? -/
def Res.isUb {α : Type} : Res α → Bool
  | .ub => true
  | _ => false

theorem Res.ok_of {α : Type} {r : Res α} (h : r.isOk = true) : ∃ a, r = .ok a := by
  cases r with
  | ok a => exact ⟨a, rfl⟩
  | ub => cases h
  | fuel => cases h

theorem Res.ub_of {α : Type} {r : Res α} (h : r.isUb = true) : r = .ub := by
  cases r with
  | ok a => cases h
  | ub => rfl
  | fuel => cases h

/-- **C79.** A tree that is a subtree already must not be added elsewhere: after `c->addSubTree(b)` for a
subtree `b` of `a`, both list it; deleting `a` and then `c` deletes it twice. -/
theorem c79_add_twice_double_delete :
    (∃ h, exec 9 Heap.empty (twoTrees ++ [.add 3 1, .delete 0]) = .ok h) ∧
    exec 9 Heap.empty (twoTrees ++ [.add 3 1, .delete 0, .delete 3]) = .ub :=
  ⟨Res.ok_of (by decide +kernel), Res.ub_of (by decide +kernel)⟩

/-- **C79.** A tree must not be added below itself: `root` then does not return. -/
theorem c79_add_below_itself_loops :
    ∃ h, exec 9 Heap.empty [.new (some ['a']), .newIn (some ['b']) 0, .newIn (some ['x']) 1, .add 1 0] = .ok h ∧
      ∀ k, root k h 0 = .fuel := by
  have key : (match exec 9 Heap.empty [.new (some ['a']), .newIn (some ['b']) 0, .newIn (some ['x']) 1, .add 1 0] with
    | .ok h => decide ((h.trees 0).map Node.parent = some (some 1) ∧ (h.trees 1).map Node.parent = some (some 0))
    | _ => false) = true := by decide +kernel
  obtain ⟨h, hh⟩ : ∃ h, exec 9 Heap.empty [.new (some ['a']), .newIn (some ['b']) 0, .newIn (some ['x']) 1, .add 1 0] = .ok h :=
    Res.ok_of (by decide +kernel)
  rw [hh] at key
  simp only [decide_eq_true_eq, Option.map_eq_some_iff] at key
  obtain ⟨⟨n0, h0, p0⟩, n1, h1, p1⟩ := key
  refine ⟨h, hh, fun k => ?_⟩
  have : ∀ k, root k h 0 = .fuel ∧ root k h 1 = .fuel := by
    intro k
    induction k with
    | zero => exact ⟨rfl, rfl⟩
    | succ k ih =>
      constructor
      · simp only [root, rdT_eq h0, Res.ok_bind, p0]; exact ih.2
      · simp only [root, rdT_eq h1, Res.ok_bind, p1]; exact ih.1
  exact (this k).1

/-- **C79.** `unlinkSub` leaks: the entry of the unlinked subtree still exists when all trees are gone. -/
theorem c79_unlinkSub_leaks :
    ∃ h c, exec 9 Heap.empty [.new (some ['a']), .newIn (some ['b']) 0, .unlinkSub 0, .delete 0, .delete 1] = .ok h ∧
      (∀ t, h.trees t = none) ∧ h.cells c ≠ none := by
  simp [exec, step, newTree, rdT, wrT, allocT, allocC, Heap.empty, upd, unlinkSub, unlinkParent, rdC, deleteTree, unlink, freeT]
  grind

/-! ### The hypotheses can be met -/

/-- A legal history: a tree with a subtree, another subtree added behind it, unlinked again, and everything
deleted. -/
example : ∃ h f, Reach [.newIn (some ['c']) 0, .newIn (some ['b']) 0, .new (some ['a'])] h f ∧
    f 0 = some ⟨some ['a'], false, [3, 1]⟩ ∧ Legal f (.unlink 3) ∧ Legal f (.delete 0) := by
  let f1 : Forest := setF (fun _ => none) 0 (some ⟨some ['a'], false, []⟩)
  let f2 : Forest := setF (setF f1 1 (some ⟨some ['b'], false, []⟩)) 0 (some ⟨some ['a'], false, [1]⟩)
  let f3 : Forest := setF (setF f2 3 (some ⟨some ['c'], false, []⟩)) 0 (some ⟨some ['a'], false, [3, 1]⟩)
  refine ⟨_, f3, .step (op := .newIn (some ['c']) 0) (r := some 3) (.step (op := .newIn (some ['b']) 0) (r := some 1) (f' := f2)
    (.step (op := .new (some ['a'])) (r := some 0) (f' := f1) .init trivial
    ⟨0, fun k _ => rfl⟩ ⟨0, rfl, rfl, rfl⟩) rfl ⟨0, fun k _ => rfl⟩ ⟨1, ⟨some ['a'], false, []⟩, rfl, rfl, rfl, rfl⟩) rfl ⟨0, fun k _ => rfl⟩
    ⟨3, ⟨some ['a'], false, [1]⟩, rfl, rfl, rfl, rfl⟩, rfl, rfl, rfl⟩

/-- A tree that may be added: `c` next to the subtree `b` of `a`. -/
example : MayAdd (setF (setF (setF (fun _ => none) 0 (some ⟨some ['a'], false, [1]⟩)) 1 (some ⟨some ['b'], false, []⟩)) 3
    (some ⟨some ['b'], false, []⟩)) 0 3 := by
  refine ⟨⟨some ['a'], false, [1]⟩, ⟨some ['b'], false, []⟩, ['b'], rfl, rfl, by simp, fun x hc => ?_, fun hb => ?_, rfl, fun _ => ⟨['b', '1'], by decide +kernel⟩⟩
  · obtain ⟨n, h1, h2⟩ := hc
    unfold setF at h1
    grind
  · have : ∀ y, Below (setF (setF (setF (fun _ => none) 0 (some ⟨some ['a'], false, [1]⟩)) 1 (some ⟨some ['b'], false, []⟩)) 3
        (some ⟨some ['b'], false, []⟩)) 3 y → y = 3 := by
      intro y hy
      induction hy with
      | self => rfl
      | step _ hc ih =>
        subst ih
        obtain ⟨n, h1, h2⟩ := hc
        unfold setF at h1
        grind
    have := this 0 hb
    omega

end Verif.ATHeap
