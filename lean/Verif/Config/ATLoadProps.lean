import Verif.Config.ATLoad
import Verif.Config.ATErrProps

/-! # C98: loading and saving report what happened -/
namespace Verif.AT

open Err

theorem changedL_reverse (ks : List Tree) : changedL ks = ks.any changed := by
  induction ks with
  | nil => rfl
  | cons k ks ih => simp only [changedL, List.any_cons, ih]; cases changed k <;> simp

theorem changed_revert (t : Tree) : changed (revert t) = changed t := by
  refine Tree.rec (motive_1 := fun t => changed (revert t) = changed t)
    (motive_2 := fun ks => (ks.map revert).any changed = ks.any changed) ?_ ?_ ?_ t
  · intro d a c ks ih
    simp only [revert, revertL_eq, List.append_nil, changed, changedL_reverse, List.any_reverse, ih]
  · rfl
  · intro k ks h1 h2
    simp only [List.map_cons, List.any_cons, h1, h2]

/-- C98: the result of `load` for a file of complete lines is right, for every tree in which the virtual
attributes can be looked up: `eOK` iff the name is not empty, the file can be opened, and every line is
understood. -/
theorem c98_load_result (cfg : Cfg) (anc : List Tree) (path name : S) (ls : List S) (hg : ∀ l ∈ ls, GoodLine l) (um po : Bool)
    (t t1 : Tree) (hv : setVirtual anc path name t = .ok t1) (k : Nat) (hk : ls.length < k) (hu : scan 0 false 0 ls ≠ .unclosed) :
    ∃ t' r, load k cfg anc false path name (some (text ls)) um po t = .ok (some (t', r)) ∧ (r = eOK ∨ r = eFILE_LOAD_ERROR) ∧
      (r = eOK ↔ scan 0 false 0 ls = .fine) := by
  have h := c97_return_value cfg t1 ls hg k hk
  simp only [load, hv]
  cases hget : get k cfg t1 (text ls) with
  | none =>
    rw [hget] at h
    cases hs : scan 0 false 0 ls with
    | unclosed => exact absurd hs hu
    | fine => rw [hs] at h; cases h
    | wrong i => rw [hs] at h; cases h
  | some q =>
    obtain ⟨t2, e⟩ := q
    rw [hget] at h
    cases hs : scan 0 false 0 ls with
    | unclosed => exact absurd hs hu
    | fine =>
      rw [hs] at h
      simp only [Option.map, Option.some.injEq] at h
      subst h
      exact ⟨_, _, rfl, Or.inl rfl, by simp⟩
    | wrong i =>
      rw [hs] at h
      simp only [Option.map, Option.some.injEq] at h
      have : e ≥ 0 := by omega
      simp only [this, if_true, Bool.false_eq_true, if_false]
      exact ⟨_, _, rfl, Or.inr rfl, by simp [eOK, eFILE_LOAD_ERROR]⟩

/-- C98: an empty name or a file that cannot be opened is reported, and no attribute changes but the two
virtual ones. -/
theorem c98_load_not_readable (k : Nat) (cfg : Cfg) (anc : List Tree) (path name : S) (x : Option S) (um po : Bool) (t t1 : Tree)
    (hv : setVirtual anc path name t = .ok t1) :
    load k cfg anc true path name x um po t = .ok (some (t, eFILE_LOAD_ERROR)) ∧
    load k cfg anc false path name none um po t = .ok (some (t1, eFILE_LOAD_ERROR)) := by
  simp [load, hv]

/-- C98: after a successful `load` that unmarks changes, `changed()` is false. -/
theorem c98_load_unchanged (k : Nat) (cfg : Cfg) (anc : List Tree) (path name : S) (en : Bool) (x : Option S) (po : Bool)
    (t t' : Tree) (h : load k cfg anc en path name x true po t = .ok (some (t', eOK))) : changed t' = false := by
  unfold load at h
  split at h
  · simp [eOK, eFILE_LOAD_ERROR] at h
  · cases hv : setVirtual anc path name t with
    | throws e => rw [hv] at h; cases h
    | ub => rw [hv] at h; cases h
    | ok t1 =>
      rw [hv] at h
      cases x with
      | none => simp [eOK, eFILE_LOAD_ERROR] at h
      | some x =>
        simp only at h
        cases hg : get k cfg t1 x with
        | none => rw [hg] at h; simp at h
        | some q =>
          obtain ⟨t2, e⟩ := q
          rw [hg] at h
          simp only at h
          split at h
          · simp [eOK, eFILE_LOAD_ERROR] at h
          · simp only [if_true, Outcome.ok.injEq, Option.some.injEq, Prod.mk.injEq] at h
            rw [← h.1]
            split
            · rw [changed_revert, changed_unmark]
            · exact changed_unmark _

/-- C98: the path and the name that the tree remembers are those of the first file loaded into it; a subtree
is left alone. -/
theorem c98_virtual (path name : S) (t : Tree) (p : Tree) (anc : List Tree) :
    setVirtual (p :: anc) path name t = .ok t ∧
    (∀ v, getAttribute [] t (some filePathStr) none = .ok (some v) → setVirtual [] path name t = .ok t) ∧
    (getAttribute [] t (some filePathStr) none = .ok none → ∃ t1, setVirtual [] path name t = .ok t1 ∧
      getAttribute [] t1 (some filePathStr) none = .ok (some path) ∧ getAttribute [] t1 (some fileNameStr) none = .ok (some name)) := by
  refine ⟨rfl, fun v h => by simp [setVirtual, h], fun h => ⟨setAttribute (some fileNameStr) (some name) (setAttribute (some filePathStr) (some path) t), by simp only [setVirtual, h], ?_, ?_⟩⟩
  · have hc : comps fileNameStr = [fileNameStr] := by decide +kernel
    have hn : fileNameStr ≠ [] := by decide
    have hne : ¬ fileNameStr = filePathStr := by decide
    have hp := (c32_virtual_get_after_set [] t path none).1
    have hsuf : filePathStr.isSuffixOf filePathStr = true := by decide +kernel
    have key : ∀ T : Tree, getSpecial [] T filePathStr = .ok (some path) →
        getAttribute [] T (some filePathStr) none = .ok (some path) := by
      intro T hT; simp only [getAttribute, hsuf, if_true, hT]
    apply key
    generalize hT : setAttribute (some filePathStr) (some path) t = T
    have hf : find filePathStr T.kids = some ((find filePathStr T.kids).getD (newNode none)) ∧
        ((find filePathStr T.kids).getD (newNode none)).attr = some path := by
      rw [← hT]
      have hc' : comps filePathStr = [filePathStr] := by decide +kernel
      have := find_setC (some path) filePathStr [] t (by decide) filePathStr
      rw [if_pos rfl] at this
      simp only [setAttribute, hc', this]
      simp [setC]
    simp only [getSpecial, specialLoop, subTreeOf, setAttribute, hc]
    have hf2 := find_setC (some name) fileNameStr [] T hn filePathStr
    rw [if_neg (fun h => hne h.symm), hf.1] at hf2
    rw [find_some_ne_nil hf2, hf2]
    simp [Outcome.map, hf.2]
  · exact (c32_virtual_get_after_set [] _ name none).2

/-- C98 violated: `load` on a new, empty tree that is its own root (what `ConfigManager::load` does first)
is undefined behaviour: it looks up an attribute in the missing list of subtrees. -/
theorem c98_load_into_new_tree (k : Nat) (cfg : Cfg) (d : Option S) (path name : S) (x : Option S) (um po : Bool) :
    load k cfg [] false path name x um po (newNode d) = .ub := by
  simp only [load, setVirtual, newNode, c32_get_on_empty_tree_is_undefined]
  rfl

/-- C98 violated: a failed `load` is not undone: the lines before the error have replaced the old values. -/
theorem c98_failed_load_changes :
    (load 9 plainCfg [] false ['/'] ['f'] (some (text ["a:2".toList, "nonsense".toList])) true false
        (setAttribute (some ['a']) (some ['1']) (newNode none))).map
      (fun r => r.map fun r => (getAttribute [] r.1 (some ['a']) none, changed r.1, r.2)) =
    .ok (some (.ok (some ['2']), true, 3)) := by
  decide +kernel

/-- C98: `save` reports whether the file was written; if not, the tree keeps its marks. -/
theorem c98_save_result (csd : Int) (um co : Bool) (t t' : Tree) (r : Int) (x : Option S)
    (h : save csd um co t = .ok (t', r, x)) :
    (r = eOK ↔ co = true) ∧ (r = eFILE_SAVE_ERROR ↔ co = false) ∧ (co = false → t' = t ∧ x = none) ∧
    (co = true → ∃ y, x = some y ∧ printText csd [] t = .ok y ∧ (um = true → changed t' = false) ∧ (um = false → t' = t)) := by
  unfold save at h
  cases co with
  | false =>
    simp only [Bool.false_eq_true, if_false, Outcome.ok.injEq, Prod.mk.injEq] at h
    obtain ⟨rfl, rfl, rfl⟩ := h
    simp [eOK, eFILE_SAVE_ERROR]
  | true =>
    simp only [if_true] at h
    cases hp : printText csd [] t with
    | throws e => rw [hp] at h; cases h
    | ub => rw [hp] at h; cases h
    | ok y =>
      rw [hp] at h
      simp only [Outcome.map, Outcome.ok.injEq, Prod.mk.injEq] at h
      obtain ⟨rfl, rfl, rfl⟩ := h
      refine ⟨by simp, by simp [eOK, eFILE_SAVE_ERROR], by simp, fun _ => ⟨y, rfl, rfl, ?_, ?_⟩⟩
      · rintro rfl; simp [changed_unmark]
      · rintro rfl; simp

/-- C98: the values of the result codes (AttributeTree.h:311-320, in the order of the enumeration). -/
theorem c98_code_values : eOK = 0 ∧ eFILE_SAVE_ERROR = 2 ∧ eFILE_LOAD_ERROR = 3 := by decide

/-- C98 (partial). What was saved can be loaded into a new node of a tree: `load` returns `eOK`, the values
are back, and `changed()` is false. Missing: a new tree that is its own root (`c98_load_into_new_tree`) and
the trees for which `c35_roundtrip_partial` does not hold. -/
theorem c98_save_load_partial (csd : Int) (t : Tree) (h : GoodRoot csd t) (ls : List S)
    (hp : printTree csd [] t = .ok ls) (hlen : ∀ l ∈ ls, l.length ≤ 1997) (cfg : Cfg) (d : Option S) (p : Tree) (anc : List Tree)
    (path name : S) :
    ∃ x T', save csd true true t = .ok (unmark t, eOK, some x) ∧
      (∀ k, ls.length ≤ k → load k cfg (p :: anc) false path name (some x) true false (newNode d) = .ok (some (T', eOK))) ∧
      changed T' = false ∧
      ∀ s dflt v, ¬ Special s → getAttribute [] t (some s) none = .ok (some v) →
        getAttribute [] T' (some s) dflt = .ok (some v) := by
  obtain ⟨T', h1, h2⟩ := c35_values_survive_partial csd t h ls hp hlen cfg d
  refine ⟨ls.flatMap (· ++ ['\n']), unmark T', ?_, ?_, changed_unmark _, ?_⟩
  · simp [save, printText, hp, Outcome.map]
  · intro k hk
    simp [load, setVirtual, h1 k hk]
  · intro s dflt v hs hv
    rw [(c34_unmark [] T' s dflt hs).2]
    exact h2 s dflt v hs hv

example : GoodRoot 3 demo3 := demo3_good
example : (setVirtual [] ['/'] ['f'] (setAttribute (some ['a']) (some ['1']) (newNode none))).map
    (fun t => getAttribute [] t (some filePathStr) none) = .ok (.ok (some ['/'])) := by decide +kernel

end Verif.AT
