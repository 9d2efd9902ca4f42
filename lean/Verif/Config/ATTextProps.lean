import Verif.Config.ATTextLemmas

/-! # C138: an attribute tree file stands for a list of `setAttribute` calls -/
namespace Verif.AT.Text
open Err Inc

/-- C138: reading a text of complete lines does to the tree exactly what the calls of `setAttribute` do that the text stands for,
in order: for every tree and text (multi-line comments must be closed, `c97_unclosed_never_returns`). Include lines stand for the text
of the included file (C113) and make no change here. -/
theorem c138_reads_as_calls (t : Tree) (ls : List S) (hg : ∀ l ∈ ls, GoodLine l) (hu : scan 0 false 0 ls ≠ .unclosed) (k : Nat)
    (hk : ls.length < k) :
    ∃ code, get k { processInclude := true, loadComments := false, load := fun _ t => t } t (text ls) =
      some (calls (changes [] false ls) t, code) := by
  have h : (get k plainReader t (text ls)).map Prod.fst = some (calls (changes [] false ls) t) := by
    cases ls with
    | nil =>
      cases k with
      | zero => omega
      | succ k =>
        rw [get_feed' k plainReader t [] (by simp)]
        simp [feed, changes, calls]
    | cons l ls =>
      rw [get_feed k plainReader t l ls (hg l List.mem_cons_self)]
      exact feed_calls _ (l :: ls) (Nat.le_refl _) hg k t [] 0 (by omega) (by intro d hd; cases hd) rfl hu
  cases hr : get k plainReader t (text ls) with
  | none => rw [hr] at h; cases h
  | some r =>
    rw [hr] at h
    simp only [Option.map_some, Option.some.injEq] at h
    exact ⟨r.2, by show get k plainReader t (text ls) = _; rw [hr, ← h]⟩

theorem lookup_calls (cs : List Change) (h : ∀ c ∈ cs, GoodPath c.1) (t : Tree) (q : List S) :
    lookup q (calls cs t) = valueAfter q (lookup q t) cs := by
  induction cs generalizing t with
  | nil => rfl
  | cons c cs ih =>
    obtain ⟨p, v⟩ := c
    have hp := h (p, v) (by simp)
    show lookup q (calls cs (call (p, v) t)) = valueAfter q (if p = q then v else lookup q t) cs
    rw [ih (fun x hx => h x (by simp [hx])), call_eq hp, lookup_setC, effective_plain p (fun d hd => (hp d hd).1)]
    by_cases hq : q = p
    · simp [hq]
    · rw [if_neg hq, if_neg (fun h => hq h.symm)]

/-- C138: after reading, the value stored at any path is that of the last line of the text that changes it, or the old
one if there is no such line. -/
theorem c138_values (t : Tree) (ls : List S) (hg : ∀ l ∈ ls, GoodLine l) (hu : scan 0 false 0 ls ≠ .unclosed) (k : Nat)
    (hk : ls.length < k) :
    ∃ t' code, get k { processInclude := true, loadComments := false, load := fun _ t => t } t (text ls) = some (t', code) ∧
      ∀ q, lookup q t' = valueAfter q (lookup q t) (changes [] false ls) := by
  obtain ⟨code, h⟩ := c138_reads_as_calls t ls hg hu k hk
  exact ⟨_, code, h, lookup_calls _ (goodPath_changes ls [] false (by intro d hd; cases hd)) t⟩

/-- C138 with include files: loading a file into a subtree makes the calls of the text that the file stands for, all
include lines replaced (C113), and then reports success or failure. -/
theorem c138_with_includes (w : World) (hlc : w.loadComments = false) (file : S) (ls ls' : List S) (hf : file ≠ [])
    (hc : w.content file = some (text ls)) (hg : ∀ l ∈ ls, GoodLine l) (he : Expands w file ls ls')
    (hu : scan 0 false 0 ls' ≠ .unclosed) (t : Tree) :
    ∃ K, ∀ k, K ≤ k → ∃ code, loadFile k w false file t = .ok (some (calls (changes [] false ls') t, code)) := by
  obtain ⟨K, hK⟩ := c113_expand w file ls ls' hf hc hg he [newNode none] (by simp) t
  refine ⟨max K (ls'.length + 1), fun k hk => ?_⟩
  obtain ⟨o, h1, -, h3⟩ := hK k (by omega)
  have hgl := expands_good he hg
  obtain ⟨code, hget⟩ := c138_reads_as_calls t ls' hgl hu k (by omega)
  rw [hlc] at h3
  have hl : load k { processInclude := true, loadComments := false, load := fun _ t => t } [newNode none] false (w.path file) (w.name file)
      (some (text ls')) false false t = .ok (some (calls (changes [] false ls') t, if code ≥ 0 then eFILE_LOAD_ERROR else eOK)) := by
    simp only [load, Bool.false_eq_true, if_false, setVirtual, hget]
    by_cases hcd : code ≥ 0
    · simp [hcd]
    · simp [hcd]
  refine ⟨if code ≥ 0 then eFILE_LOAD_ERROR else eOK, ?_⟩
  have e : loadFile k w [newNode none].isEmpty file t = loadFile k w false file t := rfl
  rw [← e, h1, ← h3, hl]

end Verif.AT.Text
