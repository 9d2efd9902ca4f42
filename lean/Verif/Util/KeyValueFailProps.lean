import Verif.Util.KeyValueFail
import Mathlib.Data.List.Induction

/-!
# C150: insertions that throw
-/
namespace Verif.KeyValue.Fail
open Verif.StdMap

variable {K : Type u} {V : Type v} [LinearOrder K]

/-! ## Specification -/

/-- The value given by the last call for this key that returned. -/
def lastStored (tr : List (Call K V × Option Bool)) (k : K) : Option V :=
  ((tr.filter fun e => e.1.key = k ∧ e.2.isSome).getLast?).map fun e => e.1.value

/-- A call for this key threw while it assigned the value. -/
def AssignmentThrew (tr : List (Call K V × Option Bool)) (k : K) : Prop :=
  ∃ e ∈ tr, e.1.key = k ∧ e.1.fails = .assignment

/-- The answers of the directory are the same. -/
def Same (m m' : List (K × V)) : Prop := ∀ q old, KeyValue.get m' q old = KeyValue.get m q old ∧ hasKey m' q = hasKey m q

/-! ## Theorems -/

theorem insert_sorted (dflt : V) {m : List (K × V)} (hs : Sorted m) (c : Call K V) : Sorted (insert dflt m c).2 := by
  unfold insert
  split
  · exact sorted_assign hs _ _
  · split
    · exact hs
    · exact sorted_assign hs _ _
  · split
    · exact sorted_assign hs _ _
    · exact hs

theorem run_append (dflt : V) (h : List (Call K V)) (c : Call K V) : run dflt (h ++ [c]) =
    ((run dflt h).1 ++ [(c, (insert dflt (run dflt h).2 c).1)], (insert dflt (run dflt h).2 c).2) := by
  simp [run, List.foldl_append]

theorem run_sorted (dflt : V) (h : List (Call K V)) : Sorted (run dflt h).2 := by
  induction h using List.reverseRecOn with
  | nil => exact List.Pairwise.nil
  | append_singleton h c ih => rw [run_append]; exact insert_sorted dflt ih c

/-- If nothing throws, `insert` is that of C22. -/
theorem c150_without_failure (dflt : V) (m : List (K × V)) (k : K) (v : V) :
    insert dflt m ⟨k, v, .nothing⟩ = (some (KeyValue.insert m k v).1, (KeyValue.insert m k v).2) := rfl

/-- A call that throws has no effect exactly if the key was there before or the assignment did not throw. What is missing: the
other case, see `c150_ghost`. -/
theorem c150_no_effect_partial (dflt : V) (h : List (Call K V)) (c : Call K V)
    (ht : (insert dflt (run dflt h).2 c).1 = none) :
    Same (run dflt h).2 (insert dflt (run dflt h).2 c).2 ↔
      (hasKey (run dflt h).2 c.key = true ∨ c.fails ≠ .assignment) := by
  have hs := run_sorted dflt h
  generalize (run dflt h).2 = m at *
  obtain ⟨k, v, f⟩ := c
  cases f with
  | nothing => simp [insert] at ht
  | entry =>
    cases hf : find m k with
    | none => simp [insert, hf, Same]
    | some x => simp [insert, hf] at ht
  | assignment =>
    cases hf : find m k with
    | some x => simp [insert, hf, Same, hasKey]
    | none =>
      refine ⟨fun hh => absurd (hh k v).2 ?_, fun hh => ?_⟩
      · simp [insert, hf, hasKey, find_assign hs]
      · simp [hasKey, hf] at hh

/-- The property does not hold: if the assignment for a new key throws, the key is there afterwards with the default
value, though nobody gave it this value; the other keys are as before. When the same insertion is tried again, and works, it says that the
key was not new. -/
theorem c150_ghost (dflt : V) (h : List (Call K V)) (k : K) (v old : V) (hn : hasKey (run dflt h).2 k = false) :
    let r := insert dflt (run dflt h).2 ⟨k, v, .assignment⟩
    r.1 = none ∧ KeyValue.get r.2 k old = (true, dflt) ∧ hasKey r.2 k = true ∧
      (∀ q, q ≠ k → KeyValue.get r.2 q old = KeyValue.get (run dflt h).2 q old) ∧
      (insert dflt r.2 ⟨k, v, .nothing⟩).1 = some false := by
  have hs := run_sorted dflt h
  generalize (run dflt h).2 = m at *
  have hf : find m k = none := by simpa [hasKey] using hn
  simp only [insert, hf, KeyValue.get, hasKey, find_assign hs, if_true, Option.isSome_some, Option.isNone_some, true_and]
  refine ⟨fun q hq => ?_, trivial⟩
  simp [hq]

theorem lastStored_append (tr : List (Call K V × Option Bool)) (e : Call K V × Option Bool) (k : K) :
    lastStored (tr ++ [e]) k = if e.1.key = k ∧ e.2.isSome = true then some e.1.value else lastStored tr k := by
  unfold lastStored
  by_cases h : e.1.key = k ∧ e.2.isSome = true
  · simp [List.filter_append, h]
  · rw [if_neg h, List.filter_append, List.filter_cons_of_neg (by simpa using h)]
    simp

omit [LinearOrder K] in
theorem threw_append (tr : List (Call K V × Option Bool)) (e : Call K V × Option Bool) (k : K) :
    AssignmentThrew (tr ++ [e]) k ↔ AssignmentThrew tr k ∨ (e.1.key = k ∧ e.1.fails = .assignment) := by
  simp [AssignmentThrew, or_and_right, exists_or]

/-- What the directory answers after any history: for every key the value of the last call that returned; if there is none, the
default value if an assignment for the key threw; else nothing. -/
theorem c150_history (dflt : V) (h : List (Call K V)) (k : K) (old : V) :
    let tr := (run dflt h).1
    let m := (run dflt h).2
    (∀ x, lastStored tr k = some x → KeyValue.get m k old = (true, x)) ∧
    (lastStored tr k = none → AssignmentThrew tr k → KeyValue.get m k old = (true, dflt)) ∧
    (lastStored tr k = none → ¬ AssignmentThrew tr k → KeyValue.get m k old = (false, old)) := by
  have key : ∀ h : List (Call K V), (∀ x, lastStored (run dflt h).1 k = some x → find (run dflt h).2 k = some x) ∧
      (lastStored (run dflt h).1 k = none → AssignmentThrew (run dflt h).1 k → find (run dflt h).2 k = some dflt) ∧
      (lastStored (run dflt h).1 k = none → ¬ AssignmentThrew (run dflt h).1 k → find (run dflt h).2 k = none) := by
    intro h
    induction h using List.reverseRecOn with
    | nil => simp [run, lastStored, AssignmentThrew, find]
    | append_singleton h c ih =>
      have hs := run_sorted dflt h
      rw [run_append]
      simp only [lastStored_append, threw_append]
      generalize (run dflt h).2 = m at *
      generalize (run dflt h).1 = tr at *
      obtain ⟨kc, v, f⟩ := c
      by_cases hk : kc = k
      · subst hk
        cases f with
        | nothing => simp [insert, find_assign hs]
        | entry =>
          cases hf : find m kc with
          | none => rw [hf] at ih; simpa [insert, hf] using ih
          | some y => simp [insert, hf, find_assign hs]
        | assignment =>
          cases hf : find m kc with
          | some y =>
            rw [hf] at ih
            refine ⟨by simpa [insert, hf] using ih.1, fun hl _ => ?_, fun _ hn => absurd (.inr ⟨rfl, rfl⟩) hn⟩
            simp only [insert, hf, Option.isSome_none, Bool.false_eq_true, and_false, if_false] at hl ⊢
            by_cases ha : AssignmentThrew tr kc
            · exact ih.2.1 hl ha
            · exact absurd (ih.2.2 hl ha) (by simp)
          | none =>
            rw [hf] at ih
            refine ⟨fun x hx => ?_, fun _ _ => by simp [insert, hf, find_assign hs],
              fun _ hn => absurd (.inr ⟨rfl, rfl⟩) hn⟩
            simp only [insert, hf, Option.isSome_none, Bool.false_eq_true, and_false, if_false] at hx
            exact absurd (ih.1 x hx) (by simp)
      · have hfind : find (insert dflt m ⟨kc, v, f⟩).2 k = find m k := by
          unfold insert
          cases f <;> dsimp only
          · rw [find_assign hs, if_neg (Ne.symm hk)]
          · split
            · rfl
            · rw [find_assign hs, if_neg (Ne.symm hk)]
          · split
            · rw [find_assign hs, if_neg (Ne.symm hk)]
            · rfl
        simpa [hk, hfind] using ih
  obtain ⟨h1, h2, h3⟩ := key h
  refine ⟨fun x hx => ?_, fun ha hb => ?_, fun ha hb => ?_⟩
  · simp [KeyValue.get, h1 x hx]
  · simp [KeyValue.get, h2 ha hb]
  · simp [KeyValue.get, h3 ha hb]

/-! ## Examples -/

example : (run 0 [⟨1, 10, .nothing⟩, ⟨2, 20, .assignment⟩, ⟨1, 11, .assignment⟩, ⟨3, 30, .entry⟩, ⟨1, 12, .entry⟩,
      (⟨2, 21, .nothing⟩ : Call Nat Nat)]).1.map (·.2) = [some true, none, none, none, some false, some false] ∧
    (run 0 [⟨1, 10, .nothing⟩, ⟨2, 20, .assignment⟩, ⟨1, 11, .assignment⟩, (⟨3, 30, .entry⟩ : Call Nat Nat)]).2 =
      [(1, 10), (2, 0)] := by decide +kernel

example : hasKey (run 0 [(⟨1, 10, .nothing⟩ : Call Nat Nat)]).2 2 = false ∧
    (insert 0 (run 0 [(⟨1, 10, .nothing⟩ : Call Nat Nat)]).2 ⟨1, 11, .assignment⟩).1 = none := by decide +kernel

end Verif.KeyValue.Fail
