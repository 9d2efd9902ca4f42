import Mathlib.Order.Defs.LinearOrder

/-!
# `std::map` as an ascending association list

Primitive shared by several models (it stands for the C++ standard library, not for a file
of this repository): `find`, assignment through `operator[]`, `insert` (which keeps an
existing entry) and `erase` of `std::map`, iteration being in ascending key order.
-/
namespace Verif.StdMap

variable {K : Type u} {V : Type v}

/-- `m.find(k)`. -/
def find [DecidableEq K] : List (K × V) → K → Option V
  | [], _ => none
  | (k', v) :: r, k => if k' = k then some v else find r k

/-- `m[k] = v`. -/
def assign [LinearOrder K] : List (K × V) → K → V → List (K × V)
  | [], k, v => [(k, v)]
  | (k', v') :: r, k, v =>
    if k < k' then (k, v) :: (k', v') :: r
    else if k = k' then (k, v) :: r
    else (k', v') :: assign r k v

/-- `m.insert(std::make_pair(k, v))`: an existing entry stays. -/
def emplace [LinearOrder K] (m : List (K × V)) (k : K) (v : V) : List (K × V) :=
  match find m k with
  | some _ => m
  | none => assign m k v

/-- `m.erase(k)`. -/
def erase [DecidableEq K] : List (K × V) → K → List (K × V)
  | [], _ => []
  | (k', v) :: r, k => if k' = k then r else (k', v) :: erase r k

/-- The invariant of `std::map`: keys strictly ascending. -/
def Sorted [LinearOrder K] (m : List (K × V)) : Prop := m.Pairwise fun a b => a.1 < b.1

section
variable [LinearOrder K]

theorem sorted_nil : Sorted ([] : List (K × V)) := List.Pairwise.nil

theorem mem_assign {m : List (K × V)} {k : K} {v : V} {e : K × V} (h : e ∈ assign m k v) :
    e = (k, v) ∨ e ∈ m := by
  induction m with
  | nil => simp [assign] at h; exact Or.inl h
  | cons a r ih =>
    obtain ⟨k', v'⟩ := a
    simp only [assign] at h
    split at h
    · rcases List.mem_cons.1 h with h | h
      · exact Or.inl h
      · exact Or.inr h
    · split at h
      · rcases List.mem_cons.1 h with h | h
        · exact Or.inl h
        · exact Or.inr (List.mem_cons_of_mem _ h)
      · rcases List.mem_cons.1 h with h | h
        · exact Or.inr (by simp [h])
        · rcases ih h with h | h
          · exact Or.inl h
          · exact Or.inr (List.mem_cons_of_mem _ h)

theorem sorted_assign {m : List (K × V)} (h : Sorted m) (k : K) (v : V) : Sorted (assign m k v) := by
  induction m with
  | nil => simp [assign, Sorted]
  | cons a r ih =>
    obtain ⟨k', v'⟩ := a
    have h' := List.pairwise_cons.1 h
    simp only [assign]
    split
    · rename_i hlt
      refine List.pairwise_cons.2 ⟨?_, h⟩
      intro b hb
      rcases List.mem_cons.1 hb with rfl | hb
      · exact hlt
      · exact lt_trans hlt (h'.1 b hb)
    · split
      · rename_i _ he
        subst he
        exact List.pairwise_cons.2 ⟨h'.1, h'.2⟩
      · rename_i hlt hne
        refine List.pairwise_cons.2 ⟨?_, ih h'.2⟩
        intro b hb
        rcases mem_assign hb with rfl | hb
        · exact lt_of_le_of_ne (not_lt.1 hlt) (Ne.symm hne)
        · exact h'.1 b hb

theorem find_of_lt {m : List (K × V)} {k : K} (h : ∀ e ∈ m, k < e.1) : find m k = none := by
  induction m with
  | nil => rfl
  | cons a r ih =>
    obtain ⟨k', v'⟩ := a
    have : k' ≠ k := Ne.symm (ne_of_lt (h (k', v') (by simp)))
    simp only [find, this, if_false]
    exact ih fun e he => h e (by simp [he])

theorem find_assign {m : List (K × V)} (h : Sorted m) (k : K) (v : V) (q : K) :
    find (assign m k v) q = if q = k then some v else find m q := by
  induction m with
  | nil =>
    simp only [assign, find]
    by_cases hq : q = k
    · simp [hq]
    · simp [hq, Ne.symm hq]
  | cons a r ih =>
    obtain ⟨k', v'⟩ := a
    have h' := List.pairwise_cons.1 h
    simp only [assign]
    split
    · rename_i hlt
      simp only [find]
      by_cases hq : q = k
      · simp [hq]
      · simp [hq, Ne.symm hq]
    · split
      · rename_i _ he
        subst he
        simp only [find]
        by_cases hq : q = k
        · simp [hq]
        · simp [hq, Ne.symm hq]
      · rename_i hlt hne
        simp only [find, ih h'.2]
        by_cases hq : k' = q
        · subst hq; simp [Ne.symm hne]
        · simp [hq]

theorem find_eq_some {m : List (K × V)} (h : Sorted m) (k : K) (v : V) :
    find m k = some v ↔ (k, v) ∈ m := by
  induction m with
  | nil => simp [find]
  | cons a r ih =>
    obtain ⟨k', v'⟩ := a
    have h' := List.pairwise_cons.1 h
    simp only [find]
    by_cases hk : k' = k
    · subst hk
      simp only [if_true, Option.some.injEq, List.mem_cons, Prod.mk.injEq, true_and]
      constructor
      · intro h; exact Or.inl h.symm
      · rintro (h | h)
        · exact h.symm
        · exact absurd (h'.1 _ h) (lt_irrefl _)
    · simp only [hk, if_false, ih h'.2, List.mem_cons, Prod.mk.injEq]
      constructor
      · intro h; exact Or.inr h
      · rintro (⟨h, _⟩ | h)
        · exact absurd h.symm hk
        · exact h

theorem sorted_emplace {m : List (K × V)} (h : Sorted m) (k : K) (v : V) : Sorted (emplace m k v) := by
  unfold emplace
  split
  · exact h
  · exact sorted_assign h k v

theorem find_emplace {m : List (K × V)} (h : Sorted m) (k : K) (v : V) (q : K) :
    find (emplace m k v) q = if q = k then some ((find m k).getD v) else find m q := by
  unfold emplace
  split
  · rename_i w hw
    by_cases hq : q = k
    · subst hq; simp [hw]
    · simp [hq]
  · rename_i hn
    rw [find_assign h]
    by_cases hq : q = k <;> simp [hq, hn]

theorem mem_erase {m : List (K × V)} {k : K} {e : K × V} (h : e ∈ erase m k) : e ∈ m := by
  induction m with
  | nil => exact h
  | cons a r ih =>
    obtain ⟨k', v'⟩ := a
    simp only [erase] at h
    split at h
    · exact List.mem_cons_of_mem _ h
    · rcases List.mem_cons.1 h with h | h
      · rw [h]; exact List.mem_cons_self
      · exact List.mem_cons_of_mem _ (ih h)

theorem sorted_erase {m : List (K × V)} (h : Sorted m) (k : K) : Sorted (erase m k) := by
  induction m with
  | nil => exact h
  | cons a r ih =>
    obtain ⟨k', v'⟩ := a
    have h' := List.pairwise_cons.1 h
    simp only [erase]
    split
    · exact h'.2
    · exact List.pairwise_cons.2 ⟨fun b hb => h'.1 b (mem_erase hb), ih h'.2⟩

theorem find_erase {m : List (K × V)} (h : Sorted m) (k q : K) :
    find (erase m k) q = if q = k then none else find m q := by
  induction m with
  | nil => simp [erase, find]
  | cons a r ih =>
    obtain ⟨k', v'⟩ := a
    have h' := List.pairwise_cons.1 h
    simp only [erase]
    split
    · rename_i he
      subst he
      by_cases hq : q = k'
      · subst hq; simp only [if_true]; exact find_of_lt h'.1
      · simp [find, hq, Ne.symm hq]
    · rename_i hne
      simp only [find, ih h'.2]
      by_cases hq : k' = q
      · subst hq; simp [hne]
      · simp [hq]

/-- A sorted map is determined by its lookups. -/
theorem ext_find {m1 m2 : List (K × V)} (h1 : Sorted m1) (h2 : Sorted m2)
    (h : ∀ k, find m1 k = find m2 k) : m1 = m2 := by
  induction m1 generalizing m2 with
  | nil =>
    cases m2 with
    | nil => rfl
    | cons b r => obtain ⟨k, v⟩ := b; have := h k; simp [find] at this
  | cons a r ih =>
    obtain ⟨k1, v1⟩ := a
    cases m2 with
    | nil => have := h k1; simp [find] at this
    | cons b s =>
      obtain ⟨k2, v2⟩ := b
      have h1' := List.pairwise_cons.1 h1
      have h2' := List.pairwise_cons.1 h2
      have hk : k1 = k2 := by
        rcases lt_trichotomy k1 k2 with hlt | he | hgt
        · have := h k1
          rw [find_of_lt (m := (k2, v2) :: s)] at this
          · simp [find] at this
          · intro e he
            rcases List.mem_cons.1 he with rfl | he
            · exact hlt
            · exact lt_trans hlt (h2'.1 e he)
        · exact he
        · have := h k2
          rw [find_of_lt (m := (k1, v1) :: r)] at this
          · simp [find] at this
          · intro e he
            rcases List.mem_cons.1 he with rfl | he
            · exact hgt
            · exact lt_trans hgt (h1'.1 e he)
      subst hk
      have hv := h k1
      simp [find] at hv
      subst hv
      congr 1
      apply ih h1'.2 h2'.2
      intro k
      by_cases hk : k = k1
      · subst hk; rw [find_of_lt h1'.1, find_of_lt h2'.1]
      · have := h k
        simpa [find, Ne.symm hk] using this

end
end Verif.StdMap
