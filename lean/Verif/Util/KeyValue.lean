import Verif.Base
import Verif.Util.StdMap
import Mathlib.Order.Nat

/-!
# Model of `icl_core/KeyValueDirectory.h/.hpp`

The key order is that of `std::string`, here any linear order. A query is a regular
expression matched against the whole key (`boost::regex_match`); the engine is not
modelled, a query is an arbitrary predicate on keys.
-/
namespace Verif.KeyValue
open Verif.StdMap

variable {K : Type u} {V : Type v} [LinearOrder K]

/-- KeyValueDirectory.hpp:40-53 `get(key, value)`: result and new content of `value`. -/
def get (m : List (K × V)) (key : K) (value : V) : Bool × V :=
  match find m key with
  | some v => (true, v)
  | none => (false, value)

/-- KeyValueDirectory.hpp:55-60 `hasKey`. -/
def hasKey (m : List (K × V)) (key : K) : Bool := (find m key).isSome

/-- KeyValueDirectory.hpp:62-68 `insert`: the iterator is looked up before the assignment
and compared with `end()` afterwards (`end()` is stable). -/
def insert (m : List (K × V)) (key : K) (value : V) : Bool × List (K × V) :=
  ((find m key).isNone, assign m key value)

/-- KeyValueDirectory.h iterator members `m_reset`, `m_current_entry`: a fresh iterator, an
entry (identified by its key: `std::map` iterators stay valid and nothing is ever erased), or
`end()`. -/
inductive Iter (K : Type u) where
  | reset
  | entry (k : K)
  | atEnd
  deriving DecidableEq, Repr

/-- KeyValueDirectory.hpp:98-123 `next()`. Incrementing the end iterator is undefined. The
entries visited are those behind the current one in the directory as it is now. -/
def next (m : List (K × V)) (q : K → Bool) (it : Iter K) : Outcome (Bool × Iter K) :=
  let go (l : List (K × V)) : Outcome (Bool × Iter K) :=
    match l.find? (fun e => q e.1) with
    | some e => .ok (true, .entry e.1)
    | none => .ok (false, .atEnd)
  match it with
  | .reset => go m
  | .entry k => go (m.dropWhile (fun e => e.1 ≤ k))
  | .atEnd => .ub

/-- KeyValueDirectory.hpp:79-83, 131-135 `key()` / `value()`; undefined unless at an entry. -/
def current (m : List (K × V)) : Iter K → Outcome (K × V)
  | .entry k =>
    match find m k with
    | some v => .ok (k, v)
    | none => .ub
  | _ => .ub

/-- A client loop `while (it.next()) visit(it.key(), it.value())`, at most `n` rounds;
`none` when not finished by then. -/
def collect (m : List (K × V)) (q : K → Bool) : Nat → Iter K → Option (Outcome (List (K × V)))
  | 0, _ => none
  | n + 1, it =>
    match next m q it with
    | .ok (true, it') =>
      match current m it' with
      | .ok e =>
        match collect m q n it' with
        | some (.ok l) => some (.ok (e :: l))
        | r => r
      | .throws x => some (.throws x)
      | .ub => some .ub
    | .ok (false, _) => some (.ok [])
    | .throws x => some (.throws x)
    | .ub => some .ub

/-! ## C22 -/

/-- Specification: the value inserted last under a key. -/
def lastInserted (h : List (K × V)) (k : K) : Option V :=
  ((h.filter fun e => e.1 = k).map Prod.snd).getLast?

/-- A history of insertions: results and final directory. -/
def insertAll (m : List (K × V)) : List (K × V) → List Bool × List (K × V)
  | [] => ([], m)
  | (k, v) :: h =>
    let r := insert m k v
    let rs := insertAll r.2 h
    (r.1 :: rs.1, rs.2)

theorem insertAll_spec (h : List (K × V)) : ∀ (m done : List (K × V)), Sorted m →
    (∀ k, find m k = lastInserted done k) →
    Sorted (insertAll m h).2 ∧ (∀ k, find (insertAll m h).2 k = lastInserted (done ++ h) k) ∧
    ∀ (i : Nat) (e : K × V), h[i]? = some e →
      (insertAll m h).1[i]? = some (decide (e.1 ∉ (done ++ h.take i).map Prod.fst)) := by
  induction h with
  | nil => intro m done hs hf; exact ⟨hs, by simpa [insertAll] using hf, by simp⟩
  | cons a h ih =>
    obtain ⟨k, v⟩ := a
    intro m done hs hf
    have hl : ∀ q, find (assign m k v) q = lastInserted (done ++ [(k, v)]) q := by
      intro q
      rw [find_assign hs, hf q]
      unfold lastInserted
      by_cases hq : q = k
      · subst hq; simp [List.filter_append]
      · simp [List.filter_append, hq, Ne.symm hq]
    obtain ⟨h1, h2, h3⟩ := ih (assign m k v) (done ++ [(k, v)]) (sorted_assign hs k v) hl
    refine ⟨h1, by simpa [insertAll, insert] using h2, ?_⟩
    intro i e hi
    cases i with
    | zero =>
      simp only [List.getElem?_cons_zero, Option.some.injEq] at hi
      subst hi
      simp only [insertAll, insert, List.getElem?_cons_zero, Option.some.injEq, List.take_zero,
        List.append_nil]
      rw [hf k]
      unfold lastInserted
      rw [Bool.eq_iff_iff]
      simp only [Option.isNone_iff_eq_none, List.getLast?_eq_none_iff, List.map_eq_nil_iff,
        List.filter_eq_nil_iff, decide_eq_true_eq, List.mem_map, not_exists, not_and]
    | succ i =>
      simp only [List.getElem?_cons_succ] at hi
      have := h3 i e hi
      rw [List.append_assoc] at this
      exact this

/-- C22. After any history of insertions into an empty directory: `get` succeeds iff the key
was inserted and then yields the value inserted last (else the output is untouched),
`hasKey` agrees, and each `insert` reported `true` iff its key had not been inserted
before. -/
theorem c22_map (h : List (K × V)) :
    (∀ k d, get (insertAll [] h).2 k d =
      match lastInserted h k with | some v => (true, v) | none => (false, d)) ∧
    (∀ k, hasKey (insertAll [] h).2 k = true ↔ k ∈ h.map Prod.fst) ∧
    (∀ (i : Nat) (e : K × V), h[i]? = some e →
      (insertAll [] h).1[i]? = some (decide (e.1 ∉ (h.take i).map Prod.fst))) := by
  obtain ⟨h1, h2, h3⟩ := insertAll_spec h ([] : List (K × V)) [] sorted_nil (by intro k; rfl)
  simp only [List.nil_append] at h2 h3
  refine ⟨?_, ?_, h3⟩
  · intro k d; unfold get; rw [h2 k]
  · intro k
    unfold hasKey; rw [h2 k]
    unfold lastInserted
    rw [Option.isSome_iff_ne_none, Ne, List.getLast?_eq_none_iff, List.map_eq_nil_iff,
      List.filter_eq_nil_iff]
    simp

/-- The directory after any history is a valid `std::map`. -/
theorem insertAll_sorted (h : List (K × V)) : Sorted (insertAll ([] : List (K × V)) h).2 :=
  (insertAll_spec h ([] : List (K × V)) [] sorted_nil (by intro k; rfl)).1

theorem dropWhile_le {a : K × V} {pre rest : List (K × V)} (h : Sorted (pre ++ a :: rest)) :
    (pre ++ a :: rest).dropWhile (fun e => decide (e.1 ≤ a.1)) = rest := by
  induction pre with
  | nil =>
    have h' := List.pairwise_cons.1 h
    simp only [List.nil_append, List.dropWhile_cons, le_refl, decide_true, if_true]
    cases rest with
    | nil => rfl
    | cons b r =>
      have := h'.1 b (by simp)
      simp [not_le.2 this]
  | cons p pre ih =>
    have h' := List.pairwise_cons.1 h
    have hp : p.1 ≤ a.1 := le_of_lt (h'.1 a (by simp))
    simp only [List.cons_append, List.dropWhile_cons, hp, decide_true, if_true]
    exact ih h'.2

omit [LinearOrder K] in
theorem find?_split (q : K → Bool) (l : List (K × V)) :
    (∃ a pre rest, l = pre ++ a :: rest ∧ l.find? (fun e => q e.1) = some a ∧ q a.1 = true ∧
      ∀ e ∈ pre, q e.1 = false) ∨
    (l.find? (fun e => q e.1) = none ∧ ∀ e ∈ l, q e.1 = false) := by
  induction l with
  | nil => right; simp
  | cons b l ih =>
    by_cases hb : q b.1 = true
    · left; exact ⟨b, [], l, rfl, by simp [hb], hb, by simp⟩
    · rcases ih with ⟨a, pre, rest, h1, h2, h3, h4⟩ | ⟨h1, h2⟩
      · left
        refine ⟨a, b :: pre, rest, by simp [h1], by simp [hb, h2], h3, ?_⟩
        intro e he
        rcases List.mem_cons.1 he with rfl | he
        · simpa using hb
        · exact h4 e he
      · right
        refine ⟨by simp [hb, h1], ?_⟩
        intro e he
        rcases List.mem_cons.1 he with rfl | he
        · simpa using hb
        · exact h2 e he

theorem collect_go (m : List (K × V)) (q : K → Bool) (hs : Sorted m) : ∀ (n : Nat)
    (pre0 rest0 : List (K × V)) (it : Iter K), m = pre0 ++ rest0 → rest0.length < n →
    (it = .reset ∧ pre0 = [] ∨ ∃ p a, pre0 = p ++ [a] ∧ it = .entry a.1) →
    collect m q n it = some (.ok (rest0.filter fun e => q e.1)) := by
  intro n
  induction n with
  | zero => intro pre0 rest0 it _ hl; omega
  | succ n ih =>
    intro pre0 rest0 it hm hl hit
    have hnext : next m q it = match rest0.find? (fun e => q e.1) with
        | some e => .ok (true, .entry e.1)
        | none => .ok (false, .atEnd) := by
      rcases hit with ⟨rfl, rfl⟩ | ⟨p, a, rfl, rfl⟩
      · simp only [List.nil_append] at hm; subst hm; rfl
      · simp only [next]
        have : m.dropWhile (fun e => decide (e.1 ≤ a.1)) = rest0 := by
          rw [hm, List.append_assoc]
          exact dropWhile_le (by simpa [hm] using hs)
        rw [this]
    simp only [collect, hnext]
    rcases find?_split q rest0 with ⟨a, pre, rest, h1, h2, h3, h4⟩ | ⟨h1, h2⟩
    · have hcur : current m (.entry a.1) = .ok a := by
        have : find m a.1 = some a.2 := (find_eq_some hs a.1 a.2).2 (by rw [hm, h1]; simp)
        simp [current, this]
      simp only [h2, hcur]
      rw [ih (pre0 ++ pre ++ [a]) rest (.entry a.1) (by rw [hm, h1]; simp)
        (by rw [h1] at hl; simp at hl; omega) (Or.inr ⟨pre0 ++ pre, a, rfl, rfl⟩)]
      have hnil : pre.filter (fun e => q e.1) = [] := List.filter_eq_nil_iff.2 (by intro e he; simp [h4 e he])
      rw [h1, List.filter_append, hnil]
      simp [h3]
    · simp only [h1]
      rw [List.filter_eq_nil_iff.2 (by intro e he; simp [h2 e he])]

/-- C22. Iterating with a fresh (or reset) iterator over an unchanged directory ends after
at most `size()+1` calls of `next`, without undefined behaviour, and visits exactly the
entries whose key matches the query, each once, in ascending key order. -/
theorem c22_iteration (h : List (K × V)) (q : K → Bool) :
    ∃ l, collect (insertAll [] h).2 q ((insertAll ([] : List (K × V)) h).2.length + 1) .reset = some (.ok l) ∧
      l.Pairwise (fun a b => a.1 < b.1) ∧
      ∀ k v, (k, v) ∈ l ↔ q k = true ∧ lastInserted h k = some v := by
  have hs := insertAll_sorted h
  refine ⟨_, collect_go _ q hs _ [] _ .reset rfl (Nat.lt_succ_self _) (Or.inl ⟨rfl, rfl⟩), ?_, ?_⟩
  · exact List.Pairwise.sublist List.filter_sublist hs
  · intro k v
    rw [List.mem_filter, ← find_eq_some hs,
      (insertAll_spec h ([] : List (K × V)) [] sorted_nil (by intro k; rfl)).2.1 k]
    simp [and_comm]

/-- C22. Even when entries are inserted between the calls, each step of an iterator moves to
a strictly larger key that matches and is the smallest such key present. -/
theorem c22_step (m : List (K × V)) (hs : Sorted m) (q : K → Bool) (k k' : K)
    (h : next m q (.entry k) = .ok (true, .entry k')) :
    k < k' ∧ q k' = true ∧ (∃ v, (k', v) ∈ m) ∧ ∀ e ∈ m, k < e.1 → q e.1 = true → k' ≤ e.1 := by
  have hd : ∀ (m : List (K × V)), Sorted m → ∃ pre, m = pre ++ m.dropWhile (fun e => decide (e.1 ≤ k)) ∧
      (∀ e ∈ pre, e.1 ≤ k) ∧ ∀ e ∈ m.dropWhile (fun e => decide (e.1 ≤ k)), k < e.1 := by
    intro m
    induction m with
    | nil => intro _; exact ⟨[], rfl, by simp, by simp⟩
    | cons a r ih =>
      intro hs
      have h' := List.pairwise_cons.1 hs
      by_cases ha : a.1 ≤ k
      · obtain ⟨pre, h1, h2, h3⟩ := ih h'.2
        simp only [List.dropWhile_cons, ha, decide_true, if_true]
        refine ⟨a :: pre, by rw [List.cons_append, ← h1], ?_, h3⟩
        intro e he
        rcases List.mem_cons.1 he with rfl | he
        · exact ha
        · exact h2 e he
      · simp only [List.dropWhile_cons, ha, decide_false, Bool.false_eq_true, if_false]
        refine ⟨[], rfl, by simp, ?_⟩
        intro e he
        rcases List.mem_cons.1 he with rfl | he
        · exact not_le.1 ha
        · exact lt_trans (not_le.1 ha) (h'.1 e he)
  obtain ⟨pre0, h1, h2, h3⟩ := hd m hs
  simp only [next] at h
  rcases find?_split q (m.dropWhile (fun e => decide (e.1 ≤ k))) with ⟨a, pre, rest, e1, e2, e3, e4⟩ | ⟨e1, _⟩
  · simp only [e2] at h
    have hak : a.1 = k' := by
      injection h with h; injection h with _ h; injection h
    subst hak
    have ham : a ∈ m.dropWhile (fun e => decide (e.1 ≤ k)) := by rw [e1]; simp
    refine ⟨h3 a ham, e3, ⟨a.2, by rw [h1]; exact List.mem_append_right _ ham⟩, ?_⟩
    intro e he hlt hq
    rw [h1] at he
    rcases List.mem_append.1 he with he | he
    · exact absurd (h2 e he) (not_le.2 hlt)
    · have hso : Sorted (m.dropWhile (fun e => decide (e.1 ≤ k))) := by
        have : Sorted (pre0 ++ m.dropWhile (fun e => decide (e.1 ≤ k))) := by rw [← h1]; exact hs
        exact (List.pairwise_append.1 this).2.1
      rw [e1] at he hso
      rcases List.mem_append.1 he with he | he
      · rw [e4 e he] at hq; cases hq
      · rcases List.mem_cons.1 he with rfl | he
        · exact le_refl _
        · exact le_of_lt ((List.pairwise_cons.1 (List.pairwise_append.1 hso).2.1).1 e he)
  · simp only [e1] at h
    injection h with h; injection h with h; cases h

/-- C22. Calling `next()` again after it has returned `false` is undefined. -/
theorem c22_next_past_end (m : List (K × V)) (q : K → Bool) : next m q .atEnd = .ub := rfl

example : insertAll [] [(3, 'a'), (1, 'b'), (3, 'c'), (7, 'd')] =
      ([true, true, false, true], [(1, 'b'), (3, 'c'), (7, 'd')]) ∧
    collect [(1, 'b'), (3, 'c'), (7, 'd')] (fun k => decide (2 < k)) 4 .reset =
      some (.ok [(3, 'c'), (7, 'd')]) := by decide

end Verif.KeyValue
