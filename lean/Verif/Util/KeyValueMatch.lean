import Verif.Util.KeyValue

/-!
# Match groups of `KeyValueDirectoryIterator` (C22)

`boost::regex_match(key, results, query)` is an arbitrary function from keys to the list of groups (group 0 is the
key itself), `none` if the key does not match; a failed match leaves `results` empty (boost: "`m.size()` is 0").
-/
namespace Verif.KeyValue
open Verif.StdMap

variable {K : Type u} {V : Type v} [LinearOrder K]

/-- KeyValueDirectory.h:199-204 the iterator: position and `m_current_results`. -/
structure MIter (K : Type u) where
  pos : Iter K
  results : List K
  deriving DecidableEq, Repr

/-- KeyValueDirectory.hpp:34-38 `find()`, 71-77 the constructor: an iterator that has just been reset. -/
def find_ : MIter K := ⟨.reset, []⟩

/-- KeyValueDirectory.hpp:125-129 `reset()`; the results are kept. -/
def reset (it : MIter K) : MIter K := { it with pos := .reset }

/-- KeyValueDirectory.hpp:113-118 the loop over the remaining entries: the entry found and the results left by the last
call of `regex_match`. -/
def scan (g : K → Option (List K)) : List (K × V) → List K → Iter K × List K
  | [], res => (.atEnd, res)
  | e :: l, _ =>
    match g e.1 with
    | some r => (.entry e.1, r)
    | none => scan g l []

/-- KeyValueDirectory.hpp:98-123 `next()`. -/
def nextM (m : List (K × V)) (g : K → Option (List K)) (it : MIter K) : Outcome (Bool × MIter K) :=
  let go (l : List (K × V)) : Outcome (Bool × MIter K) :=
    let r := scan g l it.results
    .ok (decide (r.1 ≠ .atEnd), ⟨r.1, r.2⟩)
  match it.pos with
  | .reset => go m
  | .entry k => go (m.dropWhile (fun e => e.1 ≤ k))
  | .atEnd => .ub

/-- KeyValueDirectory.hpp:85-96 `matchGroup(index)`; `empty` is the empty string. -/
def matchGroup (empty : K) (it : MIter K) (index : Nat) : K :=
  match it.results[index]? with
  | some x => x
  | none => empty

theorem scan_spec (g : K → Option (List K)) (l : List (K × V)) (res : List K) :
    (∃ e r, l.find? (fun e => (g e.1).isSome) = some e ∧ g e.1 = some r ∧ scan g l res = (.entry e.1, r)) ∨
    (l.find? (fun e => (g e.1).isSome) = none ∧ scan g l res = (.atEnd, if l = [] then res else [])) := by
  induction l generalizing res with
  | nil => right; exact ⟨rfl, rfl⟩
  | cons a l ih =>
    cases hg : g a.1 with
    | some r => left; exact ⟨a, r, by simp [hg], hg, by simp [scan, hg]⟩
    | none =>
      rcases ih [] with ⟨e, r, h1, h2, h3⟩ | ⟨h1, h2⟩
      · left; exact ⟨e, r, by simp [hg, h1], h2, by simp [scan, hg, h3]⟩
      · right; refine ⟨by simp [hg, h1], by simp [scan, hg, h2]⟩

/-- C22. The iterator with match groups visits the same entries as the plain one (so `c22_iteration` applies to it). -/
theorem c22_match_positions (m : List (K × V)) (g : K → Option (List K)) (it : MIter K) :
    (match nextM m g it with | .ok (b, it') => Outcome.ok (b, it'.pos) | .throws e => .throws e | .ub => .ub)
      = next m (fun k => (g k).isSome) it.pos := by
  have key : ∀ l : List (K × V), (decide ((scan g l it.results).1 ≠ .atEnd), (scan g l it.results).1) =
      match l.find? (fun e => (g e.1).isSome) with
      | some e => (true, .entry e.1)
      | none => (false, .atEnd) := by
    intro l
    rcases scan_spec g l it.results with ⟨e, r, h1, _, h3⟩ | ⟨h1, h2⟩
    · rw [h1, h3]; simp
    · rw [h1, h2]; simp
  cases hp : it.pos with
  | atEnd => simp only [nextM, hp, next]
  | reset =>
    have k := key m
    simp only [nextM, hp, next, k]
    cases hf : m.find? (fun e => (g e.1).isSome) <;> rw [hf] at k <;> simp only [k]
  | entry q =>
    have k := key (m.dropWhile (fun e => e.1 ≤ q))
    simp only [nextM, hp, next, k]
    cases hf : (m.dropWhile (fun e => e.1 ≤ q)).find? (fun e => (g e.1).isSome) <;> rw [hf] at k <;> simp only [k]

/-- C22. Whenever `next()` has returned `true`, `matchGroup(i)` is the `i`-th group of the match of the current key, or
empty if there is no such group; in particular group 0 is `key()`. -/
theorem c22_matchGroup (empty : K) (m : List (K × V)) (g : K → Option (List K)) (hg : ∀ k r, g k = some r → r.head? = some k)
    (it it' : MIter K) (h : nextM m g it = .ok (true, it')) :
    ∃ k r, it'.pos = .entry k ∧ g k = some r ∧ (∀ i, matchGroup empty it' i = r.getD i empty) ∧ matchGroup empty it' 0 = k := by
  have key : ∀ l : List (K × V), Outcome.ok (decide ((scan g l it.results).1 ≠ .atEnd), (⟨(scan g l it.results).1, (scan g l it.results).2⟩ : MIter K))
      = .ok (true, it') →
      ∃ k r, it'.pos = .entry k ∧ g k = some r ∧ (∀ i, matchGroup empty it' i = r.getD i empty) ∧ matchGroup empty it' 0 = k := by
    intro l h
    rcases scan_spec g l it.results with ⟨e, r, _, h2, h3⟩ | ⟨_, h2⟩
    · rw [h3] at h
      injection h with h
      injection h with _ h
      subst h
      refine ⟨e.1, r, rfl, h2, ?_, ?_⟩
      · intro i
        simp only [matchGroup, List.getD_eq_getElem?_getD]
        cases r[i]? <;> rfl
      · have := hg _ _ h2
        cases r with
        | nil => simp at this
        | cons a r => simpa [matchGroup] using this
    · rw [h2] at h
      injection h with h
      injection h with h _
      simp at h
  cases hp : it.pos with
  | atEnd => simp only [nextM, hp] at h; cases h
  | reset => simp only [nextM, hp] at h; exact key _ h
  | entry q => simp only [nextM, hp] at h; exact key _ h

/-- C22. Before the first `next()` all groups are empty. -/
theorem c22_matchGroup_fresh (empty : K) (i : Nat) : matchGroup empty (find_ : MIter K) i = empty := by
  simp [matchGroup, find_]

/-- C22. When `next()` has returned `false`, the groups are empty if entries were left to look at; otherwise they are still
those of the last match. -/
theorem c22_matchGroup_end (empty : K) (m : List (K × V)) (g : K → Option (List K)) (it it' : MIter K)
    (h : nextM m g it = .ok (false, it')) (i : Nat) :
    matchGroup empty it' i = match it.pos with
      | .entry k => if m.dropWhile (fun e => e.1 ≤ k) = [] then matchGroup empty it i else empty
      | _ => if m = [] then matchGroup empty it i else empty := by
  have key : ∀ l : List (K × V), Outcome.ok (decide ((scan g l it.results).1 ≠ .atEnd), (⟨(scan g l it.results).1, (scan g l it.results).2⟩ : MIter K))
      = .ok (false, it') → matchGroup empty it' i = if l = [] then matchGroup empty it i else empty := by
    intro l h
    rcases scan_spec g l it.results with ⟨e, r, _, h2, h3⟩ | ⟨_, h2⟩
    · rw [h3] at h
      injection h with h
      injection h with h _
      simp at h
    · rw [h2] at h
      injection h with h
      injection h with _ h
      subst h
      by_cases hl : l = [] <;> simp [hl, matchGroup]
  cases hp : it.pos with
  | atEnd => simp only [nextM, hp] at h; cases h
  | reset => simp only [nextM, hp] at h; exact key _ h
  | entry q => simp only [nextM, hp] at h; exact key _ h

/-- C22. `reset()` starts over, whatever the iterator did before. -/
theorem c22_reset (m : List (K × V)) (g : K → Option (List K)) (it : MIter K) :
    (match nextM m g (reset it) with | .ok (b, it') => Outcome.ok (b, it'.pos) | .throws e => .throws e | .ub => .ub)
      = next m (fun k => (g k).isSome) .reset := by
  rw [c22_match_positions]; rfl

-- keys 1, 3, 7; the query matches 1 and 7 with one group, the key plus 100; afterwards the groups of 7 are still there
example : nextM [(1, 'b'), (3, 'c'), (7, 'd')] (fun k => if k = 3 then none else some [k, k + 100]) (find_ : MIter Nat)
      = .ok (true, ⟨.entry 1, [1, 101]⟩) ∧
    nextM [(1, 'b'), (3, 'c'), (7, 'd')] (fun k => if k = 3 then none else some [k, k + 100]) ⟨.entry 1, [1, 101]⟩
      = .ok (true, ⟨.entry 7, [7, 107]⟩) ∧
    nextM [(1, 'b'), (3, 'c'), (7, 'd')] (fun k => if k = 3 then none else some [k, k + 100]) ⟨.entry 7, [7, 107]⟩
      = .ok (false, ⟨.atEnd, [7, 107]⟩) ∧
    matchGroup 0 (⟨.atEnd, [7, 107]⟩ : MIter Nat) 1 = 107 := by decide

end Verif.KeyValue
