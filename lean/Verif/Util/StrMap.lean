import Verif.Util.StdMap
import Mathlib.Data.List.Lex
import Mathlib.Data.Char

/-!
# `std::map` with string keys

`find`, `operator[] =` and `erase` of `Verif/Util/StdMap.lean` at `std::string`, ordered
lexicographically (it stands for the C++ standard library, not for a file of this repository).
-/
namespace Verif.StrMap
open Verif.StdMap

/-- A string. -/
abbrev S := List Char

variable {V : Type u}

/-- `m.find(k)`. -/
def get (m : List (S × V)) (k : S) : Option V :=
  @find S V (fun a b => LinearOrder.toDecidableEq a b) m k

/-- `m[k] = v`. -/
def put (m : List (S × V)) (k : S) (v : V) : List (S × V) := assign m k v

/-- `m.erase(k)`. -/
def del (m : List (S × V)) (k : S) : List (S × V) :=
  @erase S V (fun a b => LinearOrder.toDecidableEq a b) m k

/-- The invariant of the map. -/
def Ok (m : List (S × V)) : Prop := Sorted m

theorem ok_nil : Ok ([] : List (S × V)) := sorted_nil

theorem ok_put {m : List (S × V)} (h : Ok m) (k : S) (v : V) : Ok (put m k v) := sorted_assign h k v

theorem ok_del {m : List (S × V)} (h : Ok m) (k : S) : Ok (del m k) := sorted_erase h k

@[simp] theorem get_nil (k : S) : get ([] : List (S × V)) k = none := rfl

theorem get_put {m : List (S × V)} (h : Ok m) (k : S) (v : V) (q : S) :
    get (put m k v) q = if q = k then some v else get m q := by
  have := find_assign h k v q
  simp only [get, put]
  rw [this]
  by_cases hq : q = k <;> simp [hq]

theorem get_del {m : List (S × V)} (h : Ok m) (k q : S) :
    get (del m k) q = if q = k then none else get m q := by
  have := find_erase h k q
  simp only [get, del]
  rw [this]
  by_cases hq : q = k <;> simp [hq]

theorem mem_iff {m : List (S × V)} (h : Ok m) (k : S) (v : V) : (k, v) ∈ m ↔ get m k = some v :=
  (find_eq_some h k v).symm

theorem nodup_keys {m : List (S × V)} (h : Ok m) : (m.map Prod.fst).Nodup := by
  rw [List.nodup_iff_pairwise_ne, List.pairwise_map]
  exact List.Pairwise.imp (fun {a b} hab => ne_of_lt hab) h

theorem ext {m1 m2 : List (S × V)} (h1 : Ok m1) (h2 : Ok m2) (h : ∀ k, get m1 k = get m2 k) :
    m1 = m2 := ext_find h1 h2 h

end Verif.StrMap
