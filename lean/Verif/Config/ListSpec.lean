import Verif.Config.ListModel

/-! # Specification of configuration lists (C72) -/
namespace Verif.Config.CList

/-- A name of a list element: not empty, without `/`. -/
def IsName (n : S) : Prop := n ≠ [] ∧ '/' ∉ n

/-- The configuration key of member `x` of element `n` of the list at `p`; the member with the empty
suffix is the element itself. -/
def keyOf (p n x : S) : S := p ++ '/' :: n ++ (if x = [] then [] else '/' :: x)

/-- The special characters of regular expressions. -/
def special : S := ".[]{}()\\*+?|^$".toList

/-- A text without special characters. -/
def Plain (p : S) : Prop := ∀ c ∈ p, c ∉ special

/-- All keys below `p` name members of named elements (there are no keys like `p//x` and `p/n/`). -/
def Tidy (p : S) (items : List (S × S)) : Prop :=
  ∀ k v r, (k, v) ∈ items → k = p ++ '/' :: r → r = [] ∨ ∃ n x, IsName n ∧ k = keyOf p n x

/-- The member for a suffix is the first one in the list. -/
def member {V : Type} (ms : List (Member V)) (x : S) : Option (Member V) := ms.find? (fun m => m.suffix == x)

/-- Element `n` as the configuration gives it: the field of every member is read from its key;
fields without a key keep the default. -/
def element {V : Type} (items : List (S × S)) (p : S) (ms : List (Member V)) (n : S) : Elem V :=
  fun x => (member ms x).bind fun m => (StrMap.get items (keyOf p n x)).bind m.conv

/-- `n` is an element of the list at `p`: a key of one of its members is set. -/
def IsElement {V : Type} (items : List (S × S)) (p : S) (ms : List (Member V)) (n : S) : Prop :=
  IsName n ∧ ∃ x m v, member ms x = some m ∧ StrMap.get items (keyOf p n x) = some v

/-- A key of the list has a value that cannot be converted. -/
def Bad {V : Type} (items : List (S × S)) (p : S) (ms : List (Member V)) : Prop :=
  ∃ n x m v, IsName n ∧ member ms x = some m ∧ StrMap.get items (keyOf p n x) = some v ∧ m.conv v = none

end Verif.Config.CList
