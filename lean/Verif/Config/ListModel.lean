import Verif.Util.StrMap

/-!
# Model of `ConfigList::get` (`icl_core_config/ConfigList.h`)

The members of an element are fields named by their suffix; a field which has not been assigned is
`none` (the value it has in a default constructed `T`).  Not modelled: log output, the text
returned by `stringValue()`.
-/
namespace Verif.Config.CList

/-- Strings. -/
abbrev S := List Char

/-- `MemberValue.h:70-149`, `MemberEnum.h:73-137`: a suffix and the conversion of its text
(`hexical_cast`, `strict_bool_cast` or `string2Enum`), `none` when it fails. -/
structure Member (V : Type) where
  suffix : S
  conv : S → Option V

/-- An object of type `T`. -/
abbrev Elem (V : Type) := S → Option V

/-- Matching of `prefix + m_config_prefix` at the beginning of a key.  The text is used as a regular
expression in which only `/` has been escaped: `.` matches every character.  Simplification: the
other special characters of regular expressions are treated as ordinary characters here; the
theorems exclude them. Result: the rest of the key. -/
def matchPrefix : S → S → Option S
  | [], k => some k
  | _ :: _, [] => none
  | c :: p, d :: k => if c = '.' ∨ c = d then matchPrefix p k else none

/-- `(.+?)(\/(.+))?` up to the end of the key after at least one character `acc` of the first group:
groups 1 and 3.  The first group is as short as possible, and the second group is tried first. -/
def groups (acc : S) : S → S × S
  | [] => (acc, [])
  | c :: r => if c = '/' ∧ r ≠ [] then (acc, r) else groups (acc ++ [c]) r

/-- ConfigList.h:74-80: groups 1 and 3 of the match of a key. -/
def matchKey (p key : S) : Option (S × S) :=
  match matchPrefix p key with
  | some ('/' :: c :: r) => some (groups [c] r)
  | _ => none

/-- The `mutable` fields of a `ConfigList` and the two flags of `get`. -/
structure St (V : Type) where
  elements : List (S × Elem V)
  result : Bool
  error : Bool

/-- A `T` as made by `m_element_map[element]`. -/
def default {V : Type} : Elem V := fun _ => none

/-- ConfigList.h:78-106: one turn of the loop.  `MemberValue::get` looks the key up again. -/
def step {V : Type} (items : List (S × S)) (p : S) (ms : List (Member V)) (st : St V) (key : S) : St V :=
  match matchKey p key with
  | none => st
  | some (element, suffix) =>
    match ms.find? (fun m => m.suffix == suffix) with
    | none => st
    | some m =>
      let e := (StrMap.get st.elements element).getD default
      match (StrMap.get items key).bind m.conv with
      | some v =>
        { st with
          elements := StrMap.put st.elements element (fun x => if x = suffix then some v else e x)
          result := true }
      | none => { st with elements := StrMap.put st.elements element e, error := true }

/-- ConfigList.h:69-130 `get`, given the elements stored in the object before: the result, the
stored elements and the elements written through the output iterator. -/
def get {V : Type} (items : List (S × S)) (pre cfg : S) (ms : List (Member V)) (stored : List (S × Elem V)) :
    Bool × List (S × Elem V) × List (Elem V) :=
  let st := (items.map Prod.fst).foldl (step items (pre ++ cfg) ms) ⟨stored, false, false⟩
  let result := if st.error then false else st.result
  (result, st.elements, if result then st.elements.map Prod.snd else [])

end Verif.Config.CList
