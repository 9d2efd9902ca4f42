import Verif.Util.KeyValue

/-!
# Model of `KeyValueDirectory::insert` when there is no memory (`icl_core/KeyValueDirectory.hpp:62-68`)

`m_items[key] = value` first makes sure that there is an entry for the key (a new one has the value `T()`), then assigns. Both can
throw. If the new entry cannot be made, the map is unchanged (C++11 23.2.1). It is assumed that an assignment of a `T` that throws leaves
the old value, as that of a string does. `find` does not throw.
-/
namespace Verif.KeyValue.Fail
open Verif.StdMap

variable {K : Type u} {V : Type v} [LinearOrder K]

/-- What throws, if the call gets that far. -/
inductive Fails where
  | nothing | entry | assignment
  deriving DecidableEq, Repr

/-- A call of `insert`. -/
structure Call (K : Type u) (V : Type v) where
  key : K
  value : V
  fails : Fails

/-- KeyValueDirectory.hpp:62-68 `insert`: what it returns (`none`: it throws) and the map afterwards. -/
def insert (dflt : V) (m : List (K × V)) (c : Call K V) : Option Bool × List (K × V) :=
  match c.fails with
  | .nothing => (some (find m c.key).isNone, assign m c.key c.value)
  | .entry =>
    match find m c.key with
    | none => (none, m)
    | some _ => (some false, assign m c.key c.value)
  | .assignment =>
    match find m c.key with
    | none => (none, assign m c.key dflt)
    | some _ => (none, m)

/-- Several calls on a new directory: each call with what it returned, and the map. -/
def run (dflt : V) (h : List (Call K V)) : List (Call K V × Option Bool) × List (K × V) :=
  h.foldl (fun s c => (s.1 ++ [(c, (insert dflt s.2 c).1)], (insert dflt s.2 c).2)) ([], [])

end Verif.KeyValue.Fail
