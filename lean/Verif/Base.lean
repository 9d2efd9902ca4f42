/-!
# Common outcome type

`Outcome` is the result of running a modelled C++ function: a value, a thrown
exception, or undefined behaviour (for example an out-of-bounds `operator[]`).
It is not a translation of any particular file; it is the convention shared by all
models in this project.
-/
namespace Verif

/-- The C++ exceptions thrown by the modelled code. -/
inductive Exc where
  /-- `std::out_of_range` -/
  | outOfRange
  /-- `std::logic_error` -/
  | logicError
  /-- `std::runtime_error` -/
  | runtimeError
  /-- `std::invalid_argument` -/
  | invalidArgument
  /-- `boost::bad_lexical_cast` -/
  | badCast
  deriving DecidableEq, Repr

/-- Result of a C++ call. -/
inductive Outcome (α : Type u) where
  /-- normal return -/
  | ok (a : α)
  /-- an exception leaves the function -/
  | throws (e : Exc)
  /-- undefined behaviour (out-of-bounds access, dereferencing NULL, ...) -/
  | ub
  deriving DecidableEq, Repr

namespace Outcome

/-- Sequencing of C++ statements. -/
def bind {α : Type u} {β : Type v} (x : Outcome α) (f : α → Outcome β) : Outcome β :=
  match x with
  | ok a => f a
  | throws e => throws e
  | ub => ub

instance : Monad Outcome where
  pure := ok
  bind := bind

/-- Apply a pure function to the value. -/
def map {α : Type u} {β : Type v} (f : α → β) (x : Outcome α) : Outcome β :=
  match x with
  | ok a => ok (f a)
  | throws e => throws e
  | ub => ub

/-- Read `v[i]` of a `std::vector`: undefined behaviour when out of range. -/
def vecGet {α : Type u} (v : List α) (i : Nat) : Outcome α :=
  match v[i]? with
  | some a => ok a
  | none => ub

/-- Write `v[i] = x` of a `std::vector`: undefined behaviour when out of range. -/
def vecSet {α : Type u} (v : List α) (i : Nat) (x : α) : Outcome (List α) :=
  if i < v.length then ok (v.set i x) else ub

end Outcome
end Verif
