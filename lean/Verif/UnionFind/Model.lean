import Verif.Base

/-!
# Model of `icl_core/UnionFind.h`

`find` is recursive in C++ and nothing in its text makes the recursion end, so the model
carries a call budget: `none` means "more nested calls than the budget are needed".
Termination and the number of calls are theorems (C12).
`std::size_t` is `Nat`; ranks cannot overflow because they are bounded by log2 of the size
(also proved).
-/
namespace Verif.UnionFind

/-- UnionFind.h:104-105 members `m_parent`, `m_rank`. -/
structure UF where
  parent : List Nat
  rank : List Nat
  deriving DecidableEq, Repr

/-- UnionFind.h:36-44 constructor. -/
def init (n : Nat) : UF := { parent := List.range n, rank := List.replicate n 0 }

/-- UnionFind.h:101 `size()`. -/
def size (u : UF) : Nat := u.parent.length

/-- UnionFind.h:47-56 `grow(n)`: the new entries are their own parents. -/
def grow (u : UF) (n : Nat) : UF :=
  { parent := u.parent ++ List.range' u.parent.length n, rank := u.rank ++ List.replicate n 0 }

/-- UnionFind.h:88-99 `find(x)` with path compression; the first argument bounds the number
of nested calls. -/
def find : Nat → UF → Nat → Option (Outcome (Nat × UF))
  | 0, _, _ => none
  | budget + 1, u, x =>
    if x ≥ u.parent.length then some (.throws .outOfRange)
    else
      match u.parent[x]? with
      | none => some .ub
      | some p =>
        if p ≠ x then
          match find budget u p with
          | some (.ok (r, u')) => some (.ok (r, { u' with parent := u'.parent.set x r }))
          | some (.throws e) => some (.throws e)
          | some .ub => some .ub
          | none => none
        else some (.ok (p, u))

/-- UnionFind.h:70-85, the second half of `merge`: link two roots by rank. -/
def link (u : UF) (x y : Nat) : Outcome UF :=
  if x = y then .ok u
  else do
    let rx ← Outcome.vecGet u.rank x
    let ry ← Outcome.vecGet u.rank y
    if rx < ry then Outcome.ok { u with parent := u.parent.set x y }
    else if rx > ry then Outcome.ok { u with parent := u.parent.set y x }
    else Outcome.ok { parent := u.parent.set y x, rank := u.rank.set x (rx + 1) }

/-- UnionFind.h:61-86 `merge(x, y)`. -/
def merge (budget : Nat) (u : UF) (x y : Nat) : Option (Outcome UF) :=
  if x ≥ u.parent.length ∨ y ≥ u.parent.length then some (.throws .outOfRange)
  else
    match find budget u x with
    | some (.ok (x', u1)) =>
      match find budget u1 y with
      | some (.ok (y', u2)) => some (link u2 x' y')
      | some (.throws e) => some (.throws e)
      | some .ub => some .ub
      | none => none
    | some (.throws e) => some (.throws e)
    | some .ub => some .ub
    | none => none

/-- One call of the interface. -/
inductive Op where
  | grow (n : Nat)
  | merge (x y : Nat)
  | find (x : Nat)
  deriving DecidableEq, Repr

/-- What the caller sees. -/
inductive Obs where
  | unit
  | val (r : Nat)
  | threw (e : Exc)
  | ub
  deriving DecidableEq, Repr

/-- Execute one call. The range checks precede every modification, so a throwing call
keeps the state. -/
def step (budget : Nat) (u : UF) : Op → Option (Obs × UF)
  | .grow n => some (.unit, grow u n)
  | .merge x y =>
    match merge budget u x y with
    | some (.ok u') => some (.unit, u')
    | some (.throws e) => some (.threw e, u)
    | some .ub => some (.ub, u)
    | none => none
  | .find x =>
    match find budget u x with
    | some (.ok (r, u')) => some (.val r, u')
    | some (.throws e) => some (.threw e, u)
    | some .ub => some (.ub, u)
    | none => none

/-- Execute a history. -/
def run (budget : Nat) (u : UF) : List Op → Option (List Obs × UF)
  | [] => some ([], u)
  | op :: ops =>
    match step budget u op with
    | none => none
    | some (o, u') =>
      match run budget u' ops with
      | none => none
      | some (os, u'') => some (o :: os, u'')

end Verif.UnionFind
