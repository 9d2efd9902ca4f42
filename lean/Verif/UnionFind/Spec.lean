import Verif.UnionFind.Model

/-!
# Specification: connectivity

The specification state is the number of elements and the list of merged pairs.
-/
namespace Verif.UnionFind

/-- The equivalence relation generated by a list of pairs. -/
inductive Conn (E : List (Nat × Nat)) : Nat → Nat → Prop where
  | refl (x : Nat) : Conn E x x
  | edge {x y : Nat} : (x, y) ∈ E → Conn E x y
  | symm {x y : Nat} : Conn E x y → Conn E y x
  | trans {x y z : Nat} : Conn E x y → Conn E y z → Conn E x z

/-- Number of elements after a history. -/
def sizeAfter (n : Nat) : List Op → Nat
  | [] => n
  | .grow k :: ops => sizeAfter (n + k) ops
  | _ :: ops => sizeAfter n ops

/-- The pairs merged by a history: those of the `merge` calls with both arguments in range
at the time of the call. -/
def mergedPairs (n : Nat) : List Op → List (Nat × Nat)
  | [] => []
  | .grow k :: ops => mergedPairs (n + k) ops
  | .merge x y :: ops => if x < n ∧ y < n then (x, y) :: mergedPairs n ops else mergedPairs n ops
  | .find _ :: ops => mergedPairs n ops

end Verif.UnionFind
