import Verif.Config.ATModel

/-!
# `AttributeTree::search`, comments and `appendAttribute`

Extends `ATModel.lean`.  The result of `search` is a pointer into the tree; here it is the position of the
node: the list of the indices on the way down.
-/
namespace Verif.AT

mutual
/-- AttributeTree.cpp:1446-1461 `AttributeTree::search`. -/
def search (d a : Option S) : Tree → Option (List Nat)
  | .node td ta _ ks =>
    match d with
    | none => none
    | some x => if td = some x ∧ (a = none ∨ ta = a) then some [] else searchL (some x) a 0 ks
/-- AttributeTree.cpp:572-585 `SubTreeList::search`; `i` is the index of the first entry. -/
def searchL (d a : Option S) (i : Nat) : List Tree → Option (List Nat)
  | [] => none
  | k :: ks =>
    match search d a k with
    | some p => some (i :: p)
    | none => searchL d a (i + 1) ks
end

/-- AttributeTree.cpp:1589-1592 `setComment`. -/
def setComment (c : Option S) (t : Tree) : Tree := setAttribute (some commentStr) c t

/-- AttributeTree.cpp:1547-1559 `commentAttributeTree`; AttributeTree.h:605-608 `hasComment`. -/
def hasComment : List Tree → Bool
  | [] => false
  | k :: ks => (isComment k && k.attr.isSome) || hasComment ks

/-- AttributeTree.cpp:1517-1545 `appendString`: the new string, and whether `m_changed` is set. -/
def appendString (dest src sep : Option S) : Option S × Bool :=
  match src with
  | none => (dest, false)
  | some x =>
    match dest with
    | some o => (some (o ++ sep.getD [] ++ x), true)
    | none => (some x, true)

/-- AttributeTree.h:631-634 `appendAttribute`. -/
def appendAttribute (x sep : Option S) : Tree → Tree
  | .node d a c ks => .node d (appendString a x sep).1 (c || (appendString a x sep).2) ks

/-- AttributeTree.h:641-644 `appendDescription`. -/
def appendDescription (x sep : Option S) : Tree → Tree
  | .node d a c ks => .node (appendString d x sep).1 a (c || (appendString d x sep).2) ks

end Verif.AT
