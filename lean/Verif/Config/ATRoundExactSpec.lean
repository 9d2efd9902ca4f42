import Verif.Config.ATTextSpec

/-!
# Specification for the exact form of C35: what is in the file after saving any tree

Equal names, empty attributes and small trees are allowed here; only what the file format cannot write at all is left out
(`GoodDesc`, `GoodAttr`).
-/
namespace Verif.AT.Round
open Text

mutual
/-- All attributes of a tree with their paths, a node before its children. -/
def values : Tree → List (List S × S)
  | .node _ a _ ks => (a.toList.map fun v => ([], v)) ++ valuesL ks
/-- All attributes of some children with their paths. -/
def valuesL : List Tree → List (List S × S)
  | [] => []
  | k :: ks => (values k).map (fun x => (k.desc.getD [] :: x.1, x.2)) ++ valuesL ks
end

/-- Is this node written with braces? It is if it and the nodes below have at least `csd` attributes. -/
def Braced (csd : Int) (t : Tree) : Prop := csd ≤ ((values t).length : Int)

instance (csd : Int) (t : Tree) : Decidable (Braced csd t) := inferInstanceAs (Decidable (_ ≤ _))

mutual
/-- What the lines of a subtree say about the path `p` of its node and the paths below: a node with braces loses its old value and an
empty attribute of it is not written. -/
def entries (csd : Int) (p : List S) : Tree → List Change
  | .node d a c ks =>
    (if Braced csd (.node d a c ks) then (p, none) :: ((a.toList.filter (fun v => v ≠ [])).map fun v => (p, some v))
      else a.toList.map fun v => (p, some v)) ++ entriesL csd p ks
/-- The same for the children of a node with path `p`. -/
def entriesL (csd : Int) (p : List S) : List Tree → List Change
  | [] => []
  | k :: ks => entries csd (p ++ [k.desc.getD []]) k ++ entriesL csd p ks
end

/-- The path under which a saved tree is found after loading: its own name, if it has one. -/
def rootPath (t : Tree) : List S := if t.desc.getD [] = [] then [] else [t.desc.getD []]

/-- What the whole file says. A tree that is too small for braces is written with names that begin with a dot, which mean the
tree that is loaded into, not a subtree. -/
def written (csd : Int) (t : Tree) : List Change :=
  if Braced csd t then entries csd (rootPath t) t else (values t).map fun x => ([], some x.2)

mutual
/-- Names and attributes that the file format can represent. -/
def Printable : Tree → Prop
  | .node d a _ ks => (∃ x, d = some x ∧ GoodDesc x) ∧ (∀ v, a = some v → GoodAttr v) ∧ PrintableL ks
/-- `Printable` for all trees of a list. -/
def PrintableL : List Tree → Prop
  | [] => True
  | k :: ks => Printable k ∧ PrintableL ks
end

/-- What is left of the value at path `q` after saving and loading: an empty attribute of a node with braces is lost. -/
def kept (csd : Int) (q : List S) (t : Tree) : Option S :=
  match nodeAt q t with
  | none => none
  | some n => if n.attr = some [] ∧ Braced csd n then none else n.attr

/-- A root may also have no name or an empty one. -/
def PrintableRoot (t : Tree) : Prop :=
  (t.desc = none ∨ t.desc = some [] ∨ ∃ x, t.desc = some x ∧ GoodDesc x) ∧ (∀ v, t.attr = some v → GoodAttr v) ∧ PrintableL t.kids

end Verif.AT.Round
