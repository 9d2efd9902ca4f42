import Verif.Config.ATModel

/-!
# Specification vocabulary for `AttributeTree`

An attribute tree is meant to be a partial map from paths (lists of descriptions) to
attributes.  `lookup` reads that map off a tree directly, without the string handling,
without the special file attributes and without undefined behaviour.
-/
namespace Verif.AT

/-- The node a path leads to, always taking the first child of that description. -/
def nodeAt : List S → Tree → Option Tree
  | [], t => some t
  | d :: ds, t => (t.kids.find? (fun k => k.desc == some d)).bind (nodeAt ds)

/-- The attribute stored at a path. -/
def lookup (p : List S) (t : Tree) : Option S := (nodeAt p t).bind Tree.attr

/-- The node a path leads to, always taking the last child of that description. -/
def lastNodeAt : List S → Tree → Option Tree
  | [], t => some t
  | d :: ds, t => (t.kids.reverse.find? (fun k => k.desc == some d)).bind (lastNodeAt ds)

/-- The attribute stored at a path, always taking the last child. -/
def lastLookup (p : List S) (t : Tree) : Option S := (lastNodeAt p t).bind Tree.attr

/-- The dotted form of a path: `a.b.c`. -/
def dotted : List S → S
  | [] => []
  | [d] => d
  | d :: ds => d ++ '.' :: dotted ds

/-- A description that can be used in a dotted path: not empty, no dot. -/
def Plain (d : S) : Prop := d ≠ [] ∧ '.' ∉ d

/-- `_ATTRIBUTE_TREE_FILE_PATH_`, written out independently of the model. -/
def reservedPath : S :=
  ['_', 'A', 'T', 'T', 'R', 'I', 'B', 'U', 'T', 'E', '_', 'T', 'R', 'E', 'E', '_', 'F', 'I', 'L', 'E', '_', 'P', 'A', 'T', 'H', '_']

/-- `_ATTRIBUTE_TREE_FILE_NAME_`, written out independently of the model. -/
def reservedName : S :=
  ['_', 'A', 'T', 'T', 'R', 'I', 'B', 'U', 'T', 'E', '_', 'T', 'R', 'E', 'E', '_', 'F', 'I', 'L', 'E', '_', 'N', 'A', 'M', 'E', '_']

/-- `_COMMENT_`. -/
def reservedComment : S := ['_', 'C', 'O', 'M', 'M', 'E', 'N', 'T', '_']

/-- `}_COMMENT_`. -/
def reservedCommentEnd : S := '}' :: reservedComment

/-- `_INCLUDE_`. -/
def reservedInclude : S := ['_', 'I', 'N', 'C', 'L', 'U', 'D', 'E', '_']

/-- The names reserved for the location of the loaded file. -/
def Special (s : S) : Prop := reservedPath <:+ s ∨ reservedName <:+ s

mutual
/-- No node of the tree has two children with the same description. -/
def Uniq : Tree → Prop
  | .node _ _ _ ks => (ks.map Tree.desc).Nodup ∧ UniqL ks
/-- `Uniq` for every tree of a list. -/
def UniqL : List Tree → Prop
  | [] => True
  | k :: ks => Uniq k ∧ UniqL ks
end

/-! ## Trees that can be written to a file and read back -/

/-- A description that the file format can represent: not empty, no dot, colon, opening
brace or line break, no white space at either end, not starting like a `#` line, and none of
the reserved names. -/
structure GoodDesc (d : S) : Prop where
  ne : d ≠ []
  dot : '.' ∉ d
  colon : ':' ∉ d
  brace : '{' ∉ d
  nl : '\n' ∉ d
  head : ∀ c, d.head? = some c → isSpace c = false ∧ c ≠ '#'
  last : ∀ c, d.getLast? = some c → isSpace c = false
  notInclude : d ≠ reservedInclude
  notComment : ¬ reservedComment <:+: d
  notVirtual : d ≠ reservedPath ∧ d ≠ reservedName

/-- An attribute that the file format can represent: one line, not ending in a carriage
return. -/
structure GoodAttr (v : S) : Prop where
  nl : '\n' ∉ v
  last : v.getLast? ≠ some '\r'

mutual
/-- A subtree that can be written with `change_style_depth = csd` and read back: good
descriptions and attributes, distinct siblings, and no empty attribute in a node that is
written with braces. -/
def Good (csd : Int) : Tree → Prop
  | .node d a c ks =>
    (∃ x, d = some x ∧ GoodDesc x) ∧ (∀ v, a = some v → GoodAttr v) ∧
    (((contains (.node d a c ks) : Nat) : Int) ≥ csd → a ≠ some []) ∧
    (ks.map Tree.desc).Nodup ∧ GoodL csd ks
/-- `Good` for every tree of a list. -/
def GoodL (csd : Int) : List Tree → Prop
  | [] => True
  | k :: ks => Good csd k ∧ GoodL csd ks
end

end Verif.AT
