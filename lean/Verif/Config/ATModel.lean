import Verif.Base

/-!
# Model of `icl_core_config/AttributeTree.cpp` (`AttributeTree`, `SubTreeList`)

An `AttributeTree` node is a description, an attribute (both may be `NULL`), the flag
`m_changed` and the list `m_subtree_list` (`NULL` is the empty list).  C strings are lists
of characters without NUL.  `m_parent` is not stored in a node: functions that look at the
parents get the list of ancestors, nearest first, and the parser keeps the position of its
`at` pointer as the list of descriptions leading to it.

A member function called through a `NULL` `SubTreeList*` is undefined behaviour
(`SubTreeList::subTree` starts with `loop = this`, and compilers may assume `this` is not
`NULL`); the model reports it as `Outcome.ub`.
-/
namespace Verif.AT

/-- A C string. -/
abbrev S := List Char

/-- AttributeTree.h:980-986, the data members of `AttributeTree`; AttributeTree.h:129-190,
the `SubTreeList` chain is the list of children, first entry first. -/
inductive Tree where
  | node (desc attr : Option S) (changed : Bool) (kids : List Tree)

namespace Tree
/-- `m_this_description` -/
def desc : Tree → Option S
  | node d _ _ _ => d
/-- `m_this_attribute` -/
def attr : Tree → Option S
  | node _ a _ _ => a
/-- `m_changed` of this node -/
def flag : Tree → Bool
  | node _ _ c _ => c
/-- `m_subtree_list` -/
def kids : Tree → List Tree
  | node _ _ _ k => k
/-- Replace `m_subtree_list`. -/
def withKids : Tree → List Tree → Tree
  | node d a c _, k => node d a c k
end Tree

/-- AttributeTree.cpp:680-702 `AttributeTree(description)`, before it is linked into its
parent's list. -/
def newNode (d : Option S) : Tree := .node d none false []

/-- AttributeTree.cpp:535-548 `SubTreeList::subTree(description)` on a non-`NULL` list: the
first entry with that description. -/
def find (d : S) : List Tree → Option Tree
  | [] => none
  | k :: ks => if k.desc = some d then some k else find d ks

/-- Change the node `find d` points to (the C++ code writes through the pointer);
`none` if there is none. -/
def updFirst (d : S) (f : Tree → Tree) : List Tree → Option (List Tree)
  | [] => none
  | k :: ks => if k.desc = some d then some (f k :: ks) else (updFirst d f ks).map (k :: ·)

/-- AttributeTree.cpp:1436-1444 `split`: cut at the first `'.'`. -/
def split : S → S × Option S
  | [] => ([], none)
  | c :: cs => if c = '.' then ([], some cs) else ((c :: (split cs).1), (split cs).2)

/-- The pieces obtained by splitting again and again at the first `'.'`
(AttributeTree.cpp:906-956 one `split` per recursive call, 1015-1025 one `strchr` per
iteration); see `comps_split`. -/
def comps : S → List S
  | [] => [[]]
  | c :: cs =>
    if c = '.' then [] :: comps cs
    else match comps cs with
      | h :: t => (c :: h) :: t
      | [] => [[c]]

/-- AttributeTree.cpp:855-871 `setAttribute(attribute)`. -/
def setThis (a : Option S) : Tree → Tree
  | .node d old c ks =>
    if old = none ∨ a = none ∨ old ≠ a then .node d a true ks else .node d old c ks

/-- AttributeTree.cpp:906-956 `setAttribute(description, [subdescription,] attribute)` on
the pieces of the description: an empty piece, or no more pieces, means this node;
otherwise continue in the first child of that description, or in a new child that the
constructor puts at the front of the list (699). -/
def setC (a : Option S) : List S → Tree → Tree
  | [], t => setThis a t
  | d :: ds, t =>
    if d = [] then setThis a t
    else match updFirst d (setC a ds) t.kids with
      | some ks => t.withKids ks
      | none => t.withKids (setC a ds (newNode (some d)) :: t.kids)

/-- AttributeTree.cpp:906-922 `setAttribute(param_description, attribute)`. -/
def setAttribute (p : Option S) (a : Option S) (t : Tree) : Tree :=
  match p with
  | none => setThis a t
  | some s => setC a (comps s) t

/-- AttributeTree.cpp:55. -/
def filePathStr : S :=
  ['_', 'A', 'T', 'T', 'R', 'I', 'B', 'U', 'T', 'E', '_', 'T', 'R', 'E', 'E', '_', 'F', 'I', 'L', 'E', '_', 'P', 'A', 'T', 'H', '_']
/-- AttributeTree.cpp:56. -/
def fileNameStr : S :=
  ['_', 'A', 'T', 'T', 'R', 'I', 'B', 'U', 'T', 'E', '_', 'T', 'R', 'E', 'E', '_', 'F', 'I', 'L', 'E', '_', 'N', 'A', 'M', 'E', '_']
/-- AttributeTree.cpp:52. -/
def commentEndStr : S := ['}', '_', 'C', 'O', 'M', 'M', 'E', 'N', 'T', '_']
/-- AttributeTree.cpp:53. -/
def commentStr : S := ['_', 'C', 'O', 'M', 'M', 'E', 'N', 'T', '_']
/-- AttributeTree.cpp:54. -/
def includeStr : S := ['_', 'I', 'N', 'C', 'L', 'U', 'D', 'E', '_']

/-- `list->subTree(d)` where `list` may be `NULL`. -/
def subTreeOf (ks : List Tree) (d : S) : Outcome (Option Tree) :=
  if ks.isEmpty then .ub else .ok (find d ks)

/-- AttributeTree.cpp:963-968, the walk of `getSpecialAttribute` towards the root. -/
def specialLoop (d : S) : List Tree → Outcome (Option Tree)
  | [] => .ok none
  | p :: ps =>
    match subTreeOf p.kids d with
    | .ok (some k) => .ok (some k)
    | .ok none => specialLoop d ps
    | .throws e => .throws e
    | .ub => .ub

/-- AttributeTree.cpp:959-982 `getSpecialAttribute`; `anc` are the ancestors of `t`,
nearest first. The out-parameter `subtree` is not modelled. -/
def getSpecial (anc : List Tree) (t : Tree) (d : S) : Outcome (Option S) :=
  (specialLoop d (t :: anc)).map (fun r => r.bind Tree.attr)

/-- AttributeTree.cpp:1013-1026, the standard search. -/
def walk : List S → Tree → Outcome (Option Tree)
  | [], t => .ok (some t)
  | d :: ds, t =>
    match subTreeOf t.kids d with
    | .ok (some k) => walk ds k
    | .ok none => .ok none
    | .throws e => .throws e
    | .ub => .ub

/-- AttributeTree.cpp:984-1053 `getAttribute(description, default_attribute)`. The
out-parameter `subtree` is not modelled. -/
def getAttribute (anc : List Tree) (t : Tree) (p : Option S) (dflt : Option S) :
    Outcome (Option S) :=
  match p with
  | none => .ok dflt
  | some s =>
    let special :=
      if filePathStr.isSuffixOf s then getSpecial anc t filePathStr
      else if fileNameStr.isSuffixOf s then getSpecial anc t fileNameStr
      else .ok none
    match special with
    | .ok (some v) => .ok (some v)
    | .ok none =>
      match walk (comps s) t with
      | .ok (some n) =>
        match n.attr with
        | some v => .ok (some v)
        | none => .ok dflt
      | .ok none => .ok dflt
      | .throws e => .throws e
      | .ub => .ub
    | .throws e => .throws e
    | .ub => .ub

/-- AttributeTree.cpp:1055-1064 `getOrSetDefault`. Returns the attribute and the tree. -/
def getOrSetDefault (anc : List Tree) (t : Tree) (p : Option S) (dflt : Option S) :
    Outcome (Option S × Tree) :=
  match getAttribute anc t p none with
  | .ok (some v) => .ok (some v, t)
  | .ok none => .ok (dflt, setAttribute p dflt t)
  | .throws e => .throws e
  | .ub => .ub

/-- AttributeTree.cpp:1463-1479 `isAttribute`. -/
def isAttribute (anc : List Tree) (t : Tree) (p a : Option S) : Outcome Bool :=
  (getAttribute anc t p none).map fun content =>
    match a with
    | some x => content == some x
    | none => content.isSome

mutual
/-- AttributeTree.cpp:1481-1492 `AttributeTree::changed`. -/
def changed : Tree → Bool
  | .node _ _ c ks => if c then true else changedL ks
/-- AttributeTree.cpp:587-599 `SubTreeList::changed`. -/
def changedL : List Tree → Bool
  | [] => false
  | k :: ks => if changed k then true else changedL ks
end

mutual
/-- AttributeTree.cpp:1494-1501 `AttributeTree::unmarkChanges`. -/
def unmark : Tree → Tree
  | .node d a _ ks => .node d a false (unmarkL ks)
/-- AttributeTree.cpp:618-626 `SubTreeList::unmarkChanges`. -/
def unmarkL : List Tree → List Tree
  | [] => []
  | k :: ks => unmark k :: unmarkL ks
end

mutual
/-- AttributeTree.cpp:1503-1515 `AttributeTree::contains`. -/
def contains : Tree → Nat
  | .node _ a _ ks => (if a.isSome then 1 else 0) + containsL ks
/-- AttributeTree.cpp:550-560 `SubTreeList::contains`. -/
def containsL : List Tree → Nat
  | [] => 0
  | k :: ks => contains k + containsL ks
end

mutual
/-- AttributeTree.cpp:704-785, the copy constructors. -/
def copy : Tree → Tree
  | .node d a _ ks => .node d a false (copyL ks [])
/-- AttributeTree.cpp:486-497 `SubTreeList::copy`: every copied entry is put at the front
of the new parent's list (781). -/
def copyL : List Tree → List Tree → List Tree
  | [], acc => acc
  | k :: ks, acc => copyL ks (copy k :: acc)
end

mutual
/-- AttributeTree.h:648-654 `AttributeTree::revertOrder`. -/
def revert : Tree → Tree
  | .node d a c ks => .node d a c (revertL ks [])
/-- AttributeTree.cpp:628-641 `SubTreeList::revertOrder(new_next)`. -/
def revertL : List Tree → List Tree → List Tree
  | [], acc => acc
  | k :: ks, acc => revertL ks (revert k :: acc)
end

/-- AttributeTree.cpp:1561-1564 `isComment`. -/
def isComment (t : Tree) : Bool := t.desc == some commentStr

/-- AttributeTree.cpp:1547-1559 `commentAttributeTree`, `comment`. -/
def comment : List Tree → S
  | [] => []
  | k :: ks =>
    if isComment k then
      match k.attr with
      | some a => a
      | none => comment ks
    else comment ks

/-- AttributeTree.cpp:1584-1587 `hasMultilineComment`. -/
def hasMultilineComment (ks : List Tree) : Bool := (comment ks).elem '\n'

/-- AttributeTree.cpp:1566-1569 `isMultilineComment`: `strchr(NULL, ..)` if the comment
node has no attribute. -/
def isMultilineComment (t : Tree) : Outcome Bool :=
  if isComment t then
    match t.attr with
    | some a => .ok (a.elem '\n')
    | none => .ub
  else .ok false

/-- Does the string end with a space? AttributeTree.cpp:1191. -/
def endsWithSpace (s : S) : Bool := s.getLast? == some ' '

mutual
/-- AttributeTree.cpp:1138-1216 `AttributeTree::printSubTree`; `csd` is
`change_style_depth`. The result is the list of the lines written (each is followed by
`endl`). -/
def printTree (csd : Int) (upper : S) : Tree → Outcome (List S)
  | .node d a c ks =>
    if d = some filePathStr ∨ d = some fileNameStr then .ok []
    else
      let td := d.getD []
      match isMultilineComment (.node d a c ks) with
      | .ub => .ub
      | .throws e => .throws e
      | .ok true =>
        .ok [upper ++ commentStr ++ ['{'], a.getD [], upper ++ ['}'] ++ commentStr]
      | .ok false =>
        if ((contains (.node d a c ks) : Nat) : Int) ≥ csd ∨ hasMultilineComment ks then
          match printList csd (upper ++ [' ']) ks with
          | .ok ls =>
            .ok ([upper ++ td ++ ['{']]
              ++ (if a.getD [] ≠ [] then [upper ++ [':'] ++ a.getD []] else [])
              ++ ls ++ [upper ++ ['}'] ++ td])
          | .throws e => .throws e
          | .ub => .ub
        else
          let description :=
            if endsWithSpace upper then upper ++ td else upper ++ ['.'] ++ td
          match printList csd description ks with
          | .ok ls =>
            .ok ((match a with
              | some v => [description ++ [':'] ++ v]
              | none => []) ++ ls)
          | .throws e => .throws e
          | .ub => .ub
/-- AttributeTree.cpp:562-570 `SubTreeList::printSubTree`. -/
def printList (csd : Int) (upper : S) : List Tree → Outcome (List S)
  | [] => .ok []
  | k :: ks =>
    match printTree csd upper k with
    | .ok l1 =>
      match printList csd upper ks with
      | .ok l2 => .ok (l1 ++ l2)
      | .throws e => .throws e
      | .ub => .ub
    | .throws e => .throws e
    | .ub => .ub
end

/-- The text written by `printSubTree(out, csd, upper)`: every line followed by `'\n'`. -/
def printText (csd : Int) (upper : S) (t : Tree) : Outcome S :=
  (printTree csd upper t).map fun ls => ls.flatMap (· ++ ['\n'])

/-! ## Reading -/

/-- A `std::istream`: the characters not yet extracted and `eofbit`/`failbit`. -/
structure Stream where
  /-- remaining input -/
  rest : S
  /-- `eofbit` -/
  eof : Bool := false
  /-- `failbit` -/
  fail : Bool := false

/-- `in.getline(buffer, 1998)` for a stream in good state: `n` more characters fit into
the buffer. Returns the text stored. -/
def getlineGo : Nat → S → S × Stream
  | _, [] => ([], { rest := [], eof := true })
  | n, c :: cs =>
    if c = '\n' then ([], { rest := cs })
    else match n with
      | 0 => ([], { rest := c :: cs, fail := true })
      | n + 1 => (c :: (getlineGo n cs).1, (getlineGo n cs).2)

/-- `in.getline(buffer, 1998)`: a stream that is not good only sets `failbit` and stores
the empty string; nothing extracted at the end of the input also sets `failbit`. -/
def getline (s : Stream) : S × Stream :=
  if s.eof ∨ s.fail then ([], { s with fail := true })
  else if s.rest = [] then ([], { rest := [], eof := true, fail := true })
  else getlineGo 1997 s.rest

/-- AttributeTree.cpp:63-72 `readNextLineInBuffer`: one line, a final `'\r'` removed. -/
def readNextLine (s : Stream) : S × Stream :=
  let (b, s') := getline s
  (if b.getLast? = some '\r' then b.dropLast else b, s')

/-- C `isspace` in the default locale. -/
def isSpace (c : Char) : Bool :=
  c == ' ' || c == '\t' || c == '\n' || c == '\x0b' || c == '\x0c' || c == '\r'

/-- `strchr(line, ch)`: the text before and after the first `ch`. -/
def cut (ch : Char) : S → Option (S × S)
  | [] => none
  | c :: cs =>
    if c = ch then some ([], cs) else (cut ch cs).map fun (x, y) => (c :: x, y)

/-- `strstr(s, needle) != NULL`. -/
def hasInfix (needle : S) : S → Bool
  | [] => needle.isPrefixOf []
  | c :: cs => needle.isPrefixOf (c :: cs) || hasInfix needle cs

/-- Apply `f` to the node reached from `t` by the descriptions `p` (write through the `at`
pointer of `AttributeTree::get`). -/
def updAt : List S → (Tree → Tree) → Tree → Tree
  | [], f, t => f t
  | d :: ds, f, t =>
    match updFirst d (updAt ds f) t.kids with
    | some ks => t.withKids ks
    | none => t

/-- The pieces that `setAttribute` follows: up to the first empty one. -/
def effective (p : List S) : List S := p.takeWhile (fun d => d ≠ [])

/-- AttributeTree.cpp:1370-1394, the loop that reads a multi-line comment; `k` bounds the
number of lines read (`none`: not finished), `acc` is the attribute of the comment node. -/
def readComment : Nat → Stream → Nat → Option S → Option (Stream × Nat × Option S)
  | 0, _, _, _ => none
  | k + 1, s, lineno, acc =>
    let (b, s') := readNextLine s
    let trimmed := (b.reverse.dropWhile isSpace).reverse
    let line := trimmed.dropWhile isSpace
    if hasInfix commentEndStr line then some (s', lineno + 1, acc)
    else
      let acc' := match acc with
        | some a => some (a ++ ['\n'] ++ line)
        | none => some line
      readComment k s' (lineno + 1) acc'

/-- The arguments of `AttributeTree::get`; `load` is the effect on the node `at` of
`at->load(name, false, ..)` for an include line with that text (AttributeTree.cpp:1325-1339;
the file system is not modelled). -/
structure Cfg where
  /-- `process_include` -/
  processInclude : Bool
  /-- `load_comments` -/
  loadComments : Bool
  /-- effect of an include file -/
  load : S → Tree → Tree

/-- What processing one line does: go on with a tree, a position and the stream, or return
a value from `get`. -/
inductive LineRes where
  | next (t : Tree) (at_ : List S) (s : Stream) (lineno : Nat)
  | ret (t : Tree) (code : Int)

/-- AttributeTree.cpp:1301-1429, the body of the loop of `get` up to the final
`readNextLineInBuffer`, on the line `buf`; `at_` is the position of `at` below `this`,
`lineno` the number after the increment at 1303. `none`: a multi-line comment is not
finished within `k` lines. Positions: `at->setAttribute(..)` only pushes new nodes below
`at`, so the descriptions from `this` to `at` keep denoting the same node. -/
def doLine (k : Nat) (cfg : Cfg) (t : Tree) (at_ : List S) (s : Stream) (lineno : Nat) (buf : S) :
    Option LineRes :=
  let line := buf.dropWhile isSpace
  if line.head? = some '#' then some (.next t at_ s lineno)
  else match cut ':' line with
  | some (name, value) =>
    if name = [] then some (.next (updAt at_ (setThis (some value)) t) at_ s lineno)
    else if name = includeStr then
      if cfg.processInclude then some (.next (updAt at_ (cfg.load value) t) at_ s lineno)
      else
        some (.next (updAt at_ (fun n => n.withKids
          (setThis (some value) (newNode (some includeStr)) :: n.kids)) t) at_ s lineno)
    else if !hasInfix commentStr name || cfg.loadComments then
      some (.next (updAt at_ (setC (some value) (comps name)) t) at_ s lineno)
    else some (.next t at_ s lineno)
  | none =>
    match cut '{' line with
    | some (name, _) =>
      if name = commentStr then
        match readComment k s lineno none with
        | none => none
        | some (s', lineno', acc) =>
          if cfg.loadComments then
            some (.next (updAt at_ (fun n => n.withKids
              (Tree.node (some commentStr) acc acc.isSome [] :: n.kids)) t) at_ s' lineno')
          else some (.next t at_ s' lineno')
      else
        some (.next (updAt at_ (setC none (comps name)) t)
          (at_ ++ effective (comps name)) s lineno)
    | none =>
      match cut '}' line with
      | some _ =>
        if at_ = [] then some (.ret t (-1)) else some (.next t at_.dropLast s lineno)
      | none =>
        if !s.eof && line ≠ [] then some (.ret t lineno) else some (.next t at_ s lineno)

/-- AttributeTree.cpp:1299-1433, the loop of `get`; at most `k` lines (`none`: not
finished). -/
def getLoop : Nat → Cfg → Tree → List S → Stream → Nat → S → Option (Tree × Int)
  | 0, _, _, _, _, _, _ => none
  | k + 1, cfg, t, at_, s, lineno, buf =>
    match doLine k cfg t at_ s (lineno + 1) buf with
    | none => none
    | some (.ret t' code) => some (t', code)
    | some (.next t' at' s' lineno') =>
      let (b, s'') := readNextLine s'
      if s''.eof then some (t', -1) else getLoop k cfg t' at' s'' lineno' b

/-- AttributeTree.cpp:1288-1434 `AttributeTree::get`: the tree and the return value (`-1`
or the number of a bad line). -/
def get (k : Nat) (cfg : Cfg) (t : Tree) (text : S) : Option (Tree × Int) :=
  let (b, s) := readNextLine { rest := text }
  getLoop k cfg t [] s 1 b

end Verif.AT
