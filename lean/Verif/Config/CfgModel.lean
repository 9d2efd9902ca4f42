import Verif.Util.KeyValue
import Verif.Config.ATModel
import Verif.Config.FilePathModel
import Verif.Config.GetoptModel
import Mathlib.Data.List.Lex
import Mathlib.Data.Char

/-!
# Model of `icl_core_config/ConfigManager.cpp` and `.h`

The configuration directory is the `KeyValueDirectory` of `Verif/Util/KeyValue.lean`.
Observers are numbers (pointers); a call of `valueChanged` is an entry in `calls`, observers
do not call back into the manager.  Values are strings (`boost::lexical_cast` is not
modelled).  File contents come as the result of the two parsers (TinyXML is an external
library): `xml name` is the list of children of the root element, `tree name` the parsed
`AttributeTree`.  A result `none` means that the call budget was used up.
-/
namespace Verif.Cfg
open Verif.StdMap

/-- A string. -/
abbrev S := List Char

/-- A registered parameter: ConfigParameter.h:49-115 and ConfigPositionalParameter.h:32-85;
`option` is `option()` without the trailing colon, or the name of a positional parameter. -/
structure Param where
  /-- `option()` / `name()` -/
  option : S
  /-- `configKey()` -/
  key : S
  /-- `defaultValue()`; `hasDefaultValue()` is: not empty -/
  dflt : S
  deriving DecidableEq

/-- ConfigManager.h:225-241, the data of a `ConfigManager`, and the calls made to observers. -/
structure Mgr where
  /-- `m_items` -/
  items : List (S × S) := []
  /-- `m_observers` -/
  observers : List (S × List Nat) := []
  /-- calls of `valueChanged`, oldest first: observer, key, and what the directory holds under
  the key at the time of the call -/
  calls : List (Nat × S × Option S) := []
  /-- `m_parameter_list` -/
  params : List Param := []
  /-- `m_postional_parameter_list` -/
  positional : List Param := []
  /-- `m_initialized` -/
  initialized : Bool := false
  deriving DecidableEq

/-- `std::map::find` on the maps with string keys. -/
def lookup {V : Type} (m : List (S × V)) (k : S) : Option V :=
  @find S V (fun a b => LinearOrder.toDecidableEq a b) m k

/-- ConfigManager.cpp:405-424 `notify`. -/
def notify (key : S) (m : Mgr) : Mgr :=
  let obs := (lookup m.observers key).getD [] ++ (lookup m.observers []).getD []
  { m with calls := m.calls ++ obs.map fun o => (o, key, lookup m.items key) }

/-- `insert(key, value)` of the base class, without the result. -/
def insert (key value : S) (m : Mgr) : Mgr :=
  { m with items := (KeyValue.insert m.items key value).2 }

/-- The pair of statements `insert(key, value); notify(key);`. -/
def put (m : Mgr) (e : S × S) : Mgr := notify e.1 (insert e.1 e.2 m)

/-- The key of the configuration file, Config.cpp:29. -/
def configfileKey : S := ['/', 'c', 'o', 'n', 'f', 'i', 'g', 'f', 'i', 'l', 'e']
/-- The option `configfile`. -/
def configfileOpt : S := ['c', 'o', 'n', 'f', 'i', 'g', 'f', 'i', 'l', 'e']
/-- The prefix option `config-option`. -/
def configOptionOpt : S := ['c', 'o', 'n', 'f', 'i', 'g', '-', 'o', 'p', 't', 'i', 'o', 'n']

/-- ConfigManager.cpp:47-57 `addParameter` (own list only; Getopt is a separate model). -/
def addParameter (p : Param) (m : Mgr) : Mgr :=
  if p.key ≠ [] then { m with params := m.params ++ [p] } else m

/-- ConfigManager.cpp:67-77 `addParameter` for positional parameters. -/
def addPositional (p : Param) (m : Mgr) : Mgr :=
  if p.key ≠ [] then { m with positional := m.positional ++ [p] } else m

/-- ConfigManager.cpp:178-187, the constructor. -/
def newMgr : Mgr := addParameter ⟨configfileOpt, configfileKey, []⟩ {}

/-- TinyXML nodes as far as `readXml` looks at them. -/
inductive Xml where
  /-- an element with its name and children -/
  | elem (name : S) (kids : List Xml)
  /-- a text node -/
  | text (s : S)
  /-- comments, declarations and so on -/
  | other

/-- `TiXmlElement::GetText()`: the first child if it is a text node. -/
def getText : List Xml → Option S
  | .text s :: _ => some s
  | _ => none

/-- The element name that includes another file, ConfigManager.cpp:246. -/
def includeName : S := ['I', 'N', 'C', 'L', 'U', 'D', 'E']

mutual
/-- ConfigManager.cpp:241-268, one child in the loop of `readXml`; `fq` is `fq_node_name`,
`path` is `fp.path()`, `inc` is `load`. -/
def readKid (inc : S → Mgr → Option (Outcome (Bool × Mgr))) (path fq : S) :
    Xml → Mgr → Option (Outcome Mgr)
  | .elem name kids, m =>
    if name = includeName then
      match getText kids with
      | some f => (inc (path ++ f) m).map fun r => r.map (·.2)
      | none => some (.ok m)
    else readKids inc path (fq ++ '/' :: name) kids m
  | .text s, m => some (.ok (put m (fq, s)))
  | .other, m => some (.ok m)
/-- ConfigManager.cpp:240-268, the loop of `readXml` over the children. -/
def readKids (inc : S → Mgr → Option (Outcome (Bool × Mgr))) (path fq : S) :
    List Xml → Mgr → Option (Outcome Mgr)
  | [], m => some (.ok m)
  | x :: xs, m =>
    match readKid inc path fq x m with
    | some (.ok m') => readKids inc path fq xs m'
    | r => r
end

mutual
/-- ConfigManager.cpp:271-296 `readAttributeTree` with `extend_prefix = true`. -/
def readTree (pfx : S) : AT.Tree → Mgr → Mgr
  | .node d a _ ks, m =>
    let fq := pfx ++ '/' :: d.getD []
    let m1 := if d = some AT.commentStr then m else match a with
      | some v => put m (fq, v)
      | none => m
    readTrees fq ks m1
/-- ConfigManager.cpp:290-295, the loop over the children. -/
def readTrees (fq : S) : List AT.Tree → Mgr → Mgr
  | [], m => m
  | t :: ts, m => readTrees fq ts (readTree fq t m)
end

/-- ConfigManager.cpp:271-296 `readAttributeTree("", root, false)`. -/
def readRoot (t : AT.Tree) (m : Mgr) : Mgr :=
  let m1 := if t.desc = some AT.commentStr then m else match t.attr with
    | some v => put m ([], v)
    | none => m
  readTrees [] t.kids m1

/-- The files, as the two parsers see them; `none`: cannot be loaded.  An XML document may
be without root element. -/
structure Files where
  /-- children of the root element -/
  xml : S → Option (Option (List Xml))
  /-- the attribute tree after `AttributeTree::load` -/
  tree : S → Option AT.Tree
  /-- `getenv` -/
  env : FP.Env

/-- The file name extensions of attribute trees, ConfigManager.cpp:193. -/
def isTreeExt (e : S) : Bool :=
  e == ['.', 'A', 't', 't', 'r', 'i', 'b', 'u', 't', 'e', 'T', 'r', 'e', 'e'] ||
  e == ['.', 't', 'r', 'e', 'e']

/-- ConfigManager.cpp:189-230 `load`, at most `k` nested files; `FP.initBudget` is enough for
every name (`FP.c37_init_terminates`). -/
def load (fs : Files) : Nat → S → Mgr → Option (Outcome (Bool × Mgr))
  | 0, _, _ => none
  | k + 1, filename, m =>
    match FP.init fs.env (FP.initBudget fs.env filename) filename with
    | none => none
    | some fp =>
      match fp.extension with
      | .throws e => some (.throws e)
      | .ub => some .ub
      | .ok ext =>
        if isTreeExt ext then
          match fs.tree filename with
          | some t => some (.ok (true, readRoot t m))
          | none => some (.ok (false, m))
        else
          match fs.xml filename with
          | some (some kids) =>
            (readKids (load fs k) fp.path [] kids m).map fun r => r.map fun m' => (true, m')
          | some none => some (.ok (true, m))
          | none => some (.ok (false, m))

/-- ConfigManager.cpp:109-128 and 130-149, the loops over the registered parameters. -/
def fill (o : Getopt.Out) (m : Mgr) (p : Param) : Mgr :=
  if p.key ≠ [] then
    if o.paramOptPresent p.option then put m (p.key, o.paramOpt p.option)
    else if !KeyValue.hasKey m.items p.key && p.dflt ≠ [] then put m (p.key, p.dflt)
    else m
  else m

/-- ConfigManager.cpp:109-164, the part of `initialize` after the configuration file. -/
def initRest (o : Getopt.Out) (m : Mgr) : Mgr :=
  let m1 := m.params.foldl (fill o) m
  let m2 := m1.positional.foldl (fill o) m1
  let m3 := (o.paramPrefixOpt configOptionOpt).foldl put m2
  { m3 with initialized := true }

/-- ConfigManager.cpp:87-165 `initialize`; `o` is what Getopt has stored. The dump is not
modelled. -/
def init (fs : Files) (k : Nat) (o : Getopt.Out) (m : Mgr) : Option (Outcome (Bool × Mgr)) :=
  if m.initialized then some (.ok (true, m))
  else if o.paramOptPresent configfileOpt then
    let filename := o.paramOpt configfileOpt
    match load fs k filename m with
    | some (.ok (true, m1)) => some (.ok (true, initRest o (put m1 (configfileKey, filename))))
    | r => r
  else some (.ok (true, initRest o m))

/-- ConfigManager.h:132-145 `setValue` (after the conversion to a string). -/
def setValue (fs : Files) (k : Nat) (key value : S) (m : Mgr) : Option (Outcome (Bool × Mgr)) :=
  let fin (m : Mgr) : Bool × Mgr := ((KeyValue.insert m.items key value).1, put m (key, value))
  if key = configfileKey then
    (load fs k value m).map fun r => r.map fun x => fin x.2
  else some (.ok (fin m))

/-- ConfigManager.cpp:298-316 `registerObserver`; `rx q k`: the regular expression `q`
matches the whole key `k`. -/
def registerObserver (rx : S → S → Bool) (o : Nat) (key : S) (m : Mgr) : Mgr :=
  let m1 := { m with observers := assign m.observers key ((lookup m.observers key).getD [] ++ [o]) }
  if key = [] then { m1 with calls := m1.calls ++ m1.items.map fun e => (o, e.1, lookup m1.items e.1) }
  else if m1.items.any fun e => rx key e.1 then { m1 with calls := m1.calls ++ [(o, key, lookup m1.items key)] }
  else m1

/-- ConfigManager.cpp:318-327 `unregisterObserver`. -/
def unregisterObserver (o : Nat) (m : Mgr) : Mgr :=
  { m with observers := m.observers.map fun e => (e.1, e.2.filter (· ≠ o)) }

end Verif.Cfg
