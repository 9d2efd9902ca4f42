import Verif.Config.CfgModel

/-!
# Specification of the configuration manager

Values by precedence, the entries of a configuration file by position in the document, and
registrations of observers, all without the manager's code.
-/
namespace Verif.Cfg

/-- The last value given for a key. -/
def lastValue (es : List (S × S)) (k : S) : Option S :=
  ((es.filter fun e => e.1 = k).map (·.2)).getLast?

/-- The first value given for a key. -/
def firstValue (es : List (S × S)) (k : S) : Option S :=
  ((es.filter fun e => e.1 = k).map (·.2)).head?

/-- What the command line gives for the registered parameters, in order of registration. -/
def fromCommandLine (ps : List Param) (o : Getopt.Out) : List (S × S) :=
  (ps.filter fun p => p.key ≠ [] ∧ o.paramOptPresent p.option = true).map
    fun p => (p.key, o.paramOpt p.option)

/-- The (non-empty) default values of the registered parameters. -/
def defaults (ps : List Param) : List (S × S) :=
  (ps.filter fun p => p.key ≠ [] ∧ p.dflt ≠ []).map fun p => (p.key, p.dflt)

/-- The key of a position in a document: `/a/b`. -/
def keyOf (p : List S) : S := p.flatMap fun n => '/' :: n

/-- There is a text node with content `s` below the elements named in the path. -/
inductive TextAt : List Xml → List S → S → Prop
  | here {kids : List Xml} {s : S} : .text s ∈ kids → TextAt kids [] s
  | down {kids ks : List Xml} {n : S} {p : List S} {s : S} : .elem n ks ∈ kids →
      TextAt ks p s → TextAt kids (n :: p) s

mutual
/-- The texts of a document in document order, each with the names of the elements around
it; `p`: the elements around this node. -/
def docText (p : List S) : Xml → List (List S × S)
  | .elem n kids => docTexts (p ++ [n]) kids
  | .text s => [(p, s)]
  | .other => []
/-- The same for a list of nodes. -/
def docTexts (p : List S) : List Xml → List (List S × S)
  | [] => []
  | x :: xs => docText p x ++ docTexts p xs
end

mutual
/-- The attributes of an attribute tree from top to bottom, each with the descriptions on the
way to it, comments left out; `p`: the way to this node. -/
def treeAttrs (p : List S) : AT.Tree → List (List S × S)
  | .node d a _ ks =>
    (match a with
      | some v => if d = some AT.commentStr then [] else [(p, v)]
      | none => []) ++ kidsAttrs p ks
/-- The same for a list of children. -/
def kidsAttrs (p : List S) : List AT.Tree → List (List S × S)
  | [] => []
  | t :: ts => treeAttrs (p ++ [t.desc.getD []]) t ++ kidsAttrs p ts
end

/-- The configuration entries of a list of paths with values. -/
def entries (l : List (List S × S)) : List (S × S) := l.map fun e => (keyOf e.1, e.2)

/-- The document asks for the inclusion of the file `f`. -/
inductive Includes (f : S) : List Xml → Prop
  | here {kids ks rest : List Xml} : .elem includeName ks ∈ kids → ks = .text f :: rest →
      Includes f kids
  | down {kids ks : List Xml} {n : S} : .elem n ks ∈ kids → n ≠ includeName → Includes f ks →
      Includes f kids

/-- There is an element of that name somewhere. -/
inductive HasElem (name : S) : List Xml → Prop
  | here {kids ks : List Xml} : .elem name ks ∈ kids → HasElem name kids
  | down {kids ks : List Xml} {n : S} : .elem n ks ∈ kids → HasElem name ks → HasElem name kids

/-- The node reached by the descriptions in the path has the attribute `v` (and is not a
comment). -/
inductive AttrAt : AT.Tree → List S → S → Prop
  | here {d : Option S} {v : S} {c : Bool} {ks : List AT.Tree} : d ≠ some AT.commentStr →
      AttrAt (.node d (some v) c ks) [] v
  | down {d a : Option S} {c : Bool} {ks : List AT.Tree} {t : AT.Tree} {p : List S} {v : S} :
      t ∈ ks → AttrAt t p v → AttrAt (.node d a c ks) (t.desc.getD [] :: p) v

/-- A call on the configuration manager. -/
inductive Op where
  /-- `addParameter(ConfigParameter)` -/
  | param (p : Param)
  /-- `addParameter(ConfigPositionalParameter)` -/
  | positional (p : Param)
  /-- `initialize()` with what Getopt has stored -/
  | init (o : Getopt.Out)
  /-- `setValue(key, value)` -/
  | set (key value : S)
  /-- `insert(key, value)` of the base class -/
  | insert (key value : S)
  /-- `registerObserver(o, key)` -/
  | reg (o : Nat) (key : S)
  /-- `unregisterObserver(o)` -/
  | unreg (o : Nat)

/-- Run one call (`none`: not finished, or an exception was thrown). -/
def Op.run (fs : Files) (k : Nat) (rx : S → S → Bool) (m : Mgr) : Op → Option Mgr
  | .param p => some (addParameter p m)
  | .positional p => some (addPositional p m)
  | .init o => match Cfg.init fs k o m with
    | some (.ok r) => some r.2
    | _ => none
  | .set key v => match setValue fs k key v m with
    | some (.ok r) => some r.2
    | _ => none
  | .insert key v => some (Cfg.insert key v m)
  | .reg o key => some (registerObserver rx o key m)
  | .unreg o => some (unregisterObserver o m)

/-- Run a history of calls. -/
def runOps (fs : Files) (k : Nat) (rx : S → S → Bool) : Mgr → List Op → Option Mgr
  | m, [] => some m
  | m, op :: ops => (op.run fs k rx m).bind fun m' => runOps fs k rx m' ops

/-- The registrations that are active after a history: observer and key, oldest first. -/
def active : List Op → List (Nat × S)
  | ops => ops.foldl (fun act op => match op with
    | .reg o key => act ++ [(o, key)]
    | .unreg o => act.filter fun a => a.1 ≠ o
    | _ => act) []

/-- The calls that a change of the key `e.1` to the value `e.2` has to cause, for the given
registrations: first those for this key, then those for all keys. -/
def callsFor (act : List (Nat × S)) (e : S × S) : List (Nat × S × Option S) :=
  (act.filter fun a => a.2 = e.1).map (fun a => (a.1, e.1, some e.2)) ++
  (act.filter fun a => a.2 = []).map (fun a => (a.1, e.1, some e.2))

end Verif.Cfg
