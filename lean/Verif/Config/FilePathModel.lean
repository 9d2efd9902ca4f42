import Verif.Base

/-!
# Model of `icl_core_config/AttributeTree.cpp`, class `FilePath` (POSIX build)

`DSEP` is `'/'`, `DSEP_OTHER` is `'\\'` (AttributeTree.cpp:47-50).  The `_SYSTEM_WIN32_`
branches are not modelled.  The environment is a function from names to values
(`getenv`); the current directory comes from its variable `PWD`.
-/
namespace Verif.FP

/-- A string. -/
abbrev S := List Char

/-- `std::string::find(needle)`: first position of `needle`. -/
def find (needle : S) : S → Option Nat
  | [] => if needle.isPrefixOf [] then some 0 else none
  | c :: cs => if needle.isPrefixOf (c :: cs) then some 0 else (find needle cs).map (· + 1)

/-- `std::string::find(needle, from)`. -/
def findFrom (needle s : S) (start : Nat) : Option Nat :=
  (find needle (s.drop start)).map (· + start)

/-- `std::string::rfind(ch)`: last position of `ch`. -/
def rfind (ch : Char) : S → Option Nat
  | [] => none
  | c :: cs =>
    match rfind ch cs with
    | some i => some (i + 1)
    | none => if c = ch then some 0 else none

/-- AttributeTree.cpp:90-102 `isRelativePath`. -/
def isRelative (f : S) : Bool :=
  match f with
  | [] => true
  | c :: _ => c != '/'

/-- AttributeTree.cpp:243-262 `exchangeSeparators`, and the loop at 118-125. -/
def exchange (f : S) : S := f.map fun c => if c = '\\' then '/' else c

/-- AttributeTree.cpp:130-136 (and 216-222): `./` removed from the front again and again. -/
def stripDot : S → S
  | '.' :: '/' :: r => stripDot r
  | s => s

/-- AttributeTree.cpp:153-162: every `/./` replaced by `/`; at most `k` iterations
(`none`: not finished), `d` is the result of the last `find`. -/
def dotLoop : Nat → S → Option Nat → Option S
  | _, f, none => some f
  | 0, _, some _ => none
  | k + 1, f, some d =>
    let f' := f.take d ++ f.drop (d + 2)
    dotLoop k f' (findFrom ['/', '.', '/'] f' d)

/-- AttributeTree.cpp:177-178: the conditional operator binds weaker than `&&`, so the
condition is `(A && B && C) ? D : 1`. -/
def okToShorten (f : S) (sl : Nat) : Bool :=
  if f.getD (sl + 1) '\x00' != '/' && f.getD (sl + 1) '\x00' != '.' && decide (sl ≥ 1)
  then f.getD (sl - 1) '\x00' != ':' else true

/-- AttributeTree.cpp:173, `filename.rfind(DSEP, dot_start - 1)`: for `dot_start = 0` the
position wraps around to `npos` and the whole string is searched. -/
def slashBefore (f : S) (d : Nat) : Option Nat :=
  if d = 0 then rfind '/' f else rfind '/' (f.take d)

/-- AttributeTree.cpp:166-213: the `/../` loop; at most `k` iterations (`none`: not
finished), `d` is the result of the last `find`. -/
def upLoop : Nat → S → Option Nat → Option S
  | _, f, none => some f
  | 0, _, some _ => none
  | k + 1, f, some d =>
    match slashBefore f d with
    | some sl =>
      if okToShorten f sl then
        let f' := f.take sl ++ f.drop (d + 3)
        upLoop k f' (findFrom ['/', '.', '.', '/'] f' sl)
      else some f
    | none =>
      if d > 0 then
        let f' := f.drop (d + 2)
        upLoop k f' (findFrom ['/', '.', '.', '/'] f' 0)
      else some f

/-- AttributeTree.cpp:104-241 `normalizePath`, each loop with at most `k` iterations. -/
def normalize (k : Nat) (f : S) : Option S :=
  if f = [] then some f
  else
    let f1 := stripDot (exchange f)
    match dotLoop k f1 (findFrom ['/', '.', '/'] f1 0) with
    | none => none
    | some f2 => (upLoop k f2 (findFrom ['/', '.', '.', '/'] f2 0)).map stripDot

/-- The environment: `getenv`. -/
abbrev Env := S → Option S

/-- AttributeTree.cpp:264-275 `getEnvironment`: an unset variable gives its own name. -/
def getEnvironment (env : Env) (n : S) : S := (env n).getD n

/-- AttributeTree.cpp:287-307, the loop of `replaceEnvironment`; at most `k` iterations
(`none`: not finished). `orig` is returned if there is no closing bracket. -/
def envLoop (env : Env) (orig : S) : Nat → S → Option S
  | 0, _ => none
  | k + 1, f =>
    match find ['$', '{'] f with
    | none => some f
    | some d =>
      match findFrom ['}'] f (d + 2) with
      | none => some orig
      | some e =>
        let name := (f.drop (d + 2)).take (e - (d + 2))
        envLoop env orig k (f.take d ++ getEnvironment env name ++ f.drop (e + 1))

/-- AttributeTree.cpp:277-311 `replaceEnvironment`. -/
def replaceEnvironment (env : Env) (k : Nat) (f : S) : Option S :=
  if f = [] then some f else envLoop env f k f

/-- AttributeTree.h:215-218, the data members of `FilePath`; `extSplit = none` is `npos`. -/
structure FilePath where
  /-- `m_pwd` -/
  pwd : S
  /-- `m_file` -/
  file : S
  /-- `m_file_path_name_split` -/
  nameSplit : Nat
  /-- `m_file_name_extension_split` -/
  extSplit : Option Nat

/-- AttributeTree.cpp:78-88 `absolutePath`. -/
def absolutePath (k : Nat) (pwd f : S) : Option S :=
  if isRelative f then normalize k (pwd ++ '/' :: f) else normalize k f

/-- AttributeTree.cpp:417-463 `init`; `none` if a loop is not finished within `k`
iterations. -/
def init (env : Env) (k : Nat) (filename : S) : Option FilePath := do
  let pwd ← normalize k ((env ['P', 'W', 'D']).getD [])
  let abs ← absolutePath k pwd (exchange filename)
  let file ← normalize k abs
  return {
    pwd, file
    nameSplit := match rfind '/' file with
      | some i => i + 1
      | none => 0
    extSplit := rfind '.' file }

/-- Iterations that are enough to construct a `FilePath` (`c37_init_terminates`). -/
def initBudget (env : Env) (filename : S) : Nat :=
  4 * ((env ['P', 'W', 'D']).getD []).length + 2 * filename.length + 3

namespace FilePath
/-- AttributeTree.h:63-66 `path()`. -/
def path (p : FilePath) : S := p.file.take p.nameSplit
/-- AttributeTree.h:70-73 `name()`. -/
def name (p : FilePath) : S := p.file.drop p.nameSplit
/-- AttributeTree.h:77-80 `absoluteName()`. -/
def absoluteName (p : FilePath) : S := p.file
/-- AttributeTree.h:92-95 `extension()`: the substring constructor throws
`std::out_of_range` for the position `npos`. -/
def extension (p : FilePath) : Outcome S :=
  match p.extSplit with
  | some i => .ok (p.file.drop i)
  | none => .throws .outOfRange
end FilePath

end Verif.FP
