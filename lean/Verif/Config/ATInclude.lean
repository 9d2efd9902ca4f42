import Verif.Config.ATLoad
import Verif.Config.FilePathModel

/-!
# Include lines of attribute tree files (C113)

Extends `ATModel.lean` and `ATLoad.lean`: `get` and `load` with several files.  The file system and
the environment are a `World`; the name an include line stands for is modelled by `includeTarget`.
-/
namespace Verif.AT.Inc

/-- The files, as `load` sees them. A file is denoted by the name handed to `load`. -/
structure World where
  /-- AttributeTree.cpp:1325-1332: the name handed to `load` for an include line with that text in
  the given file (`includeTarget` below is the computation) -/
  target : (file : S) → (text : S) → S
  /-- `FilePath(name).path()` -/
  path : S → S
  /-- `FilePath(name).name()` -/
  name : S → S
  /-- content of the file `FilePath(name).absoluteName()`; `none`: cannot be opened -/
  content : S → Option S
  /-- `load_comments`, handed on unchanged (1333) -/
  loadComments : Bool

/-- AttributeTree.cpp:1325-1332: the file name of an include line. `dir` is `file_path->path()`; the
loops of the path functions take at most `k` iterations. -/
def includeTarget (env : FP.Env) (k : Nat) (dir text : S) : Option S :=
  match FP.replaceEnvironment env k text with
  | none => none
  | some f =>
    if FP.isRelative (FP.exchange f) then FP.normalize k (dir ++ FP.exchange f) else some (FP.exchange f)

/-- AttributeTree.cpp:1304-1323: the text after the colon if the line in the buffer is an include line. -/
def includeText (buf : S) : Option S :=
  if (buf.dropWhile isSpace).head? = some '#' then none
  else match cut ':' (buf.dropWhile isSpace) with
    | some (name, value) => if name = includeStr then some value else none
    | none => none

/-- The node `at` points to. -/
def subAt : List S → Tree → Option Tree
  | [], t => some t
  | d :: ds, t =>
    match find d t.kids with
    | some k => subAt ds k
    | none => none

/-- The arguments of `get` for lines that are not include lines. -/
def lineCfg (w : World) : Cfg := { processInclude := true, loadComments := w.loadComments, load := fun _ t => t }

/-- AttributeTree.cpp:1239-1286 `load(filename, false, true, load_comments)`, where `rd` is `get` on
the content of the file. `isRoot`: `this == root()`. -/
def loadVia (w : World) (rd : Tree → S → Outcome (Option (Tree × Int))) (isRoot : Bool) (file : S) (t : Tree) :
    Outcome (Option (Tree × Int)) :=
  if file = [] then .ok (some (t, eFILE_LOAD_ERROR))
  else
    match (if isRoot then setVirtual [] (w.path file) (w.name file) t else .ok t) with
    | .ub => .ub
    | .throws e => .throws e
    | .ok t1 =>
      match w.content file with
      | none => .ok (some (t1, eFILE_LOAD_ERROR))
      | some x =>
        match rd t1 x with
        | .ok (some (t2, error)) => .ok (some (t2, if error ≥ 0 then eFILE_LOAD_ERROR else eOK))
        | .ok none => .ok none
        | .throws e => .throws e
        | .ub => .ub

/-- AttributeTree.cpp:1299-1433, the loop of `get` with `process_include`, reading `file`; `isRoot`:
`this` is the root of its tree. The value returned for an included file is only printed (1333-1336).
`k` bounds the number of lines on every path of nested files (`none`: does not return within that). -/
def getI : Nat → World → (file : S) → (isRoot : Bool) → Tree → List S → Stream → Nat → S →
    Outcome (Option (Tree × Int))
  | 0, _, _, _, _, _, _, _, _ => .ok none
  | k + 1, w, file, isRoot, t, at_, s, lineno, buf =>
    match includeText buf with
    | some raw =>
      match subAt at_ t with
      | none => .ub
      | some n =>
        match loadVia w (fun t1 x => getI k w (w.target file raw) (isRoot && at_.isEmpty) t1 []
            (readNextLine { rest := x }).2 1 (readNextLine { rest := x }).1)
            (isRoot && at_.isEmpty) (w.target file raw) n with
        | .ok (some (n', _)) =>
          let t' := updAt at_ (fun _ => n') t
          let (b, s') := readNextLine s
          if s'.eof then .ok (some (t', -1)) else getI k w file isRoot t' at_ s' (lineno + 1) b
        | .ok none => .ok none
        | .throws e => .throws e
        | .ub => .ub
    | none =>
      match doLine k (lineCfg w) t at_ s (lineno + 1) buf with
      | none => .ok none
      | some (.ret t' code) => .ok (some (t', code))
      | some (.next t' at' s' lineno') =>
        let (b, s'') := readNextLine s'
        if s''.eof then .ok (some (t', -1)) else getI k w file isRoot t' at' s'' lineno' b

/-- AttributeTree.cpp:1288-1434 `get` on a text from `file`. -/
def getText (k : Nat) (w : World) (file : S) (isRoot : Bool) (t : Tree) (x : S) : Outcome (Option (Tree × Int)) :=
  getI k w file isRoot t [] (readNextLine { rest := x }).2 1 (readNextLine { rest := x }).1

/-- AttributeTree.cpp:1239-1286 `load(filename, false, true, load_comments)`. -/
def loadFile (k : Nat) (w : World) (isRoot : Bool) (file : S) (t : Tree) : Outcome (Option (Tree × Int)) :=
  loadVia w (fun t1 x => getText k w file isRoot t1 x) isRoot file t

end Verif.AT.Inc
