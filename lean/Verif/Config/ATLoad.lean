import Verif.Config.ATModel

/-!
# Loading and saving attribute trees (C98)

Extends `ATModel.lean`.  The file system is reduced to the content of the one file: `none` if it cannot be
opened.  The path and the name of the file (from `FilePath`, modelled in `FilePathModel.lean`) are
parameters.
-/
namespace Verif.AT

/-- AttributeTree.h:311-320 `eOK`. -/
def eOK : Int := 0
/-- AttributeTree.h:311-320 `eFILE_LOAD_ERROR`. -/
def eFILE_LOAD_ERROR : Int := 3
/-- AttributeTree.h:311-320 `eFILE_SAVE_ERROR`. -/
def eFILE_SAVE_ERROR : Int := 2

/-- AttributeTree.cpp:1250-1256: the two virtual attributes, for the root only. -/
def setVirtual (anc : List Tree) (path name : S) (t : Tree) : Outcome Tree :=
  match anc with
  | _ :: _ => .ok t
  | [] =>
    match getAttribute [] t (some filePathStr) none with
    | .ok (some _) => .ok t
    | .ok none => .ok (setAttribute (some fileNameStr) (some name) (setAttribute (some filePathStr) (some path) t))
    | .throws e => .throws e
    | .ub => .ub

/-- AttributeTree.cpp:1239-1286 `load` (POSIX: `k` bounds the number of lines read, `none` = does not
return within `k` lines). `emptyName`: the file name is `NULL` or empty. -/
def load (k : Nat) (cfg : Cfg) (anc : List Tree) (emptyName : Bool) (path name : S) (content : Option S)
    (unmarkChanges preserveOrder : Bool) (t : Tree) : Outcome (Option (Tree × Int)) :=
  if emptyName then .ok (some (t, eFILE_LOAD_ERROR))
  else
    match setVirtual anc path name t with
    | .ok t1 =>
      match content with
      | none => .ok (some (t1, eFILE_LOAD_ERROR))
      | some x =>
        match get k cfg t1 x with
        | none => .ok none
        | some (t2, error) =>
          if error ≥ 0 then .ok (some (t2, eFILE_LOAD_ERROR))
          else
            let t3 := if unmarkChanges then unmark t2 else t2
            .ok (some (if preserveOrder then revert t3 else t3, eOK))
    | .throws e => .throws e
    | .ub => .ub

/-- AttributeTree.cpp:1218-1237 `save`: the tree, the result, and the new content of the file (`none`:
not written). `canOpen`: the file can be opened for writing. -/
def save (csd : Int) (unmarkChanges canOpen : Bool) (t : Tree) : Outcome (Tree × Int × Option S) :=
  if canOpen then
    (printText csd [] t).map fun x => (if unmarkChanges then unmark t else t, eOK, some x)
  else .ok (t, eFILE_SAVE_ERROR, none)

/-- AttributeTree.cpp:1218-1237 `save` when only the first `room` characters reach the file: the disk is full, or the process
or the machine stops (then the rest of the function is not executed either). `ofstream out(filename)` empties the old file, the
characters are written in order, and the state of `out` is never tested. The file can be opened here. -/
def saveOnDisk (csd : Int) (unmarkChanges : Bool) (room : Nat) (t : Tree) : Outcome (Tree × Int × S) :=
  (printText csd [] t).map fun x => (if unmarkChanges then unmark t else t, eOK, x.take room)

end Verif.AT
