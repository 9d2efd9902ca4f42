import Verif.Time.Iso

/-!
# Model of `icl_core_logging/FileLogOutput.cpp`

The directory of the log file is a function from file names to files; nobody else changes it.
File contents are sequences of pieces, the pushed lines and the separator written when the file is
opened.  Not modelled: write errors on an open file, expansion of environment variables in the file
name, the unflushed buffer (`m_flush` false), a log file name that is a directory.
-/
namespace Verif.Logging.File
open Verif.Time

/-- Strings. -/
abbrev S := List Char

/-- What is written to a log file: FileLogOutput.cpp:229 (the separator) or a log line. -/
inductive Piece where
  | opened
  | line (s : S)
  deriving DecidableEq

/-- A file: its contents and the time of the last write (seconds since 1970). -/
structure File where
  content : List Piece
  mtime : Int
  deriving DecidableEq

/-- The directory that contains the log file. -/
abbrev Dir := S → Option File

/-- Write one entry of the directory. -/
def Dir.set (fs : Dir) (x : S) (f : Option File) : Dir := fun y => if y = x then f else fs y

/-- The configuration, FileLogOutput.cpp:59-79; the file name is given without the directory. -/
structure Cfg where
  /-- last part of `m_filename` -/
  name : S
  /-- `m_filename` contains a directory part -/
  hasDir : Bool := true
  /-- `m_rotate` -/
  rotate : Bool := true
  /-- built with zlib, and `m_online_zip` is false -/
  zip : Bool := false
  /-- `m_delete_old_files`, `m_delete_older_than_days` -/
  delete : Option Nat := none

/-- What the system does during a call. -/
structure Env where
  /-- clock reading of `rotateLogFile` (seconds) -/
  t : Int
  /-- time at which the file is written -/
  w : Int
  /-- the old file can be moved (or compressed) -/
  moveOk : Bool := true
  /-- the log file can be opened -/
  openOk : Bool := true

/-- The object: FileLogOutput.h:78-87. -/
structure Out where
  /-- `m_log_file.is_open()` -/
  isOpen : Bool
  /-- `m_last_rotation` -/
  last : Int

/-- TimeBase.h:107-110 `days()`, for times since 1970. -/
def day (t : Int) : Int := t / 86400

/-- FileLogOutput.cpp:250-251, `strfTime(".%Y-%m-%d")` of the day; dates before the year 10000
(later ones do not fit the buffer). -/
def dateText (d : Int) : S :=
  let x := dateOfDay d
  '.' :: dec 4 x.y.toNat ++ '-' :: dec 2 x.m ++ '-' :: dec 2 x.d

/-- FileLogOutput.cpp:255, 261; os_fs.cpp:41: the name of the archived file. -/
def archiveName (c : Cfg) (d : Int) : S := c.name ++ dateText d ++ (if c.zip then ".gz".toList else [])

/-- Append to a file, creating it if necessary. -/
def append (fs : Dir) (x : S) (p : Piece) (w : Int) : Dir :=
  match fs x with
  | some f => fs.set x (some ⟨f.content ++ [p], w⟩)
  | none => fs.set x (some ⟨[p], w⟩)

/-- FileLogOutput.cpp:206-237 `openLogFile`. -/
def openLogFile (c : Cfg) (e : Env) (fs : Dir) (o : Out) : Dir × Out :=
  if o.isOpen then (fs, o)
  else if e.openOk then (append fs c.name .opened e.w, { o with isOpen := true })
  else (fs, o)

/-- FileLogOutput.cpp:252-262, with os_fs.cpp:39-74 `zipFile`.  The result of `zipFile` is not
looked at, the log file is removed in any case. -/
def moveFile (c : Cfg) (e : Env) (fs : Dir) (d : Int) : Dir :=
  if c.zip then
    if e.moveOk then
      let old := match fs c.name with
        | some f => f.content
        | none => []
      (fs.set (archiveName c d) (some ⟨old, e.w⟩)).set c.name none
    else fs.set c.name none
  else
    match fs c.name with
    | some f => if e.moveOk then (fs.set c.name none).set (archiveName c d) (some f) else fs
    | none => fs

/-- FileLogOutput.cpp:265-293: the files of the directory whose name starts with the name of the
log file and which are older. -/
def deleteOld (c : Cfg) (fs : Dir) (current : Int) : Dir :=
  match c.delete with
  | some n =>
    if c.hasDir then
      fun x => match fs x with
        | some f => if f.mtime < 24 * 3600 * (current - n) ∧ c.name.isPrefixOf x then none else some f
        | none => none
    else fs
  | none => fs

/-- FileLogOutput.cpp:239-302 `rotateLogFile`. -/
def rotateLogFile (c : Cfg) (e : Env) (fs : Dir) (o : Out) : Dir × Out :=
  if c.rotate ∧ o.last ≠ day e.t then
    let fs1 := moveFile c e fs o.last
    let fs2 := deleteOld c fs1 (day e.t)
    openLogFile c e fs2 { isOpen := false, last := day e.t }
  else (fs, o)

/-- FileLogOutput.cpp:128-155 `pushImpl`. -/
def pushImpl (c : Cfg) (e : Env) (fs : Dir) (o : Out) (s : S) : Dir × Out :=
  let (fs1, o1) := rotateLogFile c e fs o
  let (fs2, o2) := openLogFile c e fs1 o1
  if o2.isOpen then (append fs2 c.name (.line s) e.w, o2) else (fs2, o2)

/-- FileLogOutput.cpp:48-103, the constructor. -/
def create (c : Cfg) (e : Env) (fs : Dir) : Dir × Out :=
  let last0 : Int := if c.rotate then day e.t else 0
  match fs c.name with
  | some f =>
    let (fs1, o1) := rotateLogFile c e fs ⟨false, day f.mtime⟩
    openLogFile c e fs1 o1
  | none => openLogFile c e fs ⟨false, last0⟩

/-- The life of the log file: the program starts, logs, and ends (with flushing it does not matter
how it ends). -/
inductive Op where
  | start (e : Env)
  | push (e : Env) (s : S)
  | stop

/-- The directory, and the output object of the running program. -/
structure Sys where
  fs : Dir
  out : Option Out

/-- One step; starting a running program or logging without one is not possible. -/
def step (c : Cfg) (s : Sys) : Op → Sys
  | .start e =>
    match s.out with
    | some _ => s
    | none => let r := create c e s.fs; ⟨r.1, some r.2⟩
  | .push e l =>
    match s.out with
    | some o => let r := pushImpl c e s.fs o l; ⟨r.1, some r.2⟩
    | none => s
  | .stop => { s with out := none }

/-- A history, newest first, from a given directory. -/
def run (c : Cfg) (fs : Dir) : List Op → Sys
  | [] => ⟨fs, none⟩
  | op :: h => step c (run c fs h) op

end Verif.Logging.File
