import Mathlib.Data.List.Basic

/-!
# Model of `icl_core_logging/SQLiteLogDb.cpp`

The database files of one log over any number of program runs.  A file is the list of the rows of its
table, in order of insertion.

Simplifications.  Opening a database and inserting a row succeed (a row whose insertion fails is
reported on stderr and dropped).  A row is the tuple of its ten values, which are bound as parameters
(SQLiteLogDb.cpp:169-229) and therefore stored as they are; here any type.  Only runs one after the
other are modelled.  Rotation is on.
-/
namespace Verif.Logging.Sqlite

/-- The files of a log. -/
structure FS (R : Type) where
  /-- the database, if it exists -/
  active : Option (List R)
  /-- the files `NAME.YYYY-MM-DD`, by day -/
  archives : List (Int × List R)
  deriving DecidableEq

/-- The files and the `m_last_rotation` of the running program, if there is one. -/
structure State (R : Type) where
  fs : FS R
  proc : Option Int
  deriving DecidableEq

/-- SQLiteLogDb.cpp:54-125 `openDatabase`: the database is created if it does not exist. -/
def FS.open {R : Type} (f : FS R) : FS R := { f with active := some (f.active.getD []) }

/-- SQLiteLogDb.cpp:156-158: `rename` of the database to the name with day `d`; an old file of this
name is replaced. -/
def FS.rename {R : Type} (f : FS R) (d : Int) : FS R :=
  match f.active with
  | none => f
  | some rows => { active := none, archives := f.archives.filter (fun a => a.1 ≠ d) ++ [(d, rows)] }

/-- SQLiteLogDb.cpp:163-237: insert a row. -/
def FS.insert {R : Type} (f : FS R) (r : R) : FS R := { f with active := f.active.map (· ++ [r]) }

/-- What happens to a log. -/
inductive Op (R : Type) where
  /-- SQLiteLogDb.cpp:40-47 with SQLiteLogOutput.cpp:65-68: the log output is created on day `d` and started -/
  | start (d : Int)
  /-- `writeLogLine`; `d` and `d'` are the days of the two readings of the clock -/
  | write (d d' : Int) (r : R)
  /-- SQLiteLogOutput.cpp:78-81 `onShutdown` -/
  | stop

/-- SQLiteLogDb.cpp:142-161: rotation, if it is due. -/
def rotate {R : Type} (f : FS R) (last d d' : Int) : FS R × Int :=
  if last ≠ d then ((f.rename d').open, d) else (f, last)

/-- One event.  Without a running program nothing is written. -/
def step {R : Type} (s : State R) : Op R → State R
  | .start d => { fs := s.fs.open, proc := some d }
  | .write d d' r =>
    match s.proc with
    | none => s
    | some last => { fs := (rotate s.fs last d d').1.insert r, proc := some (rotate s.fs last d d').2 }
  | .stop => { s with proc := none }

/-- The state before the first run: no file exists. -/
def State.init (R : Type) : State R := ⟨⟨none, []⟩, none⟩

/-- Events in order. -/
def run {R : Type} (ops : List (Op R)) : State R := ops.foldl step (State.init R)

/-! ## Specification -/

/-- The readings of the clock. -/
def Op.days {R : Type} : Op R → List Int
  | .start d => [d]
  | .write d d' _ => [d, d']
  | .stop => []

/-- The clock is never set back. -/
def Monotone {R : Type} (ops : List (Op R)) : Prop := (ops.flatMap Op.days).Pairwise (· ≤ ·)

/-- The day does not change between the two readings of the clock in `writeLogLine`. -/
def NoMidnight {R : Type} (ops : List (Op R)) : Prop := ∀ d d' r, .write d d' r ∈ ops → d = d'

/-- The rows written while a program runs, with their days; `on`: whether one is running. -/
def written {R : Type} : Bool → List (Op R) → List (Int × R)
  | _, [] => []
  | _, .start _ :: ops => written true ops
  | on, .write d _ r :: ops => (if on then [(d, r)] else []) ++ written on ops
  | _, .stop :: ops => written false ops

/-- All rows in the files: the archives by day, then the database. -/
def stored {R : Type} (s : State R) : List R := s.fs.archives.flatMap Prod.snd ++ s.fs.active.getD []

end Verif.Logging.Sqlite
