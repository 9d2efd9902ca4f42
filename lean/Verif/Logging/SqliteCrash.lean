import Verif.Logging.Sqlite

/-!
# The SQLite log with failures and crashes (C135): model and specification

The model of `Sqlite.lean` extended: `rename`, opening the database and inserting may fail, rotation may be
off, and the program may die at any point between two operations on the file system. That an insertion
happens as a whole or not at all is a property of SQLite and is assumed, as is that a half created database is
completed when it is opened again (SQLiteLogDb.cpp:70-91).
-/
namespace Verif.Logging.Sqlite.Crash

variable {R : Type}

/-- What the system does during a call. -/
structure Env where
  /-- the day of the first reading of the clock -/
  d : Int
  /-- the day of the second reading of the clock (SQLiteLogDb.cpp:157) -/
  d' : Int
  renameOk : Bool := true
  openOk : Bool := true
  insertOk : Bool := true
  deriving DecidableEq

/-- The log output of the running program. -/
structure Proc where
  /-- `m_last_rotation` -/
  last : Int
  /-- `m_db` and `m_insert_stmt` are not null -/
  isOpen : Bool
  deriving DecidableEq

/-- The files, and the program if it is running. -/
structure Sys (R : Type) where
  fs : FS R
  proc : Option Proc
  deriving DecidableEq

/-- SQLiteLogDb.cpp:54-125 `openDatabase`. -/
def openDb (e : Env) (f : FS R) : FS R := if e.openOk then f.open else f

/-- SQLiteLogDb.cpp:156-158. -/
def renameDb (e : Env) (f : FS R) : FS R := if e.renameOk then f.rename e.d' else f

/-- SQLiteLogDb.cpp:142-148: the rotation is due. -/
def Due (rot : Bool) (e : Env) (p : Proc) : Prop := rot = true ∧ p.last ≠ e.d

instance (rot : Bool) (e : Env) (p : Proc) : Decidable (Due rot e p) := inferInstanceAs (Decidable (_ ∧ _))

/-- SQLiteLogDb.cpp:142-241 `writeLogLine`. -/
def writeLogLine (rot : Bool) (e : Env) (f : FS R) (p : Proc) (r : R) : FS R × Proc :=
  let q := if Due rot e p then (openDb e (renameDb e f), ⟨e.d, e.openOk⟩) else (f, p)
  (if q.2.isOpen && e.insertOk then q.1.insert r else q.1, q.2)

/-- Where the program dies in `writeLogLine`. -/
inductive Point where
  /-- before SQLiteLogDb.cpp:158 -/
  | nothing
  /-- after line 158 -/
  | renamed
  /-- after line 160 -/
  | opened
  /-- after line 231 -/
  | inserted
  deriving DecidableEq

/-- What happens to a log. -/
inductive Op (R : Type) where
  /-- SQLiteLogDb.cpp:40-47 with SQLiteLogOutput.cpp:65-68 -/
  | start (e : Env)
  | write (e : Env) (r : R)
  /-- SQLiteLogOutput.cpp:78-81, or the program dies between two calls -/
  | stop
  /-- the program is started and dies before (`false`) or after (`true`) the database is opened -/
  | dieStart (e : Env) (opened : Bool)
  /-- the program dies in `writeLogLine` -/
  | dieWrite (e : Env) (r : R) (pt : Point)
  deriving DecidableEq

/-- The files when the program dies in `writeLogLine`. -/
def dieIn (rot : Bool) (e : Env) (f : FS R) (p : Proc) (r : R) : Point → FS R
  | .nothing => f
  | .renamed => if Due rot e p then renameDb e f else f
  | .opened => if Due rot e p then openDb e (renameDb e f) else f
  | .inserted => (writeLogLine rot e f p r).1

/-- One event. -/
def step (rot : Bool) (s : Sys R) : Op R → Sys R
  | .start e =>
    match s.proc with
    | some _ => s
    | none => ⟨openDb e s.fs, some ⟨e.d, e.openOk⟩⟩
  | .write e r =>
    match s.proc with
    | none => s
    | some p => ⟨(writeLogLine rot e s.fs p r).1, some (writeLogLine rot e s.fs p r).2⟩
  | .stop => { s with proc := none }
  | .dieStart e o =>
    match s.proc with
    | some _ => s
    | none => ⟨if o then openDb e s.fs else s.fs, none⟩
  | .dieWrite e r pt =>
    match s.proc with
    | none => s
    | some p => ⟨dieIn rot e s.fs p r pt, none⟩

/-- A history, newest first; in the beginning no file exists. -/
def run (rot : Bool) : List (Op R) → Sys R
  | [] => ⟨⟨none, []⟩, none⟩
  | op :: h => step rot (run rot h) op

/-! ## Specification -/

/-- The program is running after the history (newest first). -/
def running : List (Op R) → Bool
  | [] => false
  | .start _ :: _ => true
  | .write .. :: h => running h
  | .dieStart .. :: h => running h
  | _ :: _ => false

/-- The day of the last start or row of the running program. -/
def today : List (Op R) → Int
  | [] => 0
  | .start e :: h => if running h then today h else e.d
  | .write e _ :: h => if running h then e.d else today h
  | _ :: h => today h

/-- The last time the running program has opened the database, which it does when it starts and, if it
rotates the files, with the first row of a day, this was successful. -/
def connected (rot : Bool) : List (Op R) → Bool
  | [] => false
  | .start e :: h => if running h then connected rot h else e.openOk
  | .write e _ :: h => if running h && rot && today h != e.d then e.openOk else connected rot h
  | .dieStart .. :: h => connected rot h
  | _ :: _ => false

/-- The rows that have to be in the files: those that were written while the database was open, the
insertion successful, and not interrupted before it. -/
def expected (rot : Bool) : List (Op R) → List R
  | [] => []
  | .write e r :: h => if running h && connected rot (.write e r :: h) && e.insertOk then expected rot h ++ [r] else expected rot h
  | .dieWrite e r .inserted :: h =>
    if running h && connected rot (.write e r :: h) && e.insertOk then expected rot h ++ [r] else expected rot h
  | _ :: h => expected rot h

/-- The environment of an event. -/
def Op.env : Op R → Option Env
  | .start e => some e
  | .write e _ => some e
  | .stop => none
  | .dieStart e _ => some e
  | .dieWrite e _ _ => some e

/-- The day of the last event. -/
def now : List (Op R) → Int
  | [] => 0
  | op :: h => match op.env with
    | some e => e.d'
    | none => now h

/-- The clock is never set back and shows a day after 1970, and no midnight passes inside a call. -/
def Clock : List (Op R) → Prop
  | [] => True
  | op :: h => Clock h ∧ ∀ e, op.env = some e → now h ≤ e.d ∧ e.d = e.d'

/-- All rows in the files: the archives by day, then the database. -/
def stored (s : Sys R) : List R := s.fs.archives.flatMap Prod.snd ++ s.fs.active.getD []

end Verif.Logging.Sqlite.Crash
