import Verif.Logging.File.Lemmas

/-!
# Crashes of a program with a file log output (C134): model and specification

The model of `Model.lean`, where the program may also die (be killed, crash) at any point inside the
constructor or inside `pushImpl`, between or in the middle of the file system operations, and be started
again later. `m_flush` is true (the default): a line is on disk when `pushImpl` returns. The separator
written by `openLogFile` is written whole or not at all.
-/
namespace Verif.Logging.File.Crash
open Verif.Logging.File

/-- Where the program dies. -/
inductive Point where
  /-- before the first change -/
  | nothing
  /-- FileLogOutput.cpp:255: inside `zipFile`, the archive has the contents `p` so far (or, before
  line 256, all); nothing if there is no log file -/
  | zipping (p : List Piece)
  /-- after line 256 or 261 -/
  | moved
  /-- cpp:265-293: the old files in `sub` have been deleted -/
  | deleting (sub : S → Bool)
  /-- cpp:226: the file has been created, nothing is written yet -/
  | created
  /-- cpp:230 -/
  | opened
  /-- cpp:147: the part `p` of the line was written -/
  | torn (p : S)

/-- The directory when the program dies inside `rotateLogFile(); openLogFile()`
(FileLogOutput.cpp:88-93, 130-135) or, for `torn`, while writing the line (cpp:147). -/
def dieIn (c : Cfg) (e : Env) (fs : Dir) (o : Out) (pt : Point) : Dir :=
  let moved := if c.rotate = true ∧ o.last ≠ day e.t then moveFile c e fs o.last else fs
  let deleted := if c.rotate = true ∧ o.last ≠ day e.t then deleteOld c moved (day e.t) else fs
  let r := rotateLogFile c e fs o
  let q := openLogFile c e r.1 r.2
  match pt with
  | .nothing => fs
  | .zipping p =>
    if (c.rotate = true ∧ o.last ≠ day e.t) ∧ c.zip = true then
      fs.set (archiveName c o.last) (some ⟨if fs c.name = none then [] else p, e.w⟩)
    else fs
  | .moved => moved
  | .deleting sub => fun x => if sub x then deleted x else moved x
  | .created =>
    if e.openOk = true ∧ deleted c.name = none then deleted.set c.name (some ⟨[], e.w⟩) else deleted
  | .opened => q.1
  | .torn p => if q.2.isOpen then append q.1 c.name (.line p) e.w else q.1

/-- The life of the log file with crashes. -/
inductive COp where
  /-- a completed step -/
  | op (o : Op)
  /-- the program is started and dies inside the constructor -/
  | dieStart (e : Env) (pt : Point)
  /-- the program dies inside `pushImpl` -/
  | diePush (e : Env) (s : S) (pt : Point)
  /-- the program dies between the calls -/
  | die

/-- FileLogOutput.cpp:59-93: the members and the file when `rotateLogFile` is reached in the constructor. -/
def startOut (c : Cfg) (e : Env) (fs : Dir) : Out :=
  match fs c.name with
  | some f => ⟨false, day f.mtime⟩
  | none => ⟨false, if c.rotate then day e.t else 0⟩

/-- One step. -/
def stepC (c : Cfg) (s : Sys) : COp → Sys
  | .op o => step c s o
  | .dieStart e pt =>
    match s.out with
    | some _ => { s with out := none }
    | none => ⟨dieIn c e s.fs (startOut c e s.fs) pt, none⟩
  | .diePush e _ pt =>
    match s.out with
    | some o => ⟨dieIn c e s.fs o pt, none⟩
    | none => s
  | .die => { s with out := none }

/-- A history, newest first, from a given directory. -/
def runC (c : Cfg) (fs : Dir) : List COp → Sys
  | [] => ⟨fs, none⟩
  | op :: h => stepC c (runC c fs h) op

/-! ## Specification -/

/-- The program is running after the history (newest first). -/
def runningC : List COp → Bool
  | [] => false
  | .op (.start _) :: _ => true
  | .op (.push ..) :: h => runningC h
  | _ :: _ => false

/-- The day on which the running program was started or has logged last. -/
def lastC : List COp → Int
  | [] => 0
  | .op (.start e) :: h => if runningC h then lastC h else day e.t
  | .op (.push e _) :: _ => day e.t
  | _ :: _ => 0

/-- The program is running and has the log file open: the last attempt to open it was successful. There is an attempt when the
program starts, in the first log call of a day (if files are rotated), and in every log call as long as it is not open. -/
def isOpenC (c : Cfg) : List COp → Bool
  | [] => false
  | .op (.start e) :: h => if runningC h then isOpenC c h else e.openOk
  | .op (.push e _) :: h =>
    runningC h && if isOpenC c h && !(c.rotate && decide (day e.t ≠ lastC h)) then true else e.openOk
  | _ :: _ => false

/-- What must be on disk: the line of every completed call after which the file is open, and of a call interrupted while
writing its line, the part that was written. -/
def recorded (c : Cfg) : List COp → List S
  | [] => []
  | .op (.push e s) :: h => if isOpenC c (.op (.push e s) :: h) then recorded c h ++ [s] else recorded c h
  | .diePush e s (.torn p) :: h => if isOpenC c (.op (.push e s) :: h) then recorded c h ++ [p] else recorded c h
  | _ :: h => recorded c h

/-- What the environment is in a step. -/
def COp.env : COp → Option Env
  | .op o => o.env
  | .dieStart e _ => some e
  | .diePush e _ _ => some e
  | .die => none

/-- The time of the last step. -/
def nowC : List COp → Int
  | [] => 0
  | op :: h => match op.env with
    | some e => e.w
    | none => nowC h

/-- The clock never goes back and shows a time from 1970 to the end of 9999; if old files are compressed, no
midnight passes between reading the clock and writing. -/
def ClockC (c : Cfg) : List COp → Prop
  | [] => True
  | op :: h => ClockC c h ∧ ∀ e, op.env = some e → nowC h ≤ e.t ∧ e.t ≤ e.w ∧ e.w < 2932897 * 86400 ∧
    (c.zip = true → SameDay e.t e.w)

/-- A condition on all environments of a history. -/
def AlwaysC (P : Env → Prop) (h : List COp) : Prop := ∀ op ∈ h, ∀ e, op.env = some e → P e

/-- A torn line is the beginning of the line of the interrupted call, and a start writes no line. -/
def TornOk (h : List COp) : Prop :=
  (∀ e s p, .diePush e s (.torn p) ∈ h → p <+: s) ∧ ∀ e p, .dieStart e (.torn p) ∉ h

end Verif.Logging.File.Crash
