import Verif.Logging.File.CrashProps

/-!
# The file log output without flushing (C136): model and specification

The model of `Model.lean` with `m_flush` as configured by `/Flush`. Without flushing, log lines stay in the buffer of
the `std::ofstream` until it is full or the file is closed, so a crash loses them. The files hold the bytes in chunks:
each `write` of the stream appends one piece `.line chunk`.
-/
namespace Verif.Logging.File.Buffer
open Verif.Logging.File Verif.Logging.File.Crash

/-- The output object with the buffer of `m_log_file`, FileLogOutput.h:78-87. -/
structure Obj where
  out : Out
  /-- bytes given to `m_log_file` and not yet written to the file -/
  buf : S

/-- The stream writes a part of its buffer to the file. -/
def write (c : Cfg) (w : Int) (fs : Dir) (chunk : S) : Dir :=
  if chunk = [] then fs else append fs c.name (.line chunk) w

/-- FileLogOutput.cpp:244: the log file is to be rotated. -/
def Due (c : Cfg) (e : Env) (o : Out) : Prop := c.rotate = true ∧ o.last ≠ day e.t

instance (c : Cfg) (e : Env) (o : Out) : Decidable (Due c e o) := inferInstanceAs (Decidable (_ ∧ _))

/-- FileLogOutput.cpp:239-302 `rotateLogFile`; line 247 closes the file, which writes the buffer. The time of this write is
taken to be that of the clock reading just before. -/
def rotateB (c : Cfg) (e : Env) (fs : Dir) (b : Obj) : Dir × Obj :=
  if Due c e b.out then
    let r := rotateLogFile c e (write c e.t fs b.buf) b.out
    (r.1, ⟨r.2, []⟩)
  else (fs, b)

/-- FileLogOutput.cpp:128-155 `pushImpl`: after `m_log_file << log_line` the stream has written the first `k` bytes of
those pending, whatever its buffer size (without `m_flush`), or all (with it). -/
def pushB (c : Cfg) (flush : Bool) (e : Env) (k : Nat) (fs : Dir) (b : Obj) (s : S) : Dir × Obj :=
  let r := rotateB c e fs b
  let q := openLogFile c e r.1 r.2.out
  if q.2.isOpen then
    let pending := r.2.buf ++ s
    let n := if flush then pending.length else k
    (write c e.w q.1 (pending.take n), ⟨q.2, pending.drop n⟩)
  else (q.1, ⟨q.2, r.2.buf⟩)

/-- Where the program dies inside a call. -/
inductive Point where
  /-- before any change, or between two calls -/
  | nothing
  /-- cpp:247: the first `n` bytes of the buffer are written while the file is closed for the rotation -/
  | closing (n : Nat)
  /-- cpp:255: inside `zipFile`, the archive has the contents `p` so far -/
  | zipping (p : List Piece)
  /-- after cpp:256 or 261 -/
  | moved
  /-- cpp:265-293: the old files in `sub` have been deleted -/
  | deleting (sub : S → Bool)
  /-- cpp:299, 134: the file is open (again) -/
  | opened
  /-- cpp:147: the first `n` of the bytes pending, with those of the line, are written -/
  | writing (n : Nat)

/-- The directory when the program dies in `pushImpl` (cpp:130-147). -/
def dieB (c : Cfg) (e : Env) (fs : Dir) (b : Obj) (s : S) (pt : Point) : Dir :=
  let closed := write c e.t fs b.buf
  let r := rotateB c e fs b
  let q := openLogFile c e r.1 r.2.out
  match pt with
  | .nothing => fs
  | .closing n => if Due c e b.out then write c e.t fs (b.buf.take n) else fs
  | .zipping p => if Due c e b.out ∧ c.zip = true then closed.set (archiveName c b.out.last) (some ⟨p, e.w⟩) else fs
  | .moved => if Due c e b.out then moveFile c e closed b.out.last else fs
  | .deleting sub =>
    if Due c e b.out then
      let moved := moveFile c e closed b.out.last
      fun x => if sub x then deleteOld c moved (day e.t) x else moved x
    else fs
  | .opened => q.1
  | .writing n => if q.2.isOpen then write c e.w q.1 ((r.2.buf ++ s).take n) else q.1

/-- The life of the log file. -/
inductive BOp where
  | start (e : Env)
  /-- a log call after which `k` of the pending bytes are in the file -/
  | push (e : Env) (k : Nat) (s : S)
  /-- the output is destroyed, FileLogOutput.cpp:123-126: the file is closed -/
  | stop (e : Env)
  /-- the program dies inside a log call (or before it, `Point.nothing`) -/
  | die (e : Env) (s : S) (pt : Point)

/-- The directory, and the output object of the running program. -/
structure Sys where
  fs : Dir
  obj : Option Obj

/-- One step; starting a running program or logging without one is not possible. -/
def step (c : Cfg) (flush : Bool) (s : Sys) : BOp → Sys
  | .start e =>
    match s.obj with
    | some _ => s
    | none => let r := create c e s.fs; ⟨r.1, some ⟨r.2, []⟩⟩
  | .push e k l =>
    match s.obj with
    | some b => let r := pushB c flush e k s.fs b l; ⟨r.1, some r.2⟩
    | none => s
  | .stop e =>
    match s.obj with
    | some b => ⟨write c e.w s.fs b.buf, none⟩
    | none => s
  | .die e l pt =>
    match s.obj with
    | some b => ⟨dieB c e s.fs b l pt, none⟩
    | none => s

/-- A history, newest first, from a given directory. -/
def run (c : Cfg) (flush : Bool) (fs : Dir) : List BOp → Sys
  | [] => ⟨fs, none⟩
  | op :: h => step c flush (run c flush fs h) op

/-! ## Specification -/

/-- The program is running after the history (newest first). -/
def runningB : List BOp → Bool
  | [] => false
  | .start _ :: _ => true
  | .push .. :: h => runningB h
  | .stop _ :: _ => false
  | .die .. :: _ => false

/-- The environment of a step. -/
def BOp.env : BOp → Env
  | .start e => e
  | .push e _ _ => e
  | .stop e => e
  | .die e _ _ => e

/-- The day on which the running program was started or logged last. -/
def lastDay : List BOp → Int
  | [] => 0
  | .start e :: h => if runningB h then lastDay h else day e.t
  | op :: _ => day op.env.t

/-- The program is running and has the log file open: the last attempt to open it was successful. There is an attempt when the
program starts, in the first log call of a day (if files are rotated), and in every log call as long as it is not open. -/
def openB (c : Cfg) : List BOp → Bool
  | [] => false
  | .start e :: h => if runningB h then openB c h else e.openOk
  | .push e _ _ :: h =>
    runningB h && if openB c h && !(c.rotate && decide (day e.t ≠ lastDay h)) then true else e.openOk
  | _ :: _ => false

/-- What a crash may cost: the text logged since the file was opened or closed last, that is since the start of
the program or, with rotation, since the first line of the day; with `Flush` or if the file is not open nothing. -/
def unsynced (c : Cfg) (flush : Bool) : List BOp → S
  | [] => []
  | .start _ :: h => if runningB h then unsynced c flush h else []
  | .push e k s :: h =>
    if openB c (.push e k s :: h) = false ∨ flush = true then []
    else if c.rotate = true ∧ day e.t ≠ lastDay h then s
    else unsynced c flush h ++ s
  | _ :: _ => []

/-- The line `s` if the file is open when it is to be written. -/
def lineOf (c : Cfg) (e : Env) (s : S) (h : List BOp) : S := if openB c (.push e 0 s :: h) then s else []

/-- `x` is a text that may be on disk after the history, or be on its way: all that was logged while the file was open, except that
each crash may have cost a last part of the text that was not yet written to the file, and may have left a part of the line of the
interrupted call. -/
inductive Kept (c : Cfg) (flush : Bool) : List BOp → S → Prop
  | nil : Kept c flush [] []
  | start {e h x} : Kept c flush h x → Kept c flush (.start e :: h) x
  | push {e k s h x} : openB c (.push e k s :: h) = true → Kept c flush h x → Kept c flush (.push e k s :: h) (x ++ s)
  | stop {e h x} : Kept c flush h x → Kept c flush (.stop e :: h) x
  | die {e s pt h x y z} : runningB h = true → Kept c flush h x → x ++ lineOf c e s h = y ++ z →
      z <:+ unsynced c flush h ++ lineOf c e s h → Kept c flush (.die e s pt :: h) y
  | pushOff {e k s h x} : openB c (.push e k s :: h) = false → Kept c flush h x → Kept c flush (.push e k s :: h) x
  | dieOff {e s pt h x} : runningB h = false → Kept c flush h x → Kept c flush (.die e s pt :: h) x

/-- The time of the last step. -/
def nowB : List BOp → Int
  | [] => 0
  | op :: _ => op.env.w

/-- The clock never goes back and shows a time from 1970 to the end of 9999. -/
def ClockB : List BOp → Prop
  | [] => True
  | op :: h => ClockB h ∧ nowB h ≤ op.env.t ∧ op.env.t ≤ op.env.w ∧ op.env.w < 2932897 * 86400

/-- Compressing does not fail, and the program does not die while it compresses a file. -/
def FineB (c : Cfg) (h : List BOp) : Prop :=
  ∀ op ∈ h, (c.zip = true → op.env.moveOk = true) ∧ ∀ e s p, op ≠ .die e s (.zipping p)

end Verif.Logging.File.Buffer
