import Verif.Logging.File.Spec

/-!
# Model of the log file that is compressed while it is written (`/Zip`), icl_core_logging/FileLogOutput.cpp

Built with zlib, and `m_online_zip` is true.  What zlib does is taken from its documentation (zlib.h): `gzopen` returns NULL "if the
file could not be opened, ... or if an invalid mode was specified (an 'r', 'w', or 'a' was not provided, or '+' was provided)".
A line is in the file once `gzwrite` (and `gzflush`) has returned.  The other simplifications are those of Model.lean; modes other
than appending ones are not looked at, and the handle that the constructor loses by opening twice is not followed.
-/
namespace Verif.Logging.File.Online

/-- `gzopen` (zlib.h) returns a file. -/
def gzopen (mode : S) (canOpen : Bool) : Bool := canOpen && mode.contains 'a' && !mode.contains '+'

/-- FileLogOutput.cpp:211, the mode. -/
def codeMode : S := ['a', '+', 'b']

/-- FileLogOutput.cpp:206-221 `openLogFile` (it does not ask whether the file is open): `isOpen` is `m_zipped_log_file != NULL`. -/
def openLogFile (mode : S) (c : Cfg) (e : Env) (fs : Dir) (o : Out) : Dir × Out :=
  if gzopen mode e.openOk then (append fs c.name .opened e.w, { o with isOpen := true })
  else (fs, { o with isOpen := false })

/-- FileLogOutput.cpp:261: the old file is moved, not compressed again. -/
def plain (c : Cfg) : Cfg := { c with zip := false }

/-- FileLogOutput.cpp:239-302 `rotateLogFile`. -/
def rotateLogFile (mode : S) (c : Cfg) (e : Env) (fs : Dir) (o : Out) : Dir × Out :=
  if c.rotate ∧ o.last ≠ day e.t then
    openLogFile mode c e (deleteOld c (moveFile (plain c) e fs o.last) (day e.t)) { isOpen := false, last := day e.t }
  else (fs, o)

/-- FileLogOutput.cpp:128-155 `pushImpl`. -/
def pushImpl (mode : S) (c : Cfg) (e : Env) (fs : Dir) (o : Out) (s : S) : Dir × Out :=
  let (fs1, o1) := rotateLogFile mode c e fs o
  let (fs2, o2) := if o1.isOpen then (fs1, o1) else openLogFile mode c e fs1 o1
  if o2.isOpen then (append fs2 c.name (.line s) e.w, o2) else (fs2, o2)

/-- FileLogOutput.cpp:48-103, the constructor. -/
def create (mode : S) (c : Cfg) (e : Env) (fs : Dir) : Dir × Out :=
  let last0 : Int := if c.rotate then day e.t else 0
  match fs c.name with
  | some f =>
    let (fs1, o1) := rotateLogFile mode c e fs ⟨false, day f.mtime⟩
    openLogFile mode c e fs1 o1
  | none => openLogFile mode c e fs ⟨false, last0⟩

/-- One step, as in Model.lean. -/
def step (mode : S) (c : Cfg) (s : Sys) : Op → Sys
  | .start e =>
    match s.out with
    | some _ => s
    | none => let r := create mode c e s.fs; ⟨r.1, some r.2⟩
  | .push e l =>
    match s.out with
    | some o => let r := pushImpl mode c e s.fs o l; ⟨r.1, some r.2⟩
    | none => s
  | .stop => { s with out := none }

/-- A history, newest first. -/
def runWith (mode : S) (c : Cfg) (fs : Dir) : List Op → Sys
  | [] => ⟨fs, none⟩
  | op :: h => step mode c (runWith mode c fs h) op

/-- A history of a program with `/Zip` set. -/
def run (c : Cfg) (fs : Dir) (h : List Op) : Sys := runWith codeMode c fs h

end Verif.Logging.File.Online
