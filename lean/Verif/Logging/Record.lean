import Verif.Logging.Buffer

/-!
# Model of the names in a log record: `ThreadStream.cpp`, `LogOutputStream.cpp` `LogMessage`

The way of the names of a log message from the logging macro through the thread stream and the
`LogMessage` to the log output.  `none` is an access outside an array (the function that reads a name
runs over the end of the array).  Memory that has not been written has arbitrary contents, which are
arguments of the model.

Simplifications.  Names are given as C strings without the terminator.  The time stamp and the text
are left out, see `Buffer.lean` for the text.  Only one thread stream is modelled, see `Pool.lean` for
their assignment to threads.
-/
namespace Verif.Logging.Record

/-- Strings. -/
abbrev S := List Char

/-- Contents of a `char` array. -/
abbrev Mem := List Char

/-- C `strncpy(dst, src, n)`, where `src` is the memory of the source up to its end: at most `n`
characters up to the terminator, filled up with zeros. -/
def strncpy (dst src : Mem) (n : Nat) : Option Mem :=
  if n ≤ dst.length ∧ ('\x00' ∈ src ∨ n ≤ src.length) then
    some (cstr (src.take n) ++ List.replicate (n - (cstr (src.take n)).length) '\x00' ++ dst.drop n)
  else none

/-- The memory of a C string. -/
def lit (s : S) : Mem := s ++ ['\x00']

/-- The C string in an array. -/
def readC (m : Mem) : Option S := if '\x00' ∈ m then some (cstr m) else none

/-- ThreadStream.h:226-231: the members of a thread stream for the record. -/
structure TS where
  lineLevel : Nat
  file : Mem
  line : Nat
  cls : Mem
  obj : Mem
  fn : Mem

/-- An array of `n` characters with contents `g`. -/
def array (n : Nat) (g : Nat → Char) : Mem := (List.range n).map g

/-- ThreadStream.cpp:149-159: the constructor sets the class name and the function to zeros; the file name
and the object name keep the old contents `g`, `g'` of the memory. -/
def TS.new (level : Nat) (g g' : Nat → Char) : TS :=
  ⟨level, array (logSize + 1) g, 0, List.replicate (logSize + 1) '\x00', array (logSize + 1) g',
    List.replicate (logSize + 1) '\x00'⟩

/-- A call of a setter. -/
inductive Set where
  | file (s : S)
  | line (n : Nat)
  | cls (s : S)
  | obj (s : S)
  | fn (s : S)
  | level (l : Nat)

/-- ThreadStream.cpp:50-78: the setters. -/
def TS.set (t : TS) : Set → Option TS
  | .file s => (strncpy t.file (lit s) logSize).map fun m => { t with file := m }
  | .line n => some { t with line := n }
  | .cls s => (strncpy t.cls (lit s) logSize).map fun m => { t with cls := m }
  | .obj s => (strncpy t.obj (lit s) logSize).map fun m => { t with obj := m }
  | .fn s => (strncpy t.fn (lit s) logSize).map fun m => { t with fn := m }
  | .level l => some { t with lineLevel := l }

/-- Calls of setters. -/
def TS.sets (t : TS) (l : List Set) : Option TS := l.foldlM TS.set t

/-- Constants.h:42 `cMAX_IDENTIFIER_LENGTH`. -/
def maxId : Nat := 256

/-- Constants.h:47 `cMAX_DESCRIPTION_LENGTH`. -/
def maxDesc : Nat := 1024

/-- LogOutputStream.h:252-260: the members of a `LogMessage` for the names. -/
structure LogMessage where
  level : Nat
  stream : Mem
  file : Mem
  line : Nat
  cls : Mem
  obj : Mem
  fn : Mem

/-- LogOutputStream.cpp:662-678: the constructor, in memory with old contents `g`. -/
def LogMessage.new (g : Nat → Nat → Char) (level : Nat) (stream file : Mem) (line : Nat) (cls obj fn : Mem) :
    Option LogMessage := do
  let ms ← strncpy (array (maxId + 1) (g 0)) stream (maxId + 1)
  let mf ← strncpy (array (maxDesc + 1) (g 1)) file (maxDesc + 1)
  let mc ← strncpy (array (maxId + 1) (g 2)) cls (maxId + 1)
  let mo ← strncpy (array (maxDesc + 1) (g 3)) obj (maxDesc + 1)
  let mn ← strncpy (array (maxId + 1) (g 4)) fn (maxId + 1)
  return ⟨level, ms, mf, line, mc, mo, mn⟩

/-- What a log output writes. -/
structure Rec where
  level : Nat
  stream : S
  file : S
  line : Nat
  cls : S
  obj : S
  fn : S
  deriving DecidableEq

/-- LogOutputStream.cpp:184-249 `pushImpl`: the names of the message are read as C strings. -/
def LogMessage.read (m : LogMessage) : Option Rec := do
  let s ← readC m.stream
  let f ← readC m.file
  let c ← readC m.cls
  let o ← readC m.obj
  let n ← readC m.fn
  return ⟨m.level, s, f, m.line, c, o, n⟩

/-- ThreadStream.cpp:128-141 `flush` with LogOutputStream.cpp:143-180 `push` (line numbers fit into an
`int`): the record for the log output.  The stream keeps its names. -/
def TS.flush (t : TS) (stream : S) (g : Nat → Nat → Char) : Option Rec :=
  (LogMessage.new g t.lineLevel (lit stream) t.file t.line t.cls t.obj t.fn).bind LogMessage.read

/-- LoggingMacros_SLOGGING.h:62-67: the setters called by a log statement. -/
def macroSets (level : Nat) (file : S) (line : Nat) (cls obj fn : S) : List Set :=
  [.level level, .file file, .line line, .cls cls, .obj obj, .fn fn]

end Verif.Logging.Record
