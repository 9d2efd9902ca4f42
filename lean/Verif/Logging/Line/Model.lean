import Verif.Logging.Format
import Verif.Logging.Record
import Verif.Logging.Level

/-!
# Model: from the log statement to the line that a log output writes (C109)

Puts together the parts modelled in `Level.lean`, `Buffer.lean`, `Record.lean` and `Format.lean`: the log
macro with its tests, the thread stream with its line buffer and its names, `flush`, `push` with the
`LogMessage`, and `pushImpl` with the format.  `none` is an access outside an array.

Simplifications.  Statements are executed one after the other (the sharing of thread streams is modelled in
`Pool.lean`, the queue of a worker thread in `Worker.lean`); the output has no worker thread or its queue is
processed in order.  Which thread stream of the pool a statement gets is arbitrary (`slot`).  Streams, outputs and
thread streams are numbered.  The clock, the text that `strfLocaltime` makes of it, and the old
contents of memory are arguments of the statement, for each output.
-/
namespace Verif.Logging.Line
open Verif.Logging.Record Verif.Logging.Format

/-- A log stream: LogStream.h:182-187. -/
structure LStream where
  active : Bool
  level : Nat
  name : List Char
  outs : List Nat

/-- A thread stream: its names and its line buffer, ThreadStream.h:223-233. -/
structure TSt where
  names : TS
  buf : TStream

/-- A log output: its level, its format and the lines passed to the final `pushImpl(String)`. -/
structure Out where
  level : Nat
  format : List Entry
  lines : List (List Char)

/-- Everything. -/
structure World where
  stream : Nat → LStream
  ts : Nat → TSt
  out : Nat → Out

/-- A log statement. -/
structure Stmt where
  stream : Nat
  level : Nat
  file : List Char
  line : Nat
  cls : List Char
  obj : List Char
  fn : List Char
  msg : Msg
  /-- the thread stream that the pool hands out -/
  slot : Nat
  /-- the text of the time and the milliseconds when output `o` is reached -/
  time : Nat → List Char × Nat
  /-- memory contents at the `LogMessage` for output `o` -/
  junk : Nat → Nat → Nat → Char

/-- Functional update. -/
def upd {α : Type} (f : Nat → α) (i : Nat) (a : α) : Nat → α := fun j => if j = i then a else f j

/-- LogOutputStream.cpp:143-180 `push` and 182-296 `pushImpl`: test of the level, construction of the `LogMessage`
(662-678, with the text in line 677), rendering. -/
def pushOut (st : Stmt) (sname : List Char) (t : TSt) (outs : Nat → Out) (o : Nat) : Option (Nat → Out) :=
  if t.names.lineLevel ≥ (outs o).level then
    (t.names.flush sname (st.junk o)).bind fun r =>
      (strncpy (array (logSize + 1) (st.junk o 5)) t.buf.data (logSize + 1)).bind fun tm =>
        (readC tm).bind fun text =>
          (render ⟨(st.time o).1, (st.time o).2, (logLevelDescription r.level).toList, r.stream, r.file, r.line, r.cls, r.obj,
            r.fn, text⟩ (outs o).format).map fun l => upd outs o { outs o with lines := (outs o).lines ++ [l] }
  else some outs

/-- LoggingMacros_SLOGGING.h:55-71: the tests, the names, the text; ThreadStream.cpp:125-147 `flush`: all outputs
of the stream. -/
def logStmt (w : World) (st : Stmt) : Option World :=
  if (w.stream st.stream).active then
    if (w.stream st.stream).level ≤ st.level then
      ((w.ts st.slot).names.sets (macroSets st.level st.file st.line st.cls st.obj st.fn)).bind fun names =>
        (runOps (w.ts st.slot).buf st.msg.ops).bind fun buf =>
          ((w.stream st.stream).outs.foldlM (pushOut st (w.stream st.stream).name ⟨names, buf⟩) w.out).map fun out =>
            { w with out := out, ts := upd w.ts st.slot ⟨names, buf⟩ }
    else some w
  else some w

/-- Public calls. -/
inductive Op where
  | log (st : Stmt)
  /-- LogStream.h:72 `setActive` -/
  | setActive (s : Nat) (b : Bool)
  /-- LogStream.h `setLogLevel` -/
  | setLevel (s l : Nat)
  /-- LogStream.cpp:72-79 `addOutputStream` -/
  | addOutput (s o : Nat)
  /-- LogStream.cpp:81-88 `removeOutputStream` -/
  | removeOutput (s o : Nat)
  /-- LogOutputStream.h:166 `setLogLevel` -/
  | setOutLevel (o l : Nat)
  /-- LogOutputStream.cpp:125-141 `changeLogFormat` -/
  | setFormat (o : Nat) (fmt : List Char)

/-- One call. -/
def step (w : World) : Op → Option World
  | .log st => logStmt w st
  | .setActive s b => some { w with stream := upd w.stream s { w.stream s with active := b } }
  | .setLevel s l => some { w with stream := upd w.stream s { w.stream s with level := l } }
  | .addOutput s o =>
    let os := if o ∈ (w.stream s).outs then (w.stream s).outs else (w.stream s).outs ++ [o]
    some { w with stream := upd w.stream s { w.stream s with outs := os } }
  | .removeOutput s o =>
    some { w with stream := upd w.stream s { w.stream s with outs := (w.stream s).outs.filter (· ≠ o) } }
  | .setOutLevel o l => some { w with out := upd w.out o { w.out o with level := l } }
  | .setFormat o fmt =>
    match changeLogFormat (w.out o).format fmt with
    | .ok es => some { w with out := upd w.out o { w.out o with format := es } }
    | _ => none

/-- Calls in order. -/
def run (w : World) (ops : List Op) : Option World := ops.foldlM step w

/-- The beginning: stream `s` has the name `name s`; no outputs are attached; the outputs have the level Info and the format
`fmt`, and have written nothing; the thread streams are new, in memory of any contents. -/
def World.init (name : Nat → List Char) (fmt : List Entry) (g g' : Nat → Nat → Char) : World :=
  ⟨fun s => ⟨true, 2, name s, []⟩, fun k => ⟨TS.new 2 (g k) (g' k), TStream.new⟩, fun _ => ⟨2, fmt, []⟩⟩

end Verif.Logging.Line
