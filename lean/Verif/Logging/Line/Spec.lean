import Verif.Logging.Line.Model
import Verif.Logging.FormatProps
import Verif.Logging.RecordProps

/-! # Specification of the written lines (C109) -/
namespace Verif.Logging.Line
open Verif.Logging.Record Verif.Logging.Format

/-- What the user has configured. -/
structure Cfg where
  active : Nat → Bool
  level : Nat → Nat
  attached : Nat → Nat → Bool
  outLevel : Nat → Nat
  format : Nat → List Item

/-- A call by the user; the format is given by its pieces. -/
inductive Call where
  | log (st : Stmt)
  | setActive (s : Nat) (b : Bool)
  | setLevel (s l : Nat)
  | addOutput (s o : Nat)
  | removeOutput (s o : Nat)
  | setOutLevel (o l : Nat)
  | setFormat (o : Nat) (is : List Item)

/-- What is called. -/
def Call.op : Call → Op
  | .log st => .log st
  | .setActive s b => .setActive s b
  | .setLevel s l => .setLevel s l
  | .addOutput s o => .addOutput s o
  | .removeOutput s o => .removeOutput s o
  | .setOutLevel o l => .setOutLevel o l
  | .setFormat o is => .setFormat o (write is)

/-- The effect on the configuration. -/
def Cfg.after (c : Cfg) : Call → Cfg
  | .log _ => c
  | .setActive s b => { c with active := fun x => if x = s then b else c.active x }
  | .setLevel s l => { c with level := fun x => if x = s then l else c.level x }
  | .addOutput s o => { c with attached := fun x y => if x = s ∧ y = o then true else c.attached x y }
  | .removeOutput s o => { c with attached := fun x y => if x = s ∧ y = o then false else c.attached x y }
  | .setOutLevel o l => { c with outLevel := fun x => if x = o then l else c.outLevel x }
  | .setFormat o is => { c with format := fun x => if x = o then is else c.format x }

/-- The statement reaches output `o`. -/
def Cfg.delivers (c : Cfg) (st : Stmt) (o : Nat) : Bool :=
  c.active st.stream && decide (c.level st.stream ≤ st.level) && c.attached st.stream o && decide (c.outLevel o ≤ st.level)

/-- The fields of a statement. -/
def Stmt.message (st : Stmt) (sname : List Char) (o : Nat) : Message :=
  ⟨(st.time o).1, (st.time o).2, (logLevelDescription st.level).toList, sname, st.file, st.line, st.cls, st.obj, st.fn,
    st.msg.expected⟩

/-- The lines that output `o` writes: for each statement that is delivered one line, showing the pieces of
the current format. -/
def lines (name : Nat → List Char) (o : Nat) : Cfg → List Call → List (List Char)
  | _, [] => []
  | c, .log st :: cs =>
    (if c.delivers st o then [((c.format o).map (Item.show (st.message (name st.stream) o))).flatten] else [])
      ++ lines name o c cs
  | c, call :: cs => lines name o (c.after call) cs

/-- The documented limits. -/
structure Stmt.Legal (st : Stmt) (name : Nat → List Char) : Prop where
  stream : CStr (name st.stream) ∧ (name st.stream).length ≤ 256
  file : CStr st.file ∧ st.file.length ≤ 1024
  cls : CStr st.cls ∧ st.cls.length ≤ 256
  obj : CStr st.obj ∧ st.obj.length ≤ 1024
  fn : CStr st.fn ∧ st.fn.length ≤ 256
  pieces : ∀ p ∈ st.msg.pieces, p.length + 1 < 2 ^ 64
  msec : ∀ o, (st.time o).2 < 1000

/-- A format within the limits. -/
def GoodFormat (is : List Item) : Prop := is ≠ [] ∧ wfItems is ∧ ∀ i ∈ is, i.len < 100

/-- Limits for a call. -/
def Call.Legal (name : Nat → List Char) : Call → Prop
  | .log st => st.Legal name
  | .setFormat _ is => GoodFormat is
  | _ => True

/-- The configuration at the beginning. -/
def Cfg.init : Cfg := ⟨fun _ => true, fun _ => 2, fun _ _ => false, fun _ => 2, fun _ => defaultItems⟩

end Verif.Logging.Line
