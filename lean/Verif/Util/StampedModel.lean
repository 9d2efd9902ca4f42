import Verif.Base

/-!
# Model of `icl_core/DataHeader.h`: `DataHeader` and `Stamped<DataType>`

A member that no constructor initialises has an indeterminate value, `none` here; reading it
for output is undefined behaviour.  (Copying a header copies its indeterminate member; the C++
standard makes even that undefined for `std::size_t`, the model is lenient there.)  A
`boost::posix_time::ptime` is represented by the text `to_simple_string` gives for it.
-/
namespace Verif.Stamped

abbrev Text := List Char

/-- DataHeader.h:86-96 the members of `DataHeader`. -/
structure Header where
  cs : Text
  ts : Text
  seq : Nat
  dsin : Option Nat
  deriving DecidableEq, Repr

/-- DataHeader.h:66-70 default constructor; `dsin` is not in the initialiser list.  A
default-constructed `ptime` prints as `not-a-date-time`. -/
def Header.dflt : Header := { cs := [], ts := "not-a-date-time".toList, seq := 0, dsin := none }

/-- DataHeader.h:73-79 constructor; `dsin` is not in the initialiser list. -/
def Header.make (cs ts : Text) (seq : Nat) : Header := { cs, ts, seq, dsin := none }

/-- DataHeader.h:170-172 the members of `Stamped<DataType>`. -/
structure Obj (D : Type) where
  data : Option D
  header : Header

variable {D : Type}

/-- What a default-initialised `DataType` is: `none` for types without a constructor (numbers),
`some d` for classes. -/
class DefaultInit (D : Type) where
  init : Option D

/-- DataHeader.h:188-190 `Stamped()`. -/
def Obj.dflt [DefaultInit D] : Obj D := { data := DefaultInit.init, header := .dflt }

/-- DataHeader.h:193-196 `Stamped(const DataType& data)`. -/
def Obj.ofData (d : D) : Obj D := { data := some d, header := .dflt }

/-- DataHeader.h:199-201 `Stamped(const DataHeader& header)`. -/
def Obj.ofHeader [DefaultInit D] (h : Header) : Obj D := { data := DefaultInit.init, header := h }

/-- DataHeader.h:204-207 `Stamped(const DataType& data, const DataHeader& header)`. -/
def Obj.full (d : D) (h : Header) : Obj D := { data := some d, header := h }

/-- DataHeader.h:136-155 `ToStream<T, has_left_shift>::print`: the object itself if it can be
streamed, otherwise its size. -/
inductive Shown (D : Type) where
  | streamed (show' : D → Text)
  | sizeOnly (sizeof : Nat)

/-- DataHeader.h:142-145, 151-154 `ToStream<T, …>::print`. -/
def Shown.print : Shown D → Option D → Outcome Text
  | .streamed f, some d => .ok (f d)
  | .streamed _, none => .ub
  | .sizeOnly n, _ => .ok (Nat.toDigits 10 n ++ " data bytes".toList)

/-- DataHeader.h:262-277 `Stamped::print` (also `operator <<`, DataHeader.cpp:27-31). -/
def Obj.print (sh : Shown D) (o : Obj D) : Outcome Text :=
  match o.header.dsin with
  | none => .ub
  | some n =>
    match sh.print o.data with
    | .ok t =>
      .ok ("[seq: ".toList ++ Nat.toDigits 10 o.header.seq
        ++ ", timestamp: ".toList ++ o.header.ts
        ++ ", DSIN: ".toList ++ Nat.toDigits 10 n
        ++ ", Frame: ".toList ++ o.header.cs
        ++ "; ".toList ++ t ++ "]".toList)
    | .throws e => .throws e
    | .ub => .ub

/-! ## Programs -/

/-- An assignment to one member of a header. -/
inductive Set' where
  | cs (t : Text)
  | ts (t : Text)
  | seq (n : Nat)
  | dsin (n : Nat)

/-- DataHeader.h:86-96: the members are public, `header.member = value`. -/
def Header.set (h : Header) : Set' → Header
  | .cs t => { h with cs := t }
  | .ts t => { h with ts := t }
  | .seq n => { h with seq := n }
  | .dsin n => { h with dsin := some n }

/-- Statements of a program with header variables and stamped variables. -/
inductive Stmt (D : Type) where
  /-- `h = DataHeader();` -/
  | hDefault (h : Nat)
  /-- `h = DataHeader(cs, ts, seq);` -/
  | hMake (h : Nat) (cs ts : Text) (seq : Nat)
  /-- `h.member = value;` -/
  | hSet (h : Nat) (v : Set')
  /-- `h = h2;` -/
  | hCopy (h h2 : Nat)
  /-- `h = s.header();` -/
  | hGet (h s : Nat)
  /-- `s = Stamped<D>();` -/
  | sDefault (s : Nat)
  /-- `s = Stamped<D>(d);` -/
  | sData (s : Nat) (d : D)
  /-- `s = Stamped<D>(h);` -/
  | sHeader (s h : Nat)
  /-- `s = Stamped<D>(d, h);` -/
  | sFull (s : Nat) (d : D) (h : Nat)
  /-- `s = s2;` -/
  | sCopy (s s2 : Nat)
  /-- `*s = d;` (also `s.get() = d`) -/
  | sSetData (s : Nat) (d : D)
  /-- `s.header().member = value;` -/
  | sSet (s : Nat) (v : Set')
  /-- `s.header() = h;` -/
  | sPut (s h : Nat)

/-- The variables of a program. -/
structure Vars (D : Type) where
  H : Nat → Header
  S : Nat → Obj D

/-- A function changed at one place. -/
def upd {β : Type} (f : Nat → β) (i : Nat) (x : β) : Nat → β := fun k => if k = i then x else f k

/-- DataHeader.h:66-239: the effect of one statement (constructors as above; `header()`, `get()`
and `operator *` give references, h:211-236). -/
def exec [DefaultInit D] (v : Vars D) : Stmt D → Vars D
  | .hDefault h => { v with H := upd v.H h .dflt }
  | .hMake h cs ts seq => { v with H := upd v.H h (.make cs ts seq) }
  | .hSet h x => { v with H := upd v.H h ((v.H h).set x) }
  | .hCopy h h2 => { v with H := upd v.H h (v.H h2) }
  | .hGet h s => { v with H := upd v.H h (v.S s).header }
  | .sDefault s => { v with S := upd v.S s .dflt }
  | .sData s d => { v with S := upd v.S s (.ofData d) }
  | .sHeader s h => { v with S := upd v.S s (.ofHeader (v.H h)) }
  | .sFull s d h => { v with S := upd v.S s (.full d (v.H h)) }
  | .sCopy s s2 => { v with S := upd v.S s (v.S s2) }
  | .sSetData s d => { v with S := upd v.S s { v.S s with data := some d } }
  | .sSet s x => { v with S := upd v.S s { v.S s with header := (v.S s).header.set x } }
  | .sPut s h => { v with S := upd v.S s { v.S s with header := v.H h } }

/-- DataHeader.h:66, 188-190: every variable starts default-constructed. -/
def start [DefaultInit D] : Vars D := { H := fun _ => .dflt, S := fun _ => .dflt }

/-- Run a program given **latest statement first**. -/
def runRev [DefaultInit D] : List (Stmt D) → Vars D
  | [] => start
  | st :: past => exec (runRev past) st

/-- `os << s` after the program `p` (first statement first). -/
def printAfter [DefaultInit D] (sh : Shown D) (p : List (Stmt D)) (s : Nat) : Outcome Text :=
  ((runRev p.reverse).S s).print sh

end Verif.Stamped
