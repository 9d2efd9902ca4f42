import Verif.Base

/-!
# Log format strings: model (C49)

LogOutputStream.cpp:125-141 (`changeLogFormat`), 182-296 (`pushImpl`), 393-506 (`parseLogFormat`).
Strings are lists of characters without the terminating NUL. Simplified: the text of the timestamp
(`strfLocaltime`) and of the level are inputs; `isdigit` is the C locale on plain `char`; the two mutex
waits succeed.
-/
namespace Verif.Logging.Format

/-- LogOutputStream.h:312-325. -/
inductive Kind where
  | text | className | objectName | function | message | filename | line | level | stream | timestamp | timestampMs
  deriving DecidableEq, Repr

/-- LogOutputStream.h:310-338; `width` is a `size_t`. -/
structure Entry where
  kind : Kind
  width : Nat
  text : List Char
  suffix : List Char
  deriving DecidableEq, Repr

/-- Outcome of `parseLogFormat`. -/
inductive Res where
  | ok (es : List Entry)
  /-- reads past the terminating NUL of the format string -/
  | overread
  /-- writes past the end of `text[100]` -/
  | overflow
  /-- call budget used up (shown not to happen) -/
  | fuel
  deriving DecidableEq, Repr

/-- The comparison chain of lines 411-413 and 421-477. -/
def kindOf (c : Char) : Option Kind :=
  if c = 'C' then some .className
  else if c = 'O' then some .objectName
  else if c = 'D' then some .function
  else if c = 'E' then some .message
  else if c = 'F' then some .filename
  else if c = 'G' then some .line
  else if c = 'L' then some .level
  else if c = 'S' then some .stream
  else if c = 'T' then some .timestamp
  else if c = 'M' then some .timestampMs
  else none

/-- Decimal digit value. -/
def digit (c : Char) : Nat := c.toNat - '0'.toNat

/-- Lines 403-407: the field width, `size_t` arithmetic. -/
def readWidth (w : Nat) : List Char → Nat × List Char
  | c :: cs => if c.isDigit then readWidth ((10 * w + digit c) % 2 ^ 64) cs else (w, c :: cs)
  | [] => (w, [])

/-- Lines 410-418: the prefix text. -/
def readPrefix : List Char → List Char × List Char
  | c :: cs =>
    if (kindOf c).isSome then ([], c :: cs)
    else let r := readPrefix cs; (c :: r.1, r.2)
  | [] => ([], [])

/-- Lines 487-492: literal text. -/
def readText : List Char → List Char × List Char
  | c :: cs => if c = '~' then ([], c :: cs) else let r := readText cs; (c :: r.1, r.2)
  | [] => ([], [])

/-- Lines 428-439: the closing parenthesis. -/
def suffixOf (k : Kind) (text : List Char) : List Char :=
  if k = .objectName then
    match text with
    | '(' :: _ => [')']
    | '[' :: _ => [']']
    | '{' :: _ => ['}']
    | _ => []
  else []

/-- Lines 393-506; `acc` is `m_new_log_format`, the first argument a call budget. -/
def parse : Nat → List Entry → List Char → Res
  | 0, _, _ => .fuel
  | n + 1, acc, fmt =>
    match fmt with
    | '~' :: rest =>
      let w := readWidth 0 rest
      let p := readPrefix w.2
      if p.1.length > 100 then .overflow
      else
        match p.2 with
        | [] => .overread
        | c :: rest' =>
          let k := (kindOf c).getD .text
          let acc' := acc ++ [⟨k, w.1, p.1, suffixOf k p.1⟩]
          if rest' = [] then .ok acc' else parse n acc' rest'
    | _ =>
      let t := readText fmt
      if t.1.length > 100 then .overflow
      else
        let acc' := if t.1 = [] then acc else acc ++ [⟨.text, 0, t.1, []⟩]
        if t.2 = [] then .ok acc' else parse n acc' t.2

/-- Lines 125-141: the new format; an empty string changes nothing. -/
def changeLogFormat (old : List Entry) (fmt : List Char) : Res :=
  if fmt = [] then .ok old else parse (fmt.length + 1) [] fmt

/-- LogOutputStream.h:243-261, as texts. -/
structure Message where
  time : List Char
  msec : Nat
  level : List Char
  stream : List Char
  filename : List Char
  line : Nat
  className : List Char
  objectName : List Char
  function : List Char
  text : List Char

/-- `std::stringstream << int`. -/
def dec (n : Nat) : List Char := Nat.toDigits 10 n

/-- Lines 262-280: milliseconds with leading zeros. -/
def renderMs (width msec : Nat) : List Char :=
  let len := if msec ≥ 100 then 3 else if msec ≥ 10 then 2 else 1
  List.replicate (width - len) '0' ++ dec msec

/-- Lines 190-288, one entry. `none`: reading an unterminated `text[100]`. -/
def renderEntry (m : Message) (e : Entry) : Option (List Char) :=
  match e.kind with
  | .text => if e.text.length < 100 then some e.text else none
  | .className => if m.className = [] then some [] else if e.text.length < 100 then some (e.text ++ m.className) else none
  | .objectName =>
    if m.objectName = [] then some []
    else if e.text.length < 100 then some (e.text ++ m.objectName ++ e.suffix) else none
  | .function => if m.function = [] then some [] else if e.text.length < 100 then some (e.text ++ m.function) else none
  | .message => some m.text
  | .filename => some m.filename
  | .line => some (dec m.line)
  | .level => some m.level
  | .stream => some m.stream
  | .timestamp => some m.time
  | .timestampMs => some (renderMs e.width m.msec)

/-- Lines 182-296: the whole line. -/
def render (m : Message) : List Entry → Option (List Char)
  | [] => some []
  | e :: es => (renderEntry m e).bind fun a => (render m es).map (a ++ ·)

end Verif.Logging.Format
