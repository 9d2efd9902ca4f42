import Verif.Base

/-!
# Model of `UdpLogOutput::pushImpl` and `UdpLoggingServer::processPendingDatagrams`

Not modelled: the network (datagrams arrive as sent), the time zone of the printed time stamp (its
text is a field of the message), texts with NUL characters (the fields are C strings).
-/
namespace Verif.Logging.Udp

/-- Strings. -/
abbrev S := List Char

/-- The fields of a log message, with the system name, as they are printed. -/
structure Msg where
  system : S
  time : S
  nsec : Nat
  level : S
  stream : S
  file : S
  line : Nat
  cls : S
  object : S
  func : S
  text : S

/-- Decimal text. -/
def num (n : Nat) : S := Nat.toDigits 10 n

/-- How Boost.Regex expands a format string in its default (Perl) syntax, for backslashes before
characters without special meaning and ordinary characters: the backslash is dropped. -/
def format : S → S
  | '\\' :: c :: r => c :: format r
  | c :: r => c :: format r
  | [] => []

/-- UdpLogOutput.cpp:123-130 `escape`: `regex_replace(str, regex("'"), "\\'")`; the format string
consists of the two characters `\` and `'`. -/
def escape (s : S) : S := s.flatMap fun c => if c = '\'' then format ['\\', '\''] else [c]

/-- A text in apostrophes. -/
def quoted (s : S) : S := '\'' :: s ++ ['\'']

/-- UdpLogOutput.cpp:100-121 `pushImpl`. -/
def record (m : Msg) : S :=
  quoted m.system ++ [','] ++ quoted m.time ++ [','] ++ num m.nsec ++ [','] ++ quoted m.level ++ [',']
    ++ quoted m.stream ++ [','] ++ quoted m.file ++ [','] ++ num m.line ++ [','] ++ quoted m.cls ++ [',']
    ++ quoted (escape m.object) ++ [','] ++ quoted m.func ++ [','] ++ quoted (escape m.text)

/-- uls/UdpLoggingServer.cpp:77-79: the part of the SQL statement after `VALUES `. -/
def statement (datagram : S) : S := '(' :: datagram ++ [')']

/-! ## Specification: SQL value lists -/

/-- A value in a table. -/
inductive Val where
  | text (s : S)
  | num (n : Nat)
  deriving DecidableEq

/-- States of the reader of SQL value lists. -/
inductive St where
  | row
  | value (r : List Val)
  | str (r : List Val) (acc : S)
  | quote (r : List Val) (acc : S)
  | digits (r : List Val) (n : Nat)
  | after
  deriving DecidableEq

/-- The rows given by the text after `VALUES` in an SQL `INSERT` statement, or `none` for a syntax
error: rows `(v,...,v)` separated by commas; a value is a string in apostrophes, in which an
apostrophe is written as two, or a decimal number.  (White space between them and other kinds of
values are left out.) -/
def sqlRows (done : List (List Val)) : St → S → Option (List (List Val))
  | .row, c :: s => if c = '(' then sqlRows done (.value []) s else none
  | .value r, c :: s =>
    if c = '\'' then sqlRows done (.str r []) s
    else if c.isDigit then sqlRows done (.digits r (c.toNat - 48)) s
    else none
  | .str r acc, c :: s =>
    if c = '\'' then sqlRows done (.quote r acc) s else sqlRows done (.str r (acc ++ [c])) s
  | .quote r acc, c :: s =>
    if c = '\'' then sqlRows done (.str r (acc ++ ['\''])) s
    else if c = ',' then sqlRows done (.value (r ++ [.text acc])) s
    else if c = ')' then sqlRows (done ++ [r ++ [.text acc]]) .after s
    else none
  | .digits r n, c :: s =>
    if c.isDigit then sqlRows done (.digits r (10 * n + (c.toNat - 48))) s
    else if c = ',' then sqlRows done (.value (r ++ [.num n])) s
    else if c = ')' then sqlRows (done ++ [r ++ [.num n]]) .after s
    else none
  | .after, [] => some done
  | .after, c :: s => if c = ',' then sqlRows done .row s else none
  | _, [] => none

/-- The rows a datagram adds to the table; a syntax error adds none. -/
def inserted (datagram : S) : List (List Val) := (sqlRows [] .row (statement datagram)).getD []

/-- The row a message should give. -/
def Msg.row (m : Msg) : List Val :=
  [.text m.system, .text m.time, .num m.nsec, .text m.level, .text m.stream, .text m.file, .num m.line,
   .text m.cls, .text m.object, .text m.func, .text m.text]

/-- The texts of a message. -/
def Msg.texts (m : Msg) : List S :=
  [m.system, m.time, m.level, m.stream, m.file, m.cls, m.object, m.func, m.text]

end Verif.Logging.Udp
