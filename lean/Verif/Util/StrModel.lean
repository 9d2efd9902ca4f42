import Verif.Base

/-!
# Model of `icl_core/StringHelper.cpp` and `StringHelper.h` (split, join, trim, pad)

`icl_core::String` is `std::string`; strings are lists of characters here.
`std::string::find` is modelled by the first position at which the needle is a prefix of
the rest.
-/
namespace Verif.Str

/-- A string. -/
abbrev S := List Char

/-- `std::string::find(needle)`: least position where `needle` occurs, `none` for `npos`. -/
def find (needle : S) : S → Option Nat
  | [] => if needle.isPrefixOf [] then some 0 else none
  | c :: cs => if needle.isPrefixOf (c :: cs) then some 0 else (find needle cs).map (· + 1)

/-- StringHelper.cpp:36-46, the loop of `split`; the first argument bounds the number of
iterations, `none` means the loop has not ended after that many. -/
def splitLoop : Nat → S → S → Option (List S)
  | 0, _, _ => none
  | k + 1, s, d =>
    match find d s with
    | some pos => (splitLoop k (s.drop (pos + d.length)) d).map (s.take pos :: ·)
    | none => some (if s ≠ [] then [s] else [])

/-- StringHelper.cpp:27-47 `split(str, delimiter)` with an iteration bound. -/
def split (k : Nat) (s d : S) : Option (List S) :=
  if s = [] then some [[]] else splitLoop k s d

/-- StringHelper.cpp:49-61 `join(substrings, delimiter)`. -/
def join (d : S) : List S → S
  | [] => []
  | p :: ps => p ++ ps.flatMap (fun q => d ++ q)

/-- C `isspace` in the default locale. -/
def isSpace (c : Char) : Bool :=
  c == ' ' || c == '\t' || c == '\n' || c == '\x0b' || c == '\x0c' || c == '\r'

/-- StringHelper.cpp:69-73, the loop that advances `trim_front`; `n` iterations remain. -/
def frontLoop (s : S) : Nat → Nat → Nat
  | 0, i => i
  | n + 1, i =>
    match s[i]? with
    | some c => if isSpace c then frontLoop s n (i + 1) else i
    | none => i

/-- StringHelper.cpp:75-79, the loop that moves `trim_end` down to at least `front`;
`n = trim_end - front` iterations remain. -/
def endLoop (s : S) (front : Nat) : Nat → Nat
  | 0 => front
  | n + 1 =>
    match s[front + (n + 1)]? with
    | some c => if isSpace c then endLoop s front n else front + (n + 1)
    | none => front + (n + 1)

/-- StringHelper.cpp:63-91 `trim(str)`. For the empty string `length - 1` wraps around to
`SIZE_MAX` and `str[SIZE_MAX]` is read: undefined behaviour. -/
def trim (s : S) : Outcome S :=
  if s.length = 0 then .ub
  else
    let front := frontLoop s s.length 0
    let last := s.length - 1
    let last := if last > front then endLoop s front (last - front) else last
    if front = s.length then .ok [] else .ok ((s.drop front).take (last - front + 1))

/-- StringHelper.h:106-117 `padLeft`. -/
def padLeft (s : S) (width : Nat) (c : Char) : S :=
  if s.length < width then List.replicate (width - s.length) c ++ s else s

/-- StringHelper.h:126-137 `padRight`. -/
def padRight (s : S) (width : Nat) (c : Char) : S :=
  if s.length < width then s ++ List.replicate (width - s.length) c else s

end Verif.Str
