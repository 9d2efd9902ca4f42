import Verif.Config.ATTextSpec

/-!
# Specification for C140: what reading any text at all does

Extends the specifications of C97 (`kind`) and C138 (`changes`), which are about texts of complete lines of at most 1997
characters, to every sequence of characters.  Only lines and paths; no trees or streams.
-/
namespace Verif.AT.Every
open Err Text

/-- The complete lines of a text, and what stands behind the last newline. -/
def linesOf : S → List S × S
  | [] => ([], [])
  | c :: cs =>
    if c = '\n' then ([] :: (linesOf cs).1, (linesOf cs).2)
    else match (linesOf cs).1 with
      | [] => ([], c :: (linesOf cs).2)
      | l :: ls => ((c :: l) :: ls, (linesOf cs).2)

/-- A line without one carriage return at its end. -/
def shown (l : S) : S := if l.getLast? = some '\r' then l.dropLast else l

/-- Where a reader is after some lines. -/
inductive Ending where
  /-- the outermost level has been closed: the rest is not read -/
  | closed
  /-- the line with this index (counted from 0) was not understood: the rest is not read -/
  | wrong (index : Nat)
  /-- below this path -/
  | reading (path : List S)
  /-- below this path, in a multi-line comment -/
  | inside (path : List S)
  deriving DecidableEq

/-- Go through the lines from the path `p`, `inside` a multi-line comment or not, with `i` lines done. -/
def ending : (p : List S) → (inside : Bool) → (i : Nat) → List S → Ending
  | p, false, _, [] => .reading p
  | p, true, _, [] => .inside p
  | p, true, i, l :: ls => if reservedCommentEnd <:+: l then ending p false (i + 1) ls else ending p true (i + 1) ls
  | p, false, i, l :: ls =>
    match kind l with
    | .plain => ending p false (i + 1) ls
    | .opens _ => ending (p ++ pieces (beforeBrace l)) false (i + 1) ls
    | .comment => ending p true (i + 1) ls
    | .closes => if p = [] then .closed else ending p.dropLast false (i + 1) ls
    | .bad => .wrong i

/-- What becomes of reading a text. -/
inductive Report where
  /-- the call returns this number, and these are the lines that count -/
  | returns (code : Int) (lines : List S)
  /-- the call never returns -/
  | never
  deriving DecidableEq

/-- Is this line short enough for the buffer? -/
def fits (l : S) : Bool := l.length ≤ 1997

/-- What becomes of reading the text `x`.
* A line that does not fit: its first 1997 characters still count as a line, then nothing more can be read.  The call only returns if
  the reading was over with that line.
* Otherwise, if there is a complete line, the text behind the last newline does not count, except that it may close a comment.
* Otherwise the text is one line without a newline: it counts as a line, but it cannot be wrong. -/
def outcome (x : S) : Report :=
  let ls := (linesOf x).1
  let tail := (linesOf x).2
  match (ls ++ [tail]).dropWhile fits with
  | o :: _ =>
    let done := ((ls ++ [tail]).takeWhile fits ++ [o.take 1997]).map shown
    match ending [] false 0 done with
    | .closed => .returns (-1) done
    | .wrong i => .returns (i + 2) done
    | .reading _ => .never
    | .inside _ => .never
  | [] =>
    if ls = [] then
      if kind (shown tail) = .comment then .never else .returns (-1) [shown tail]
    else
      match ending [] false 0 (ls.map shown) with
      | .closed => .returns (-1) (ls.map shown)
      | .wrong i => .returns (i + 2) (ls.map shown)
      | .reading _ => .returns (-1) (ls.map shown)
      | .inside _ => if reservedCommentEnd <:+: tail then .returns (-1) (ls.map shown) else .never

end Verif.AT.Every
