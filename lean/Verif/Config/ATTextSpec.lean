import Verif.Config.ATErrSpec
import Verif.Config.ATSpec

/-!
# Specification for C138: the `setAttribute` calls a configuration text stands for

Only lines, names and paths; no trees, positions or streams.
-/
namespace Verif.AT.Text
open Err

/-- The text before the first colon of a line, without leading white space. -/
def nameOf (l : S) : S := (l.dropWhile isSpace).takeWhile (fun c => c ≠ ':')

/-- The text behind the first colon of a line. -/
def valueOf (l : S) : S := ((l.dropWhile isSpace).dropWhile (fun c => c ≠ ':')).drop 1

/-- The path that a dotted name stands for: its pieces up to the first empty one. -/
def pieces (s : S) : List S := (comps s).takeWhile (fun d => d ≠ [])

/-- A change: this path gets this value; `none`: the value at this path is removed. -/
abbrev Change := List S × Option S

/-- The change made by one line below the path `at_`. A line with a comment or include name makes none; an opening brace
removes the value. -/
def lineChanges (at_ : List S) (l : S) : List Change :=
  if (l.dropWhile isSpace).head? = some '#' then []
  else if ':' ∈ l then
    if reservedComment <:+: nameOf l ∨ nameOf l = reservedInclude then [] else [(at_ ++ pieces (nameOf l), some (valueOf l))]
  else if '{' ∈ l then [(at_ ++ pieces (beforeBrace l), none)]
  else []

/-- The changes made by a text: below the path `at_`, `inside` a multi-line comment or not. A closing brace leaves one level, even if the
opening one entered several; the outermost closing brace and a line that is not understood end the text. -/
def changes : (at_ : List S) → (inside : Bool) → List S → List Change
  | _, _, [] => []
  | p, true, l :: ls => if reservedCommentEnd <:+: l then changes p false ls else changes p true ls
  | p, false, l :: ls =>
    match kind l with
    | .plain => lineChanges p l ++ changes p false ls
    | .opens _ => lineChanges p l ++ changes (p ++ pieces (beforeBrace l)) false ls
    | .comment => changes p true ls
    | .closes => if p = [] then [] else changes p.dropLast false ls
    | .bad => []

/-- The value at path `q` after some changes, if it was `old` before: that of the last change of `q`. -/
def valueAfter (q : List S) (old : Option S) (cs : List Change) : Option S :=
  cs.foldl (fun v c => if c.1 = q then c.2 else v) old

/-- The call of `setAttribute` that makes a change. -/
def call (c : Change) (t : Tree) : Tree :=
  setAttribute (if c.1 = [] then none else some (dotted c.1)) c.2 t

/-- All calls, in order. -/
def calls (cs : List Change) (t : Tree) : Tree := cs.foldl (fun t c => call c t) t

end Verif.AT.Text
