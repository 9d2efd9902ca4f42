import Verif.Config.ATModel

/-!
# Specification for C97: which line of a configuration text is wrong

The texts are lists of lines.  Nothing here mentions trees or streams.
-/
namespace Verif.AT.Err

/-- What one line means to a reader of the file. -/
inductive Kind where
  /-- a remark, an attribute, an include or a blank line: the nesting stays -/
  | plain
  /-- opens `n` levels (`a.b{` opens two) -/
  | opens (n : Nat)
  /-- opens a multi-line comment -/
  | comment
  /-- closes one level -/
  | closes
  /-- none of these -/
  | bad
  deriving DecidableEq

/-- The text before the first opening brace, without leading white space. -/
def beforeBrace (l : S) : S := (l.dropWhile isSpace).takeWhile (fun c => c ≠ '{')

/-- The kind of a line. -/
def kind (l : S) : Kind :=
  if (l.dropWhile isSpace).head? = some '#' then .plain
  else if ':' ∈ l then .plain
  else if '{' ∈ l then
    if beforeBrace l = commentStr then .comment else .opens ((comps (beforeBrace l)).takeWhile (fun d => d ≠ [])).length
  else if '}' ∈ l then .closes
  else if ∀ c ∈ l, isSpace c = true then .plain
  else .bad

/-- The verdict on a text. -/
inductive Verdict where
  /-- everything up to the end, or up to the brace that closes the outermost level, is understood -/
  | fine
  /-- the line with this index (counted from 0) is the first that is not understood -/
  | wrong (index : Nat)
  /-- a multi-line comment is not closed -/
  | unclosed
  deriving DecidableEq

/-- Go through the lines: `depth` open levels, `inside` a multi-line comment or not, `i` lines done. -/
def scan : (depth : Nat) → (inside : Bool) → (i : Nat) → List S → Verdict
  | _, false, _, [] => .fine
  | _, true, _, [] => .unclosed
  | d, true, i, l :: ls => if commentEndStr <:+: l then scan d false (i + 1) ls else scan d true (i + 1) ls
  | d, false, i, l :: ls =>
    match kind l with
    | .plain => scan d false (i + 1) ls
    | .opens n => scan (d + n) false (i + 1) ls
    | .comment => scan d true (i + 1) ls
    | .closes => if d = 0 then .fine else scan (d - 1) false (i + 1) ls
    | .bad => .wrong i

end Verif.AT.Err
