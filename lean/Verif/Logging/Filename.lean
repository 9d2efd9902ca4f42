import Verif.Base

/-!
# Model of `FileLogOutput::expandFilename` (C96)

`wordexp(3)` is external: it is a function `we` left open (`none` = a result code other than 0), of which
only what its documentation says about words without quoting, expansions and patterns is used
(`Documented`).
-/
namespace Verif.Logging.Filename

/-- A string. -/
abbrev S := List Char

/-- FileLogOutput.cpp:304-320 `expandFilename` on POSIX systems: the new value of `m_filename`. -/
def expandFilename (we : S → Option (List S)) (filename : S) : S :=
  match we filename with
  | some words => if words.length > 0 then words.headD [] else filename
  | none => filename

/-! ## What is known about `wordexp` -/

/-- Blanks separate words. -/
def isBlank (c : Char) : Bool := c == ' ' || c == '\t'

/-- Characters that make `wordexp` fail with `WRDE_BADCHAR` unless quoted. -/
def isBad (c : Char) : Bool := "\n|&;<>(){}".toList.contains c

/-- Characters with a meaning: quotes, expansions, patterns, comments. -/
def isSpecial (c : Char) : Bool := "\\'\"$`~*?[#".toList.contains c

/-- Put a character that is not blank in front of the rest `r`, whose words are `ws`. -/
def addChar (c : Char) (r : S) (ws : List S) : List S :=
  match r.head?, ws with
  | some d, w :: ws' => if isBlank d then [c] :: w :: ws' else (c :: w) :: ws'
  | _, ws => [c] :: ws

/-- The words of a string without such characters: maximal runs of characters that are not blank. -/
def words : S → List S
  | [] => []
  | c :: r => if isBlank c then words r else addChar c r (words r)

/-- `wordexp` on plain strings. -/
structure Documented (we : S → Option (List S)) : Prop where
  plain : ∀ s, (∀ c ∈ s, isSpecial c = false) → (∀ c ∈ s, isBad c = false) → we s = some (words s)
  bad : ∀ s, (∀ c ∈ s, isSpecial c = false) → (∃ c ∈ s, isBad c = true) → we s = none

end Verif.Logging.Filename
