import Verif.Config.ATErrSpec

/-!
# Specification for C108: comments in configuration texts

The texts are lists of lines.  Nothing here mentions trees or streams.
-/
namespace Verif.AT.Comment
open Verif.AT.Err

/-- A remark: the first character that is not white space is `#`. -/
def remark (l : S) : Prop := (l.dropWhile isSpace).head? = some '#'

/-- The text before the first colon, without leading white space. -/
def beforeColon (l : S) : S := (l.dropWhile isSpace).takeWhile (fun c => c ≠ ':')

/-- `name:text` where the name has `_COMMENT_` in it. -/
def commentAttr (l : S) : Prop := ¬ remark l ∧ ':' ∈ l ∧ commentStr <:+: beforeColon l

/-- The first line of a multi-line comment: `_COMMENT_{`, perhaps indented, anything without a colon behind it. -/
def opensComment (l : S) : Prop := ':' ∉ l ∧ '{' ∈ l ∧ beforeBrace l = commentStr

/-- The last line of a multi-line comment: it has `}_COMMENT_` in it. -/
def endsComment (l : S) : Prop := commentEndStr <:+: l

instance (l : S) : Decidable (remark l) := inferInstanceAs (Decidable (_ = _))
instance (l : S) : Decidable (commentAttr l) := inferInstanceAs (Decidable (_ ∧ _))
instance (l : S) : Decidable (opensComment l) := inferInstanceAs (Decidable (_ ∧ _))
instance (l : S) : Decidable (endsComment l) := inferInstanceAs (Decidable (_ <:+: _))

/-- The text without its comments (`inside`: the text starts within a multi-line comment);
`none` if a multi-line comment is not closed. -/
def uncomment : (inside : Bool) → List S → Option (List S)
  | false, [] => some []
  | true, [] => none
  | true, l :: ls => uncomment (!decide (endsComment l)) ls
  | false, l :: ls =>
    if opensComment l then uncomment true ls
    else if remark l ∨ commentAttr l then uncomment false ls
    else (uncomment false ls).map (l :: ·)

/-- A text without the white space at both ends. -/
def trim (l : S) : S := ((l.dropWhile isSpace).reverse.dropWhile isSpace).reverse

/-- The lines of a comment as one text; no text at all for no lines. -/
def joined : List S → Option S
  | [] => none
  | [l] => some (trim l)
  | l :: ls => (joined ls).map fun x => trim l ++ '\n' :: x

end Verif.AT.Comment
