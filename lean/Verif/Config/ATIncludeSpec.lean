import Verif.Config.ATErrSpec
import Verif.Config.ATRound
import Verif.Config.ATInclude

/-!
# Specification for C113: the text that a file with include lines stands for

Only lines and nesting depths; no trees, positions or streams.
-/
namespace Verif.AT.Inc
open Err

/-- An include line with that text: white space, `_INCLUDE_`, a colon and the text. -/
def IsInclude (l raw : S) : Prop :=
  ∃ sp : S, (∀ c ∈ sp, isSpace c = true) ∧ l = sp ++ reservedInclude ++ ':' :: raw

/-- The nesting depth after these lines, starting at depth `d`, inside a multi-line comment or not. `none`:
a line is not understood, a brace closes more than was opened, or a comment is not closed. -/
def depthAfter : (d : Nat) → (inside : Bool) → List S → Option Nat
  | d, false, [] => some d
  | _, true, [] => none
  | d, true, l :: ls => if reservedCommentEnd <:+: l then depthAfter d false ls else depthAfter d true ls
  | d, false, l :: ls =>
    match kind l with
    | .plain => depthAfter d false ls
    | .opens n => depthAfter (d + n) false ls
    | .comment => depthAfter d true ls
    | .closes => if d = 0 then none else depthAfter (d - 1) false ls
    | .bad => none

/-- The lines `ls` of `file` stand for the lines `ls'`, which have no include lines: every include line
is replaced by what the included file stands for, or dropped if there is no such file. An included file
must be complete in itself: every brace it opens it closes. -/
inductive Expands (w : World) : (file : S) → (ls ls' : List S) → Prop
  | nil (file : S) : Expands w file [] []
  | line (file l : S) (ls ls' : List S) (hi : ¬ ∃ raw, IsInclude l raw) (hc : kind l ≠ .comment)
      (h : Expands w file ls ls') : Expands w file (l :: ls) (l :: ls')
  | comment (file l : S) (cs : List S) (e : S) (ls ls' : List S) (hc : kind l = .comment)
      (hcs : ∀ c ∈ cs, ¬ reservedCommentEnd <:+: c) (he : reservedCommentEnd <:+: e)
      (h : Expands w file ls ls') : Expands w file (l :: (cs ++ e :: ls)) (l :: (cs ++ e :: ls'))
  | missing (file l raw : S) (ls ls' : List S) (hi : IsInclude l raw)
      (hm : w.target file raw = [] ∨ w.content (w.target file raw) = none)
      (h : Expands w file ls ls') : Expands w file (l :: ls) ls'
  | found (file l raw : S) (body body' ls ls' : List S) (hi : IsInclude l raw)
      (hn : w.target file raw ≠ []) (hb : w.content (w.target file raw) = some (text body))
      (hg : ∀ l ∈ body, GoodLine l) (h1 : Expands w (w.target file raw) body body')
      (hd : depthAfter 0 false body' = some 0)
      (h2 : Expands w file ls ls') : Expands w file (l :: ls) (body' ++ ls')

end Verif.AT.Inc
