import Verif.Config.ATModel
import Verif.Config.ReadModel

/-!
# Model of the generated names of `AttributeTree`

`icl_core_config/AttributeTree.cpp`: `newSubNodeDescription` and `addNewSubTree`.  The heap
buffer of `newSubNodeDescription` is modelled by its size: a write behind its end and a read
in front of its start are undefined behaviour.
-/
namespace Verif.AT

open Verif.Cfg (digits digitVal isWs intText)

/-- The digits of a number as `sscanf("%i")` reads them after white space and sign: base 16
after `0x`, base 8 after `0`, else base 10; `none` is a matching failure (also for `0x` without
a digit behind it, C11 7.21.6.2p9-10). -/
def scanMag : S → Option Nat
  | [] => none
  | c :: r =>
    if c = '0' then
      match r with
      | [] => some 0
      | x :: r' =>
        if x = 'x' ∨ x = 'X' then
          match r'.head?.bind digitVal with
          | some _ => some (digits 16 0 r')
          | none => none
        else some (digits 8 0 r)
    else if '1' ≤ c ∧ c ≤ '9' then some (digits 10 0 (c :: r))
    else none

/-- The number with its sign. -/
def scanSigned : S → Option Int
  | [] => none
  | c :: r =>
    if c = '-' then (scanMag r).map fun m => -(m : Int)
    else if c = '+' then (scanMag r).map fun m => (m : Int)
    else (scanMag (c :: r)).map fun m => (m : Int)

/-- The range of `int`. -/
def intFits (v : Int) : Prop := -2147483648 ≤ v ∧ v ≤ 2147483647

instance (v : Int) : Decidable (intFits v) := inferInstanceAs (Decidable (_ ∧ _))

/-- `sscanf(s, "%i", &i)`: `some v` if it returns 1.  A number that is not an `int` is
undefined behaviour (C11 7.21.6.2p10). -/
def scanInt (s : S) : Outcome (Option Int) :=
  match scanSigned (s.dropWhile isWs) with
  | none => .ok none
  | some v => if intFits v then .ok (some v) else .ub

/-- AttributeTree.cpp:1078-1082, the loop that looks for the number at the end of
`base_description`; the first argument is `base_len - j`, the result is `j` and `i`.
At `j = base_len` the text is read from `description - 1`. -/
def scanBack (base : S) : Nat → Int → Outcome (Nat × Int)
  | 0, _ => .ub
  | m + 1, i =>
    match scanInt (base.drop m) with
    | .ok (some v) => scanBack base m v
    | .ok none => .ok (base.length - (m + 1), i)
    | .throws e => .throws e
    | .ub => .ub

/-- AttributeTree.cpp:1071-1087: `j` and the first number to try. -/
def startNumber (base : S) : Outcome (Nat × Int) :=
  if base.length > 0 then
    match scanBack base base.length 1 with
    | .ok (j, i) =>
      if j ≠ 0 then (if intFits (i + 1) then .ok (j, i + 1) else .ub) else .ok (j, i)
    | .throws e => .throws e
    | .ub => .ub
  else .ok (0, 1)

/-- AttributeTree.cpp:1089, 1094 `sprintf(description + base_len - j, "%i", i)` into the buffer
of `base_len + 6` bytes (1069). -/
def printName (base : S) (j : Nat) (i : Int) : Outcome S :=
  if (base.length - j) + (intText i).length + 1 ≤ base.length + 6 then
    .ok (base.take (base.length - j) ++ intText i)
  else .ub

/-- AttributeTree.cpp:1091-1095, the search for an unused name; `names` are the descriptions
of the subtrees (not empty), the number of steps left is `100000 - i`. -/
def nameLoop (names : List (Option S)) (base : S) (j : Nat) : Nat → Int → S → Outcome S
  | 0, _, d => .ok d
  | n + 1, i, d =>
    if some d ∈ names then (printName base j (i + 1)).bind fun d' => nameLoop names base j n (i + 1) d'
    else .ok d

/-- AttributeTree.cpp:1066-1097 `newSubNodeDescription(base_description)` for a node whose
subtrees have the descriptions `names`. Without subtrees `m_subtree_list` is `NULL` in 1091. -/
def newSubNode (names : List (Option S)) (base : S) : Outcome S :=
  (startNumber base).bind fun s =>
    (printName base s.1 s.2).bind fun d =>
      if names = [] then .ub
      else nameLoop names base s.1 (100000 - s.2).toNat s.2 d

/-- AttributeTree.cpp:1100-1106 `addNewSubTree()`. -/
def addNewSubTree (t : Tree) : Outcome Tree :=
  (newSubNode (t.kids.map Tree.desc) []).map fun name => setAttribute (some name) none t

end Verif.AT
