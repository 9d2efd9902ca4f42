import Verif.Logging.Buffer

/-!
# Logging an Eigen matrix: `operator << (ThreadStream&, const Eigen::Matrix&)`, ThreadStream.h:287-306 (C112)

A matrix is its numbers of rows and columns and the function `matrix(row, col)`; how one entry is written is a
parameter `sh` (the streaming operators of the numbers are the subject of C65 and C100).
-/
namespace Verif.Logging.Matrix
open Verif.Logging

/-- ThreadStream.h:295-298: the writes for column `col`. -/
def column {α : Type} (sh : α → List Char) (rows : Nat) (m : Nat → Nat → α) (col : Nat) : List (List Char) :=
  (List.range rows).flatMap fun row => [[' '], sh (m row col)]

/-- ThreadStream.h:292-306: the arguments of the successive `write` calls (`col < cols - 1` is an `int` comparison,
made only for `col < cols`). -/
def writes {α : Type} (sh : α → List Char) (rows cols : Nat) (m : Nat → Nat → α) : List (List Char) :=
  [['[']] ++ ((List.range cols).flatMap fun col =>
    column sh rows m col ++ (if col + 1 < cols then [[' ', ';']] else [])) ++ [[' ', ']']]

/-- The complete text. -/
def text {α : Type} (sh : α → List Char) (rows cols : Nat) (m : Nat → Nat → α) : List Char :=
  (writes sh rows cols m).flatten

/-- `stream << matrix << flush` on a fresh thread stream: the records handed to the outputs. -/
def record {α : Type} (sh : α → List Char) (rows cols : Nat) (m : Nat → Nat → α) : Option (List (List Char)) :=
  (runOps TStream.new ((writes sh rows cols m).map (fun w => BufOp.write w 1) ++ [.flush])).map (·.out)

end Verif.Logging.Matrix
