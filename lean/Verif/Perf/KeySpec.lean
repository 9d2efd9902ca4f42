import Verif.Perf.Spec

/-!
# Specification of the performance monitor, for prefixes and names of any form

A sample is filed under the text `prefix::name`.
-/
namespace Verif.Perf
open Verif.StrMap

/-- The time samples recorded since the last `initialize` by calls whose prefix and name give this text,
oldest first. -/
def samplesKey (k : S) : List Op → List ℚ
  | [] => []
  | .init _ :: _ => []
  | op :: h =>
    match sampleOf h op with
    | some (p', n', x) => if p' ++ "::".toList ++ n' = k then samplesKey k h ++ [x] else samplesKey k h
    | none => samplesKey k h

/-- The other samples. -/
def nonTimeKey (k : S) : List Op → List ℚ
  | [] => []
  | .init _ :: _ => []
  | .addNonTimeData n' x p' :: h =>
    if Enabled h p' ∧ p' ++ "::".toList ++ n' = k then nonTimeKey k h ++ [x] else nonTimeKey k h
  | _ :: h => nonTimeKey k h

/-- The last static value. -/
def staticKey (k : S) : List Op → Option ℚ
  | [] => none
  | .addStaticData n' x p' :: h =>
    if Enabled h p' ∧ p' ++ "::".toList ++ n' = k then some x else staticKey k h
  | _ :: h => staticKey k h

end Verif.Perf
