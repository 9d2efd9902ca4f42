import Verif.Perf.Model

/-!
# Specification of the performance monitor

In terms of the history of calls, newest first.
-/
namespace Verif.Perf
open Verif.StrMap

/-- The flag `m_enabled`: true until it is set to something else. -/
def flagAt : List Op → Bool
  | [] => true
  | .setEnabled b :: _ => b
  | _ :: h => flagAt h

/-- The last `enableAll`. -/
def allAt : List Op → Bool
  | [] => false
  | .enableAll b :: _ => b
  | _ :: h => allAt h

/-- The last call that enabled or disabled this prefix; `initialize` enables the empty one. -/
def prefixAt (p : S) : List Op → Bool
  | [] => false
  | .enablePrefix q :: h => q = p || prefixAt p h
  | .disablePrefix q :: h => q ≠ p && prefixAt p h
  | .init _ :: h => p = [] || prefixAt p h
  | _ :: h => prefixAt p h

/-- Is a prefix enabled? -/
def Enabled (h : List Op) (p : S) : Bool := (flagAt h && prefixAt p h) || allAt h

/-- When was the timer started?  0 if it was not. -/
def timerAt (t : S) : List Op → Int
  | [] => 0
  | .start t' now :: h => if t' = t ∧ flagAt h then now else timerAt t h
  | .startStop t' _ p now :: h =>
    if t' = t ∧ Enabled h p ∧ (timerAt t h ≠ 0 ∨ flagAt h) then now else timerAt t h
  | _ :: h => timerAt t h

/-- The time sample that a call, made after the history `h`, records: prefix, name and value. -/
def sampleOf (h : List Op) : Op → Option (S × S × ℚ)
  | .addData n x p => if Enabled h p then some (p, n, x) else none
  | .measurement t d p now => if Enabled h p then some (p, d, ((now - timerAt t h : Int) : ℚ) / 1000000) else none
  | .startStop t d p now =>
    if Enabled h p ∧ timerAt t h ≠ 0 then some (p, d, ((now - timerAt t h : Int) : ℚ) / 1000000) else none
  | _ => none

/-- The time samples recorded for a prefix and a name since the last `initialize`, oldest first. -/
def samples (p n : S) : List Op → List ℚ
  | [] => []
  | .init _ :: _ => []
  | op :: h =>
    match sampleOf h op with
    | some (p', n', x) => if p' = p ∧ n' = n then samples p n h ++ [x] else samples p n h
    | none => samples p n h

/-- The other samples. -/
def nonTime (p n : S) : List Op → List ℚ
  | [] => []
  | .init _ :: _ => []
  | .addNonTimeData n' x p' :: h =>
    if Enabled h p' ∧ p' = p ∧ n' = n then nonTime p n h ++ [x] else nonTime p n h
  | _ :: h => nonTime p n h

/-- The last static value. -/
def staticAt (p n : S) : List Op → Option ℚ
  | [] => none
  | .addStaticData n' x p' :: h => if Enabled h p' ∧ p' = p ∧ n' = n then some x else staticAt p n h
  | _ :: h => staticAt p n h

/-- The statistics of some samples: their number, their mean, the least and the greatest of
them, and the (upper) median: a sample with at least half of the samples on either side. -/
structure Correct (st : Stats) (v : List ℚ) : Prop where
  count : st.count = v.length
  avg : st.avg = v.sum / v.length
  min : st.min ∈ v ∧ ∀ x ∈ v, st.min ≤ x
  max : st.max ∈ v ∧ ∀ x ∈ v, x ≤ st.max
  median : st.median ∈ v ∧ v.length < 2 * v.countP (· ≤ st.median) ∧ v.length ≤ 2 * v.countP (st.median ≤ ·)

/-- The prefix of a call. -/
def Op.pfx : Op → Option S
  | .measurement _ _ p _ => some p
  | .startStop _ _ p _ => some p
  | .addData _ _ p => some p
  | .addNonTimeData _ _ p => some p
  | .addStaticData _ _ p => some p
  | _ => none

/-- `::` does not occur in the prefix, and it does not end with a colon. -/
def Plain (p : S) : Prop := ∀ a b, p ++ [':'] ≠ a ++ ':' :: ':' :: b

/-- This holds for all prefixes that data is recorded for. -/
def PlainPrefixes (h : List Op) : Prop := ∀ op ∈ h, ∀ p, op.pfx = some p → Plain p

end Verif.Perf
