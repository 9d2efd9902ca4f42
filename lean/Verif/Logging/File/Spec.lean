import Verif.Logging.File.Model

/-! # Specification for the log files (C70) -/
namespace Verif.Logging.File

/-- The program is running after the history (newest first). -/
def running : List Op → Bool
  | [] => false
  | .start _ :: _ => true
  | .push .. :: h => running h
  | .stop :: _ => false

/-- The lines logged by a running program, in order, with their time. -/
def logged : List Op → List (Int × S)
  | [] => []
  | .push e s :: h => if running h then logged h ++ [(e.t, s)] else logged h
  | _ :: h => logged h

/-- The time is within the `d`-th day (UTC) after the first of January 1970. -/
def OnDay (d t : Int) : Prop := 86400 * d ≤ t ∧ t < 86400 * (d + 1)

instance (d t : Int) : Decidable (OnDay d t) := inferInstanceAs (Decidable (_ ∧ _))

/-- The lines logged on one day. -/
def loggedOn (d : Int) (h : List Op) : List S :=
  ((logged h).filter fun x => OnDay d x.1).map Prod.snd

/-- Both times are on the same day. -/
def SameDay (t t' : Int) : Prop := ∃ d, OnDay d t ∧ OnDay d t'

/-- The time of the last step. -/
def now : List Op → Int
  | [] => 0
  | .start e :: _ => e.w
  | .push e _ :: _ => e.w
  | .stop :: h => now h

/-- What the environment is in a step. -/
def Op.env : Op → Option Env
  | .start e => some e
  | .push e _ => some e
  | .stop => none

/-- The clock never goes back, and shows a time from 1970 to the end of 9999. -/
def ClockOk : List Op → Prop
  | [] => True
  | op :: h => ClockOk h ∧ ∀ e, op.env = some e → now h ≤ e.t ∧ e.t ≤ e.w ∧ e.w < 2932897 * 86400

/-- A condition on all environments of a history. -/
def Always (P : Env → Prop) (h : List Op) : Prop := ∀ op ∈ h, ∀ e, op.env = some e → P e

/-- The log lines in a list of pieces. -/
def linesOf : List Piece → List S
  | [] => []
  | .opened :: r => linesOf r
  | .line s :: r => s :: linesOf r

/-- The log lines in the file of this name; none if there is no such file. -/
def linesIn (fs : Dir) (x : S) : List S :=
  match fs x with
  | some f => linesOf f.content
  | none => []

/-- There is neither a log file nor an archived one. -/
def Clean (c : Cfg) (fs : Dir) : Prop := fs c.name = none ∧ ∀ d, fs (archiveName c d) = none

end Verif.Logging.File
