import Verif.Util.StampedModel

/-!
# Specification for C119: where a printed field comes from

`fieldOf f past l` walks back through the statements executed so far (latest first) to the one
that gave field `f` of the header at `l` its value.
-/
namespace Verif.Stamped

variable {D : Type}

/-- The fields of a header. -/
inductive Field where
  | cs | ts | seq | dsin
  deriving DecidableEq, Repr

/-- A header: a variable of its own, or the header of a stamped variable. -/
inductive Loc where
  | hdr (h : Nat)
  | st (s : Nat)
  deriving DecidableEq, Repr

/-- The field an assignment is about. -/
def Set'.field : Set' → Field
  | .cs _ => .cs | .ts _ => .ts | .seq _ => .seq | .dsin _ => .dsin

/-- The text of the assigned value. -/
def Set'.text : Set' → Text
  | .cs t => t | .ts t => t | .seq n => Nat.toDigits 10 n | .dsin n => Nat.toDigits 10 n

/-- What is documented for a default-constructed header: no frame, an invalid time, number 0.
The device-specific number has no value. -/
def fresh : Field → Option Text
  | .cs => some []
  | .ts => some "not-a-date-time".toList
  | .seq => some "0".toList
  | .dsin => none

/-- What the constructor with arguments gives. -/
def made (cs ts : Text) (seq : Nat) : Field → Option Text
  | .cs => some cs
  | .ts => some ts
  | .seq => some (Nat.toDigits 10 seq)
  | .dsin => none

/-- The value of field `f` at `l` after the statements `past` (latest first); `none`: no
statement ever gave it one. -/
def fieldOf (f : Field) : List (Stmt D) → Loc → Option Text
  | [], _ => fresh f
  | .hDefault h :: past, l => if l = .hdr h then fresh f else fieldOf f past l
  | .hMake h cs ts n :: past, l => if l = .hdr h then made cs ts n f else fieldOf f past l
  | .hSet h v :: past, l => if l = .hdr h ∧ v.field = f then some v.text else fieldOf f past l
  | .hCopy h h2 :: past, l => if l = .hdr h then fieldOf f past (.hdr h2) else fieldOf f past l
  | .hGet h s :: past, l => if l = .hdr h then fieldOf f past (.st s) else fieldOf f past l
  | .sDefault s :: past, l => if l = .st s then fresh f else fieldOf f past l
  | .sData s _ :: past, l => if l = .st s then fresh f else fieldOf f past l
  | .sHeader s h :: past, l => if l = .st s then fieldOf f past (.hdr h) else fieldOf f past l
  | .sFull s _ h :: past, l => if l = .st s then fieldOf f past (.hdr h) else fieldOf f past l
  | .sCopy s s2 :: past, l => if l = .st s then fieldOf f past (.st s2) else fieldOf f past l
  | .sSetData _ _ :: past, l => fieldOf f past l
  | .sSet s v :: past, l => if l = .st s ∧ v.field = f then some v.text else fieldOf f past l
  | .sPut s h :: past, l => if l = .st s then fieldOf f past (.hdr h) else fieldOf f past l

/-- The data of stamped variable `s` after the statements `past` (latest first). -/
def dataOf [DefaultInit D] : List (Stmt D) → Nat → Option D
  | [], _ => DefaultInit.init
  | .sDefault k :: past, s => if s = k then DefaultInit.init else dataOf past s
  | .sHeader k _ :: past, s => if s = k then DefaultInit.init else dataOf past s
  | .sData k d :: past, s => if s = k then some d else dataOf past s
  | .sFull k d _ :: past, s => if s = k then some d else dataOf past s
  | .sSetData k d :: past, s => if s = k then some d else dataOf past s
  | .sCopy k k2 :: past, s => if s = k then dataOf past k2 else dataOf past s
  | _ :: past, s => dataOf past s

/-- Does the program assign a device-specific item number anywhere? -/
def assignsDsin : Stmt D → Bool
  | .hSet _ v => v.field = .dsin
  | .sSet _ v => v.field = .dsin
  | _ => false

end Verif.Stamped
