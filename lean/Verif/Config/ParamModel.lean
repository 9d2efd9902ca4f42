import Verif.Config.ReadModel

/-!
# Model of the typed access to the command line (`icl_core_config/Config.h:383-514`) and of `getDefault`

`conv` stands for `impl::hexical_cast<T>`: `intCast bound` for a signed integer type,
`stringCast` for `icl_core::String`.
-/
namespace Verif.Cfg

/-- Util.h:42-51 `hexical_cast<String>`: `interpreter >> result` reads one word. -/
def stringCast (input : S) : Outcome S := .ok (firstWord input)

/-- Config.h:383-403 `paramOpt<T>`; the second component is `value` afterwards. -/
def paramOpt {V : Type} (conv : S → Outcome V) (o : Getopt.Out) (name : S) (value : V) : Outcome (Bool × V) :=
  if o.paramOptPresent name then
    match conv (o.paramOpt name) with
    | .ok v => .ok (true, v)
    | .throws _ => .ok (false, value)
    | .ub => .ub
  else .ok (false, value)

/-- Config.h:442-461 `paramOptDefault<T>`. -/
def paramOptDefault {V : Type} (conv : S → Outcome V) (o : Getopt.Out) (name : S) (dflt : V) : Outcome V :=
  if o.paramOptPresent name then
    match conv (o.paramOpt name) with
    | .ok v => .ok v
    | .throws _ => .ok dflt
    | .ub => .ub
  else .ok dflt

/-- Config.h:469-489 `paramNonOpt<T>`. -/
def paramNonOptT {V : Type} (conv : S → Outcome V) (o : Getopt.Out) (i : Nat) (value : V) : Outcome (Bool × V) :=
  if i < o.nonOpt.length then
    match conv (o.paramNonOpt i) with
    | .ok v => .ok (true, v)
    | .throws _ => .ok (false, value)
    | .ub => .ub
  else .ok (false, value)

/-- Config.h:114-117 `get<String>`. -/
def getString (items : List (S × S)) (key : S) (value : S) : Bool × S :=
  match lookup items key with
  | some s => (true, s)
  | none => (false, value)

/-- Config.h:199-205 and 213-220 `getDefault<T>` for a `get<T>` that returns its result and the
new content of the variable. -/
def getDefault {V : Type} (get : V → Outcome (Bool × V)) (dflt : V) : Outcome V :=
  (get dflt).map (·.2)

end Verif.Cfg
