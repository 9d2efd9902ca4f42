import Verif.Config.ReadModel
import Verif.Util.SmallModel

/-!
# Model of `ConfigEnum`, `ConfigEnumDefault` and `MemberEnum`

The enum type `T` is represented by its values as `int32_t` (`T(raw_value)` keeps the number).
-/
namespace Verif.Cfg

open Verif.Small (string2Enum string2EnumVec)

/-- The two variables a read changes: the enum variable and `m_str_value`. -/
structure EnumVar where
  /-- `m_value` -/
  value : Int
  /-- `m_str_value` -/
  str : S
  deriving DecidableEq

/-- ConfigEnum.h:64-83 `ConfigEnum<T>::get`.  `raw_value` is uninitialised (`raw`), and only used after
`string2Enum` succeeded.  `ConfigManager::get` leaves its argument alone if there is no such key. -/
def enumGet (items : List (S × S)) (ds : List (Option S)) (mark : Option S) (raw : Int) (key : S) (v : EnumVar) :
    Outcome (Bool × EnumVar) :=
  match lookup items key with
  | some s =>
    (string2Enum s raw ds mark).map fun r =>
      if r.2 then (true, ⟨r.1, s⟩) else (false, { v with str := s })
  | none => .ok (false, v)

/-- ConfigEnumDefault.h:64-72 `ConfigEnumDefault<T>::get`; the text of the default is its number. -/
def enumGetDefault (items : List (S × S)) (ds : List (Option S)) (mark : Option S) (raw dflt : Int) (key : S) (v : EnumVar) :
    Outcome (Bool × EnumVar) :=
  (enumGet items ds mark raw key v).map fun r => if r.1 then (true, r.2) else (true, ⟨dflt, intText dflt⟩)

/-- MemberEnum.h:76-94: the constructor copies the descriptions up to the terminator. -/
def copyDescs (mark : Option S) : List (Option S) → Outcome (List S)
  | [] => .ub
  | d :: ds =>
    match mark, d with
    | none, none => .ok []
    | some _, none => .ub
    | some m, some t => if t = m then .ok [] else (copyDescs mark ds).map (t :: ·)
    | none, some t => (copyDescs mark ds).map (t :: ·)

/-- MemberEnum.h:105-127 `MemberEnum::get`. -/
def memberEnumGet (items : List (S × S)) (ds : List S) (raw : Int) (key : S) (v : EnumVar) : Bool × EnumVar :=
  match lookup items key with
  | some s =>
    let r := string2EnumVec s raw ds
    if r.2 then (true, ⟨r.1, s⟩) else (false, { v with str := s })
  | none => (false, v)

end Verif.Cfg
