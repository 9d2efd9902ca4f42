import Verif.Logging.Static.Model

/-!
# C137: specification
-/
namespace Verif.Logging.Static
open Verif.Logging.Manager

/-- An object with constructor and destructor logging on `c` and `d` stands behind the objects `pre`, which are constructed before it
in every order of the units. -/
def Behind (p : Prog) (pre : TU) (c d : List S) : Prop :=
  (∃ post, p.lib = pre ++ .user c d :: post) ∨ ∃ t ∈ p.tus, ∃ q post, t = q ++ .user c d :: post ∧ pre = p.lib ++ q

/-- There is a `REGISTER_LOG_STREAM` or `REGISTER_LOG_OUTPUT_STREAM` in these objects. -/
def HasRegistrar (t : TU) : Prop := (∃ n, .stream n ∈ t) ∨ ∃ n, .output n ∈ t

/-- The stream is registered somewhere in the program. -/
def Registered (p : Prog) (n : S) : Prop := .stream n ∈ p.lib ∨ ∃ t ∈ p.tus, .stream n ∈ t

/-- The same program with its units in another order. -/
def Reordered (p p' : Prog) : Prop := p'.lib = p.lib ∧ p'.life = p.life ∧ p'.uses = p.uses ∧ p'.tus.Perm p.tus

end Verif.Logging.Static
