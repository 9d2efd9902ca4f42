import Verif.Conc.Registry.Getopt

/-!
# Specification: which calls of the command line parser conflict (for C148)
-/
namespace Verif.Registry.Opt
open Verif.Getopt Race

/-- The parser object, as in the models of C32 (`reg`) and of the help text (`help`). -/
structure State where
  reg : Reg := newReg
  help : HReg := hreg []
  parsed : Out := {}
  name : S := []
  argc : Int := 0
  version : S := []
  descr : S := []

/-- Its variables. -/
def mem (m : State) : ∀ v, Val v
  | .params => m.help.params
  | .prefixes => m.reg.prefixes
  | .shorts => m.reg.shorts
  | .shortPrefixes => m.reg.shortPrefixes
  | .required => m.help.required
  | .optional => m.help.optional
  | .delim => m.reg.delim
  | .argc => m.argc
  | .version => m.version
  | .descr => m.descr
  | .parsed => (m.parsed, m.name)

/-- What the object is after a call, in one thread. -/
def after (m : State) : Op → State
  | .setArgc x => { m with argc := x }
  | .setProgramVersion t => { m with version := t }
  | .setProgramDescription t => { m with descr := t }
  | .activateExtraCmdParams d => { m with reg := Call.run m.reg (.activate d) }
  | .addParameter o s t b => { m with reg := Call.run m.reg (.param o s b), help := HCall.run m.help (.param o s t b) }
  | .addPositional n t b => { m with reg := Call.run m.reg (.positional n b), help := HCall.run m.help (.positional n t b) }
  | _ => m

/-- What a call returns, in one thread. -/
def answer (m : State) : Op → Res
  | .paramOpt n => .text (m.parsed.paramOpt n)
  | .paramOptPresent n => .flag (m.parsed.paramOptPresent n)
  | .paramPrefixOpt p => .pairs (m.parsed.pre p)
  | .paramNonOpt i => .text (m.parsed.paramNonOpt i)
  | .paramNonOptCount => .number m.parsed.nonOpt.length
  | .extraCmdParamCount => .number m.parsed.extra.length
  | .programName => .text m.name
  | .programVersion => .text m.version
  | .programDescription => .text m.descr
  | .getArgc => .number m.argc
  | .printHelp => .text (Getopt.printHelp m.help m.name m.version m.descr)
  | _ => .none

/-- The answers of several calls made by one thread alone. -/
def answers (m : State) : List Op → List Res
  | [] => []
  | c :: cs => answer m c :: answers (after m c) cs

/-- The parts of the parser that calls can change. -/
inductive Part where
  | longOptions | longPrefixes | shortOptions | shortPrefixes | requiredNames | optionalNames | delimiter | argc | version
  | description
  deriving DecidableEq

/-- The call changes this part. -/
def Changes : Op → Part → Prop
  | .setArgc _, .argc => True
  | .setProgramVersion _, .version => True
  | .setProgramDescription _, .description => True
  | .activateExtraCmdParams _, .delimiter => True
  | .addParameter _ _ _ isPrefix, .longOptions => isPrefix = false
  | .addParameter _ short _ isPrefix, .shortOptions => isPrefix = false ∧ short ≠ []
  | .addParameter _ _ _ isPrefix, .longPrefixes => isPrefix = true
  | .addParameter _ short _ isPrefix, .shortPrefixes => isPrefix = true ∧ short ≠ []
  | .addPositional _ _ isOptional, .requiredNames => isOptional = false
  | .addPositional _ _ isOptional, .optionalNames => isOptional = true
  | _, _ => False

/-- The call only asks for this part. -/
def Asks : Op → Part → Prop
  | .programVersion, .version => True
  | .programDescription, .description => True
  | .getArgc, .argc => True
  | .printHelp, .version | .printHelp, .description | .printHelp, .longOptions => True
  | .printHelp, .requiredNames | .printHelp, .optionalNames => True
  | _, _ => False

/-- The second call uses what the first one changes. -/
def Disturbs (c d : Op) : Prop := ∃ p, Changes c p ∧ (Asks d p ∨ Changes d p)

/-- Threads that use the parser: `calls i` are the calls of thread `i`. -/
def threads {ι : Type} (m : State) (calls : ι → List Op) : World ι Val (List Res) where
  mem := mem m
  next := 0
  prog i := inOrder call (calls i)

/-- Some schedule of these calls has a data race. -/
def CanRace {ι : Type} [DecidableEq ι] (m : State) (calls : ι → List Op) : Prop :=
  ∃ sched tr w' x, (threads m calls).exec sched = some (tr, w') ∧ DataRace tr x

end Verif.Registry.Opt
