import Verif.Config.GetoptModel

/-!
# Model of `Getopt::printHelp` (`icl_core_config/GetoptParser.cpp:473-558`)

The registrations carry their help texts here.  The text written to `std::cerr` is a list of
characters; `std::endl` is the newline character.
-/
namespace Verif.Getopt

/-- A registration call with its help text (GetoptParameter.h:52-57,
GetoptPositionalParameter.h:36-47). -/
inductive HCall where
  | param (option short help : S) (isPrefix : Bool)
  | positional (name help : S) (isOptional : Bool)
  deriving DecidableEq

/-- The registrations that `printHelp` looks at (GetoptParser.h:310-318). -/
structure HReg where
  /-- `m_parameters`, with the help text -/
  params : List (S × (Param × S)) := []
  /-- `m_required_positional_parameters`: name and help text -/
  required : List (S × S) := []
  /-- `m_optional_positional_parameters` -/
  optional : List (S × S) := []

/-- GetoptParser.cpp:45-84 `addParameter`; prefix options go into maps that `printHelp` does
not read, and are left out here. -/
def HCall.run (g : HReg) : HCall → HReg
  | .param o s t b =>
    if b then g else { g with params := ins (mkParam o s b).option (mkParam o s b, t) g.params }
  | .positional n t b =>
    if b then { g with optional := g.optional ++ [(n, t)] }
    else { g with required := g.required ++ [(n, t)] }

/-- GetoptParser.cpp:704-709, the registration made by the constructor. -/
def helpCall : HCall :=
  .param ['h', 'e', 'l', 'p'] ['h'] "Print commandline help.".toList false

/-- The registrations of a `Getopt` object after some calls. -/
def hreg (h : List HCall) : HReg := (helpCall :: h).foldl HCall.run {}

/-- `boost::regex_replace(text, boost::regex("\\n"), "\n\t")`. -/
def indent (s : S) : S := s.flatMap fun c => if c = '\n' then ['\n', '\t'] else [c]

/-- GetoptParser.cpp:517-522 `is_generic`. -/
def isGeneric (p : Param) : Bool :=
  p.option == "configfile".toList || p.option == "dump-config".toList ||
  p.option == "help".toList || p.option == "log-level".toList || p.option == "quick-debug".toList

/-- GetoptParser.cpp:525-552, one entry of the list of options. -/
def entryText (p : Param) (help : S) : S :=
  "  ".toList
  ++ (if p.short ≠ [] then
        ['-'] ++ p.short ++ (if p.hasValue then " <value>".toList else []) ++ ", ".toList
      else [])
  ++ "--".toList ++ p.option ++ (if p.hasValue then "=<value>".toList else [])
  ++ ":\n\t".toList ++ indent help ++ ['\n']

/-- GetoptParser.cpp:510-555, the two lists of options. -/
def optionLists (g : HReg) : S :=
  let list (generic : Bool) :=
    g.params.flatMap fun e => if isGeneric e.2.1 = generic then entryText e.2.1 e.2.2 else []
  "Generic options:\n".toList ++ list true ++ ['\n'] ++ "Options:\n".toList ++ list false ++ ['\n']

/-- GetoptParser.cpp:475-508, the part before the options. -/
def helpHead (g : HReg) (name version descr : S) : S :=
  let pos := g.required.map (fun e => (e, false)) ++ g.optional.map (fun e => (e, true))
  name ++ (if version ≠ [] then " (version ".toList ++ version ++ [')'] else []) ++ "\n\n".toList
  ++ "Usage: ".toList ++ name ++ " [OPTIONS...]".toList
  ++ (pos.flatMap fun x => if x.2 then " [<".toList ++ x.1.1 ++ ">]".toList else " <".toList ++ x.1.1 ++ [ '>' ])
  ++ "\n\n".toList ++ descr ++ "\n\n".toList
  ++ (if pos.length > 0 then
        "Positional Parameters:\n".toList
        ++ (pos.flatMap fun x => "  <".toList ++ x.1.1 ++ ">:\n\t".toList ++ indent x.1.2 ++ ['\n'])
        ++ ['\n']
      else [])

/-- GetoptParser.cpp:473-558 `printHelp`. -/
def printHelp (g : HReg) (name version descr : S) : S := helpHead g name version descr ++ optionLists g

end Verif.Getopt
