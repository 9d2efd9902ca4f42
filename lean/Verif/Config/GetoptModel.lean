import Verif.Base

/-!
# Model of `icl_core_config/GetoptParser.cpp` and `GetoptParameter.cpp`

Strings are lists of characters.  The two fixed regular expressions of `initialize` are
replaced by explicit splitters (`longOpt`, `shortOpt`).  A prefix parameter's name is used
by the code as a regular expression with `(.*)` appended; the regular expression engine is
left open as a function `rx prefix name` that gives the first sub-match, so every theorem
holds for each such function; `literalRx` is the one for prefixes without special
characters.  Printing the help text is modelled in GetoptHelp.lean.  `exit` is a separate outcome.
-/
namespace Verif.Getopt

/-- A string. -/
abbrev S := List Char

/-- GetoptParameter.h:101-105, the data of a `GetoptParameter` (without the help text). -/
structure Param where
  /-- `m_option` -/
  option : S
  /-- `m_short_option` -/
  short : S
  /-- `m_has_value` -/
  hasValue : Bool
  /-- `m_is_prefix` -/
  isPrefix : Bool
  deriving DecidableEq, Repr

/-- GetoptParameter.cpp:27-43, the constructor. -/
def mkParam (option short : S) (isPrefix : Bool) : Param :=
  if option.getLast? = some ':'
  then { option := option.dropLast, short, hasValue := true, isPrefix }
  else { option, short, hasValue := false, isPrefix }

/-- `operator<` of `std::string`. -/
def slt : S → S → Bool
  | _, [] => false
  | [], _ :: _ => true
  | a :: as, b :: bs => if a = b then slt as bs else decide (a.toNat < b.toNat)

/-- `std::map::insert`: a key that is present is left alone; the list is kept in key
order. -/
def ins {α : Type} (k : S) (v : α) : List (S × α) → List (S × α)
  | [] => [(k, v)]
  | (k', v') :: r =>
    if k = k' then (k', v') :: r
    else if slt k k' then (k, v) :: (k', v') :: r
    else (k', v') :: ins k v r

/-- `std::map::find`. -/
def get {α : Type} (k : S) : List (S × α) → Option α
  | [] => none
  | (k', v) :: r => if k = k' then some v else get k r

/-- GetoptParser.h:310-318, the registrations in a `Getopt` object. -/
structure Reg where
  /-- `m_parameters` -/
  params : List (S × Param) := []
  /-- `m_prefix_parameters` -/
  prefixes : List (S × Param) := []
  /-- `m_short_parameters` -/
  shorts : List (S × Param) := []
  /-- `m_short_prefix_parameters` -/
  shortPrefixes : List (S × Param) := []
  /-- `m_required_positional_parameters` (names) -/
  required : List S := []
  /-- `m_optional_positional_parameters` (names) -/
  optional : List S := []
  /-- `m_extra_cmd_param_activated` and `m_extra_cmd_param_delimiter` -/
  delim : Option S := none

/-- GetoptParser.cpp:45-63 `addParameter(const GetoptParameter&)`. -/
def addParameter (p : Param) (g : Reg) : Reg :=
  if p.isPrefix then
    let g := { g with prefixes := ins p.option p g.prefixes }
    if p.short ≠ [] then { g with shortPrefixes := ins p.short p g.shortPrefixes } else g
  else
    let g := { g with params := ins p.option p g.params }
    if p.short ≠ [] then { g with shorts := ins p.short p g.shorts } else g

/-- GetoptParser.cpp:65-72 `addParameter(const GetoptParameterList&)`. -/
def addParameters (ps : List Param) (g : Reg) : Reg := ps.foldl (fun g p => addParameter p g) g

/-- GetoptParser.cpp:74-84 `addParameter(const GetoptPositionalParameter&)`. -/
def addPositional (name : S) (isOptional : Bool) (g : Reg) : Reg :=
  if isOptional then { g with optional := g.optional ++ [name] }
  else { g with required := g.required ++ [name] }

/-- GetoptParser.cpp:86-93 `addParameter(const GetoptPositionalParameterList&)`. -/
def addPositionals (ps : List (S × Bool)) (g : Reg) : Reg := ps.foldl (fun g p => addPositional p.1 p.2 g) g

/-- GetoptParser.cpp:704-709, the constructor: the option `help` is always registered. -/
def newReg : Reg := addParameter (mkParam ['h', 'e', 'l', 'p'] ['h'] false) {}

/-- A registration call. -/
inductive Call where
  /-- `addParameter(GetoptParameter(option, short_option, help, is_prefix))` -/
  | param (option short : S) (isPrefix : Bool)
  /-- `addParameter(GetoptPositionalParameter(name, help, is_optional))` -/
  | positional (name : S) (isOptional : Bool)
  /-- `activateExtraCmdParams(delimiter)` -/
  | activate (delimiter : S)

/-- GetoptParser.cpp:45-93: a registration call on a `Getopt` object. -/
def Call.run (g : Reg) : Call → Reg
  | .param o s b => addParameter (mkParam o s b) g
  | .positional n b => addPositional n b g
  | .activate d => { g with delim := some d }

/-- The registrations of a `Getopt` object after a history of calls. -/
def reg (h : List Call) : Reg := h.foldl Call.run newReg

/-- GetoptParser.h:327-330, what `initialize` stores.  Maps are functions. -/
structure Out where
  /-- `m_param_opt` -/
  opt : S → Option S := fun _ => none
  /-- `m_prefix_param_opt`; a list is present exactly if it is not empty -/
  pre : S → List (S × S) := fun _ => []
  /-- `m_param_non_opt` -/
  nonOpt : List S := []
  /-- `m_extra_cmd_param` -/
  extra : List S := []
  /-- the local variable `positional_parameters_counter` -/
  count : Nat := 0

namespace Out
/-- `m_param_opt[name] = value`. -/
def set (o : Out) (name value : S) : Out :=
  { o with opt := fun n => if n = name then some value else o.opt n }
/-- `m_prefix_param_opt[prefix].push_back(KeyValue(suffix, value))`. -/
def push (o : Out) (p suffix value : S) : Out :=
  { o with pre := fun q => if q = p then o.pre q ++ [(suffix, value)] else o.pre q }
/-- `m_param_non_opt.push_back`. -/
def non (o : Out) (a : S) : Out := { o with nonOpt := o.nonOpt ++ [a] }
/-- `m_extra_cmd_param.push_back`. -/
def ext (o : Out) (a : S) : Out := { o with extra := o.extra ++ [a] }
/-- GetoptParser.cpp:395-406 `paramOpt`. -/
def paramOpt (o : Out) (name : S) : S := (o.opt name).getD []
/-- GetoptParser.cpp:408-411 `paramOptPresent`. -/
def paramOptPresent (o : Out) (name : S) : Bool := (o.opt name).isSome
/-- GetoptParser.cpp:413-424 `paramPrefixOpt`. -/
def paramPrefixOpt (o : Out) (p : S) : List (S × S) := o.pre p
/-- GetoptParser.cpp:431-441 `paramNonOpt`. -/
def paramNonOpt (o : Out) (i : Nat) : S := (o.nonOpt[i]?).getD []
end Out

/-- The constant `"yes"`. -/
def yes : S := ['y', 'e', 's']

/-- GetoptParser.cpp:133, the regular expression `--([^-][^=]*)(=(.*))?` : sub-matches 1 and
3.  An unmatched sub-match converts to the empty string. -/
def longOpt : S → Option (S × S)
  | '-' :: '-' :: c :: r =>
    if c = '-' then none
    else some (c :: r.takeWhile (· ≠ '='), (r.dropWhile (· ≠ '=')).drop 1)
  | _ => none

/-- GetoptParser.cpp:134, the regular expression `-([^-].*)`: sub-match 1. -/
def shortOpt : S → Option S
  | '-' :: c :: r => if c = '-' then none else some (c :: r)
  | _ => none

/-- The regular expression engine for prefixes without special characters. -/
def literalRx (p name : S) : Option S :=
  if p.isPrefixOf name then some (name.drop p.length) else none

/-- GetoptParser.cpp:172-201 and 248-279: the first prefix parameter in key order that
matches, with the rest of the name. -/
def findPrefix (rx : S → S → Option S) (name : S) : List (S × Param) → Option (S × Param × S)
  | [] => none
  | (k, p) :: r =>
    match rx k name with
    | some suffix => some (k, p, suffix)
    | none => findPrefix rx name r

/-- Result of the scan: `fail` is `return false`. -/
inductive Scanned where
  | done (o : Out)
  | fail

/-- GetoptParser.cpp:136-332, the loop over the arguments.  `extra` is
`extra_cmd_params_reached`.  `mres.size() == 4` (lines 154 and 185) always holds: the size
counts the sub-expressions of the pattern, matched or not. -/
def scan (rx : S → S → Option S) (g : Reg) (strict : Bool) : Bool → Out → List S → Scanned
  | _, o, [] => .done o
  | true, o, a :: r => scan rx g strict true (o.ext a) r
  | false, o, a :: r =>
    match longOpt a with
    | some (name, val) =>
      match get name g.params with
      | some p => scan rx g strict false (o.set name (if p.hasValue then val else yes)) r
      | none =>
        match findPrefix rx name g.prefixes with
        | some (k, p, suffix) =>
          scan rx g strict false (o.push k suffix (if p.hasValue then val else yes)) r
        | none => if strict then .fail else scan rx g strict false (o.non a) r
    | none =>
      match shortOpt a with
      | some name =>
        match get name g.shorts with
        | some p =>
          if p.hasValue then
            match r with
            | [] => .fail
            | v :: r' => scan rx g strict false (o.set p.option v) r'
          else scan rx g strict false (o.set p.option yes) r
        | none =>
          match findPrefix rx name g.shortPrefixes with
          | some (_, p, suffix) =>
            if p.hasValue then
              match r with
              | [] => .fail
              | v :: r' => scan rx g strict false (o.push p.option suffix v) r'
            else scan rx g strict false (o.push p.option suffix yes) r
          | none => if strict then .fail else scan rx g strict false (o.non a) r
      | none =>
        if g.delim = some a then scan rx g strict true o r
        else if o.count < g.required.length then
          scan rx g strict false
            { o.set (g.required.getD o.count []) a with count := o.count + 1 } r
        else if o.count < g.required.length + g.optional.length then
          scan rx g strict false
            { o.set (g.optional.getD (o.count - g.required.length) []) a with
              count := o.count + 1 } r
        else scan rx g strict false (o.non a) r

/-- GetoptParser.cpp:359-362: `argv[move - 1] = argv[move]` for `n` consecutive `move`. -/
def shift : Nat → Nat → List S → List S
  | 0, _, argv => argv
  | n + 1, move, argv => shift n (move + 1) (argv.set (move - 1) (argv.getD move []))

/-- GetoptParser.cpp:350-370, the `while` loop of the clean-up; at most `k` iterations
(`none`: not finished). The array keeps its size, only `argc` shrinks. -/
def cleanup (nonOpt : List S) : Nat → Nat → Nat → List S → Option (List S × Nat)
  | 0, check, argc, argv => if check < argc then none else some (argv, argc)
  | k + 1, check, argc, argv =>
    if check < argc then
      if argv.getD check [] ∈ nonOpt then cleanup nonOpt k (check + 1) argc argv
      else cleanup nonOpt k check (argc - 1) (shift (argc - (check + 1)) (check + 1) argv)
    else some (argv, argc)

/-- Result of `initialize`. -/
inductive Res where
  /-- returns `true`; the stored results, and `argv`/`argc` as left behind -/
  | ok (o : Out) (argv : List S) (argc : Nat)
  /-- returns `false` -/
  | fail
  /-- the process ends with `exit(0)` after printing the help text -/
  | exit

/-- GetoptParser.cpp:100-373 `initialize` on an object whose stored results are `o0`
(empty for the first call; `m_initialized` is never set, so the check at line 108 never
returns).  `argv` has `argc` elements. -/
def init (rx : S → S → Option S) (g : Reg) (strict clean : Bool) (o0 : Out)
    (argv : List S) : Option Res :=
  match argv with
  | [] => some .fail
  | _ :: args =>
    match scan rx g strict false { o0 with count := 0 } args with
    | .fail => some .fail
    | .done o =>
      if o.count < g.required.length then some .exit
      else if o.paramOptPresent ['h', 'e', 'l', 'p'] then some .exit
      else if clean then
        (cleanup o.nonOpt argv.length 1 argv.length argv).map fun r => .ok o r.1 r.2
      else some (.ok o argv argv.length)

end Verif.Getopt
