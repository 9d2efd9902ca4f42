import Verif.Conc.Registry.Model
import Verif.Config.GetoptHelp

/-!
# The accesses of `Getopt` to its variables (for C148)

Each member is one variable; `m_extra_cmd_param_activated` and `m_extra_cmd_param_delimiter` are one, and so are the members that
only `initialize` assigns (`m_program_name`, `m_param_opt`, `m_prefix_param_opt`, `m_param_non_opt`, `m_extra_cmd_param`).
An iteration over a map or a vector counts as one read. `insert` of a map, and `push_back`, are a read and a write, also if the
key is there already: in C++ a call of a member function that is not `const` counts as a modification (C++11 17.6.5.9). `instance()` is
a static local variable: its first use is thread safe (C++11 6.7). Not modelled: `initialize`; the text that `printHelp`
writes counts as its result (two threads that write to `std::cerr` may mix their characters, but this is no data race:
C++11 27.4.1); the array behind `argv()`.
-/
namespace Verif.Registry.Opt
open Verif.Getopt Race

/-- The variables: GetoptParser.h:310-330. -/
inductive Var where
  | params | prefixes | shorts | shortPrefixes | required | optional | delim | argc | version | descr | parsed
  deriving DecidableEq, Repr

/-- Their values. -/
def Val : Var → Type
  | .params => List (S × (Param × S))
  | .prefixes | .shorts | .shortPrefixes => List (S × Param)
  | .required | .optional => List (S × S)
  | .delim => Option S
  | .argc => Int
  | .version | .descr => S
  | .parsed => Out × S

/-- The calls. `setArgc` assigns through the reference that `argc()` returns. -/
inductive Op where
  | paramOpt (name : S)
  | paramOptPresent (name : S)
  | paramPrefixOpt (pre : S)
  | paramNonOpt (i : Nat)
  | paramNonOptCount
  | extraCmdParamCount
  | programName
  | programVersion
  | programDescription
  | getArgc
  | printHelp
  | setArgc (x : Int)
  | setProgramVersion (t : S)
  | setProgramDescription (t : S)
  | activateExtraCmdParams (delimiter : S)
  | addParameter (option short help : S) (isPrefix : Bool)
  | addPositional (name help : S) (isOptional : Bool)

/-- What a call returns; for `printHelp`, the text it writes. -/
inductive Res where
  | none
  | flag (b : Bool)
  | text (t : S)
  | number (x : Int)
  | pairs (l : List (S × S))
  deriving DecidableEq

abbrev P := Prog Val Res

/-- A call that reads what `initialize` stored. -/
def ask (f : Out → S → Res) : P := .rd .parsed fun (o : Out × S) => .ret (f o.1 o.2)

/-- GetoptParser.cpp:45-63 `addParameter`, 74-84 `addParameter` (positional), 39-43 `activateExtraCmdParams`, 374-377 `argc`,
385-471 the readers and setters, 473-558 `printHelp`. -/
def call : Op → P
  | .paramOpt n => ask fun o _ => .text (o.paramOpt n)
  | .paramOptPresent n => ask fun o _ => .flag (o.paramOptPresent n)
  | .paramPrefixOpt p => ask fun o _ => .pairs (o.pre p)
  | .paramNonOpt i => ask fun o _ => .text (o.paramNonOpt i)
  | .paramNonOptCount => ask fun o _ => .number o.nonOpt.length
  | .extraCmdParamCount => ask fun o _ => .number o.extra.length
  | .programName => ask fun _ n => .text n
  | .programVersion => .rd .version fun (v : S) => .ret (.text v)
  | .programDescription => .rd .descr fun (v : S) => .ret (.text v)
  | .getArgc => .rd .argc fun (x : Int) => .ret (.number x)
  | .printHelp =>
    .rd .required fun (r : List (S × S)) => .rd .optional fun (o : List (S × S)) => .rd .parsed fun (n : Out × S) =>
    .rd .version fun (v : S) => .rd .descr fun (d : S) => .rd .params fun (p : List (S × (Param × S))) =>
    .ret (.text (Getopt.printHelp { params := p, required := r, optional := o } n.2 v d))
  | .setArgc x => .wr .argc x (.ret .none)
  | .setProgramVersion t => .wr .version t (.ret .none)
  | .setProgramDescription t => .wr .descr t (.ret .none)
  | .activateExtraCmdParams d => .wr .delim (some d) (.ret .none)
  | .addParameter o s t b =>
    let p := mkParam o s b
    if p.isPrefix then
      .rd .prefixes fun (m : List (S × Param)) => .wr .prefixes (ins p.option p m)
        (if p.short ≠ [] then
          .rd .shortPrefixes fun (m : List (S × Param)) => .wr .shortPrefixes (ins p.short p m) (.ret .none)
        else .ret .none)
    else
      .rd .params fun (m : List (S × (Param × S))) => .wr .params (ins p.option (p, t) m)
        (if p.short ≠ [] then .rd .shorts fun (m : List (S × Param)) => .wr .shorts (ins p.short p m) (.ret .none)
        else .ret .none)
  | .addPositional n t b =>
    if b then .rd .optional fun (l : List (S × S)) => .wr .optional (l ++ [(n, t)]) (.ret .none)
    else .rd .required fun (l : List (S × S)) => .wr .required (l ++ [(n, t)]) (.ret .none)

end Verif.Registry.Opt
