import Verif.Config.GetoptModel

/-!
# Specification of command line parsing

Written without the parser: the forms an argument can have, which registration applies to
it, and how a command line splits into items.
-/
namespace Verif.Getopt

/-- The options that were registered, in order; `help` is the first. -/
def registered (h : List Call) : List Param :=
  mkParam ['h', 'e', 'l', 'p'] ['h'] false ::
    h.filterMap fun c => match c with
      | .param o s b => some (mkParam o s b)
      | _ => none

/-- The names of the required positional parameters, in order of registration. -/
def requiredNames (h : List Call) : List S :=
  h.filterMap fun c => match c with
    | .positional n false => some n
    | _ => none

/-- The names of the optional positional parameters, in order of registration. -/
def optionalNames (h : List Call) : List S :=
  h.filterMap fun c => match c with
    | .positional n true => some n
    | _ => none

/-- The names of the positional parameters: first the required ones, then the optional
ones. -/
def positionals (h : List Call) : List S := requiredNames h ++ optionalNames h

/-- The delimiter of the extra parameters, if activated (the last activation counts). -/
def delimiter (h : List Call) : Option S :=
  (h.filterMap fun c => match c with
    | .activate d => some d
    | _ => none).getLast?

/-- `--name` (`v = none`) or `--name=value`. -/
def LongForm (a name : S) (v : Option S) : Prop :=
  ∃ c t, name = c :: t ∧ c ≠ '-' ∧ '=' ∉ t ∧
    a = '-' :: '-' :: name ++ (match v with
      | none => []
      | some w => '=' :: w)

/-- `-name`. -/
def ShortForm (a name : S) : Prop :=
  ∃ c t, name = c :: t ∧ c ≠ '-' ∧ a = '-' :: name

/-- The argument does not look like an option. -/
def Plain (a : S) : Prop := (∀ name v, ¬ LongForm a name v) ∧ ∀ name, ¬ ShortForm a name

/-- The registered option with this long name: the first registration counts. -/
def longParam (h : List Call) (name : S) : Option Param :=
  (registered h).find? fun p => !p.isPrefix && p.option == name

/-- The registered option with this short name: the first registration counts. -/
def shortParam (h : List Call) (name : S) : Option Param :=
  (registered h).find? fun p => !p.isPrefix && p.short == name

/-- No registered prefix option matches the name (`key` is its long or its short name). -/
def NoPrefix (rx : S → S → Option S) (h : List Call) (key : Param → S) (isKey : Param → Prop)
    (name : S) : Prop :=
  ∀ q ∈ registered h, q.isPrefix → isKey q → rx (key q) name = none

/-- `p` is the registered prefix option that applies to the name: the alphabetically
smallest that matches. -/
def Chosen (rx : S → S → Option S) (h : List Call) (key : Param → S) (isKey : Param → Prop)
    (name : S) (p : Param) (suffix : S) : Prop :=
  (registered h).find? (fun q => q.isPrefix && key q == key p) = some p ∧ isKey p ∧
  rx (key p) name = some suffix ∧
  ∀ q ∈ registered h, q.isPrefix → isKey q → slt (key q) (key p) → rx (key q) name = none

/-- What an argument, or an option with its value, is taken for. -/
inductive Item where
  /-- a registered option, with the arguments it takes up -/
  | opt (args : List S) (name value : S)
  /-- a prefix option -/
  | pre (args : List S) (pfx suffix value : S)
  /-- the delimiter of the extra parameters -/
  | delim (a : S)
  /-- an extra parameter -/
  | extra (a : S)
  /-- a positional parameter -/
  | pos (name a : S)
  /-- a non-option argument -/
  | non (a : S)

/-- The arguments that belong to an item. -/
def Item.args : Item → List S
  | .opt as _ _ | .pre as _ _ _ => as
  | .delim a | .extra a | .pos _ a | .non a => [a]

/-- How a command line splits into items. `Items .. after n args its`: with `n` positional
parameters seen, and the delimiter seen or not (`after`), the arguments are taken as `its`.
-/
inductive Items (rx : S → S → Option S) (h : List Call) (strict : Bool) :
    Bool → Nat → List S → List Item → Prop
  | nil {b n} : Items rx h strict b n [] []
  | extra {n a r its} : Items rx h strict true n r its →
      Items rx h strict true n (a :: r) (.extra a :: its)
  | long {n a r its name v p} : LongForm a name v → longParam h name = some p →
      Items rx h strict false n r its →
      Items rx h strict false n (a :: r)
        (.opt [a] name (if p.hasValue then v.getD [] else yes) :: its)
  | longPrefix {n a r its name v p sfx} : LongForm a name v → longParam h name = none →
      Chosen rx h Param.option (fun _ => True) name p sfx →
      Items rx h strict false n r its →
      Items rx h strict false n (a :: r)
        (.pre [a] p.option sfx (if p.hasValue then v.getD [] else yes) :: its)
  | longUnknown {n a r its name v} : strict = false → LongForm a name v →
      longParam h name = none → NoPrefix rx h Param.option (fun _ => True) name →
      Items rx h strict false n r its →
      Items rx h strict false n (a :: r) (.non a :: its)
  | shortFlag {n a r its name p} : ShortForm a name → shortParam h name = some p →
      p.hasValue = false → Items rx h strict false n r its →
      Items rx h strict false n (a :: r) (.opt [a] p.option yes :: its)
  | shortValue {n a w r its name p} : ShortForm a name → shortParam h name = some p →
      p.hasValue = true → Items rx h strict false n r its →
      Items rx h strict false n (a :: w :: r) (.opt [a, w] p.option w :: its)
  | shortPrefixFlag {n a r its name p sfx} : ShortForm a name → shortParam h name = none →
      Chosen rx h Param.short (fun q => q.short ≠ []) name p sfx →
      p.hasValue = false → Items rx h strict false n r its →
      Items rx h strict false n (a :: r) (.pre [a] p.option sfx yes :: its)
  | shortPrefixValue {n a w r its name p sfx} : ShortForm a name → shortParam h name = none →
      Chosen rx h Param.short (fun q => q.short ≠ []) name p sfx →
      p.hasValue = true → Items rx h strict false n r its →
      Items rx h strict false n (a :: w :: r) (.pre [a, w] p.option sfx w :: its)
  | shortUnknown {n a r its name} : strict = false → ShortForm a name →
      shortParam h name = none → NoPrefix rx h Param.short (fun q => q.short ≠ []) name →
      Items rx h strict false n r its →
      Items rx h strict false n (a :: r) (.non a :: its)
  | delim {n a r its} : Plain a → delimiter h = some a → Items rx h strict true n r its →
      Items rx h strict false n (a :: r) (.delim a :: its)
  | pos {n a r its name} : Plain a → delimiter h ≠ some a → (positionals h)[n]? = some name →
      Items rx h strict false (n + 1) r its →
      Items rx h strict false n (a :: r) (.pos name a :: its)
  | non {n a r its} : Plain a → delimiter h ≠ some a → (positionals h).length ≤ n →
      Items rx h strict false n r its →
      Items rx h strict false n (a :: r) (.non a :: its)

/-- The values given for an option or positional parameter, in order. -/
def valuesOf (its : List Item) (name : S) : List S :=
  its.filterMap fun it => match it with
    | .opt _ n v => if n = name then some v else none
    | .pos n a => if n = name then some a else none
    | _ => none

/-- The suffix/value pairs given for a prefix option, in order. -/
def prefixValuesOf (its : List Item) (pfx : S) : List (S × S) :=
  its.filterMap fun it => match it with
    | .pre _ p s v => if p = pfx then some (s, v) else none
    | _ => none

/-- The non-option arguments, in order. -/
def nonOptions (its : List Item) : List S :=
  its.filterMap fun it => match it with
    | .non a => some a
    | _ => none

/-- The extra parameters, in order. -/
def extras (its : List Item) : List S :=
  its.filterMap fun it => match it with
    | .extra a => some a
    | _ => none

/-- Number of positional parameters given. -/
def positionalCount (its : List Item) : Nat :=
  (its.filter fun it => match it with
    | .pos _ _ => true
    | _ => false).length

end Verif.Getopt
