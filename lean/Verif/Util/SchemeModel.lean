import Verif.Base

/-!
# Model of `icl_core/SchemeParser.cpp`

The grammar is a Boost.Spirit (classic) rule.  Spirit parsers are greedy and do not go back
into a repetition: `+p` and `*p` take as much as possible, `!p` takes `p` if it matches,
a sequence fails if one of its parts fails.  Semantic actions run as soon as their part has
matched and are not undone.  A parser is a function from the input to the matched text and
the rest (`none`: no match).  Characters are those of the "C" locale.
-/
namespace Verif.Scheme

/-- A string. -/
abbrev S := List Char

/-- `alpha_p`. -/
def alpha (c : Char) : Bool := ('a' ≤ c ∧ c ≤ 'z') ∨ ('A' ≤ c ∧ c ≤ 'Z')
/-- `alnum_p`. -/
def alnum (c : Char) : Bool := alpha c || ('0' ≤ c ∧ c ≤ '9')
/-- `space_p`. -/
def space (c : Char) : Bool :=
  c == ' ' || c == '\t' || c == '\n' || c == '\x0b' || c == '\x0c' || c == '\r'
/-- SchemeParser.cpp:179, the characters of `specifier_p`. -/
def specCh (c : Char) : Bool := c != '?' && c != '#'
/-- SchemeParser.cpp:185, the characters of `query_value`. -/
def valueCh (c : Char) : Bool := !(c == '?' || c == '&' || space c)

/-- `+p` for a single character parser. -/
def plus (f : Char → Bool) (s : S) : Option (S × S) :=
  if s.takeWhile f = [] then none else some (s.takeWhile f, s.dropWhile f)

/-- `*(ch_p(sep) >> +p)`, at most `k` repetitions (`k` = length of the input is enough). -/
def starSep (sep : Char) (f : Char → Bool) : Nat → S → S × S
  | 0, s => ([], s)
  | _ + 1, [] => ([], [])
  | k + 1, c :: r =>
    if c = sep then
      match plus f r with
      | some (w, r') => let x := starSep sep f k r'; (c :: w ++ x.1, x.2)
      | none => ([], c :: r)
    else ([], c :: r)

/-- `str_p("://")`. -/
def colon : S := [':', '/', '/']

/-- SchemeParser.cpp:178 `scheme_p`. -/
def schemeP (s : S) : Option (S × S) :=
  match plus alpha s with
  | none => none
  | some (w, r) =>
    let x := starSep '+' alpha r.length r
    if colon.isPrefixOf x.2 then some (w ++ x.1 ++ colon, x.2.drop 3) else none

/-- SchemeParser.cpp:171 and 181 `anchor_p`, the text of `anchor_word` and the rest. -/
def anchorP (s : S) : Option (S × S) :=
  match s with
  | '#' :: r =>
    match plus alnum r with
    | none => none
    | some (w, r1) =>
      match r1 with
      | '-' :: r2 =>
        match plus alnum r2 with
        | some (w2, r3) => some (w ++ '-' :: w2, r3)
        | none => some (w, r1)
      | _ => some (w, r1)
  | _ => none

/-- SchemeParser.cpp:184, `*(alnum_p | (ch_p('_') >> alnum_p))`. -/
def keyTail : S → S × S
  | [] => ([], [])
  | [c] => if alnum c then ([c], []) else ([], [c])
  | c :: d :: r =>
    if alnum c then let x := keyTail (d :: r); (c :: x.1, x.2)
    else if c = '_' ∧ alnum d = true then let x := keyTail r; (c :: d :: x.1, x.2)
    else ([], c :: d :: r)

/-- SchemeParser.cpp:184 `query_key`. -/
def keyP (s : S) : Option (S × S) :=
  match plus alnum s with
  | none => none
  | some (w, r) => let x := keyTail r; some (w ++ x.1, x.2)

/-- SchemeParser.h:55-59 `Query`. -/
structure Query where
  /-- `name` -/
  name : S
  /-- `value` -/
  value : S
  deriving DecidableEq

/-- SchemeParser.cpp:107-119 `QueryValueFunction`: set the value of the last query. -/
def setValue : List Query → S → List Query
  | [], v => [⟨[], v⟩]
  | [q], v => [{ q with value := v }]
  | q :: q' :: qs, v => q :: setValue (q' :: qs) v

/-- SchemeParser.cpp:186 `query_pair` with its actions; the rest is `none` if it does not
match, but then the actions that did run are kept. -/
def pairP (q : List Query) (s : S) : List Query × Option S :=
  match keyP s with
  | none => (q, none)
  | some (k, r) =>
    let q1 := q ++ [⟨k, []⟩]
    match r with
    | '=' :: r' =>
      match plus valueCh r' with
      | some (v, r'') => (setValue q1 v, some r'')
      | none => (q1, none)
    | _ => (q1, none)

/-- SchemeParser.cpp:187, `*(querydelim_ch >> query_pair)`, at most `k` repetitions. -/
def starPair : Nat → List Query → S → List Query × S
  | 0, q, s => (q, s)
  | k + 1, q, '&' :: r =>
    match pairP q r with
    | (q', some r') => starPair k q' r'
    | (q', none) => (q', '&' :: r)
  | _ + 1, q, s => (q, s)

/-- SchemeParser.cpp:187 and 190, `!query_p`. -/
def optQuery (q : List Query) (s : S) : List Query × S :=
  match s with
  | '?' :: r =>
    match pairP q r with
    | (q', some r') => starPair r'.length q' r'
    | (q', none) => (q', s)
  | _ => (q, s)

/-- SchemeParser.h:63-70 `SchemeType`. -/
inductive Kind where
  | file | http | camera | gps | other
  deriving DecidableEq

/-- SchemeParser.h:72-79 `Scheme`. -/
structure Scheme where
  /-- `scheme_type` -/
  kind : Kind
  /-- `scheme_name` -/
  name : S
  /-- `specifier` -/
  specifier : S
  /-- `anchor` -/
  anchor : S
  /-- `queries` -/
  queries : List Query
  deriving DecidableEq

/-- SchemeParser.cpp:121-124, what a new `SchemeParser` starts with. -/
def fresh : Scheme := ⟨.other, [], [], [], []⟩

/-- `tolower`. -/
def lowerC (c : Char) : Char := if 'A' ≤ c ∧ c ≤ 'Z' then Char.ofNat (c.toNat + 32) else c

/-- SchemeParser.cpp:64-83, the type of a scheme. -/
def kindOf (name : S) : Kind :=
  if name = ['f', 'i', 'l', 'e', ':', '/', '/'] then .file
  else if name = ['h', 't', 't', 'p', ':', '/', '/'] then .http
  else if name = ['c', 'a', 'm', 'e', 'r', 'a', ':', '/', '/'] then .camera
  else if name = ['g', 'p', 's', ':', '/', '/'] then .gps
  else .other

/-- SchemeParser.cpp:57-85 `SchemeFunction`. -/
def addScheme (sc : Scheme) (text : S) : Scheme :=
  let name := text.map lowerC
  { sc with kind := kindOf name, name := name }

/-- SchemeParser.cpp:190, `!(scheme_p[SchemeFunction])`. -/
def optScheme (sc : Scheme) (s : S) : Scheme × S :=
  match schemeP s with
  | some (n, r) => (addScheme sc n, r)
  | none => (sc, s)

/-- SchemeParser.cpp:190, `!anchor_p` with the action of `anchor_word`. -/
def optAnchor (sc : Scheme) (s : S) : Scheme × S :=
  match anchorP s with
  | some (a, r) => ({ sc with anchor := a }, r)
  | none => (sc, s)

/-- SchemeParser.cpp:145-200 `parseScheme`; the string is parsed up to its first NUL. -/
def parseScheme (old : Scheme) (str : S) : Bool × Scheme :=
  let x1 := optScheme { old with queries := [] } (str.takeWhile (· != '\x00'))
  match plus specCh x1.2 with
  | none => (false, x1.1)
  | some (sp, s2) =>
    let x3 := optAnchor { x1.1 with specifier := sp } s2
    let x4 := optQuery x3.1.queries x3.2
    (x4.2 == [], { x3.1 with queries := x4.1 })

/-- SchemeParser.cpp:34-48, the queries. -/
def printQueries : List Query → S
  | [] => []
  | q :: qs => ('?' :: q.name ++ '=' :: q.value) ++ qs.flatMap fun p => '&' :: p.name ++ '=' :: p.value

/-- SchemeParser.cpp:29-54 `operator<<`. -/
def print (sc : Scheme) : S :=
  let a := if sc.anchor.length > 0 then '#' :: sc.anchor else []
  sc.name ++ sc.specifier ++ printQueries sc.queries ++ a

end Verif.Scheme
