import Verif.Util.SchemeModel

/-!
# Specification of scheme strings

`name+name://specifier#anchor?key=value&key=value`, described by its parts.
-/
namespace Verif.Scheme

/-- What a specifier consists of. -/
def isSpec (c : Char) : Bool := c ∉ ['?', '#']

/-- What a value consists of: neither delimiters nor white space. -/
def isValue (c : Char) : Bool := c ∉ ['?', '&', ' ', '\t', '\n', '\x0b', '\x0c', '\r']

/-- A non-empty word of characters of one kind. -/
def Good (f : Char → Bool) (w : S) : Prop := w ≠ [] ∧ ∀ c ∈ w, f c = true

/-- Words with a separator between them. -/
def joined (sep : Char) : List S → S
  | [] => []
  | w :: ws => w ++ ws.flatMap fun v => sep :: v

/-- One or more words. -/
def Words (f : Char → Bool) (ws : List S) : Prop := ws ≠ [] ∧ ∀ w ∈ ws, Good f w

/-- The parts of a scheme string. -/
structure Parts where
  /-- words of the scheme name -/
  scheme : Option (List S)
  /-- the specifier -/
  spec : S
  /-- one or two words of the anchor -/
  anchor : Option (S × Option S)
  /-- keys (by words) and values -/
  queries : List (List S × S)

/-- The text of the scheme. -/
def Parts.schemeText (p : Parts) : S := match p.scheme with
  | some ws => joined '+' ws ++ colon
  | none => []

/-- The words of the anchor with the hyphen. -/
def anchorText : S × Option S → S
  | (w, none) => w
  | (w, some v) => w ++ '-' :: v

/-- `key=value`. -/
def pairText (q : List S × S) : S := joined '_' q.1 ++ '=' :: q.2

/-- `?key=value&key=value`. -/
def queryText : List (List S × S) → S
  | [] => []
  | q :: qs => '?' :: (pairText q ++ qs.flatMap fun x => '&' :: pairText x)

/-- `#anchor`. -/
def Parts.anchorPart (p : Parts) : S := match p.anchor with
  | some a => '#' :: anchorText a
  | none => []

/-- The whole string. -/
def Parts.text (p : Parts) : S :=
  p.schemeText ++ (p.spec ++ (p.anchorPart ++ queryText p.queries))

/-- The grammar: a scheme of words of letters; a non-empty specifier without `?` and `#`,
which must not itself start with a scheme if there is none; an anchor of one or two words of
letters and digits; keys of words of letters and digits, non-empty values without `?`, `&`
and white space. -/
structure Parts.Valid (p : Parts) : Prop where
  scheme : ∀ ws, p.scheme = some ws → Words Char.isAlpha ws
  noScheme : p.scheme = none → ∀ ws r, Words Char.isAlpha ws → p.spec ≠ joined '+' ws ++ (colon ++ r)
  spec : Good isSpec p.spec
  anchor : ∀ a, p.anchor = some a → Good Char.isAlphanum a.1 ∧ ∀ v, a.2 = some v → Good Char.isAlphanum v
  queries : ∀ q ∈ p.queries, Words Char.isAlphanum q.1 ∧ Good isValue q.2

/-- The known schemes. -/
def kindSpec (n : S) : Kind :=
  if n = "file".toList then .file else if n = "http".toList then .http
  else if n = "camera".toList then .camera else if n = "gps".toList then .gps else .other

/-- The output object after a successful parse: the fields of absent parts keep their
contents, except for the list of queries. -/
def Parts.result (p : Parts) (old : Scheme) : Scheme where
  kind := match p.scheme with
    | some ws => kindSpec ((joined '+' ws).map Char.toLower)
    | none => old.kind
  name := match p.scheme with
    | some ws => (joined '+' ws).map Char.toLower ++ colon
    | none => old.name
  specifier := p.spec
  anchor := match p.anchor with
    | some a => anchorText a
    | none => old.anchor
  queries := p.queries.map fun q => ⟨joined '_' q.1, q.2⟩

end Verif.Scheme
