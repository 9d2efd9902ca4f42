import Verif.Config.CfgSpec

/-!
# Specification for C114: the entries a configuration file stands for, with inclusions

Entries in document order, without the manager's code.
-/
namespace Verif.Cfg

/-- `INCLUDE`, written out independently of the model. -/
def incElem : S := ['I', 'N', 'C', 'L', 'U', 'D', 'E']

/-- The two endings of attribute tree files. -/
def TreeEnding (e : S) : Prop :=
  e = ['.', 't', 'r', 'e', 'e'] ∨ e = ['.', 'A', 't', 't', 'r', 'i', 'b', 'u', 't', 'e', 'T', 'r', 'e', 'e']

mutual
/-- The file `f` stands for these entries; the flag: it could be read. -/
inductive FileEntries (fs : Files) : (f : S) → List (S × S) → Bool → Prop
  | tree (f : S) (fp : FP.FilePath) (ext : S) (t : AT.Tree)
      (hfp : FP.init fs.env (FP.initBudget fs.env f) f = some fp) (hext : fp.extension = .ok ext)
      (ht : TreeEnding ext) (h : fs.tree f = some t) : FileEntries fs f (entries (treeAttrs [] t)) true
  | treeMissing (f : S) (fp : FP.FilePath) (ext : S)
      (hfp : FP.init fs.env (FP.initBudget fs.env f) f = some fp) (hext : fp.extension = .ok ext)
      (ht : TreeEnding ext) (h : fs.tree f = none) : FileEntries fs f [] false
  | doc (f : S) (fp : FP.FilePath) (ext : S) (kids : List Xml) (es : List (S × S))
      (hfp : FP.init fs.env (FP.initBudget fs.env f) f = some fp) (hext : fp.extension = .ok ext)
      (ht : ¬ TreeEnding ext) (h : fs.xml f = some (some kids))
      (hd : DocEntries fs fp.path [] kids es) : FileEntries fs f es true
  | noRoot (f : S) (fp : FP.FilePath) (ext : S)
      (hfp : FP.init fs.env (FP.initBudget fs.env f) f = some fp) (hext : fp.extension = .ok ext)
      (ht : ¬ TreeEnding ext) (h : fs.xml f = some none) : FileEntries fs f [] true
  | missing (f : S) (fp : FP.FilePath) (ext : S)
      (hfp : FP.init fs.env (FP.initBudget fs.env f) f = some fp) (hext : fp.extension = .ok ext)
      (ht : ¬ TreeEnding ext) (h : fs.xml f = none) : FileEntries fs f [] false
/-- These nodes, below the elements `p` of a document in the directory `dir`, stand for these entries. The
entries of an included file keep their own keys: the elements around the `INCLUDE` do not count. -/
inductive DocEntries (fs : Files) : (dir : S) → (p : List S) → List Xml → List (S × S) → Prop
  | nil (dir : S) (p : List S) : DocEntries fs dir p [] []
  | text (dir : S) (p : List S) (s : S) (ks : List Xml) (es : List (S × S))
      (h : DocEntries fs dir p ks es) : DocEntries fs dir p (.text s :: ks) ((keyOf p, s) :: es)
  | other (dir : S) (p : List S) (ks : List Xml) (es : List (S × S))
      (h : DocEntries fs dir p ks es) : DocEntries fs dir p (.other :: ks) es
  | elem (dir : S) (p : List S) (n : S) (kids ks : List Xml) (es1 es2 : List (S × S)) (hn : n ≠ incElem)
      (h1 : DocEntries fs dir (p ++ [n]) kids es1) (h2 : DocEntries fs dir p ks es2) :
      DocEntries fs dir p (.elem n kids :: ks) (es1 ++ es2)
  | inclusion (dir : S) (p : List S) (g : S) (rest ks : List Xml) (es1 es2 : List (S × S)) (ok : Bool)
      (h1 : FileEntries fs (dir ++ g) es1 ok) (h2 : DocEntries fs dir p ks es2) :
      DocEntries fs dir p (.elem incElem (.text g :: rest) :: ks) (es1 ++ es2)
  | nameless (dir : S) (p : List S) (kids ks : List Xml) (es : List (S × S))
      (hk : ∀ s r, kids ≠ .text s :: r) (h : DocEntries fs dir p ks es) :
      DocEntries fs dir p (.elem incElem kids :: ks) es
end

end Verif.Cfg
