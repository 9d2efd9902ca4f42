import Verif.Config.Heap.Model

/-!
# Specification of the structure of `AttributeTree`s

A forest: every existing tree has a description, a changed mark and the ordered list of its subtrees.
What each call does to a forest, which calls are allowed, and what the browsing functions answer, is
said here without pointers, list cells or parent links.
-/
namespace Verif.ATHeap

open Verif.AT (S newSubNode)

/-- A tree of the forest. -/
structure SNode where
  desc : Option S
  changed : Bool
  kids : List Addr

/-- The trees that exist. -/
abbrev Forest := Addr → Option SNode

/-- `s` is a subtree of `t`. -/
def Child (f : Forest) (t s : Addr) : Prop := ∃ n, f t = some n ∧ s ∈ n.kids

/-- `x` is `t` or below `t`. -/
inductive Below (f : Forest) (t : Addr) : Addr → Prop where
  | self : Below f t t
  | step {x y : Addr} : Below f t x → Child f x y → Below f t y

/-- The descriptions of a list of trees. -/
def descs (f : Forest) (l : List Addr) : List (Option S) := l.map fun s => (f s).bind SNode.desc

/-- Insert `t` behind `a`. -/
def insertAfter (a t : Addr) : List Addr → List Addr
  | [] => []
  | x :: l => if x = a then x :: t :: l else x :: insertAfter a t l

/-- `t` may be inserted below `p` next to the subtrees of `p`: both exist, `p` has subtrees, `t` is not
below anything, `p` is not below `t`, `t` has a description, and if a subtree of `p` has that
description, `newSubNodeDescription` finds another one. -/
def MayAdd (f : Forest) (p t : Addr) : Prop :=
  ∃ np nt d, f p = some np ∧ f t = some nt ∧ np.kids ≠ [] ∧ (∀ x, ¬ Child f x t) ∧ ¬ Below f t p ∧
    nt.desc = some d ∧ (some d ∈ descs f np.kids → ∃ d', newSubNode (descs f np.kids) d = .ok d')

/-- The description `t` has after it was inserted below `p`. -/
def NewDesc (f : Forest) (np nt : SNode) (d' : Option S) : Prop :=
  ∃ d, nt.desc = some d ∧
    if some d ∈ descs f np.kids then (∃ x, newSubNode (descs f np.kids) d = .ok x ∧ d' = some x)
    else d' = some d

/-- The calls a client may make. -/
def Legal (f : Forest) : Op → Prop
  | .new _ => True
  | .newIn _ p => (f p).isSome
  | .add p t => MayAdd f p t
  | .addNext a t => (f a).isSome ∧ ∀ p, Child f p a → MayAdd f p t
  | .unlink t => (f t).isSome
  | .unlinkSub t => (f t).isSome
  | .delete t => (f t).isSome
  | .setDesc t _ => (f t).isSome

/-- Change one tree of a forest. -/
def setF (f : Forest) (t : Addr) (n : Option SNode) : Forest := fun x => if x = t then n else f x

/-- Take `t` out of the list of subtrees it is in; that tree is marked as changed. -/
def cut (t : Addr) (n : SNode) : SNode :=
  if t ∈ n.kids then { n with kids := n.kids.filter (· ≠ t), changed := true } else n

open Classical in
/-- What a call does: `f` before, `f'` afterwards, `r` the new object. -/
def SStep (f : Forest) : Op → Option Addr → Forest → Prop
  | .new d, r, f' => ∃ t, r = some t ∧ f t = none ∧ f' = setF f t (some ⟨d, false, []⟩)
  | .newIn d p, r, f' => ∃ t n, r = some t ∧ f t = none ∧ f p = some n ∧
      f' = setF (setF f t (some ⟨d, false, []⟩)) p (some { n with kids := t :: n.kids })
  | .add p t, r, f' => r = none ∧ ∃ np nt d', f p = some np ∧ f t = some nt ∧ NewDesc f np nt d' ∧
      f' = setF (setF f t (some { nt with desc := d' })) p (some { np with kids := t :: np.kids })
  | .addNext a t, r, f' => r = none ∧
      (((∀ p, ¬ Child f p a) ∧ f' = f) ∨
       ∃ p np nt d', Child f p a ∧ f p = some np ∧ f t = some nt ∧ NewDesc f np nt d' ∧
        f' = setF (setF f t (some { nt with desc := d' })) p (some { np with kids := insertAfter a t np.kids }))
  | .unlink t, r, f' => r = none ∧ f' = fun x => (f x).map (cut t)
  | .unlinkSub t, r, f' => r = none ∧ f' = setF f t ((f t).map fun n => { n with kids := [] })
  | .delete t, r, f' => r = none ∧ f' = fun x => if Below f t x then none else (f x).map (cut t)
  | .setDesc t d, r, f' => r = none ∧ f' = setF f t ((f t).map fun n => { n with desc := d })

/-- The element behind `s` in a list. -/
def after (s : Addr) : List Addr → Option Addr
  | [] => none
  | x :: l => if x = s then l.head? else after s l

/-- A heap reached by legal calls, with the calls (the last one first) and the forest the calls should
have made. -/
inductive Reach : List Op → Heap → Forest → Prop where
  | init : Reach [] Heap.empty (fun _ => none)
  | step {ops : List Op} {h h' : Heap} {f f' : Forest} {op : Op} {r : Option Addr} : Reach ops h f → Legal f op →
      Runs h op r h' → SStep f op r f' → Reach (op :: ops) h' f'

end Verif.ATHeap
