import Verif.Config.ATNames

/-!
# Model of the pointer structure of `AttributeTree`

`icl_core_config/AttributeTree.cpp` / `.h`: the constructors, the destructors, `unlink`, `unlinkSub`,
`addSubTree`, `addNextTree` and the functions that browse the tree, on a heap of `AttributeTree` and
`SubTreeList` objects.  Touching an object that does not exist (any more) is undefined behaviour.

`k` bounds the number of loop iterations and nested calls; `Res.fuel` means that it was not enough.
Strings are values here: that `m_this_description` and `m_this_attribute` are on the heap as well is not
modelled.  Attributes are left out.
-/
namespace Verif.ATHeap

open Verif.AT (S newSubNode)

/-- The address of an object. -/
scoped notation "Addr" => Nat

/-- The data members of an `AttributeTree` (AttributeTree.h:980-986) without `m_this_attribute`. -/
structure Node where
  /-- `m_this_description` -/
  desc : Option S
  /-- `m_changed` -/
  changed : Bool
  /-- `m_parent` -/
  parent : Option Addr
  /-- `m_subtree_list` -/
  list : Option Addr
  deriving DecidableEq

/-- The data members of a `SubTreeList` (AttributeTree.h:238-239). -/
structure Cell where
  /-- `m_next` -/
  next : Option Addr
  /-- `m_sub_tree` -/
  sub : Option Addr
  deriving DecidableEq

/-- The objects that exist. -/
structure Heap where
  trees : Addr → Option Node
  cells : Addr → Option Cell
  /-- all addresses from here on are unused -/
  fresh : Addr

/-- Result of a call. -/
inductive Res (α : Type) where
  | ok (a : α)
  /-- undefined behaviour -/
  | ub
  /-- the bound was too small -/
  | fuel
  deriving DecidableEq

/-- Sequencing. -/
def Res.bind {α β : Type} (x : Res α) (f : α → Res β) : Res β :=
  match x with
  | .ok a => f a
  | .ub => .ub
  | .fuel => .fuel

instance : Monad Res where
  pure := Res.ok
  bind := Res.bind

/-- Change a function at one point. -/
def upd {α : Type} (f : Addr → Option α) (a : Addr) (v : Option α) : Addr → Option α :=
  fun x => if x = a then v else f x

/-- Read an `AttributeTree`. -/
def rdT (h : Heap) (t : Addr) : Res Node :=
  match h.trees t with
  | some n => .ok n
  | none => .ub

/-- Write an `AttributeTree`. -/
def wrT (h : Heap) (t : Addr) (n : Node) : Res Heap :=
  match h.trees t with
  | some _ => .ok { h with trees := upd h.trees t (some n) }
  | none => .ub

/-- Free the memory of an `AttributeTree`. -/
def freeT (h : Heap) (t : Addr) : Res Heap :=
  match h.trees t with
  | some _ => .ok { h with trees := upd h.trees t none }
  | none => .ub

/-- Read a `SubTreeList`. -/
def rdC (h : Heap) (c : Addr) : Res Cell :=
  match h.cells c with
  | some n => .ok n
  | none => .ub

/-- Write a `SubTreeList`. -/
def wrC (h : Heap) (c : Addr) (n : Cell) : Res Heap :=
  match h.cells c with
  | some _ => .ok { h with cells := upd h.cells c (some n) }
  | none => .ub

/-- Free the memory of a `SubTreeList`. -/
def freeC (h : Heap) (c : Addr) : Res Heap :=
  match h.cells c with
  | some _ => .ok { h with cells := upd h.cells c none }
  | none => .ub

/-- `new AttributeTree`, the memory with its initial content. -/
def allocT (h : Heap) (n : Node) : Heap :=
  { h with trees := upd h.trees h.fresh (some n), fresh := h.fresh + 1 }

/-- `new SubTreeList(sub, next)`, AttributeTree.cpp:469-473. -/
def allocC (h : Heap) (n : Cell) : Heap :=
  { h with cells := upd h.cells h.fresh (some n), fresh := h.fresh + 1 }

/-- AttributeTree.cpp:680-702 `AttributeTree(description, parent)`; the result is the new object. -/
def newTree (h : Heap) (d : Option S) (parent : Option Addr) : Res (Addr × Heap) :=
  let t := h.fresh
  let h := allocT h ⟨d, false, parent, none⟩
  match parent with
  | none => .ok (t, h)
  | some p => do
    let n ← rdT h p
    let c := h.fresh
    let h ← wrT (allocC h ⟨n.list, some t⟩) p { n with list := some c }
    .ok (t, h)

/-- AttributeTree.cpp:535-548 `SubTreeList::subTree(description)`. -/
def findName : Nat → Heap → Option Addr → S → Res (Option Addr)
  | 0, _, _, _ => .fuel
  | _ + 1, _, none, _ => .ok none
  | k + 1, h, some c, d => do
    let cell ← rdC h c
    match cell.sub with
    | none => findName k h cell.next d
    | some s => do
      let n ← rdT h s
      if n.desc = some d then .ok (some s) else findName k h cell.next d

/-- The descriptions of all entries of a list, as the repeated searches in `newSubNodeDescription`
(AttributeTree.cpp:1091) see them. -/
def names : Nat → Heap → Option Addr → Res (List (Option S))
  | 0, _, _ => .fuel
  | _ + 1, _, none => .ok []
  | k + 1, h, some c => do
    let cell ← rdC h c
    match cell.sub with
    | none => names k h cell.next
    | some s => do
      let n ← rdT h s
      let r ← names k h cell.next
      .ok (n.desc :: r)

/-- AttributeTree.cpp:643-651 `SubTreeList::newSubTreeList(new_tree, after)`. -/
def newSubTreeList : Nat → Heap → Addr → Addr → Addr → Res Heap
  | 0, _, _, _, _ => .fuel
  | k + 1, h, c, t, after => do
    let cell ← rdC h c
    match cell.next with
    | some nx =>
      if cell.sub ≠ some after then newSubTreeList k h nx t after
      else wrC (allocC h ⟨some nx, some t⟩) c { cell with next := some h.fresh }
    | none => wrC (allocC h ⟨none, some t⟩) c { cell with next := some h.fresh }

/-- AttributeTree.cpp:1113-1118: a name that is in use is replaced. -/
def rename (k : Nat) (h : Heap) (c t : Addr) (d : S) : Res Heap := do
  let r ← findName k h (some c) d
  match r with
  | none => .ok h
  | some _ => do
    let ns ← names k h (some c)
    match newSubNode ns d with
    | .ok d' => do
      let n ← rdT h t
      wrT h t { n with desc := some d' }
    | _ => .ub

/-- AttributeTree.cpp:1120-1127: the new entry. -/
def insertCell (k : Nat) (h : Heap) (p c t : Addr) (after : Option Addr) : Res Heap :=
  match after with
  | none => do
    let np ← rdT h p
    wrT (allocC h ⟨np.list, some t⟩) p { np with list := some h.fresh }
  | some a => newSubTreeList k h c t a

/-- AttributeTree.cpp:1109-1136 `addSubTree(tree, after)` for a tree that is not `NULL`.  Without
subtrees, `m_subtree_list` in line 1113 is `NULL`; a tree without description is passed to `strcmp`
(the case that no subtree has a description either, in which this does not happen, is not modelled). -/
def addSubTree (k : Nat) (h : Heap) (p t : Addr) (after : Option Addr) : Res Heap := do
  let np ← rdT h p
  let nt ← rdT h t
  match np.list, nt.desc with
  | some c, some d => do
    let h ← rename k h c t d
    let h ← insertCell k h p c t after
    let nt ← rdT h t
    wrT h t { nt with parent := some p }
  | _, _ => .ub

/-- AttributeTree.h:544-554 `addNextTree(nexttree)`. -/
def addNextTree (k : Nat) (h : Heap) (a t : Addr) : Res Heap := do
  let na ← rdT h a
  match na.parent with
  | some p => addSubTree k h p t (some a)
  | none => .ok h

/-- AttributeTree.cpp:512-533 `SubTreeList::unlink(obsolete_tree)`; `delete loop` finds both members
`NULL`. -/
def unlinkCell : Nat → Heap → Option Addr → Addr → Addr → Res Heap
  | 0, _, _, _, _ => .fuel
  | k + 1, h, prev, c, t => do
    let cell ← rdC h c
    if cell.sub = some t then do
      let h ← match prev with
        | some q => do
          let qc ← rdC h q
          wrC h q { qc with next := cell.next }
        | none => .ok h
      let h ← wrC h c ⟨none, none⟩
      freeC h c
    else match cell.next with
      | some nx => unlinkCell k h (some c) nx t
      | none => .ok h

/-- AttributeTree.cpp:825-839 `unlink()`. -/
def unlink (k : Nat) (h : Heap) (t : Addr) : Res Heap := do
  let n ← rdT h t
  match n.parent with
  | none => wrT h t { n with parent := none }
  | some p => do
    let np ← rdT h p
    match np.list with
    | none => .ub
    | some c => do
      let cell ← rdC h c
      let h ← if cell.sub = some t then wrT h p { np with list := cell.next } else .ok h
      let h ← unlinkCell k h none c t
      let np ← rdT h p
      let h ← wrT h p { np with changed := true }
      let n ← rdT h t
      wrT h t { n with parent := none }

mutual
/-- AttributeTree.cpp:787-812 `~AttributeTree`. -/
def deleteTree : Nat → Heap → Addr → Res Heap
  | 0, _, _ => .fuel
  | k + 1, h, t => do
    let n ← rdT h t
    let h ← match n.list with
      | some c => do
        let h ← deleteCell k h c
        let n ← rdT h t
        wrT h t { n with list := none }
      | none => .ok h
    let h ← unlink k h t
    freeT h t
/-- AttributeTree.cpp:475-484 `~SubTreeList`. -/
def deleteCell : Nat → Heap → Addr → Res Heap
  | 0, _, _ => .fuel
  | k + 1, h, c => do
    let cell ← rdC h c
    let h ← match cell.sub with
      | some s => do
        let ns ← rdT h s
        let h ← wrT h s { ns with parent := none }
        deleteTree k h s
      | none => .ok h
    let cell ← rdC h c
    let h ← match cell.next with
      | some nx => deleteCell k h nx
      | none => .ok h
    freeC h c
end

/-- AttributeTree.cpp:499-510 `SubTreeList::unlinkParent()`. -/
def unlinkParent : Nat → Heap → Option Addr → Res Heap
  | 0, _, _ => .fuel
  | _ + 1, h, none => .ok h
  | k + 1, h, some c => do
    let cell ← rdC h c
    let h ← match cell.sub with
      | some s => do
        let ns ← rdT h s
        wrT h s { ns with parent := none }
      | none => .ok h
    unlinkParent k h cell.next

/-- AttributeTree.cpp:814-823 `unlinkSub()`. The `SubTreeList` objects are not deleted. -/
def unlinkSub (k : Nat) (h : Heap) (t : Addr) : Res Heap := do
  let n ← rdT h t
  match n.list with
  | none => .ok h
  | some c => do
    let h ← unlinkParent k h (some c)
    let n ← rdT h t
    wrT h t { n with list := none }

/-- AttributeTree.cpp:842-853 `setDescription`. -/
def setDescription (h : Heap) (t : Addr) (d : Option S) : Res Heap := do
  let n ← rdT h t
  wrT h t { n with desc := d }

/-- AttributeTree.h:492-502 `firstSubTree()`. -/
def firstSubTree (h : Heap) (t : Addr) : Res (Option Addr) := do
  let n ← rdT h t
  match n.list with
  | some c => do
    let cell ← rdC h c
    .ok cell.sub
  | none => .ok none

/-- AttributeTree.cpp:601-616 `SubTreeList::next(prev)`. -/
def next : Nat → Heap → Option Addr → Addr → Res (Option Addr)
  | 0, _, _, _ => .fuel
  | _ + 1, _, none, _ => .ok none
  | k + 1, h, some c, prev => do
    let cell ← rdC h c
    if cell.sub = some prev then
      match cell.next with
      | some nx => do
        let cell' ← rdC h nx
        .ok cell'.sub
      | none => next k h cell.next prev
    else next k h cell.next prev

/-- AttributeTree.h:507-517 `nextSubTree(subtree)`. -/
def nextSubTree (k : Nat) (h : Heap) (t s : Addr) : Res (Option Addr) := do
  let n ← rdT h t
  next k h n.list s

/-- AttributeTree.h:522-525 `parentTree()`, 584-587 `parent()`. -/
def parentTree (h : Heap) (t : Addr) : Res (Option Addr) := do
  let n ← rdT h t
  .ok n.parent

/-- AttributeTree.h:591-596 `root()`. -/
def root : Nat → Heap → Addr → Res Addr
  | 0, _, _ => .fuel
  | k + 1, h, t => do
    let n ← rdT h t
    match n.parent with
    | some p => root k h p
    | none => .ok t

/-- AttributeTree.cpp:889-903 `getSubTree(description)`. -/
def getSubTree (k : Nat) (h : Heap) (t : Addr) (d : S) : Res (Option Addr) := do
  let n ← rdT h t
  match n.list with
  | some c => findName k h (some c) d
  | none => .ok none

/-- The calls that change the structure. -/
inductive Op where
  /-- `new AttributeTree(d)` -/
  | new (d : Option S)
  /-- `new AttributeTree(d, p)` -/
  | newIn (d : Option S) (p : Addr)
  /-- `p->addSubTree(t)` -/
  | add (p t : Addr)
  /-- `a->addNextTree(t)` -/
  | addNext (a t : Addr)
  /-- `t->unlink()` -/
  | unlink (t : Addr)
  /-- `t->unlinkSub()` -/
  | unlinkSub (t : Addr)
  /-- `delete t` -/
  | delete (t : Addr)
  /-- `t->setDescription(d)` -/
  | setDesc (t : Addr) (d : Option S)

/-- One call; the first component is the object made by `new`. -/
def step (k : Nat) (h : Heap) : Op → Res (Option Addr × Heap)
  | .new d => do let r ← newTree h d none; .ok (some r.1, r.2)
  | .newIn d p => do let r ← newTree h d (some p); .ok (some r.1, r.2)
  | .add p t => do let h ← addSubTree k h p t none; .ok (none, h)
  | .addNext a t => do let h ← addNextTree k h a t; .ok (none, h)
  | .unlink t => do let h ← ATHeap.unlink k h t; .ok (none, h)
  | .unlinkSub t => do let h ← ATHeap.unlinkSub k h t; .ok (none, h)
  | .delete t => do let h ← deleteTree k h t; .ok (none, h)
  | .setDesc t d => do let h ← setDescription h t d; .ok (none, h)

/-- The empty heap. -/
def Heap.empty : Heap := ⟨fun _ => none, fun _ => none, 0⟩

/-- A call that returns: with every sufficiently large bound the model yields this result. -/
def Runs (h : Heap) (op : Op) (r : Option Addr) (h' : Heap) : Prop :=
  ∃ k0, ∀ k ≥ k0, step k h op = .ok (r, h')

end Verif.ATHeap
