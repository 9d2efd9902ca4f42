import Verif.Base

/-!
# Models of small helpers of `icl_core`

`SetHelper.h`, `EnumHelper.cpp`, `BitfieldHelper.h`, `Array2D.h`, `ZBuffer.h`,
`SearchableStack.h`, `Finalizable.h`, `AtScopeEnd.h`.
-/
namespace Verif.Small

/-! ## SetHelper.h -/

/-- SetHelper.h:33-40 `enum SetRelation`. -/
inductive SetRelation where
  | equal | properSuperset | properSubset | intersectionNonempty | disjunct
  deriving DecidableEq, Repr

/-- SetHelper.h:49-52 the four local flags. -/
structure Flags where
  equal : Bool
  super : Bool
  sub : Bool
  inter : Bool
  deriving DecidableEq, Repr

/-- SetHelper.h:55-76, the `while` loop; the lists are what the two iterators still have to
visit (a `std::set` iterates in ascending order), `cmp` is `TCompare`.  Returns the flags
and the two rests at loop exit. -/
def relLoop {α : Type u} [DecidableEq α] (cmp : α → α → Bool) :
    List α → List α → Flags → Flags × List α × List α
  | [], l2, f => (f, [], l2)
  | l1, [], f => (f, l1, [])
  | x :: xs, y :: ys, f =>
    if x = y then relLoop cmp xs ys { f with inter := true }
    else if cmp x y then relLoop cmp xs (y :: ys) { f with equal := false, sub := false }
    else relLoop cmp (x :: xs) ys { f with equal := false, super := false }
  termination_by l1 l2 => l1.length + l2.length

/-- SetHelper.h:77-91 after the loop. -/
def relEnd {α : Type u} : Flags × List α × List α → SetRelation
  | (f, r1, r2) =>
    let f := if r1 ≠ [] then { f with equal := false, sub := false } else f
    let f := if r2 ≠ [] then { f with equal := false, super := false } else f
    if f.equal then .equal
    else if f.super then .properSuperset
    else if f.sub then .properSubset
    else if f.inter then .intersectionNonempty
    else .disjunct

/-- SetHelper.h:46-92 `setRelation(s1, s2)`. -/
def setRelation {α : Type u} [DecidableEq α] (cmp : α → α → Bool) (s1 s2 : List α) : SetRelation :=
  relEnd (relLoop cmp s1 s2 ⟨true, true, true, false⟩)

/-! ## EnumHelper.cpp -/

/-- The bytes of a `std::string` seen through `c_str()` and `strcmp`: up to the first NUL. -/
def cstr (s : List Char) : List Char := s.takeWhile (· ≠ '\x00')

/-- EnumHelper.cpp:28-47 `string2Enum` on a C array. The array is a list of pointers
(`none` = `NULL`); reading behind the array and passing `NULL` to `strcmp` are undefined.
`endMarker = none` is the default argument `NULL`.  `idx` and `acc` are the loop variable
and the current `(value, result)`; `int32_t` overflow of the index is not modelled. -/
def string2EnumLoop (str : List Char) (endMarker : Option (List Char)) :
    List (Option (List Char)) → Nat → Int × Bool → Outcome (Int × Bool)
  | [], _, _ => .ub
  | d :: ds, idx, acc =>
    match endMarker, d with
    | none, none => .ok acc
    | some _, none => .ub
    | some e, some t =>
      if t = e then .ok acc
      else string2EnumLoop str endMarker ds (idx + 1) (if cstr str = t then (idx, true) else acc)
    | none, some t =>
      string2EnumLoop str endMarker ds (idx + 1) (if cstr str = t then (idx, true) else acc)

/-- EnumHelper.cpp:29-47; returns the new content of `value` and the result. -/
def string2Enum (str : List Char) (value : Int) (ds : List (Option (List Char)))
    (endMarker : Option (List Char)) : Outcome (Int × Bool) :=
  string2EnumLoop str endMarker ds 0 (value, false)

/-- EnumHelper.cpp:50-67 `string2Enum` on a vector. -/
def string2EnumVecLoop (str : List Char) : List (List Char) → Nat → Int × Bool → Int × Bool
  | [], _, acc => acc
  | d :: ds, idx, acc =>
    string2EnumVecLoop str ds (idx + 1) (if str = d then (idx, true) else acc)

/-- EnumHelper.cpp:50-67; returns the new content of `value` and the result. -/
def string2EnumVec (str : List Char) (value : Int) (ds : List (List Char)) : Int × Bool :=
  string2EnumVecLoop str ds 0 (value, false)

/-! ## BitfieldHelper.h -/

/-- `int(bitfield)` for an integer type of `w` bits; `sgn` tells whether `T` is signed. -/
def toInt {w : Nat} (sgn : Bool) (f : BitVec w) : BitVec 32 :=
  if sgn then f.signExtend 32 else f.setWidth 32

/-- `T(i)` for an `int`: sign extension or truncation. -/
def ofInt (w : Nat) (i : BitVec 32) : BitVec w := i.signExtend w

/-- BitfieldHelper.h:39-43 `setBits`. -/
def setBits {w : Nat} (sgn : Bool) (bits : BitVec 32) (f : BitVec w) : BitVec w :=
  ofInt w (toInt sgn f ||| bits)

/-- BitfieldHelper.h:48-52 `clearBits`. -/
def clearBits {w : Nat} (sgn : Bool) (bits : BitVec 32) (f : BitVec w) : BitVec w :=
  ofInt w (toInt sgn f &&& ~~~bits)

/-- BitfieldHelper.h:57-61 `isBitSet`. (Integral promotion of the `&` keeps the comparison
with zero unchanged.) -/
def isBitSet {w : Nat} (bit : BitVec 32) (f : BitVec w) : Bool := f &&& ofInt w bit != 0

/-! ## Array2D.h -/

/-- Array2D.h:174-176 members. -/
structure Array2D (α : Type u) where
  container : List α
  width : Nat
  height : Nat
  deriving DecidableEq, Repr

namespace Array2D

variable {α : Type u}

/-- `width*height` in `size_t` (64 bit) arithmetic. -/
def mulSize (w h : Nat) : Nat := w * h % 2 ^ 64

/-- `row*m_width + column` in `size_t` (64 bit) arithmetic, Array2D.h:134-144. -/
def index1D (a : Array2D α) (c r : Nat) : Nat := (r * a.width + c) % 2 ^ 64

/-- Array2D.h:61-67 constructor. -/
def mk' (w h : Nat) (v : α) : Array2D α := ⟨List.replicate (mulSize w h) v, w, h⟩

/-- `std::vector::resize(n, value)`. -/
def vecResize (l : List α) (n : Nat) (v : α) : List α := l.take n ++ List.replicate (n - l.length) v

/-- Array2D.h:85-97 `resize(width, height, value)`. -/
def resize (a : Array2D α) (w h : Nat) (v : α) : Array2D α :=
  ⟨vecResize a.container (mulSize w h) v, w, h⟩

/-- Array2D.h:99-111 `assign(width, height, value)`. -/
def assign (_a : Array2D α) (w h : Nat) (v : α) : Array2D α :=
  ⟨List.replicate (mulSize w h) v, w, h⟩

/-- Array2D.h:113-121 `reset()` / `set(value)`. -/
def set (a : Array2D α) (v : α) : Array2D α :=
  { a with container := List.replicate (mulSize a.width a.height) v }

/-- Array2D.h:134-141 reading `at(column,row)` / `operator()`. -/
def at' (a : Array2D α) (c r : Nat) : Outcome α := Outcome.vecGet a.container (a.index1D c r)

/-- Array2D.h:136, 141 assigning through the reference returned by `at(column,row)`. -/
def put (a : Array2D α) (c r : Nat) (v : α) : Outcome (Array2D α) :=
  (Outcome.vecSet a.container (a.index1D c r) v).map fun l => { a with container := l }

/-- Array2D.h:147-151 `indexTo2D`; division by zero is undefined. -/
def indexTo2D (a : Array2D α) (i : Nat) : Outcome (Nat × Nat) :=
  if a.width = 0 then .ub else .ok (i % a.width, i / a.width)

/-- Array2D.h:154-159 `swap`. -/
def swap (a b : Array2D α) : Array2D α × Array2D α :=
  (⟨b.container, b.width, b.height⟩, ⟨a.container, a.width, a.height⟩)

end Array2D

/-! ## ZBuffer.h -/

/-- ZBuffer.h:56-59 constructor: all cells empty. -/
def zInit (α : Type u) (n : Nat) : List (Option α) := List.replicate n none

/-- ZBuffer.h:68-77 `update(pos, value)`; `cmp` is `TCompare`. The `assert` is disabled in
release builds, an out-of-range position is then undefined. -/
def zUpdate {α : Type u} (cmp : α → α → Bool) (b : List (Option α)) (pos : Nat) (v : α) :
    Outcome (List (Option α) × Bool) :=
  match b[pos]? with
  | none => .ub
  | some none => .ok (b.set pos (some v), true)
  | some (some c) => if cmp v c then .ok (b.set pos (some v), true) else .ok (b, false)

/-- A history of updates. -/
def zRun {α : Type u} (cmp : α → α → Bool) : List (Option α) → List (Nat × α) →
    Outcome (List (Option α))
  | b, [] => .ok b
  | b, (p, v) :: us =>
    match zUpdate cmp b p v with
    | .ok (b', _) => zRun cmp b' us
    | .throws e => .throws e
    | .ub => .ub

/-! ## SearchableStack.h; tSearchableStack.h:43-95 has the same code under a deprecated name -/

/-- Calls of the stack interface; SearchableStack.h:56, 60, 65, 67. -/
inductive StackOp (α : Type u) where
  | push (a : α)
  | pop
  | clear
  /-- `top() = a` through the returned reference -/
  | setTop (a : α)

/-- SearchableStack.h:55-67; the vector has the bottom first. `pop`/`top` on an empty
vector are undefined. -/
def stackStep {α : Type u} (v : List α) : StackOp α → Outcome (List α)
  | .push a => .ok (v ++ [a])
  | .pop => if v = [] then .ub else .ok v.dropLast
  | .clear => .ok []
  | .setTop a => if v = [] then .ub else .ok (v.dropLast ++ [a])

/-- SearchableStack.h:67-69 `top()`. -/
def stackTop {α : Type u} (v : List α) : Outcome α :=
  match v.getLast? with
  | some a => .ok a
  | none => .ub

/-- SearchableStack.h:83-90 `find(t)`: index of the returned iterator, the size for
`end()`. -/
def stackFind {α : Type u} (comp : α → α → Bool) (t : α) : List α → Nat
  | [] => 0
  | a :: as => if comp a t then 0 else stackFind comp t as + 1

/-! ## Finalizable.h -/

/-- Finalizable.h:105-107 members. -/
structure Finalizable (α : Type u) where
  value : α
  final : Bool
  deriving DecidableEq, Repr

namespace Finalizable

/-- Finalizable.h:44-48 constructor. -/
def init {α : Type u} (v : α) : Finalizable α := ⟨v, false⟩

/-- Finalizable.h:73-84 assignment of a value. -/
def assign {α : Type u} (f : Finalizable α) (v : α) : Outcome (Finalizable α) :=
  if !f.final then .ok { f with value := v } else .throws .logicError

/-- Finalizable.h:59-70 assignment of another object: only the value is taken over. -/
def assignFrom {α : Type u} (f o : Finalizable α) : Outcome (Finalizable α) :=
  if !f.final then .ok { f with value := o.value } else .throws .logicError

/-- Finalizable.h:53-56 copy construction. -/
def copy {α : Type u} (o : Finalizable α) : Finalizable α := ⟨o.value, o.final⟩

/-- Finalizable.h:93 `finalize()`. -/
def finalize {α : Type u} (f : Finalizable α) : Finalizable α := { f with final := true }

/-- Calls on one object. -/
inductive Op (α : Type u) where
  | assign (v : α)
  | assignFrom (o : Finalizable α)
  | finalize

/-- One call: whether it threw, and the object afterwards. -/
def step {α : Type u} (f : Finalizable α) (op : Op α) : Option Exc × Finalizable α :=
  match op with
  | .assign v =>
    match assign f v with
    | .ok f' => (none, f')
    | .throws e => (some e, f)
    | .ub => (none, f)
  | .assignFrom o =>
    match assignFrom f o with
    | .ok f' => (none, f')
    | .throws e => (some e, f)
    | .ub => (none, f)
  | .finalize => (none, finalize f)

/-- A history of calls: for every call whether it threw, and the final object. -/
def run {α : Type u} (f : Finalizable α) : List (Op α) → List (Option Exc) × Finalizable α
  | [] => ([], f)
  | op :: ops =>
    let r := step f op
    let rs := run r.2 ops
    (r.1 :: rs.1, rs.2)

end Finalizable

/-! ## AtScopeEnd.h -/

/-- What happens to `AtScopeEnd` objects; objects are numbered in order of construction. -/
inductive ScopeOp where
  /-- AtScopeEnd.h:41-44 construction -/
  | create
  /-- the implicitly generated copy constructor copies `m_run_at_scope_end` -/
  | copy (i : Nat)
  /-- AtScopeEnd.h:59 -/
  | enable (i : Nat)
  /-- AtScopeEnd.h:57 -/
  | disable (i : Nat)
  /-- AtScopeEnd.h:48-54 destructor -/
  | destroy (i : Nat)
  deriving DecidableEq, Repr

/-- Living objects (`none` = destroyed; `some b` = `m_run_at_scope_end`) and the list of
objects whose destructor has called the function. -/
structure ScopeState where
  objs : List (Option Bool)
  calls : List Nat
  deriving DecidableEq, Repr

/-- AtScopeEnd.h:38-66. Using a destroyed or unknown object is undefined. -/
def scopeStep (s : ScopeState) : ScopeOp → Outcome ScopeState
  | .create => .ok { s with objs := s.objs ++ [some true] }
  | .copy i =>
    match s.objs[i]? with
    | some (some b) => .ok { s with objs := s.objs ++ [some b] }
    | _ => .ub
  | .enable i =>
    match s.objs[i]? with
    | some (some _) => .ok { s with objs := s.objs.set i (some true) }
    | _ => .ub
  | .disable i =>
    match s.objs[i]? with
    | some (some _) => .ok { s with objs := s.objs.set i (some false) }
    | _ => .ub
  | .destroy i =>
    match s.objs[i]? with
    | some (some b) =>
      .ok { objs := s.objs.set i none, calls := if b then s.calls ++ [i] else s.calls }
    | _ => .ub

/-- A history. -/
def scopeRun : ScopeState → List ScopeOp → Outcome ScopeState
  | s, [] => .ok s
  | s, op :: ops =>
    match scopeStep s op with
    | .ok s' => scopeRun s' ops
    | .throws e => .throws e
    | .ub => .ub

end Verif.Small
