import Verif.Base

/-!
# Model of `icl_core/RingBuffer.h` and `icl_core/RingBuffer.hpp`

`size_type` is modelled by `Nat`: no operation below can exceed the address space
as long as the vector itself exists (`m_buffer.size() ≤ SIZE_MAX/2`), except
`RingBuffer(SIZE_MAX)`/`setCapacity(SIZE_MAX)` whose `capacity+1` would wrap; those
two calls are outside this model; see `Fail.mk64` in FailModel.lean.

Every `throw` in the file precedes the first modification of the object
(h:244-247, h:302, h:314-317, h:335-338), so a caught
`std::out_of_range` leaves the old state. Exceptions thrown by the element type are in FailModel.lean.
-/
namespace Verif.RingBuffer

/-- RingBuffer.h private members `m_buffer`, `m_write`, `m_read` (initialised h:202-204). -/
structure RB (α : Type u) where
  buf : List α
  w : Nat
  r : Nat
  deriving DecidableEq, Repr

variable {α : Type u}

/-- RingBuffer.h:202-204 constructor: `m_buffer(capacity+1), m_write(0), m_read(0)`;
`std::vector(n)` value-initialises. -/
def mk [Inhabited α] (capacity : Nat) : RB α :=
  { buf := List.replicate (capacity + 1) default, w := 0, r := 0 }

/-- RingBuffer.h:221 `clear()`. -/
def clear (b : RB α) : RB α := { b with w := 0, r := 0 }

/-- RingBuffer.h:224 `empty()`. -/
def empty (b : RB α) : Bool := b.w == b.r

/-- RingBuffer.h:227 `full()`. -/
def full (b : RB α) : Bool := (b.w + 1) % b.buf.length == b.r

/-- RingBuffer.h:312-323 `skip()`. -/
def skip (b : RB α) : Outcome (RB α) :=
  if b.w = b.r then .throws .outOfRange
  else
    let r := b.r + 1
    let r := if r ≥ b.buf.length then 0 else r
    .ok { b with r := r }

/-- RingBuffer.h:234-254 `write(val, overwrite)`. -/
def write (b : RB α) (v : α) (overwrite : Bool) : Outcome (RB α) := do
  let nw := b.w + 1
  let nw := if nw ≥ b.buf.length then 0 else nw
  let b ←
    if nw = b.r then
      (if overwrite then skip b else Outcome.throws .outOfRange)
    else Outcome.ok b
  let buf ← Outcome.vecSet b.buf b.w v
  Outcome.ok { b with buf := buf, w := nw }

/-- RingBuffer.h:349-359 `size()`. -/
def size (b : RB α) : Nat :=
  if b.w ≥ b.r then b.w - b.r else b.w + b.buf.length - b.r

/-- RingBuffer.h:362 `capacity()`. -/
def capacity (b : RB α) : Nat := b.buf.length - 1

/-- RingBuffer.h:365-368 `reserve()`. -/
def reserve (b : RB α) : Nat := capacity b - size b

/-- RingBuffer.h:269-306 `at(pos)` (both overloads). -/
def at' (b : RB α) (pos : Nat) : Outcome α :=
  if pos < size b then
    let pos := pos + b.r
    let pos := if pos ≥ b.buf.length then pos - b.buf.length else pos
    Outcome.vecGet b.buf pos
  else .throws .outOfRange

/-- RingBuffer.h:308-309 `front()`. -/
def front (b : RB α) : Outcome α := at' b 0

/-- RingBuffer.h:333-346 `read()`. -/
def read (b : RB α) : Outcome (α × RB α) :=
  if b.w = b.r then .throws .outOfRange
  else do
    let readPos := b.r
    let r := b.r + 1
    let r := if r ≥ b.buf.length then 0 else r
    let x ← Outcome.vecGet b.buf readPos
    Outcome.ok (x, { b with r := r })

/-- `std::vector::resize(n)`: truncate or append value-initialised elements. -/
def vecResize [Inhabited α] (v : List α) (n : Nat) : List α :=
  v.take n ++ List.replicate (n - v.length) default

/-- RingBuffer.h:390-398, the copy loop of `setCapacity`: `k` iterations remain, the next
destination is `i`, the next source is `oldRead`. -/
def copyLoop (old : List α) : (k i oldRead : Nat) → List α → Outcome (List α)
  | 0, _, _, buf => .ok buf
  | k + 1, i, oldRead, buf => do
    let x ← Outcome.vecGet old oldRead
    let buf ← Outcome.vecSet buf i x
    let oldRead := oldRead + 1
    let oldRead := if oldRead ≥ old.length then 0 else oldRead
    copyLoop old k (i + 1) oldRead buf

/-- RingBuffer.h:375-403 `setCapacity(capacity)`. -/
def setCapacity [Inhabited α] (b : RB α) (cap : Nat) : Outcome (RB α) := do
  let oldSize := size b
  let newSize := if cap < oldSize then cap else oldSize
  let old := b.buf
  let oldRead := b.r
  let buf := vecResize b.buf (cap + 1)
  let oldRead := oldRead + (oldSize - newSize)
  let oldRead := if oldRead ≥ old.length then oldRead - old.length else oldRead
  let buf ← copyLoop old newSize 0 oldRead buf
  Outcome.ok { buf := buf, r := 0, w := newSize }

/-- RingBuffer.hpp:146-157 `skip(count)`. -/
def skipN (b : RB α) (count : Nat) : RB α :=
  if count ≥ size b then clear b
  else { b with r := (b.r + count) % b.buf.length }

/-- RingBuffer.hpp:159-167 `fakeWrite(count)`. -/
def fakeWrite (b : RB α) (count : Nat) : RB α :=
  let count := if count > reserve b then reserve b else count
  { b with w := (b.w + count) % b.buf.length }

/-- A pair (pointer offset into `m_buffer`, length), as `array_range`. -/
abbrev Range := Nat × Nat

/-- RingBuffer.hpp:29-52 `arrayOne()`. -/
def arrayOne (b : RB α) : Range :=
  if b.w ≥ b.r then (b.r, b.w - b.r) else (b.r, b.buf.length - b.r)

/-- RingBuffer.hpp:55-78 `arrayTwo()`. -/
def arrayTwo (b : RB α) : Range :=
  if b.w ≥ b.r then (b.w, 0) else (0, b.w)

/-- RingBuffer.hpp:81-118 `emptyArrayOne()`. -/
def emptyArrayOne (b : RB α) : Range :=
  if b.w ≥ b.r then
    if b.r = 0 then (b.w, b.buf.length - b.w - 1) else (b.w, b.buf.length - b.w)
  else (b.w, b.r - b.w - 1)

/-- RingBuffer.hpp:121-144 `emptyArrayTwo()`. -/
def emptyArrayTwo (b : RB α) : Range :=
  if b.w ≥ b.r then (0, (if b.r > 0 then b.r else 1) - 1) else (b.r, 0)

/-- RingBuffer.h:58-167 `const_iterator`: pointers as integer offsets from `&m_buffer[0]`;
`cbegin` is 0, `cend` is `m_buffer.size()`. -/
structure Iter where
  current : Int
  cend : Int
  first : Int
  deriving DecidableEq, Repr

/-- RingBuffer.h:411-414 `begin()`. -/
def begin' (b : RB α) : Iter := { current := b.r, cend := b.buf.length, first := b.r }

/-- RingBuffer.h:416-419 `end()`. -/
def end' (b : RB α) : Iter := { current := b.w, cend := b.buf.length, first := b.r }

/-- RingBuffer.h:73-78 `operator ++`. -/
def Iter.inc (it : Iter) : Iter :=
  let c := it.current + 1
  { it with current := if c = it.cend then 0 else c }

/-- RingBuffer.h:86-94 `operator --`. -/
def Iter.dec (it : Iter) : Iter :=
  let c := if it.current = 0 then it.cend else it.current
  { it with current := c - 1 }

/-- RingBuffer.h:102-114 `operator +=`. -/
def Iter.add (it : Iter) (offset : Int) : Iter :=
  let c := it.current + offset
  let c := if c ≥ it.cend then c - it.cend else c
  let c := if 0 > c then c + it.cend else c
  { it with current := c }

/-- RingBuffer.h:132-147 `operator - (const_iterator)`. -/
def Iter.diff (a b : Iter) : Int :=
  if (a.current ≥ a.first ∧ b.current ≥ b.first) ∨ (a.current < a.first ∧ b.current < b.first) then
    a.current - b.current
  else if a.current ≥ a.first then a.current - b.current + 0 - a.cend
  else a.current - b.current + a.cend - 0

/-- RingBuffer.h:149-150 `operator ==`. -/
def Iter.eq (a b : Iter) : Bool := a.current == b.current

/-- RingBuffer.h:152 `operator *`. -/
def Iter.deref (b : RB α) (it : Iter) : Outcome α :=
  if it.current < 0 then .ub else Outcome.vecGet b.buf it.current.toNat

/-! ## Histories -/

/-- One call of the public interface. -/
inductive Op (α : Type u) where
  | write (v : α) (overwrite : Bool)
  | read
  | skip
  | skipN (k : Nat)
  | clear
  | setCapacity (m : Nat)
  | at (i : Nat)
  | front
  | size
  | empty
  | full
  | capacity
  | reserve

/-- What the caller sees from one call. -/
inductive Obs (α : Type u) where
  | unit
  | val (a : α)
  | nat (n : Nat)
  | bool (b : Bool)
  | threw (e : Exc)
  | ub

/-- Turn a state-changing call into (observation, next state); a thrown exception keeps
the old state (see the file comment). -/
def settle (b : RB α) (x : Outcome (RB α)) : Obs α × RB α :=
  match x with
  | .ok b' => (.unit, b')
  | .throws e => (.threw e, b)
  | .ub => (.ub, b)

/-- Observation of a call returning a value. -/
def obsVal (x : Outcome α) : Obs α :=
  match x with
  | .ok v => .val v
  | .throws e => .threw e
  | .ub => .ub

/-- Execute one call on the model. -/
def step [Inhabited α] (b : RB α) : Op α → Obs α × RB α
  | .write v ow => settle b (write b v ow)
  | .read =>
    match read b with
    | .ok (v, b') => (.val v, b')
    | .throws e => (.threw e, b)
    | .ub => (.ub, b)
  | .skip => settle b (skip b)
  | .skipN k => (.unit, skipN b k)
  | .clear => (.unit, clear b)
  | .setCapacity m => settle b (setCapacity b m)
  | .at i => (obsVal (at' b i), b)
  | .front => (obsVal (front b), b)
  | .size => (.nat (size b), b)
  | .empty => (.bool (empty b), b)
  | .full => (.bool (full b), b)
  | .capacity => (.nat (capacity b), b)
  | .reserve => (.nat (reserve b), b)

/-- Execute a history, collecting everything the caller sees. -/
def run [Inhabited α] (b : RB α) : List (Op α) → List (Obs α) × RB α
  | [] => ([], b)
  | op :: ops =>
    let (o, b') := step b op
    let (os, b'') := run b' ops
    (o :: os, b'')

/-- States reachable from a fresh buffer through the interface, including `fakeWrite`. -/
inductive Reachable [Inhabited α] : RB α → Prop where
  | fresh (n : Nat) : Reachable (mk n)
  | step {b : RB α} (op : Op α) : Reachable b → Reachable (step b op).2
  | fakeWrite {b : RB α} (k : Nat) : Reachable b → Reachable (fakeWrite b k)
  /-- the caller stores a value through a pointer obtained from one of the array ranges -/
  | poke {b : RB α} (i : Nat) (v : α) : Reachable b → Reachable { b with buf := b.buf.set i v }

end Verif.RingBuffer
