import Verif.RingBuffer.Model

/-!
# Model of `icl_core/RingBuffer.h` for element types whose copying can throw

Copying an element (copy construction or assignment) may throw, for instance because there is no memory.
`std::vector::resize` and the copy of a vector are all-or-nothing ([container.requirements.general]).
A failed assignment leaves an arbitrary value in its target.
-/
namespace Verif.RingBuffer.Fail

variable {α : Type u}

/-- A call during which no copy fails, or a call with a copy that fails if the call gets that far. -/
inductive FOp (α : Type u) where
  | good (op : Op α)
  /-- the assignment RingBuffer.h:252 throws and leaves `junk` in the slot -/
  | write (v : α) (overwrite : Bool) (junk : α)
  /-- the copy construction of the return value RingBuffer.h:345 throws -/
  | read
  /-- the copy of the old vector RingBuffer.h:379 or the resize RingBuffer.h:383 throws -/
  | setCapacityEarly (m : Nat)
  /-- the assignment RingBuffer.h:393 throws in iteration `i` and leaves `junk` in the slot -/
  | setCapacityAt (m i : Nat) (junk : α)

/-- What the caller sees: as before, or the exception of the element type. -/
inductive FObs (α : Type u) where
  | obs (o : Obs α)
  | copyFailed

/-- RingBuffer.h:234-254 `write`, where the assignment throws: the old element has been skipped already
if the buffer was full, the write position has not been moved. -/
def writeFails (b : RB α) (overwrite : Bool) (junk : α) : FObs α × RB α :=
  let nw := b.w + 1
  let nw := if nw ≥ b.buf.length then 0 else nw
  match (if nw = b.r then (if overwrite then skip b else Outcome.throws .outOfRange) else Outcome.ok b) with
  | .ok b1 =>
    if b1.w < b1.buf.length then (.copyFailed, { b1 with buf := b1.buf.set b1.w junk }) else (.obs .ub, b)
  | .throws e => (.obs (.threw e), b)
  | .ub => (.obs .ub, b)

/-- RingBuffer.h:333-346 `read`, where the copy construction of the result throws: the read position has
been moved already. -/
def readFails (b : RB α) : FObs α × RB α :=
  if b.w = b.r then (.obs (.threw .outOfRange), b)
  else
    let r := b.r + 1
    let r := if r ≥ b.buf.length then 0 else r
    if b.r < b.buf.length then (.copyFailed, { b with r := r }) else (.obs .ub, b)

/-- RingBuffer.h:375-403 `setCapacity`, where the assignment in iteration `i` of the loop throws: the vector
has its new size and the first `i` elements have been copied, the positions are the old ones. -/
def setCapacityFails [Inhabited α] (b : RB α) (cap i : Nat) (junk : α) : FObs α × RB α :=
  let oldSize := size b
  let newSize := if cap < oldSize then cap else oldSize
  if i < newSize then
    let old := b.buf
    let buf := vecResize b.buf (cap + 1)
    let oldRead := b.r + (oldSize - newSize)
    let oldRead := if oldRead ≥ old.length then oldRead - old.length else oldRead
    match copyLoop old i 0 oldRead buf with
    | .ok buf => (.copyFailed, { b with buf := buf.set i junk })
    | .throws e => (.obs (.threw e), b)
    | .ub => (.obs .ub, b)
  else
    (.obs (step b (.setCapacity cap)).1, (step b (.setCapacity cap)).2)

/-- One call. -/
def stepF [Inhabited α] (b : RB α) : FOp α → FObs α × RB α
  | .good op => (.obs (step b op).1, (step b op).2)
  | .write _ ow junk => writeFails b ow junk
  | .read => readFails b
  | .setCapacityEarly _ => (.copyFailed, b)
  | .setCapacityAt m i junk => setCapacityFails b m i junk

/-- A history of calls: everything the caller sees, and the final state. -/
def runF [Inhabited α] (b : RB α) : List (FOp α) → List (FObs α) × RB α
  | [] => ([], b)
  | op :: ops => ((stepF b op).1 :: (runF (stepF b op).2 ops).1, (runF (stepF b op).2 ops).2)

/-! ## The largest capacity -/

/-- RingBuffer.h:202-204, the constructor, with the unsigned 64 bit sum `capacity+1`. -/
def mk64 [Inhabited α] (cap : Nat) : RB α :=
  { buf := List.replicate ((cap + 1) % 2 ^ 64) default, w := 0, r := 0 }

/-- RingBuffer.h:227 `full()`: the remainder of a division by the size of the vector. -/
def full64 (b : RB α) : Outcome Bool :=
  if b.buf.length = 0 then .ub else .ok (full b)

/-- RingBuffer.h:362 `capacity()` in unsigned 64 bit arithmetic. -/
def capacity64 (b : RB α) : Nat := (b.buf.length + 2 ^ 64 - 1) % 2 ^ 64

end Verif.RingBuffer.Fail
