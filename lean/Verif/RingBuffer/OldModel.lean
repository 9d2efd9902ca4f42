import Verif.RingBuffer.Spec

/-!
# Model of the older class `icl_core/tRingBuffer.h`, and programs with several buffers

The deprecated class `tRingBuffer` has its own implementation (it does not forward to
`RingBuffer`).  The member variables are the same, so the structure `RB` is reused; every
function is translated from `tRingBuffer.h` itself.

A program works on several buffers (named by numbers); `World` maps names to objects.  As in
`Model.lean`, `capacity+1` is assumed not to wrap.
-/
namespace Verif.RingBuffer

variable {α : Type u}

namespace Old

/-- tRingBuffer.h:51-53 constructor (`m_buffer(capacity+1), m_write(0), m_read(0)`). -/
def mk [Inhabited α] (capacity : Nat) : RB α :=
  { buf := List.replicate (capacity + 1) default, w := 0, r := 0 }

/-- tRingBuffer.h:56-58 copy constructor. -/
def copyOf (other : RB α) : RB α := { buf := other.buf, w := other.w, r := other.r }

/-- tRingBuffer.h:61-67 `operator =`: the three members one after the other. -/
def assign (self other : RB α) : RB α :=
  let self := { self with buf := other.buf }
  let self := { self with w := other.w }
  { self with r := other.r }

/-- tRingBuffer.h:70 `Clear()`. -/
def clear (b : RB α) : RB α := { b with w := 0, r := 0 }

/-- tRingBuffer.h:144-155 `Skip()`. -/
def skip (b : RB α) : Outcome (RB α) :=
  if b.w = b.r then .throws .outOfRange
  else
    let b := { b with r := b.r + 1 }
    .ok (if b.r ≥ b.buf.length then { b with r := 0 } else b)

/-- tRingBuffer.h:77-97 `Write(val, overwrite)`; all exceptions leave the object as it was. -/
def write (b : RB α) (v : α) (overwrite : Bool) : Outcome (RB α) := do
  let newWritePos := b.w + 1
  let newWritePos := if newWritePos ≥ b.buf.length then 0 else newWritePos
  let b ←
    if newWritePos = b.r then
      (if overwrite then skip b else Outcome.throws .outOfRange)
    else Outcome.ok b
  let buf ← Outcome.vecSet b.buf b.w v
  Outcome.ok { b with buf := buf, w := newWritePos }

/-- tRingBuffer.h:176-186 `Size()`. -/
def size (b : RB α) : Nat :=
  if b.w ≥ b.r then b.w - b.r else b.w + b.buf.length - b.r

/-- tRingBuffer.h:189 `Capacity()`. -/
def capacity (b : RB α) : Nat := b.buf.length - 1

/-- tRingBuffer.h:104-119, 126-141: the element `At(pos)` refers to, as an offset into the
vector (both overloads). -/
def atPos (b : RB α) (pos : Nat) : Outcome Nat :=
  if pos < size b then
    let pos := pos + b.r
    .ok (if pos ≥ b.buf.length then pos - b.buf.length else pos)
  else .throws .outOfRange

/-- tRingBuffer.h:104-119 `x = At(pos)`. -/
def at' (b : RB α) (pos : Nat) : Outcome α :=
  match atPos b pos with
  | .ok p => Outcome.vecGet b.buf p
  | .throws e => .throws e
  | .ub => .ub

/-- tRingBuffer.h:126-141 `At(pos) = v` through the reference of the non-const overload. -/
def atStore (b : RB α) (pos : Nat) (v : α) : Outcome (RB α) :=
  match atPos b pos with
  | .ok p => do
    let buf ← Outcome.vecSet b.buf p v
    Outcome.ok { b with buf := buf }
  | .throws e => .throws e
  | .ub => .ub

/-- tRingBuffer.h:160-173 `Read()`. -/
def read (b : RB α) : Outcome (α × RB α) :=
  if b.w = b.r then .throws .outOfRange
  else do
    let readPos := b.r
    let b := { b with r := b.r + 1 }
    let b := if b.r ≥ b.buf.length then { b with r := 0 } else b
    let x ← Outcome.vecGet b.buf readPos
    Outcome.ok (x, b)

/-- tRingBuffer.h:210-218, the copy loop of `SetCapacity`: `k` iterations remain. -/
def copyLoop (old : List α) : (k i oldRead : Nat) → List α → Outcome (List α)
  | 0, _, _, buf => .ok buf
  | k + 1, i, oldRead, buf => do
    let x ← Outcome.vecGet old oldRead
    let buf ← Outcome.vecSet buf i x
    let oldRead := oldRead + 1
    let oldRead := if oldRead ≥ old.length then 0 else oldRead
    copyLoop old k (i + 1) oldRead buf

/-- tRingBuffer.h:196-224 `SetCapacity(capacity)`. -/
def setCapacity [Inhabited α] (b : RB α) (cap : Nat) : Outcome (RB α) := do
  let oldSize := size b
  let newSize := if cap < oldSize then cap else oldSize
  let old := b.buf
  let oldRead := b.r
  let buf := vecResize b.buf (cap + 1)
  let oldRead := oldRead + (oldSize - newSize)
  let oldRead := if oldRead ≥ old.length then oldRead - old.length else oldRead
  let buf ← copyLoop old newSize 0 oldRead buf
  Outcome.ok { buf := buf, r := 0, w := newSize }

end Old

/-- RingBuffer.h:207-209 copy constructor. -/
def copyOf (other : RB α) : RB α := { buf := other.buf, w := other.w, r := other.r }

/-- RingBuffer.h:212-218 `operator =`. -/
def assign (self other : RB α) : RB α :=
  let self := { self with buf := other.buf }
  let self := { self with w := other.w }
  { self with r := other.r }

/-- RingBuffer.h:291-306 `at(pos) = v` through the reference of the non-const overload. -/
def atStore (b : RB α) (pos : Nat) (v : α) : Outcome (RB α) :=
  if pos < size b then do
    let pos := pos + b.r
    let pos := if pos ≥ b.buf.length then pos - b.buf.length else pos
    let buf ← Outcome.vecSet b.buf pos v
    Outcome.ok { b with buf := buf }
  else .throws .outOfRange

/-! ## Programs with several buffers -/

/-- The calls both classes have, on one object. -/
inductive Call (α : Type u) where
  | write (v : α) (overwrite : Bool)
  | read
  | skip
  | clear
  | setCapacity (m : Nat)
  | at (i : Nat)
  | atStore (i : Nat) (v : α)
  | size
  | capacity

/-- One statement of a program: create object `i`, create `i` as a copy of `j`, assign `j` to
`i`, or call a function of object `i`. -/
inductive Stmt (α : Type u) where
  | create (i : Nat) (capacity : Nat)
  | copy (i j : Nat)
  | assign (i j : Nat)
  | call (i : Nat) (c : Call α)

/-- One call on the old class (tRingBuffer.h); a caught exception leaves the object as it was. -/
def Old.step [Inhabited α] (b : RB α) : Call α → Obs α × RB α
  | .write v ow => settle b (Old.write b v ow)
  | .read =>
    match Old.read b with
    | .ok (v, b') => (.val v, b')
    | .throws e => (.threw e, b)
    | .ub => (.ub, b)
  | .skip => settle b (Old.skip b)
  | .clear => (.unit, Old.clear b)
  | .setCapacity m => settle b (Old.setCapacity b m)
  | .at i => (obsVal (Old.at' b i), b)
  | .atStore i v => settle b (Old.atStore b i v)
  | .size => (.nat (Old.size b), b)
  | .capacity => (.nat (Old.capacity b), b)

/-- One call on the new class (RingBuffer.h). -/
def newStep [Inhabited α] (b : RB α) : Call α → Obs α × RB α
  | .write v ow => step b (.write v ow)
  | .read => step b .read
  | .skip => step b .skip
  | .clear => step b .clear
  | .setCapacity m => step b (.setCapacity m)
  | .at i => step b (.at i)
  | .atStore i v => settle b (atStore b i v)
  | .size => step b .size
  | .capacity => step b .capacity

/-- A function changed at one place. -/
def upd {β : Type v} (f : Nat → β) (i : Nat) (x : β) : Nat → β := fun k => if k = i then x else f k

/-- Run a program with objects of the old class. -/
def Old.run [Inhabited α] (W : Nat → RB α) : List (Stmt α) → List (Obs α)
  | [] => []
  | .create i c :: p => .unit :: Old.run (upd W i (Old.mk c)) p
  | .copy i j :: p => .unit :: Old.run (upd W i (Old.copyOf (W j))) p
  | .assign i j :: p => .unit :: Old.run (upd W i (Old.assign (W i) (W j))) p
  | .call i c :: p => (Old.step (W i) c).1 :: Old.run (upd W i (Old.step (W i) c).2) p

/-- Run a program with objects of the new class. -/
def newRun [Inhabited α] (W : Nat → RB α) : List (Stmt α) → List (Obs α)
  | [] => []
  | .create i c :: p => .unit :: newRun (upd W i (mk c)) p
  | .copy i j :: p => .unit :: newRun (upd W i (copyOf (W j))) p
  | .assign i j :: p => .unit :: newRun (upd W i (assign (W i) (W j))) p
  | .call i c :: p => (newStep (W i) c).1 :: newRun (upd W i (newStep (W i) c).2) p

/-! ## Specification -/

/-- What one call does to a bounded queue. -/
def Queue.call (s : Queue α) : Call α → Obs α × Queue α
  | .write v ow =>
    if s.q.length < s.cap then (.unit, { s with q := s.q ++ [v] })
    else if ow = true ∧ 0 < s.cap then (.unit, { s with q := s.q.tail ++ [v] })
    else (.threw .outOfRange, s)
  | .read =>
    match s.q with
    | [] => (.threw .outOfRange, s)
    | x :: xs => (.val x, { s with q := xs })
  | .skip =>
    match s.q with
    | [] => (.threw .outOfRange, s)
    | _ :: xs => (.unit, { s with q := xs })
  | .clear => (.unit, { s with q := [] })
  | .setCapacity m => (.unit, { cap := m, q := s.q.drop (s.q.length - m) })
  | .at i =>
    match s.q[i]? with
    | some x => (.val x, s)
    | none => (.threw .outOfRange, s)
  | .atStore i v =>
    if i < s.q.length then (.unit, { s with q := s.q.set i v }) else (.threw .outOfRange, s)
  | .size => (.nat s.q.length, s)
  | .capacity => (.nat s.cap, s)

/-- What the program shows when every object is an independent bounded queue. -/
def Queue.runAll (Q : Nat → Queue α) : List (Stmt α) → List (Obs α)
  | [] => []
  | .create i c :: p => .unit :: Queue.runAll (upd Q i ⟨c, []⟩) p
  | .copy i j :: p => .unit :: Queue.runAll (upd Q i (Q j)) p
  | .assign i j :: p => .unit :: Queue.runAll (upd Q i (Q j)) p
  | .call i c :: p => ((Q i).call c).1 :: Queue.runAll (upd Q i ((Q i).call c).2) p

end Verif.RingBuffer
