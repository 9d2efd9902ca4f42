import Verif.RingBuffer.Model

/-!
# Specification: a bounded FIFO queue

The specification knows nothing about indices: its state is a capacity and the list
of the stored elements, oldest first.
-/
namespace Verif.RingBuffer

/-- Specification state: capacity and elements, oldest first. -/
structure Queue (α : Type u) where
  cap : Nat
  q : List α

variable {α : Type u}

/-- The bounded FIFO queue. -/
def Queue.step (s : Queue α) : Op α → Obs α × Queue α
  | .write v ow =>
    if s.q.length < s.cap then (.unit, { s with q := s.q ++ [v] })
    else if ow ∧ 0 < s.cap then (.unit, { s with q := s.q.tail ++ [v] })
    else (.threw .outOfRange, s)
  | .read =>
    match s.q with
    | [] => (.threw .outOfRange, s)
    | x :: xs => (.val x, { s with q := xs })
  | .skip =>
    match s.q with
    | [] => (.threw .outOfRange, s)
    | _ :: xs => (.unit, { s with q := xs })
  | .skipN k => (.unit, { s with q := s.q.drop k })
  | .clear => (.unit, { s with q := [] })
  | .setCapacity m => (.unit, { cap := m, q := s.q.drop (s.q.length - m) })
  | .at i =>
    match s.q[i]? with
    | some x => (.val x, s)
    | none => (.threw .outOfRange, s)
  | .front =>
    match s.q with
    | [] => (.threw .outOfRange, s)
    | x :: _ => (.val x, s)
  | .size => (.nat s.q.length, s)
  | .empty => (.bool (s.q.length == 0), s)
  | .full => (.bool (s.q.length == s.cap), s)
  | .capacity => (.nat s.cap, s)
  | .reserve => (.nat (s.cap - s.q.length), s)

/-- Run a history against the queue. -/
def Queue.run (s : Queue α) : List (Op α) → List (Obs α) × Queue α
  | [] => ([], s)
  | op :: ops =>
    let (o, s') := s.step op
    let (os, s'') := Queue.run s' ops
    (o :: os, s'')

/-- The elements a reader sees: `at(0), at(1), …` up to `size()`; defined only through the
public interface of the model. -/
def visible [Inhabited α] (b : RB α) : List (Outcome α) :=
  (List.range (size b)).map (at' b)

/-- The values a caller reads from a pointer/size pair handed out by the buffer. -/
def slice (b : RB α) (x : Range) : List α := (b.buf.drop x.1).take x.2

/-- The vector offsets covered by a pointer/size pair. -/
def slots (x : Range) : List Nat := List.range' x.1 x.2

/-- The caller stores `vs` through raw pointers, one value per offset of `ps`, in order. -/
def pokes (b : RB α) : List Nat → List α → RB α
  | p :: ps, v :: vs => pokes { b with buf := b.buf.set p v } ps vs
  | _, _ => b

/-- Call `write(v)` for each element of the list; stops at the first failure. -/
def writes (b : RB α) : List α → Outcome (RB α)
  | [] => .ok b
  | v :: vs => do
    let b ← write b v false
    writes b vs

/-- Apply `++` `n` times. -/
def advance (it : Iter) : Nat → Iter
  | 0 => it
  | n + 1 => advance it.inc n

end Verif.RingBuffer
