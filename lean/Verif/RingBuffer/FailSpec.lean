import Verif.RingBuffer.FailModel
import Verif.RingBuffer.Spec

/-! # Specification for C121: a bounded queue whose calls can fail -/
namespace Verif.RingBuffer.Fail

variable {α : Type u}

/-- The queue: failing calls lose what is lost at the point of the failure. -/
def qStep (s : Queue α) : FOp α → FObs α × Queue α
  | .good op => (.obs (s.step op).1, (s.step op).2)
  | .write _ ow _ =>
    if s.q.length < s.cap then (.copyFailed, s)
    else if ow ∧ 0 < s.cap then (.copyFailed, { s with q := s.q.tail })
    else (.obs (.threw .outOfRange), s)
  | .read =>
    match s.q with
    | [] => (.obs (.threw .outOfRange), s)
    | _ :: xs => (.copyFailed, { s with q := xs })
  | .setCapacityEarly _ => (.copyFailed, s)
  | .setCapacityAt .. => (.copyFailed, s)

/-- A history of calls. -/
def qRun (s : Queue α) : List (FOp α) → List (FObs α) × Queue α
  | [] => ([], s)
  | op :: ops => ((qStep s op).1 :: (qRun (qStep s op).2 ops).1, (qRun (qStep s op).2 ops).2)

/-- The calls that do not fail within the copy loop of `setCapacity`. -/
def NoLoopFailure : FOp α → Prop
  | .setCapacityAt .. => False
  | _ => True

end Verif.RingBuffer.Fail
