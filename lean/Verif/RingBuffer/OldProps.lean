import Verif.RingBuffer.OldLemmas

/-!
# C118: the deprecated ring buffer, and copies of ring buffers

A program creates buffers, copies and assigns them, and calls their functions (`Stmt`);
`Old.run`/`newRun` execute it with the old and the new class, `Queue.runAll` with independent
bounded queues.  Every object exists from the start with the default capacity.
-/
namespace Verif.RingBuffer
variable {α : Type u}

/-- C118. A program using the deprecated class shows exactly what it would show if every object
were an independent bounded FIFO queue: copies and assignments copy the contents and the
capacity, and later calls on one object never affect another. -/
theorem c118_old_class_is_queue [Inhabited α] (p : List (Stmt α)) :
    Old.run (fun _ => Old.mk 32) p = Queue.runAll (fun _ => ⟨32, []⟩) p := by
  rw [oldRun_eq]
  exact newRun_eq p _ _ (fun _ => sim_mk 32)

/-- C118. The same for the new class (with copies and stores through `at(i)`, which C01 leaves
out). -/
theorem c118_new_class_is_queue [Inhabited α] (p : List (Stmt α)) :
    newRun (fun _ => mk 32) p = Queue.runAll (fun _ => ⟨32, []⟩) p :=
  newRun_eq p _ _ (fun _ => sim_mk 32)

/-- C118. Replacing the deprecated class by the new one changes nothing a program can see. -/
theorem c118_drop_in [Inhabited α] (p : List (Stmt α)) :
    Old.run (fun _ => Old.mk 32) p = newRun (fun _ => mk 32) p := by
  rw [c118_old_class_is_queue, c118_new_class_is_queue]

/-- C118. No program performs an access outside a buffer. -/
theorem c118_no_undefined_behaviour [Inhabited α] (p : List (Stmt α)) :
    Obs.ub ∉ Old.run (fun _ => Old.mk 32) p := by
  rw [c118_old_class_is_queue]
  generalize (fun _ => ⟨32, []⟩ : Nat → Queue α) = Q
  induction p generalizing Q with
  | nil => simp [Queue.runAll]
  | cons st p ih =>
    cases st with
    | call i c =>
      simp only [Queue.runAll, List.mem_cons, not_or]
      refine ⟨?_, ih _⟩
      intro h
      cases c <;> simp only [Queue.call] at h <;> (try split at h) <;> (try split at h) <;> cases h
    | _ => simp [Queue.runAll, ih]

/-- A copy is independent of the original, and a store through `At` is seen by later reads. -/
example : Old.run (fun _ => Old.mk 32 : Nat → RB Nat)
    [.create 0 2, .call 0 (.write 1 false), .call 0 (.write 2 false), .copy 1 0,
     .call 0 (.write 3 true), .call 1 (.atStore 1 9), .call 0 (.at 0), .call 1 (.at 0),
     .call 1 (.at 1), .call 1 (.write 4 false), .assign 0 1, .call 0 .read, .call 1 .size,
     .call 0 .size]
    = [.unit, .unit, .unit, .unit, .unit, .unit, .val 2, .val 1, .val 9, .threw .outOfRange,
       .unit, .val 1, .nat 2, .nat 1] := by rfl

end Verif.RingBuffer
