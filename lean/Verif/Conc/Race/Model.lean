import Verif.Base

/-!
# Executions of several threads over shared memory and semaphores (for C123, C124)

A thread is the list of its accesses to shared memory and of its successful semaphore operations; which
list a thread has depends on the calls it makes, on the data and on the waits that fail, and the theorems
quantify over all lists the code can produce.  `M` are the semaphores, `X` the shared variables, `ι` the
threads.
-/
namespace Verif.Race

/-- One access to shared state. `acq` is a `Semaphore::wait()` that returned `true` (icl_core_logging/Semaphore.cpp:85-88,
SemaphoreImplPosix.cpp:51-54) or a successful lock of a mutex, `rel` is `post()` or `unlock()`
(Semaphore.cpp:80-83), `rd` and `wr` are plain reads and writes of a variable. -/
inductive Ev (M X : Type) where
  | acq (m : M)
  | rel (m : M)
  | rd (x : X)
  | wr (x : X)
  deriving DecidableEq, Repr

/-- What the threads still have to do, and the counts of the semaphores. -/
structure St (ι M X : Type) where
  prog : ι → List (Ev M X)
  sem : M → Nat

variable {ι M X : Type} [DecidableEq ι] [DecidableEq M] [DecidableEq X]

/-- Thread `i` does its next event; `none` if it has none or would have to wait. -/
def step (s : St ι M X) (i : ι) : Option (Ev M X × St ι M X) :=
  match s.prog i with
  | [] => none
  | e :: r =>
    let p := fun j => if j = i then r else s.prog j
    match e with
    | .acq m => if s.sem m = 0 then none else some (e, ⟨p, fun k => if k = m then s.sem k - 1 else s.sem k⟩)
    | .rel m => some (e, ⟨p, fun k => if k = m then s.sem k + 1 else s.sem k⟩)
    | .rd _ => some (e, ⟨p, s.sem⟩)
    | .wr _ => some (e, ⟨p, s.sem⟩)

/-- Run the threads in the order of the schedule: the events that happened, with their threads. -/
def exec (s : St ι M X) : List ι → Option (List (ι × Ev M X) × St ι M X)
  | [] => some ([], s)
  | i :: is =>
    match step s i with
    | none => none
    | some (e, s') => (exec s' is).map fun r => ((i, e) :: r.1, r.2)

/-! ## Specification: happens-before and data races (C++11 1.10) -/

/-- Position `a` of the execution happens before position `b`: same thread, or a `post()` and a later
`wait()` of the same semaphore, or through a third position. -/
inductive HB (tr : List (ι × Ev M X)) : Nat → Nat → Prop where
  | thread {a b i e f} : a < b → tr[a]? = some (i, e) → tr[b]? = some (i, f) → HB tr a b
  | sync {a b i j m} : a < b → tr[a]? = some (i, .rel m) → tr[b]? = some (j, .acq m) → HB tr a b
  | trans {a b c} : HB tr a b → HB tr b c → HB tr a c

/-- `e` reads or writes `x`. -/
def Accesses (e : Ev M X) (x : X) : Prop := e = .rd x ∨ e = .wr x

/-- A data race on `x`: accesses of two threads, at least one of them a write, neither of which happens
before the other. -/
def DataRace (tr : List (ι × Ev M X)) (x : X) : Prop :=
  ∃ (a b : Nat) (i j : ι) (e f : Ev M X), tr[a]? = some (i, e) ∧ tr[b]? = some (j, f) ∧ i ≠ j ∧ a < b ∧
    Accesses e x ∧ Accesses f x ∧ (e = .wr x ∨ f = .wr x) ∧ ¬ HB tr a b

end Verif.Race
