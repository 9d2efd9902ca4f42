import Verif.Conc.Semaphore

/-!
# Scoped semaphores (C110): `icl_core_logging/ScopedSemaphore.cpp`

Any number of threads open and close scopes, each guarded by a `ScopedSemaphore` on one of any number of
semaphores.  Scopes of one thread are nested, as C++ scopes are.  The semaphores are those of
`Verif/Conc/Semaphore.lean`.
-/
namespace Verif.Conc.ScopedSem
open Verif.Conc.Sem

/-- A live `ScopedSemaphore`: ScopedSemaphore.h:50-79. -/
structure Scope where
  /-- the thread it lives in -/
  thread : Nat
  /-- `m_semaphore` -/
  sem : Nat
  /-- `m_is_decremented` -/
  dec : Bool
  deriving DecidableEq, Repr

/-- The semaphores, and the live scopes, newest first. -/
structure State where
  sems : Nat → Os
  scopes : List Scope

/-- What a thread does. -/
inductive Act where
  /-- enter a scope; `intr`: a signal arrives if the thread has to wait -/
  | enter (thread sem : Nat) (intr : Bool)
  /-- leave the innermost scope -/
  | leave (thread : Nat)
  deriving DecidableEq, Repr

/-- The innermost scope of the thread, and the others. -/
def pop (t : Nat) : List Scope → Option (Scope × List Scope)
  | [] => none
  | x :: xs => if x.thread = t then some (x, xs) else (pop t xs).map fun r => (r.1, x :: r.2)

/-- Change one semaphore. -/
def setSem (f : Nat → Os) (i : Nat) (o : Os) : Nat → Os := fun j => if j = i then o else f j

/-- ScopedSemaphore.cpp:30-46, the constructor and the destructor; `none`: the thread waits (or there is no
scope to leave, or the semaphore is unusable). -/
def step (p : Plat) (s : State) : Act → Option State
  | .enter t i intr =>
    match Sem.step p (s.sems i) (.wait .wait intr) with
    | .ok o r => some ⟨setSem s.sems i o, ⟨t, i, r⟩ :: s.scopes⟩
    | _ => none
  | .leave t =>
    match pop t s.scopes with
    | none => none
    | some (x, rest) =>
      if x.dec then
        match Sem.step p (s.sems x.sem) .post with
        | .ok o _ => some ⟨setSem s.sems x.sem o, rest⟩
        | _ => none
      else some ⟨s.sems, rest⟩

/-- Run a schedule. -/
def exec (p : Plat) (s : State) : List Act → Option State
  | [] => some s
  | a :: as => (step p s a).bind fun s' => exec p s' as

/-- Fresh semaphores with these initial values (Semaphore.cpp:43-72). -/
def start (p : Plat) (init : Nat → Nat) : State := ⟨fun i => Sem.create p (init i), []⟩

/-! ## Specification -/

/-- Number of open scopes of the semaphore for which `isDecremented()` is true. -/
def openScopes (s : State) (i : Nat) : Nat := s.scopes.countP fun x => x.sem = i ∧ x.dec = true

/-- Number of open scopes of the semaphore. -/
def allScopes (s : State) (i : Nat) : Nat := s.scopes.countP fun x => x.sem = i

end Verif.Conc.ScopedSem
