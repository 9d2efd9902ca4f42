import Verif.Base

/-!
# Mutexes and semaphores under LXRT (C102, C86)

`SemaphoreImplLxrt38.cpp`, `MutexImplLxrt38.cpp` (a binary semaphore), `MutexImplLxrt35.cpp` and
`MutexImplLxrt33.cpp` (RTAI pthread mutexes; 35 with the check for LXRT tasks).

RTAI's semaphores are modelled by their documented behaviour: `rt_sem_wait` returns the count
found, or 0 if the caller had to wait; `rt_sem_wait_if` returns the count found or 0;
`SEM_TIMOUT` and `SEM_ERR` are returned for a time-out and an error. Their numeric values are
parameters, they are not in the repository. Steps are atomic; a blocked call is a step that is not
enabled.
-/
namespace Verif.Conc.Lxrt

/-- Constants of RTAI. -/
structure Rtai where
  /-- `SEM_TIMOUT` -/
  timout : Int
  /-- `SEM_ERR` -/
  err : Int

/-- An RTAI semaphore: `BIN_SEM` or `CNT_SEM`, and its count. -/
structure Sem where
  bin : Bool
  count : Nat
  deriving DecidableEq, Repr

/-- How a task asks for a unit. -/
inductive How where
  /-- `rt_sem_wait` -/
  | wait
  /-- `rt_sem_wait_until` -/
  | timed
  /-- `rt_sem_wait_if` -/
  | try_
  deriving DecidableEq, Repr

/-- What happens to a call: `woken`: it had to wait; `fail`: RTAI reports an error. -/
structure Fate where
  woken : Bool
  fail : Bool
  deriving DecidableEq, Repr

/-- RTAI's acquire functions: `none` means the call blocks. -/
def Sem.acquire (k : Rtai) (s : Sem) (h : How) (f : Fate) : Option (Sem × Int) :=
  match h with
  | .wait =>
    if f.fail then some (s, k.err)
    else if 0 < s.count then some ({ s with count := s.count - 1 }, if f.woken then 0 else (s.count : Int)) else none
  | .timed =>
    if f.fail then some (s, k.err)
    else if 0 < s.count then some ({ s with count := s.count - 1 }, if f.woken then 0 else (s.count : Int)) else some (s, k.timout)
  | .try_ =>
    if 0 < s.count then some ({ s with count := s.count - 1 }, (s.count : Int)) else some (s, 0)

/-- `rt_sem_signal`: a binary semaphore does not count beyond 1. -/
def Sem.signal (s : Sem) : Sem := { s with count := if s.bin then 1 else s.count + 1 }

/-- SemaphoreImplLxrt38.cpp:57-61, 68-73 `wait()`, `wait(timeout)`; 51-55 `tryWait()`: from RTAI's
result to the returned value. -/
def result (k : Rtai) (h : How) (res : Int) : Bool :=
  match h with
  | .wait | .timed => res < k.timout
  | .try_ => 0 < res && res < k.timout

/-- What a task does. -/
inductive Ev where
  | acquire (t : Nat) (h : How)
  | post (t : Nat)
  deriving DecidableEq, Repr

/-- An entry of the history: the event and, for an acquisition, the returned value. -/
structure Rec where
  ev : Ev
  res : Bool
  deriving DecidableEq, Repr

/-- `Semaphore::wait/tryWait/post` (Sem.cpp:80-103) and, with `bin`, `Mutex::lock/tryLock/unlock`
(MutexImplLxrt38.cpp:47-70). -/
def step (k : Rtai) (s : Sem) (f : Fate) : Ev → Option (Sem × Rec)
  | .acquire t h => (s.acquire k h f).map fun (s', res) => (s', ⟨.acquire t h, result k h res⟩)
  | .post t => some (s.signal, ⟨.post t, false⟩)

/-- Histories that can happen from a state. -/
inductive Run (k : Rtai) : Sem → List Rec → Sem → Prop where
  | nil (s : Sem) : Run k s [] s
  | cons {s s' s'' : Sem} {f : Fate} {e : Ev} {r : Rec} {rs : List Rec} :
      step k s f e = some (s', r) → Run k s' rs s'' → Run k s (r :: rs) s''

/-- MutexImplLxrt38.cpp:38-41: `m_sem(1, BIN_SEM)`. -/
def newMutex : Sem := ⟨true, 1⟩

/-- SemaphoreImplLxrt38.cpp:31-35 with `CNT_SEM` (SemaphoreImplLxrt38.h default). -/
def newSem (n : Nat) : Sem := ⟨false, n⟩

/-! ## The checked mutex of RTAI 3.5 -/

/-- `m_mutex` of MutexImplLxrt35: `none` is the null pointer, else whether it is free. -/
abbrev Mutex35 := Option Bool

/-- MutexImplLxrt35.cpp:38-50, constructor; `rt`: the caller is an LXRT task. -/
def new35 (rt : Bool) : Mutex35 := if rt then some true else none

/-- MutexImplLxrt33.cpp:35-47: the same without the check. -/
def new33 (_rt : Bool) : Mutex35 := some true

/-- MutexImplLxrt35.cpp:69-79, 93-105, 107-118 `lock()`, `lock(timeout)`, `tryLock()` with the
check (35) or without (33: `strict = false`): the outer `none` means the call blocks. -/
def acquire35 (strict rt : Bool) (m : Mutex35) (h : How) : Option (Outcome (Mutex35 × Bool)) :=
  if strict && !rt then some (.ok (m, false))
  else
    match m with
    | none => some .ub
    | some true => some (.ok (some false, true))
    | some false => match h with
      | .wait => none
      | .timed | .try_ => some (.ok (m, false))

/-- MutexImplLxrt35.cpp:120-130 `unlock()`. -/
def unlock35 (strict rt : Bool) (m : Mutex35) : Outcome Mutex35 :=
  if strict && !rt then .ok m
  else match m with
    | none => .ub
    | some _ => .ok (some true)

/-- MutexImplLxrt35.cpp:52-67, destructor: whether the RTAI mutex was released (or never made). -/
def destroy35 (strict rt : Bool) (m : Mutex35) : Bool :=
  if strict && !rt then m.isNone else true

/-! ## Specification -/

/-- Whether task `t` holds the mutex according to the results it got: the last of its calls was a
successful acquisition rather than `unlock()`. -/
def holds (t : Nat) (b : Bool) : List Rec → Bool
  | [] => b
  | ⟨.acquire t' _, r⟩ :: rs => holds t (if t' = t ∧ r = true then true else b) rs
  | ⟨.post t', _⟩ :: rs => holds t (if t' = t then false else b) rs

/-- Clients that unlock only what they hold. -/
def Disciplined (rs : List Rec) : Prop := ∀ a t x b, rs = a ++ ⟨.post t, x⟩ :: b → holds t false a = true

/-- Number of successful waits. -/
def taken : List Rec → Nat
  | [] => 0
  | ⟨.acquire _ _, true⟩ :: rs => taken rs + 1
  | _ :: rs => taken rs

/-- Number of posts. -/
def posts : List Rec → Nat
  | [] => 0
  | ⟨.post _, _⟩ :: rs => posts rs + 1
  | _ :: rs => posts rs

end Verif.Conc.Lxrt
