import Verif.Base

/-!
# Read/write locks under LXRT (C106): `RWLockImplLxrt33.cpp`, `RWLockImplLxrt35.cpp`, `RWLockImplLxrt38.cpp`

RTAI's read/write lock is modelled by its documented behaviour: it knows the task that has the write
lock and how often, but only the *number* of read locks. The library's part is which function is
called and how the result becomes a `bool`. `STRICT_LXRT_CHECKS` is undefined in all three files
(RWLockImplLxrt38.cpp:33, 35:31, 33:30), so the checks for Linux tasks are not part of the program.
`unlock()` of 3.5 (line 185) names a variable that does not exist; it is modelled as in 3.3.
Steps are atomic; a call that waits is a step that is not enabled. A timed call that cannot be
served may give up at any time.
-/
namespace Verif.Conc.RWLockLxrt

/-- RTAI's result codes; the numbers are not in the repository. -/
structure Codes where
  /-- time-out -/
  timout : Int
  /-- busy (`_if` functions) -/
  busy : Int
  /-- the writer asks for a read lock -/
  inv : Int
  timout_ne : timout ≠ 0
  busy_ne : busy ≠ 0
  inv_ne : inv ≠ 0

/-- The version of RTAI the library was compiled for. -/
inductive Ver where
  | v33 | v35 | v38
  deriving DecidableEq, Repr

/-- RTAI's lock: the writer with the number of its write locks, and the number of read locks. -/
structure Os where
  writer : Option (Nat × Nat)
  readers : Nat
  deriving DecidableEq, Repr

/-- RWLockImplLxrt38.cpp:39-50, 35.cpp:37-49, 33.cpp:36-48 constructors. -/
def Os.new : Os := ⟨none, 0⟩

/-- How RTAI is asked for the lock. -/
inductive How where
  /-- `rt_rwl_rdlock`, `rt_rwl_wrlock` -/
  | wait
  /-- `rt_rwl_rdlock_until`, `rt_rwl_wrlock_until` -/
  | timed
  /-- `rt_rwl_rdlock_if`, `rt_rwl_wrlock_if` -/
  | try_
  deriving DecidableEq, Repr

/-- What a request that cannot be served gives; `none` = it waits. -/
def Os.refuse (k : Codes) (s : Os) : How → Option (Os × Int)
  | .wait => none
  | .timed => some (s, k.timout)
  | .try_ => some (s, k.busy)

/-- RTAI: request of a read lock. -/
def Os.rd (k : Codes) (s : Os) (t : Nat) (h : How) : Option (Os × Int) :=
  match s.writer with
  | none => some ({ s with readers := s.readers + 1 }, 0)
  | some (w, _) => if w = t then some (s, k.inv) else s.refuse k h

/-- RTAI: request of the write lock; `rec`: `RESEM_RECURS`, a writer can take it again. -/
def Os.wr (k : Codes) (rec : Bool) (s : Os) (t : Nat) (h : How) : Option (Os × Int) :=
  match s.writer with
  | none => if s.readers = 0 then some ({ s with writer := some (t, 1) }, 0) else s.refuse k h
  | some (w, n) => if w = t ∧ rec then some ({ s with writer := some (w, n + 1) }, 0) else s.refuse k h

/-- RTAI: the writer gives back one write lock; for everybody else one read lock is given back. -/
def Os.unlock (s : Os) (t : Nat) : Os :=
  match s.writer with
  | some (w, n) => if w = t then { s with writer := if n = 1 then none else some (w, n - 1) }
                   else { s with readers := s.readers - 1 }
  | none => { s with readers := s.readers - 1 }

/-- What a task calls. -/
inductive Ev where
  | read (t : Nat) (h : How)
  | write (t : Nat) (h : How)
  | unlock (t : Nat)
  deriving DecidableEq, Repr

/-- The task. -/
def Ev.who : Ev → Nat
  | .read t _ => t
  | .write t _ => t
  | .unlock t => t

/-- An entry of the history: the call and the value returned (`true` for `unlock`). -/
structure Rec where
  ev : Ev
  res : Bool
  deriving DecidableEq, Repr

/-- RWLockImplLxrt38.cpp:39-50 `rt_typed_rwl_init(…, RESEM_RECURS)`; 33.cpp and 35.cpp use the default
attributes of `pthread_rwlock_init_rt`. -/
def recursive : Ver → Bool
  | .v38 => true
  | .v33 | .v35 => false

/-- `tryWriteLock()`: RWLockImplLxrt38.cpp:163-174 `rt_rwl_wrlock_if`; 35.cpp:156-173 and 33.cpp:155-172
call `writeLock` with a timeout of one nanosecond. -/
def wrHow (v : Ver) : How → How
  | .wait => .wait
  | .timed => .timed
  | .try_ => match v with
    | .v38 => .try_
    | .v33 | .v35 => .timed

/-- RWLockImplLxrt38.cpp:68-78, 80-92, 106-117 (read), 119-129, 131-143, 157-178 (write), 180-190
(`unlock`) and the same functions of the other versions: the result is `ret == 0`. -/
def step (k : Codes) (v : Ver) (s : Os) (e : Ev) : Option (Os × Rec) :=
  match e with
  | .read t h => (s.rd k t h).map fun x => (x.1, ⟨e, x.2 = 0⟩)
  | .write t h => (s.wr k (recursive v) t (wrHow v h)).map fun x => (x.1, ⟨e, x.2 = 0⟩)
  | .unlock t => some (s.unlock t, ⟨e, true⟩)

/-! ## Specification -/

/-- What a task holds according to the results it got: how often the write lock, how many read locks. -/
structure Held where
  writes : Nat
  reads : Nat
  deriving DecidableEq, Repr

/-- Holding nothing. -/
def Held.nothing : Held := ⟨0, 0⟩

/-- The effect of one entry of the history on the task `t`. -/
def Held.next (t : Nat) (x : Held) (r : Rec) : Held :=
  if r.ev.who = t then
    match r.ev with
    | .read _ _ => if r.res then { x with reads := x.reads + 1 } else x
    | .write _ _ => if r.res then { x with writes := x.writes + 1 } else x
    | .unlock _ => if 0 < x.writes then { x with writes := x.writes - 1 } else { x with reads := x.reads - 1 }
  else x

/-- What the task `t` holds after a history. -/
def held (t : Nat) (rs : List Rec) : Held := rs.foldl (Held.next t) .nothing

/-- Histories that can happen to a new lock, newest entry last. -/
inductive Run (k : Codes) (v : Ver) : List Rec → Os → Prop where
  | nil : Run k v [] .new
  | snoc {s s' : Os} {e : Ev} {r : Rec} {rs : List Rec} :
      Run k v rs s → step k v s e = some (s', r) → Run k v (rs ++ [r]) s'

/-- Nobody calls `unlock()` without holding something at that moment. -/
def Disciplined (rs : List Rec) : Prop :=
  ∀ a t b, rs = a ++ ⟨.unlock t, true⟩ :: b → held t a ≠ .nothing

end Verif.Conc.RWLockLxrt
