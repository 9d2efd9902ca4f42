import Verif.Base

/-!
# Model of `icl_core_thread/ActiveObject.cpp` (with the parts of `Thread` it uses)

One action = one access to a shared member or one semaphore/mutex call; sequentially
consistent.  One worker thread (`run()`), any number of client threads calling `queue()` and
`stop()`; an operation that itself calls `queue()` is a client acting while the worker is
inside `invoke`.  Operations are numbered in the order of the calls to `queue()`.
The object is destroyed only after everything has finished (not modelled).
-/
namespace Verif.ActiveObject

/-- Where the worker is. -/
inductive WPC where
  /-- not running -/
  | off
  /-- ActiveObject.cpp:39 about to test `execute()` -/
  | cond
  /-- cpp:41 in `m_sem.wait()` -/
  | wait
  /-- cpp:42 about to test `execute()` -/
  | cond2
  /-- cpp:45 about to test `empty()` -/
  | empty
  /-- cpp:48 in `lock()` -/
  | lock
  /-- cpp:51-52 about to take the front element -/
  | pop
  /-- cpp:55 about to unlock -/
  | unlock (op : Nat)
  /-- cpp:58 about to invoke -/
  | invoke (op : Nat)
  /-- cpp:59 about to delete -/
  | delete (op : Nat)
  /-- cpp:66 final loop, about to test `empty()` -/
  | drain
  /-- cpp:68-69 final loop, about to delete and pop the front element -/
  | drainPop
  deriving DecidableEq, Repr

/-- Where a client is. -/
inductive CPC where
  | idle
  /-- cpp:83 about to test `execute()` -/
  | check (op : Nat)
  /-- cpp:83 in `lock()` -/
  | lock (op : Nat)
  /-- cpp:85 about to push -/
  | push (op : Nat)
  /-- cpp:86 about to unlock -/
  | unlock
  /-- cpp:87 about to post -/
  | post
  /-- cpp:91 about to delete -/
  | delete (op : Nat)
  /-- cpp:77 inside `stop()`, about to clear `m_execute` (Thread.h:189) -/
  | stopSet
  /-- cpp:78 inside `stop()`, about to post -/
  | stopPost
  /-- inside `Thread::stop()` called directly (it is not virtual), e.g. by `~Thread`,
  Thread.cpp:83-88 -/
  | baseStop
  deriving DecidableEq, Repr

/-- Owner of the mutex. -/
inductive Owner where
  | none | worker | client (t : Nat)
  deriving DecidableEq, Repr

/-- Shared members, positions, and the recorded history. -/
structure State where
  execute : Bool
  sem : Nat
  queue : List Nat
  mutex : Owner
  w : WPC
  pc : Nat → CPC
  /-- history: number of calls to `queue()` so far; the next operation's number -/
  next : Nat
  /-- history: operations in the order of `push_back` -/
  pushed : List Nat
  /-- history: operations in the order of `pop_front` -/
  popped : List Nat
  /-- history: operations in the order of `invoke` -/
  invoked : List Nat
  /-- history: operations in the order of `delete` -/
  deleted : List Nat

/-- Thread.cpp:49-56, ActiveObject.cpp:28-32. -/
def init : State :=
  { execute := false, sem := 0, queue := [], mutex := .none, w := .off, pc := fun _ => .idle,
    next := 0, pushed := [], popped := [], invoked := [], deleted := [] }

/-- Move a client. -/
def setPc (s : State) (t : Nat) (p : CPC) : State := { s with pc := fun u => if u = t then p else s.pc u }

/-- Actions of the worker. -/
inductive WAct where
  /-- `runThread` sets `m_execute` and calls `run()`, Thread.cpp:231-241 -/
  | start
  /-- the next statement -/
  | go
  /-- the pending `lock()` fails, or the pending `m_sem.wait()` is interrupted (its result is ignored) -/
  | lockFails
  deriving DecidableEq, Repr

/-- Actions of a client. -/
inductive CAct where
  | callQueue | callStop | callBaseStop | go
  /-- the pending `lock()` fails -/
  | lockFails
  deriving DecidableEq, Repr

/-- Worker: ActiveObject.cpp:34-73. `none` = not possible / blocked. -/
def stepW (s : State) (a : WAct) : Option State :=
  match s.w, a with
  | .off, .start => some { s with execute := true, w := .cond }
  | .cond, .go => some { s with w := if s.execute then .wait else .drain }
  | .wait, .go => if s.sem = 0 then none else some { s with sem := s.sem - 1, w := .cond2 }
  | .wait, .lockFails => some { s with w := .cond2 }
  | .cond2, .go => some { s with w := if s.execute then .empty else .cond }
  | .empty, .go => some { s with w := if s.queue = [] then .cond else .lock }
  | .lock, .go => if s.mutex = .none then some { s with mutex := .worker, w := .pop } else none
  | .lock, .lockFails => some { s with w := .empty }
  | .pop, .go =>
    match s.queue with
    | [] => none
    | op :: q => some { s with queue := q, popped := s.popped ++ [op], w := .unlock op }
  | .unlock op, .go => some { s with mutex := .none, w := .invoke op }
  | .invoke op, .go => some { s with invoked := s.invoked ++ [op], w := .delete op }
  | .delete op, .go => some { s with deleted := s.deleted ++ [op], w := .empty }
  | .drain, .go => some { s with w := if s.queue = [] then .off else .drainPop }
  | .drainPop, .go =>
    match s.queue with
    | [] => none
    | op :: q => some { s with queue := q, popped := s.popped ++ [op], deleted := s.deleted ++ [op], w := .drain }
  | _, _ => none

/-- Clients: `queue()` ActiveObject.cpp:81-93, `stop()` cpp:75-79, `Thread::stop()`
Thread.h:189 (`waitStarted()` omitted: the transition `start` is atomic here). -/
def stepC (s : State) (t : Nat) (a : CAct) : Option State :=
  match s.pc t, a with
  | .idle, .callQueue => some (setPc { s with next := s.next + 1 } t (.check s.next))
  | .idle, .callStop => some (setPc s t .stopSet)
  | .idle, .callBaseStop => some (setPc s t .baseStop)
  | .check op, .go => some (setPc s t (if s.execute then .lock op else .delete op))
  | .lock op, .go => if s.mutex = .none then some (setPc { s with mutex := .client t } t (.push op)) else none
  | .lock op, .lockFails => some (setPc s t (.delete op))
  | .push op, .go => some (setPc { s with queue := s.queue ++ [op], pushed := s.pushed ++ [op] } t .unlock)
  | .unlock, .go => some (setPc { s with mutex := .none } t .post)
  | .post, .go => some (setPc { s with sem := s.sem + 1 } t .idle)
  | .delete op, .go => some (setPc { s with deleted := s.deleted ++ [op] } t .idle)
  | .stopSet, .go => some (setPc { s with execute := false } t .stopPost)
  | .stopPost, .go => some (setPc { s with sem := s.sem + 1 } t .idle)
  | .baseStop, .go => some (setPc { s with execute := false } t .idle)
  | _, _ => none

/-- One action of the system. -/
inductive Act where
  | w (a : WAct)
  | c (t : Nat) (a : CAct)
  deriving DecidableEq, Repr

/-- Execute one action. -/
def step (s : State) : Act → Option State
  | .w a => stepW s a
  | .c t a => stepC s t a

/-- Run a schedule. -/
def exec (s : State) : List Act → Option State
  | [] => some s
  | a :: as => (step s a).bind fun s' => exec s' as

/-! ## Invariant -/

/-- The operation a client still owns. -/
def cop : CPC → Option Nat
  | .check op | .lock op | .push op | .delete op => some op
  | _ => none

/-- The operation the worker still owns. -/
def wop : WPC → Option Nat
  | .unlock op | .invoke op | .delete op => some op
  | _ => none

/-- Client holds the mutex. -/
def ccrit : CPC → Bool
  | .push _ | .unlock => true
  | _ => false

/-- Worker holds the mutex. -/
def wcrit : WPC → Bool
  | .pop | .unlock _ => true
  | _ => false

/-- Client has pushed and not yet posted. -/
def willPost : CPC → Bool
  | .unlock | .post => true
  | _ => false

/-- The invariant. -/
structure Inv (s : State) : Prop where
  cm : ∀ t, ccrit (s.pc t) = true ↔ s.mutex = .client t
  wm : wcrit s.w = true ↔ s.mutex = .worker
  lst : s.pushed = s.popped ++ s.queue
  nd : s.pushed.Nodup
  pn : ∀ op, op ∈ s.pushed → op < s.next
  cn : ∀ t op, cop (s.pc t) = some op → op < s.next ∧ op ∉ s.pushed ∧ op ∉ s.deleted
  cu : ∀ t u op, cop (s.pc t) = some op → cop (s.pc u) = some op → t = u
  wo : ∀ op, wop s.w = some op → op ∈ s.popped ∧ op ∉ s.deleted
  dn : s.deleted.Nodup
  dl : ∀ op, op ∈ s.deleted → op < s.next ∧ op ∉ s.queue
  pd : ∀ op, op ∈ s.popped → op ∈ s.deleted ∨ wop s.w = some op
  iv : s.invoked.Sublist s.popped
  ii : ∀ op, (s.w = .unlock op ∨ s.w = .invoke op) → op ∉ s.invoked
  il : ∀ op, (s.w = .unlock op ∨ s.w = .invoke op) → s.popped.getLast? = some op
  all : ∀ op, op < s.next → op ∉ s.deleted → op ∉ s.queue → wop s.w ≠ some op → ∃ t, cop (s.pc t) = some op
  ne : (s.w = .lock ∨ s.w = .pop ∨ s.w = .drainPop) → s.queue ≠ []
  wake : (s.w = .off ∨ s.w = .wait ∨ (s.w = .cond ∧ s.execute = true)) → s.queue ≠ [] →
    (∀ t, willPost (s.pc t) = false) → 0 < s.sem

theorem inv_init : Inv init := by
  constructor <;> simp [init, cop, wop, ccrit, wcrit, willPost]

/-- Appending the last element of the longer list. -/
theorem sublist_last {a b : List Nat} {x : Nat} (h : a.Sublist b) (hx : x ∉ a) (hl : b.getLast? = some x) :
    (a ++ [x]).Sublist b := by
  obtain ⟨b', rfl⟩ : ∃ b', b = b' ++ [x] := by
    rcases List.eq_nil_or_concat b with rfl | ⟨b', y, rfl⟩
    · simp at hl
    · exact ⟨b', by simp at hl; simp [hl]⟩
  have : a.Sublist b' := by
    rw [List.sublist_append_iff] at h
    obtain ⟨l1, l2, rfl, h1, h2⟩ := h
    have : l2 = [] := by
      rcases l2 with _ | ⟨y, l2⟩
      · rfl
      · have : y ∈ [x] := h2.subset (by simp)
        simp at this
        simp [this] at hx
    simpa [this] using h1
  exact List.Sublist.append this (List.Sublist.refl _)

set_option maxHeartbeats 4000000 in
theorem inv_stepW {s s' : State} (h : Inv s) (a : WAct) (hs : stepW s a = some s') : Inv s' := by
  obtain ⟨cm, wm, lst, nd, pn, cn, cu, wo, dn, dl, pd, iv, ii, il, all, ne, wake⟩ := h
  unfold stepW at hs
  rcases hp : s.w with _ | _ | _ | _ | _ | _ | _ | op | op | op | _ | _ <;>
    cases a <;> rw [hp] at hs <;> simp only [reduceCtorEq] at hs
  all_goals (try split at hs)
  all_goals (try (cases hs; done))
  all_goals cases hs
  all_goals rw [hp] at wm wo pd ii il all ne wake
  all_goals simp only [wcrit, wop] at wm wo pd ii il all ne wake
  all_goals constructor
  all_goals (try simp only [apply_ite wcrit, apply_ite wop, wcrit, wop])
  all_goals (try assumption)
  all_goals (try grind)
  all_goals (try (simp_all; done))
  · exact sublist_last iv (ii op (Or.inr rfl)) (il op (Or.inr rfl))
  · intro o h1 h2 h3 _
    simp only [List.mem_append, List.mem_singleton, not_or] at h2
    exact all o h1 h2.1 h3 (by simpa using fun e => h2.2 e.symm)

theorem cop_tab : cop .idle = none ∧
    (∀ op, cop (.check op) = some op) ∧
    (∀ op, cop (.lock op) = some op) ∧
    (∀ op, cop (.push op) = some op) ∧
    cop .unlock = none ∧
    cop .post = none ∧
    (∀ op, cop (.delete op) = some op) ∧
    cop .stopSet = none ∧
    cop .stopPost = none ∧
    cop .baseStop = none := by
  simp [cop]

theorem ccrit_tab : ccrit .idle = false ∧
    (∀ op, ccrit (.check op) = false) ∧
    (∀ op, ccrit (.lock op) = false) ∧
    (∀ op, ccrit (.push op) = true) ∧
    ccrit .unlock = true ∧
    ccrit .post = false ∧
    (∀ op, ccrit (.delete op) = false) ∧
    ccrit .stopSet = false ∧
    ccrit .stopPost = false ∧
    ccrit .baseStop = false := by
  simp [ccrit]

theorem willPost_tab : willPost .idle = false ∧
    (∀ op, willPost (.check op) = false) ∧
    (∀ op, willPost (.lock op) = false) ∧
    (∀ op, willPost (.push op) = false) ∧
    willPost .unlock = true ∧
    willPost .post = true ∧
    (∀ op, willPost (.delete op) = false) ∧
    willPost .stopSet = false ∧
    willPost .stopPost = false ∧
    willPost .baseStop = false := by
  simp [willPost]

set_option maxHeartbeats 4000000 in
theorem inv_stepC {s s' : State} (h : Inv s) (t : Nat) (a : CAct) (hs : stepC s t a = some s') : Inv s' := by
  obtain ⟨cm, wm, lst, nd, pn, cn, cu, wo, dn, dl, pd, iv, ii, il, all, ne, wake⟩ := h
  have cmt := cm t
  have cnt := cn t
  unfold stepC at hs
  rcases hp : s.pc t with _ | op | op | op | _ | _ | op | _ | _ | _ <;>
    cases a <;> rw [hp] at hs <;> simp only [reduceCtorEq] at hs
  all_goals (try split at hs)
  all_goals (try (cases hs; done))
  all_goals cases hs
  all_goals have q1 := congrArg cop hp
  all_goals have q2 := congrArg ccrit hp
  all_goals have q3 := congrArg willPost hp
  all_goals simp only [cop_tab, ccrit_tab, willPost_tab] at q1 q2 q3
  all_goals constructor
  all_goals simp only [setPc]
  all_goals (try simp only [apply_ite cop, apply_ite ccrit, apply_ite willPost, cop_tab, ccrit_tab, willPost_tab])
  all_goals (try assumption)
  all_goals (try grind)
  all_goals (try simp only [List.mem_append, List.mem_singleton])
  all_goals (try grind)

end Verif.ActiveObject
