import Verif.Base

/-!
# The worker thread of a `LogOutputStream` (C46, C47): model and invariants

LogOutputStream.cpp:143-180 (`push`), 508-527 (`start`, `shutdown`), 562-636 (`WorkerThread::run`),
with the unbounded `std::queue` (the fixed size queue is in `FixedQueue.lean`).

Any number of producers calling `push`, one thread calling `start()` and `shutdown()`, one worker.
One action = one semaphore call, one access to a shared member, or one `pushImpl`; sequentially
consistent. Messages are numbered in the order of the calls to `push` (the level test of line 148 has
been passed). Simplified: `Thread::start()` returns when the worker is running (Thread.cpp:193,
C61-C63), so creating the thread is one action; the worker is finished when `running()` is false.
-/
namespace Verif.Logging.Worker

/-- Where the worker is. -/
inductive WPC where
  | off
  /-- cpp:564 about to call `onStart` -/
  | start
  /-- cpp:567 about to test `execute()` -/
  | cond
  /-- cpp:569 in `m_fill_count->wait()` -/
  | wait
  /-- cpp:574 about to test `empty()` without the mutex -/
  | chk
  /-- cpp:577 in `m_mutex->wait()` -/
  | lock
  /-- cpp:589-594 about to take the front element -/
  | pop
  /-- cpp:597 about to post the mutex -/
  | unlock (m : Option Nat)
  /-- cpp:599-602 about to write the message -/
  | out (m : Nat)
  /-- cpp:614 in `m_mutex->wait()` -/
  | finLock
  /-- cpp:624 final loop, about to test `empty()` -/
  | finTest
  /-- cpp:628 final loop, about to write the message -/
  | finOut (m : Nat)
  /-- cpp:632 about to post the mutex -/
  | finUnlock
  /-- cpp:635 about to call `onShutdown` -/
  | finish
  deriving DecidableEq, Repr

/-- Where a producer is. -/
inductive PPC where
  | idle
  /-- cpp:156 in `m_mutex->wait()` -/
  | lock (m : Nat)
  /-- cpp:165 about to push -/
  | push (m : Nat)
  /-- cpp:167 about to post the mutex -/
  | unlock
  /-- cpp:168 about to post the fill count -/
  | post
  deriving DecidableEq, Repr

/-- Where the controlling thread is. -/
inductive KPC where
  | idle
  /-- cpp:522 about to clear `m_execute` -/
  | stop
  /-- cpp:523 about to post the fill count -/
  | post
  /-- cpp:524 in `join()` -/
  | join
  /-- `shutdown()` has just returned, having joined the worker -/
  | returned
  deriving DecidableEq, Repr

/-- Owner of `m_mutex`. -/
inductive Owner where
  | none | worker | prod (t : Nat)
  deriving DecidableEq, Repr

/-- Shared members, positions and history. -/
structure State where
  execute : Bool
  mutex : Owner
  fill : Nat
  queue : List Nat
  w : WPC
  pc : Nat → PPC
  k : KPC
  /-- history: next message number -/
  next : Nat
  /-- history: messages in the order of insertion into the queue -/
  pushed : List Nat
  /-- history: messages in the order of `pushImpl` -/
  written : List Nat
  /-- history: the producers between the insertion and the post of the fill count -/
  owing : List Nat
  /-- history: messages inserted before the last `shutdown()` was called -/
  snap : List Nat

/-- LogOutputStream.cpp:544-550. -/
def init : State :=
  { execute := false, mutex := .none, fill := 0, queue := [], w := .off, pc := fun _ => .idle, k := .idle,
    next := 0, pushed := [], written := [], owing := [], snap := [] }

/-- Actions. `fails` = the semaphore wait the thread is in returns false
(SemaphoreImplPosix.cpp:59-63: any failure of `sem_wait`, e.g. interruption by a signal). -/
inductive Act where
  | w | wFails
  | p (t : Nat) | pFails (t : Nat) | pCall (t : Nat)
  | k | callStart | callShutdown
  deriving DecidableEq, Repr

/-- Worker: LogOutputStream.cpp:562-636. `none` = not possible / blocked. -/
def stepW (s : State) : Option State :=
  match s.w with
  | .off => none
  | .start => some { s with w := .cond }
  | .cond => some { s with w := if s.execute then .wait else .finLock }
  | .wait => if s.fill = 0 then none else some { s with fill := s.fill - 1, w := .chk }
  | .chk => some { s with w := if s.queue = [] then .cond else .lock }
  | .lock => if s.mutex = .none then some { s with mutex := .worker, w := .pop } else none
  | .pop =>
    match s.queue with
    | [] => some { s with w := .unlock none }
    | m :: q => some { s with queue := q, w := .unlock (some m) }
  | .unlock none => some { s with mutex := .none, w := .cond }
  | .unlock (some m) => some { s with mutex := .none, w := .out m }
  | .out m => some { s with written := s.written ++ [m], w := .cond }
  | .finLock => if s.mutex = .none then some { s with mutex := .worker, w := .finTest } else none
  | .finTest =>
    match s.queue with
    | [] => some { s with w := .finUnlock }
    | m :: q => some { s with queue := q, w := .finOut m }
  | .finOut m => some { s with written := s.written ++ [m], w := .finTest }
  | .finUnlock => some { s with mutex := .none, w := .finish }
  | .finish => some { s with w := .off, execute := false }

/-- The worker's pending wait fails: cpp:606-610, 577, 614. -/
def failW (s : State) : Option State :=
  match s.w with
  | .wait => some { s with w := .cond }
  | .lock => some { s with w := .cond }
  | .finLock => some { s with w := .finish }
  | _ => none

/-- Move a producer. -/
def setPc (s : State) (t : Nat) (p : PPC) : State := { s with pc := fun u => if u = t then p else s.pc u }

/-- Producer: LogOutputStream.cpp:143-180. -/
def stepP (s : State) (t : Nat) : Option State :=
  match s.pc t with
  | .idle => none
  | .lock m => if s.mutex = .none then some (setPc { s with mutex := .prod t } t (.push m)) else none
  | .push m => some (setPc { s with queue := s.queue ++ [m], pushed := s.pushed ++ [m], owing := t :: s.owing } t .unlock)
  | .unlock => some (setPc { s with mutex := .none } t .post)
  | .post => some (setPc { s with fill := s.fill + 1, owing := s.owing.erase t } t .idle)

/-- `push` is called. -/
def callP (s : State) (t : Nat) : Option State :=
  if s.pc t = .idle then some (setPc { s with next := s.next + 1 } t (.lock s.next)) else none

/-- The producer's wait fails: the message is dropped. -/
def failP (s : State) (t : Nat) : Option State :=
  match s.pc t with
  | .lock _ => some (setPc s t .idle)
  | _ => none

/-- The controlling thread inside `shutdown()`: cpp:516-527. -/
def stepK (s : State) : Option State :=
  match s.k with
  | .idle => none
  | .stop => some { s with execute := false, k := .post }
  | .post => some { s with fill := s.fill + 1, k := .join }
  | .join => if s.w = .off then some { s with k := .returned } else none
  | .returned => some { s with k := .idle }

/-- One action; with `intr = false` semaphore waits do not fail. -/
def step (intr : Bool) (s : State) : Act → Option State
  | .w => stepW s
  | .wFails => if intr then failW s else none
  | .p t => stepP s t
  | .pFails t => if intr then failP s t else none
  | .pCall t => callP s t
  | .k => stepK s
  | .callStart => if s.k = .idle ∧ s.w = .off then some { s with execute := true, w := .start } else none
  | .callShutdown =>
    if s.k = .idle then (if s.w = .off then some s else some { s with k := .stop, snap := s.pushed }) else none

/-- Run a schedule. -/
def exec (intr : Bool) (s : State) : List Act → Option State
  | [] => some s
  | a :: as => (step intr s a).bind fun s' => exec intr s' as

/-! ## Invariants -/

/-- The message taken from the queue and not yet written. -/
def inflight : WPC → List Nat
  | .unlock (some m) | .out m | .finOut m => [m]
  | _ => []

/-- Worker holds the mutex. -/
def wcrit : WPC → Bool
  | .pop | .unlock _ | .finTest | .finOut _ | .finUnlock => true
  | _ => false

/-- Worker has taken a token and not yet a message. -/
def tok : WPC → Nat
  | .chk | .lock | .pop => 1
  | _ => 0

/-- Worker has left the main loop. -/
def fin : WPC → Bool
  | .finLock | .finTest | .finOut _ | .finUnlock | .finish => true
  | _ => false

/-- Worker has written everything. -/
def drained : WPC → Bool
  | .finUnlock | .finish | .off => true
  | _ => false

/-- Producer holds the mutex. -/
def pcrit : PPC → Bool
  | .push _ | .unlock => true
  | _ => false

/-- Producer has inserted and not yet posted. -/
def owes : PPC → Bool
  | .unlock | .post => true
  | _ => false

/-- The message a producer has not yet inserted. -/
def pmsg : PPC → Option Nat
  | .lock m | .push m => some m
  | _ => none

theorem ptab : pcrit .idle = false ∧ (∀ m, pcrit (.lock m) = false) ∧ (∀ m, pcrit (.push m) = true) ∧
    pcrit .unlock = true ∧ pcrit .post = false ∧
    owes .idle = false ∧ (∀ m, owes (.lock m) = false) ∧ (∀ m, owes (.push m) = false) ∧
    owes .unlock = true ∧ owes .post = true ∧
    pmsg .idle = none ∧ (∀ m, pmsg (.lock m) = some m) ∧ (∀ m, pmsg (.push m) = some m) ∧
    pmsg .unlock = none ∧ pmsg .post = none := by
  simp [pcrit, owes, pmsg]

/-- Holds in every execution. -/
structure Inv (s : State) : Prop where
  pm : ∀ t, pcrit (s.pc t) = true ↔ s.mutex = .prod t
  wm : wcrit s.w = true ↔ s.mutex = .worker
  ls : s.pushed = s.written ++ inflight s.w ++ s.queue
  nd : s.pushed.Nodup
  pn : ∀ m, m ∈ s.pushed → m < s.next
  mn : ∀ t m, pmsg (s.pc t) = some m → m < s.next ∧ m ∉ s.pushed
  mu : ∀ t u m, pmsg (s.pc t) = some m → pmsg (s.pc u) = some m → t = u

/-- Holds when semaphore waits do not fail. -/
structure Inv2 (s : State) : Prop where
  on : s.owing.Nodup
  ow : ∀ t, t ∈ s.owing ↔ owes (s.pc t) = true
  wk : s.queue.length ≤ s.fill + s.owing.length + tok s.w
  ki : (s.k = .idle ∨ s.k = .returned ∨ s.k = .stop) → s.w ≠ .off → s.execute = true
  ko : (s.k = .idle ∨ s.k = .returned) → s.w = .off → s.execute = false
  kf : s.execute = true → fin s.w = false
  ks : s.k = .stop → s.w ≠ .off
  kp : s.k = .post ∨ s.k = .join → s.execute = false
  sp : s.k ≠ .idle → s.snap <+: s.pushed
  sd : s.k ≠ .idle → s.k ≠ .returned → drained s.w = true → s.snap <+: s.written
  sr : s.k = .returned → s.snap <+: s.written
  jw : s.k = .join → s.w = .wait → 0 < s.fill

theorem inv_init : Inv init := by
  constructor <;> simp [init, pcrit, wcrit, inflight, pmsg]

theorem inv2_init : Inv2 init := by
  constructor <;> simp [init, owes, tok, fin]

set_option maxHeartbeats 4000000 in
theorem inv_stepW {s s' : State} (h : Inv s) (hs : stepW s = some s') : Inv s' := by
  obtain ⟨pm, wm, ls, nd, pn, mn, mu⟩ := h
  unfold stepW at hs
  rcases hp : s.w with _ | _ | _ | _ | _ | _ | _ | (_ | m) | m | _ | _ | m | _ | _ <;>
    rw [hp] at hs wm ls <;> simp only [reduceCtorEq] at hs
  all_goals (try split at hs)
  all_goals (try (cases hs; done))
  all_goals cases hs
  all_goals simp only [wcrit, inflight] at wm ls
  all_goals constructor
  all_goals (try simp only [apply_ite wcrit, apply_ite inflight, wcrit, inflight])
  all_goals (try assumption)
  all_goals (try grind)

set_option maxHeartbeats 4000000 in
theorem inv_stepP {s s' : State} (h : Inv s) (t : Nat)
    (hs : stepP s t = some s' ∨ failP s t = some s' ∨ callP s t = some s') : Inv s' := by
  obtain ⟨pm, wm, ls, nd, pn, mn, mu⟩ := h
  have pmt := pm t
  unfold stepP failP callP at hs
  rcases hp : s.pc t with _ | m | m | _ | _ <;> rw [hp] at hs <;>
    simp only [reduceCtorEq, if_true, if_false, or_false, false_or] at hs
  all_goals (try split at hs)
  all_goals (try (cases hs; done))
  all_goals (try (refine Or.elim hs ?_ ?_ <;> clear hs <;> intro hs))
  all_goals (try (cases hs; done))
  all_goals cases hs
  all_goals have q1 := congrArg pcrit hp
  all_goals have q2 := congrArg pmsg hp
  all_goals simp only [ptab] at q1 q2
  all_goals constructor
  all_goals simp only [setPc]
  all_goals (try simp only [apply_ite pcrit, apply_ite pmsg, ptab])
  all_goals (try assumption)
  all_goals (try grind)

theorem inv_step {intr : Bool} {s s' : State} (h : Inv s) (a : Act) (hs : step intr s a = some s') : Inv s' := by
  cases a with
  | w => exact inv_stepW h hs
  | p t => exact inv_stepP h t (Or.inl hs)
  | pCall t => exact inv_stepP h t (Or.inr (Or.inr hs))
  | pFails t =>
    simp only [step] at hs
    split at hs
    · exact inv_stepP h t (Or.inr (Or.inl hs))
    · cases hs
  | wFails =>
    obtain ⟨pm, wm, ls, nd, pn, mn, mu⟩ := h
    simp only [step] at hs
    split at hs
    · unfold failW at hs
      split at hs
      all_goals (try (cases hs; done))
      all_goals cases hs
      all_goals (rename_i hw; rw [hw] at wm ls)
      all_goals exact ⟨pm, wm, ls, nd, pn, mn, mu⟩
    · cases hs
  | k =>
    obtain ⟨pm, wm, ls, nd, pn, mn, mu⟩ := h
    simp only [step, stepK] at hs
    split at hs
    all_goals (try split at hs)
    all_goals (try (cases hs; done))
    all_goals (cases hs; exact ⟨pm, wm, ls, nd, pn, mn, mu⟩)
  | callStart =>
    obtain ⟨pm, wm, ls, nd, pn, mn, mu⟩ := h
    simp only [step] at hs
    split at hs
    · next h =>
      cases hs
      rw [h.2] at wm ls
      exact ⟨pm, wm, ls, nd, pn, mn, mu⟩
    · cases hs
  | callShutdown =>
    obtain ⟨pm, wm, ls, nd, pn, mn, mu⟩ := h
    simp only [step] at hs
    split at hs
    · split at hs
      · cases hs; exact ⟨pm, wm, ls, nd, pn, mn, mu⟩
      · cases hs; exact ⟨pm, wm, ls, nd, pn, mn, mu⟩
    · cases hs

theorem prefix_grow {a b c : List Nat} (h : a <+: b) : a <+: b ++ c := h.trans (List.prefix_append b c)

set_option maxHeartbeats 4000000 in
theorem inv2_stepW {s s' : State} (h : Inv s) (h2 : Inv2 s) (hs : stepW s = some s') : Inv2 s' := by
  have ls := h.ls
  obtain ⟨on, ow, wk, ki, ko, kf, ks, kp, sp, sd, sr, jw⟩ := h2
  unfold stepW at hs
  rcases hp : s.w with _ | _ | _ | _ | _ | _ | _ | (_ | m) | m | _ | _ | m | _ | _ <;>
    rw [hp] at hs wk ki ko kf ks sd ls jw <;> simp only [reduceCtorEq] at hs
  all_goals (try split at hs)
  all_goals (try (cases hs; done))
  all_goals cases hs
  all_goals simp only [tok, fin, drained, inflight] at wk ki ko kf ks sd ls jw
  all_goals constructor
  all_goals (try simp only [apply_ite tok, apply_ite fin, apply_ite drained, tok, fin, drained])
  all_goals (try assumption)
  all_goals (try grind [prefix_grow])

set_option maxHeartbeats 4000000 in
theorem inv2_stepP {s s' : State} (h2 : Inv2 s) (t : Nat)
    (hs : stepP s t = some s' ∨ callP s t = some s') : Inv2 s' := by
  obtain ⟨on, ow, wk, ki, ko, kf, ks, kp, sp, sd, sr, jw⟩ := h2
  have owt := ow t
  unfold stepP callP at hs
  rcases hp : s.pc t with _ | m | m | _ | _ <;> rw [hp] at hs <;>
    simp only [reduceCtorEq, if_true, if_false, or_false, false_or] at hs
  all_goals (try split at hs)
  all_goals (try (cases hs; done))
  all_goals (try (refine Or.elim hs ?_ ?_ <;> clear hs <;> intro hs))
  all_goals (try (cases hs; done))
  all_goals cases hs
  all_goals have q1 := congrArg owes hp
  all_goals simp only [ptab] at q1
  all_goals constructor
  all_goals simp only [setPc]
  all_goals (try simp only [apply_ite owes, ptab])
  all_goals (try assumption)
  all_goals (try grind [prefix_grow, List.length_erase_of_mem, List.Nodup.mem_erase_iff, List.Nodup.erase])

theorem inv2_step {s s' : State} (h : Inv s) (h2 : Inv2 s) (a : Act) (hs : step false s a = some s') : Inv2 s' := by
  cases a with
  | w => exact inv2_stepW h h2 hs
  | p t => exact inv2_stepP h2 t (Or.inl hs)
  | pCall t => exact inv2_stepP h2 t (Or.inr hs)
  | pFails t => cases hs
  | wFails => cases hs
  | k =>
    obtain ⟨on, ow, wk, ki, ko, kf, ks, kp, sp, sd, sr, jw⟩ := h2
    simp only [step, stepK] at hs
    split at hs
    all_goals (try split at hs)
    all_goals (try (cases hs; done))
    all_goals cases hs
    all_goals constructor
    all_goals (try assumption)
    all_goals (try grind [drained])
  | callStart =>
    obtain ⟨on, ow, wk, ki, ko, kf, ks, kp, sp, sd, sr, jw⟩ := h2
    simp only [step] at hs
    split at hs
    · cases hs
      constructor
      all_goals (try assumption)
      all_goals (try grind [drained, fin, tok])
    · cases hs
  | callShutdown =>
    have ls := h.ls
    obtain ⟨on, ow, wk, ki, ko, kf, ks, kp, sp, sd, sr, jw⟩ := h2
    simp only [step] at hs
    split at hs
    · split at hs
      · cases hs; exact ⟨on, ow, wk, ki, ko, kf, ks, kp, sp, sd, sr, jw⟩
      · cases hs
        have hd : s.execute = true → s.w ≠ .off → drained s.w = false := by
          intro h1 h2
          have := kf h1
          cases hw : s.w <;> rw [hw] at this h2 <;> simp_all [fin, drained]
        constructor
        all_goals (try assumption)
        all_goals (try grind [List.prefix_refl])
    · cases hs

/-! ## Termination of the worker -/

/-- Distance of the worker from the end of its iteration. -/
def rank : WPC → Nat
  | .off => 0 | .start => 12 | .cond => 11 | .wait => 10 | .chk => 19 | .lock => 18 | .pop => 17 | .unlock _ => 16
  | .out _ => 15 | .finLock => 5 | .finTest => 4 | .finOut _ => 6 | .finUnlock => 3 | .finish => 2

/-- Decreases with every action of the worker. -/
def measure (s : State) : Nat := 20 * s.fill + 20 * s.queue.length + rank s.w

theorem stepW_measure {s s' : State} (hs : stepW s = some s') : measure s' < measure s := by
  unfold stepW at hs
  rcases hp : s.w with _ | _ | _ | _ | _ | _ | _ | (_ | m) | m | _ | _ | m | _ | _ <;>
    rw [hp] at hs <;> simp only [reduceCtorEq] at hs
  all_goals (try split at hs)
  all_goals (try (cases hs; done))
  all_goals cases hs
  all_goals simp only [measure, rank, hp, apply_ite rank, *, List.length_cons]
  all_goals (try split)
  all_goals omega

end Verif.Logging.Worker
