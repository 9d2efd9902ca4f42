import Verif.Logging.Worker
import Verif.Logging.FixedQueue

/-!
# The worker thread of a `LogOutputStream` with the fixed size queue (C107): model

LogOutputStream.cpp:143-180 (`push`), 508-527 (`start`, `shutdown`), 530-542 (constructor), 562-636
(`WorkerThread::run`), 640-659 (the queue), compiled with
`ICL_CORE_LOG_OUTPUT_STREAM_USE_FIXED_QUEUE`.  Threads, actions and positions are those of
`Worker.lean`; the queue is the array with its two indices of `FixedQueue.lean`.  The test of line 572, which is
made without the mutex, reads the write index once (the read index belongs to the worker), so it is one action.
-/
namespace Verif.Logging.Worker
open Verif.Logging.FixedQueue

/-- Shared members, positions and history. -/
structure FState where
  execute : Bool
  mutex : Owner
  fill : Nat
  /-- `m_message_queue` and its indices -/
  q : Queue Nat
  w : WPC
  pc : Nat → PPC
  k : KPC
  /-- history: next message number -/
  next : Nat
  /-- history: the messages stored in the queue -/
  accepted : List Nat
  /-- history: the messages not stored because the queue was full -/
  dropped : List Nat
  /-- history: the messages given up because the wait for the mutex failed -/
  interrupted : List Nat
  /-- history: messages in the order of `pushImpl` -/
  written : List Nat
  /-- history: the producers between the insertion and the post of the fill count -/
  owing : List Nat
  /-- history: messages stored before the last `shutdown()` was called -/
  snap : List Nat

/-- LogOutputStream.cpp:530-542: a queue of the configured size `n`. -/
def finit (n : Nat) : FState :=
  { execute := false, mutex := .none, fill := 0, q := Queue.create n, w := .off, pc := fun _ => .idle, k := .idle,
    next := 0, accepted := [], dropped := [], interrupted := [], written := [], owing := [], snap := [] }

/-- Outcome of an action. -/
inductive FRes where
  /-- not possible now -/
  | blocked
  /-- an access outside the array, or to a slot that was never written -/
  | ub
  | ok (s : FState)

/-- Worker: LogOutputStream.cpp:562-636. -/
def fstepW (s : FState) : FRes :=
  match s.w with
  | .off => .blocked
  | .start => .ok { s with w := .cond }
  | .cond => .ok { s with w := if s.execute then .wait else .finLock }
  | .wait => if s.fill = 0 then .blocked else .ok { s with fill := s.fill - 1, w := .chk }
  | .chk => .ok { s with w := if s.q.isEmpty then .cond else .lock }
  | .lock => if s.mutex = .none then .ok { s with mutex := .worker, w := .pop } else .blocked
  | .pop =>
    match s.q.pop with
    | none => .ub
    | some (q, m) => .ok { s with q := q, w := .unlock m }
  | .unlock none => .ok { s with mutex := .none, w := .cond }
  | .unlock (some m) => .ok { s with mutex := .none, w := .out m }
  | .out m => .ok { s with written := s.written ++ [m], w := .cond }
  | .finLock => if s.mutex = .none then .ok { s with mutex := .worker, w := .finTest } else .blocked
  | .finTest =>
    match s.q.pop with
    | none => .ub
    | some (_, none) => .ok { s with w := .finUnlock }
    | some (q, some m) => .ok { s with q := q, w := .finOut m }
  | .finOut m => .ok { s with written := s.written ++ [m], w := .finTest }
  | .finUnlock => .ok { s with mutex := .none, w := .finish }
  | .finish => .ok { s with w := .off, execute := false }

/-- The worker's pending wait fails: cpp:606-610, 577, 614. -/
def ffailW (s : FState) : FRes :=
  match s.w with
  | .wait => .ok { s with w := .cond }
  | .lock => .ok { s with w := .cond }
  | .finLock => .ok { s with w := .finish }
  | _ => .blocked

/-- Move a producer. -/
def fsetPc (s : FState) (t : Nat) (p : PPC) : FState := { s with pc := fun u => if u = t then p else s.pc u }

/-- Producer: LogOutputStream.cpp:143-180; 158-162 for the insertion. -/
def fstepP (s : FState) (t : Nat) : FRes :=
  match s.pc t with
  | .idle => .blocked
  | .lock m => if s.mutex = .none then .ok (fsetPc { s with mutex := .prod t } t (.push m)) else .blocked
  | .push m =>
    if s.q.isFull then .ok (fsetPc { s with dropped := s.dropped ++ [m], owing := t :: s.owing } t .unlock)
    else
      match s.q.push m with
      | none => .ub
      | some q => .ok (fsetPc { s with q := q, accepted := s.accepted ++ [m], owing := t :: s.owing } t .unlock)
  | .unlock => .ok (fsetPc { s with mutex := .none } t .post)
  | .post => .ok (fsetPc { s with fill := s.fill + 1, owing := s.owing.erase t } t .idle)

/-- `push` is called. -/
def fcallP (s : FState) (t : Nat) : FRes :=
  if s.pc t = .idle then .ok (fsetPc { s with next := s.next + 1 } t (.lock s.next)) else .blocked

/-- The producer's wait fails: the message is given up (cpp:156). -/
def ffailP (s : FState) (t : Nat) : FRes :=
  match s.pc t with
  | .lock m => .ok (fsetPc { s with interrupted := s.interrupted ++ [m] } t .idle)
  | _ => .blocked

/-- The controlling thread inside `shutdown()`: cpp:516-527. -/
def fstepK (s : FState) : FRes :=
  match s.k with
  | .idle => .blocked
  | .stop => .ok { s with execute := false, k := .post }
  | .post => .ok { s with fill := s.fill + 1, k := .join }
  | .join => if s.w = .off then .ok { s with k := .returned } else .blocked
  | .returned => .ok { s with k := .idle }

/-- One action; with `intr = false` semaphore waits do not fail. -/
def fstep (intr : Bool) (s : FState) : Act → FRes
  | .w => fstepW s
  | .wFails => if intr then ffailW s else .blocked
  | .p t => fstepP s t
  | .pFails t => if intr then ffailP s t else .blocked
  | .pCall t => fcallP s t
  | .k => fstepK s
  | .callStart => if s.k = .idle ∧ s.w = .off then .ok { s with execute := true, w := .start } else .blocked
  | .callShutdown =>
    if s.k = .idle then (if s.w = .off then .ok s else .ok { s with k := .stop, snap := s.accepted }) else .blocked

/-- Run a schedule. -/
def fexec (intr : Bool) (s : FState) : List Act → FRes
  | [] => .ok s
  | a :: as =>
    match fstep intr s a with
    | .ok s' => fexec intr s' as
    | r => r

/-! ## The same with a list of at most `cap` messages -/

/-- `step` with a queue of capacity `cap`. -/
def stepB (cap : Nat) (intr : Bool) (s : State) : Act → Option State
  | .p t =>
    match s.pc t with
    | .push _ => if s.queue.length < cap then stepP s t else some (setPc { s with owing := t :: s.owing } t .unlock)
    | _ => stepP s t
  | a => step intr s a

/-- The abstract state. -/
def FState.abs (s : FState) (l : List Nat) : State :=
  { execute := s.execute, mutex := s.mutex, fill := s.fill, queue := l, w := s.w, pc := s.pc, k := s.k,
    next := s.next, pushed := s.accepted, written := s.written, owing := s.owing, snap := s.snap }

theorem rep_isEmpty (q : Queue Nat) (l : List Nat) (h : Rep q l) : q.isEmpty = true ↔ l = [] := by
  obtain ⟨h1, h2, h3, h4, h5, h6⟩ := h
  unfold Queue.len at h5
  unfold Queue.isEmpty
  rw [beq_iff_eq, ← List.length_eq_zero_iff]
  split at h5 <;> omega

/-- The concrete queue behaves as the list. -/
theorem sim {s : FState} {l : List Nat} {n : Nat} (hr : Rep s.q l) (hn : s.q.size = n) (h1 : 1 ≤ n) (intr : Bool) (a : Act) :
    match fstep intr s a with
    | .blocked => stepB (n - 1) intr (s.abs l) a = none
    | .ub => False
    | .ok s' => ∃ l', Rep s'.q l' ∧ s'.q.size = n ∧ stepB (n - 1) intr (s.abs l) a = some (s'.abs l') := by
  cases a with
  | w =>
    have he := rep_isEmpty s.q l hr
    obtain ⟨q', hp1, hp2, hp3⟩ := rep_pop s.q l hr
    simp only [fstep, fstepW, stepB, step, stepW, FState.abs]
    rcases hw : s.w with _ | _ | _ | _ | _ | _ | _ | (_ | m) | m | _ | _ | m | _ | _ <;> simp only []
    · exact ⟨l, hr, hn, rfl⟩
    · exact ⟨l, hr, hn, rfl⟩
    · by_cases hf : s.fill = 0
      · simp [hf]
      · simp only [hf, if_false]; exact ⟨l, hr, hn, rfl⟩
    · refine ⟨l, hr, hn, ?_⟩
      by_cases hl : l = []
      · simp [hl, he.2 hl]
      · have : s.q.isEmpty = false := by rw [← Bool.not_eq_true]; exact fun h => hl (he.1 h)
        simp [hl, this]
    · by_cases hf : s.mutex = .none
      · simp only [hf, if_true]; exact ⟨l, hr, hn, rfl⟩
      · simp [hf]
    · rw [hp1]
      simp only []
      cases l with
      | nil => exact ⟨[], hp3, hp2.trans hn, rfl⟩
      | cons m l => exact ⟨l, hp3, hp2.trans hn, rfl⟩
    · exact ⟨l, hr, hn, rfl⟩
    · exact ⟨l, hr, hn, rfl⟩
    · exact ⟨l, hr, hn, rfl⟩
    · by_cases hf : s.mutex = .none
      · simp only [hf, if_true]; exact ⟨l, hr, hn, rfl⟩
      · simp [hf]
    · rw [hp1]
      cases l with
      | nil => exact ⟨[], hr, hn, rfl⟩
      | cons m l => exact ⟨l, hp3, hp2.trans hn, rfl⟩
    · exact ⟨l, hr, hn, rfl⟩
    · exact ⟨l, hr, hn, rfl⟩
    · exact ⟨l, hr, hn, rfl⟩
  | wFails =>
    simp only [fstep, stepB, step]
    cases intr with
    | false => rfl
    | true =>
      simp only [if_true, ffailW, failW, FState.abs]
      rcases hw : s.w with _ | _ | _ | _ | _ | _ | _ | (_ | m) | m | _ | _ | m | _ | _ <;> simp only []
      all_goals exact ⟨l, hr, hn, rfl⟩
  | p t =>
    have hf := isFull_iff s.q l hr
    simp only [fstep, fstepP, stepB, stepP, FState.abs]
    rcases hp : s.pc t with _ | m | m | _ | _ <;> simp only []
    · by_cases hm : s.mutex = .none
      · simp only [hm, if_true]; exact ⟨l, hr, hn, rfl⟩
      · simp [hm]
    · obtain ⟨q', hq1, hq2, hq3⟩ := rep_push s.q l hr m
      by_cases hfull : s.q.isFull = true
      · have := hf.1 hfull
        have hlt : ¬ l.length < n - 1 := by omega
        simp only [hfull, if_true, hlt, if_false]
        exact ⟨l, hr, hn, rfl⟩
      · have hlen : ¬ (s.q.size ≠ 0 ∧ l.length + 1 = s.q.size) := fun h => hfull (hf.2 h)
        have hlt : l.length < n - 1 := by
          have h5 := hr.ll
          unfold Queue.len at h5
          have := hr.r
          have := hr.w
          split at h5 <;> omega
        rw [hn, if_pos hlt] at hq3
        simp only [hfull, hq1, hlt, if_true]
        exact ⟨_, hq3, hq2.trans hn, rfl⟩
    · exact ⟨l, hr, hn, rfl⟩
    · exact ⟨l, hr, hn, rfl⟩
  | pFails t =>
    simp only [fstep, stepB, step]
    cases intr with
    | false => rfl
    | true =>
      simp only [if_true, ffailP, failP, FState.abs]
      rcases hp : s.pc t with _ | m | m | _ | _ <;> simp only []
      exact ⟨l, hr, hn, rfl⟩
  | pCall t =>
    simp only [fstep, stepB, step, fcallP, callP, FState.abs]
    by_cases hp : s.pc t = .idle
    · simp only [hp, if_true]; exact ⟨l, hr, hn, rfl⟩
    · simp [hp]
  | k =>
    simp only [fstep, stepB, step, fstepK, stepK, FState.abs]
    rcases hk : s.k with _ | _ | _ | _ | _ <;> simp only []
    · exact ⟨l, hr, hn, rfl⟩
    · exact ⟨l, hr, hn, rfl⟩
    · by_cases hw : s.w = .off
      · simp only [hw, if_true]; exact ⟨l, hr, hn, rfl⟩
      · simp [hw]
    · exact ⟨l, hr, hn, rfl⟩
  | callStart =>
    simp only [fstep, stepB, step, FState.abs]
    by_cases hk : s.k = .idle ∧ s.w = .off
    · simp only [hk, and_self, if_true]; exact ⟨l, hr, hn, rfl⟩
    · simp [hk]
  | callShutdown =>
    simp only [fstep, stepB, step, FState.abs]
    by_cases hk : s.k = .idle
    · by_cases hw : s.w = .off
      · simp only [hk, hw, if_true]; exact ⟨l, hr, hn, by rw [← hk, ← hw]⟩
      · simp only [hk, hw, if_true, if_false]; exact ⟨l, hr, hn, rfl⟩
    · simp [hk]

/-! ## Invariants of the abstract system -/

theorem invB_step {cap : Nat} {intr : Bool} {s s' : State} (h : Inv s) (a : Act) (hs : stepB cap intr s a = some s') : Inv s' := by
  cases a with
  | p t =>
    simp only [stepB] at hs
    split at hs
    · next m hp =>
      split at hs
      · exact inv_stepP h t (Or.inl hs)
      · cases hs
        obtain ⟨pm, wm, ls, nd, pn, mn, mu⟩ := h
        have pmt := pm t
        have q1 := congrArg pcrit hp
        have q2 := congrArg pmsg hp
        simp only [ptab] at q1 q2
        constructor
        all_goals simp only [setPc]
        all_goals (try simp only [apply_ite pcrit, apply_ite pmsg, ptab])
        all_goals (try assumption)
        all_goals (try grind)
    · exact inv_stepP h t (Or.inl hs)
  | _ => simp only [stepB] at hs; exact inv_step h _ hs

theorem inv2B_step {cap : Nat} {s s' : State} (h : Inv s) (h2 : Inv2 s) (a : Act) (hs : stepB cap false s a = some s') : Inv2 s' := by
  cases a with
  | p t =>
    simp only [stepB] at hs
    split at hs
    · next m hp =>
      split at hs
      · exact inv2_stepP h2 t (Or.inl hs)
      · cases hs
        obtain ⟨on, ow, wk, ki, ko, kf, ks, kp, sp, sd, sr, jw⟩ := h2
        have owt := ow t
        have q1 := congrArg owes hp
        simp only [ptab] at q1
        constructor
        all_goals simp only [setPc]
        all_goals (try simp only [apply_ite owes, ptab])
        all_goals (try assumption)
        all_goals (try grind)
    · exact inv2_stepP h2 t (Or.inl hs)
  | _ => simp only [stepB] at hs; exact inv2_step h h2 _ hs

end Verif.Logging.Worker
