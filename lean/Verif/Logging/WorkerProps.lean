import Verif.Logging.Worker

/-!
# C46, C47: the log worker loses nothing, duplicates nothing and does not miss a wake-up
-/
namespace Verif.Logging.Worker

theorem inv_exec {intr : Bool} {s s' : State} (h : Inv s) (as : List Act) (he : exec intr s as = some s') : Inv s' := by
  induction as generalizing s with
  | nil => cases he; exact h
  | cons a as ih =>
    obtain ⟨s1, h1, h2⟩ := Option.bind_eq_some_iff.1 he
    exact ih (inv_step h a h1) h2

theorem inv2_exec {s s' : State} (h : Inv s) (h2 : Inv2 s) (as : List Act) (he : exec false s as = some s') :
    Inv2 s' := by
  induction as generalizing s with
  | nil => cases he; exact h2
  | cons a as ih =>
    obtain ⟨s1, h1, h3⟩ := Option.bind_eq_some_iff.1 he
    exact ih (inv_step h a h1) (inv2_step h h2 a h1) h3

/-- C46: in every execution the messages written are a prefix of the messages inserted into the queue, in
that order, each once; and nothing is missing when the queue is empty and the worker is not in the middle
of writing. -/
theorem c46_fifo (intr : Bool) (sched : List Act) (s : State) (he : exec intr init sched = some s) :
    s.written <+: s.pushed ∧ s.written.Nodup ∧ s.pushed.Nodup ∧
    (s.queue = [] → (s.w = .off ∨ s.w = .start ∨ s.w = .cond ∨ s.w = .wait) → s.written = s.pushed) := by
  have h := inv_exec inv_init sched he
  have hp : s.written <+: s.pushed := by rw [h.ls, List.append_assoc]; exact List.prefix_append ..
  refine ⟨hp, hp.sublist.nodup h.nd, h.nd, fun hq hw => ?_⟩
  have := h.ls
  rw [hq] at this
  rcases hw with hw | hw | hw | hw <;> rw [hw] at this <;> simpa [inflight] using this.symm

/-- C46, shutdown, provided no semaphore wait is interrupted: when `shutdown()` has returned, every message
inserted before it was called has been written (in order, see `c46_fifo`), whatever the producers do
meanwhile. Missing: interrupted waits, see `c46_interrupted_shutdown` and `c46_interrupted_push`. -/
theorem c46_shutdown_partial (sched : List Act) (s : State) (he : exec false init sched = some s)
    (hk : s.k = .returned) : s.snap <+: s.written :=
  (inv2_exec inv_init inv2_init sched he).sr hk

/-- C46: `snap` is what had been inserted when `shutdown()` was called on a running output. -/
theorem c46_snap (intr : Bool) (s s' : State) (hw : s.w ≠ .off) (h : step intr s .callShutdown = some s') :
    s'.snap = s.pushed := by
  simp only [step, hw, if_false] at h
  split at h
  · cases h; rfl
  · cases h

/-- The worker's own actions. -/
def worker (k : Nat) : List Act := List.replicate k .w

theorem worker_stops (s : State) : ∃ k s', exec false s (worker k) = some s' ∧ stepW s' = none := by
  induction hm : measure s using Nat.strongRecOn generalizing s with
  | _ n ih =>
    rcases hs : stepW s with _ | s1
    · exact ⟨0, s, rfl, hs⟩
    · obtain ⟨k, s', h1, h2⟩ := ih (measure s1) (hm ▸ stepW_measure hs) s1 rfl
      refine ⟨k + 1, s', ?_, h2⟩
      show (stepW s).bind _ = _
      rw [hs]; exact h1

theorem stepW_pc {s s' : State} (h : stepW s = some s') : s'.pc = s.pc ∧ s'.k = s.k ∧ s'.pushed = s.pushed ∧
    (s.execute = false → s'.execute = false) ∧ (s'.w = .off → s'.execute = false) := by
  unfold stepW at h
  rcases hp : s.w with _ | _ | _ | _ | _ | _ | _ | (_ | m) | m | _ | _ | m | _ | _ <;>
    rw [hp] at h <;> simp only [reduceCtorEq] at h
  all_goals (try split at h)
  all_goals (try (cases h; done))
  all_goals cases h
  all_goals (refine ⟨rfl, rfl, rfl, fun h => ?_, fun h => ?_⟩ <;> grind)

theorem worker_pc (k : Nat) {s s' : State} (h : exec false s (worker k) = some s') :
    s'.pc = s.pc ∧ s'.k = s.k ∧ s'.pushed = s.pushed ∧ (s.execute = false → s'.execute = false) := by
  induction k generalizing s with
  | zero => cases h; exact ⟨rfl, rfl, rfl, id⟩
  | succ k ih =>
    obtain ⟨s1, h1, h2⟩ := Option.bind_eq_some_iff.1 h
    obtain ⟨a, b, c, d⟩ := ih h2
    obtain ⟨a', b', c', d', _⟩ := stepW_pc h1
    exact ⟨a.trans a', b.trans b', c.trans c', fun e => d (d' e)⟩

theorem owing_nil {s : State} (h2 : Inv2 s) (hidle : ∀ t, s.pc t = .idle) : s.owing = [] := by
  rcases ho : s.owing with _ | ⟨t, r⟩
  · rfl
  · have := (h2.ow t).1 (by simp [ho])
    rw [hidle t] at this; cases this

theorem mutex_free {s : State} (h : Inv s) (hidle : ∀ t, s.pc t = .idle) : s.mutex = .none ∨ s.mutex = .worker := by
  rcases hm : s.mutex with _ | _ | t
  · exact Or.inl rfl
  · exact Or.inr rfl
  · have := (h.pm t).2 hm
    rw [hidle t] at this; cases this

/-- What a stopped worker means. -/
theorem stopped_cases {s : State} (h : Inv s) (hidle : ∀ t, s.pc t = .idle) (hs : stepW s = none) :
    s.w = .off ∨ (s.w = .wait ∧ s.fill = 0) := by
  have hm := mutex_free h hidle
  have wm := h.wm
  unfold stepW at hs
  rcases hp : s.w with _ | _ | _ | _ | _ | _ | _ | (_ | m) | m | _ | _ | m | _ | _ <;>
    rw [hp] at hs wm <;> simp only [reduceCtorEq, wcrit] at hs wm <;> (try split at hs) <;> grind

theorem stepW_execute {s s' : State} (h2 : Inv2 s) (hx : s.execute = true) (h : stepW s = some s') :
    s'.execute = true := by
  have kf := h2.kf hx
  unfold stepW at h
  rcases hp : s.w with _ | _ | _ | _ | _ | _ | _ | (_ | m) | m | _ | _ | m | _ | _ <;>
    rw [hp] at h kf <;> simp only [reduceCtorEq, fin] at h kf
  all_goals (try split at h)
  all_goals (try (cases h; done))
  all_goals (cases h; exact hx)

theorem worker_execute (k : Nat) {s s' : State} (h1 : Inv s) (h2 : Inv2 s) (hx : s.execute = true) (hw : s.w ≠ .off)
    (h : exec false s (worker k) = some s') : s'.execute = true ∧ s'.w ≠ .off := by
  induction k generalizing s with
  | zero => cases h; exact ⟨hx, hw⟩
  | succ k ih =>
    obtain ⟨s1, h3, h4⟩ := Option.bind_eq_some_iff.1 h
    refine ih (inv_stepW h1 h3) (inv2_stepW h1 h2 h3) (stepW_execute h2 hx h3) (fun ho => ?_) h4
    have := (stepW_pc h3).2.2.2.2 ho
    rw [stepW_execute h2 hx h3] at this; cases this

/-- C46, progress: in every reachable state of a worker that has not been told to stop, if the producers are
idle and semaphore waits do not fail, the worker on its own comes to rest after finitely many steps, and then
every message ever inserted has been written. -/
theorem c46_progress_partial (sched : List Act) (s : State) (he : exec false init sched = some s)
    (hidle : ∀ t, s.pc t = .idle) (hw : s.w ≠ .off) (hx : s.execute = true) :
    ∃ k s', exec false s (worker k) = some s' ∧ s'.w = .wait ∧ s'.written = s.pushed ∧ s'.queue = [] := by
  have h := inv_exec inv_init sched he
  have h2 := inv2_exec inv_init inv2_init sched he
  obtain ⟨k, s', h3, h4⟩ := worker_stops s
  have i1 := inv_exec h (worker k) h3
  have i2 := inv2_exec h h2 (worker k) h3
  obtain ⟨p1, p2, p3, p4⟩ := worker_pc k h3
  have hidle' : ∀ t, s'.pc t = .idle := by rw [p1]; exact hidle
  rcases stopped_cases i1 hidle' h4 with ho | ⟨ho, hf⟩
  · exact absurd ho (worker_execute k h h2 hx hw h3).2
  · have hq : s'.queue = [] := by
      have := i2.wk
      rw [owing_nil i2 hidle', hf, ho] at this
      simpa [tok] using this
    have := i1.ls
    rw [ho, hq] at this
    exact ⟨k, s', h3, ho, by rw [← p3, this]; simp [inflight], hq⟩

/-- C46: `shutdown()` does not hang: when it waits in `join()` and the producers are idle, the worker on its
own finishes after finitely many steps and `shutdown()` returns. -/
theorem c46_shutdown_returns_partial (sched : List Act) (s : State) (he : exec false init sched = some s)
    (hidle : ∀ t, s.pc t = .idle) (hk : s.k = .join) :
    ∃ k s', exec false s (worker k ++ [.k]) = some s' ∧ s'.k = .returned := by
  have h := inv_exec inv_init sched he
  have h2 := inv2_exec inv_init inv2_init sched he
  obtain ⟨k, s', h3, h4⟩ := worker_stops s
  have i1 := inv_exec h (worker k) h3
  have i2 := inv2_exec h h2 (worker k) h3
  obtain ⟨p1, p2, p3, p4⟩ := worker_pc k h3
  have hidle' : ∀ t, s'.pc t = .idle := by rw [p1]; exact hidle
  rcases stopped_cases i1 hidle' h4 with ho | ⟨ho, hf⟩
  · refine ⟨k, { s' with k := .returned }, ?_, rfl⟩
    have happ : ∀ (a b : List Act) (s : State), exec false s (a ++ b) = (exec false s a).bind fun s' => exec false s' b := by
      intro a b
      induction a with
      | nil => intro s; rfl
      | cons x xs ih =>
        intro s
        show (step false s x).bind _ = ((step false s x).bind _).bind _
        rw [Option.bind_assoc]
        congr 1
        funext s1
        exact ih s1
    rw [happ, h3]
    simp [exec, step, stepK, p2, hk, ho]
  · have := i2.jw (by rw [p2, hk]) ho
    omega

/-- C47: if semaphore waits do not fail, a worker blocked in `m_fill_count->wait()` while no producer is
inside `push()` has an empty queue, and every inserted message has been written. -/
theorem c47_no_lost_wakeup_partial (sched : List Act) (s : State) (he : exec false init sched = some s)
    (hw : s.w = .wait) (hf : s.fill = 0) (hidle : ∀ t, s.pc t = .idle) : s.queue = [] ∧ s.written = s.pushed := by
  have h := inv_exec inv_init sched he
  have h2 := inv2_exec inv_init inv2_init sched he
  have hq : s.queue = [] := by
    have := h2.wk
    rw [owing_nil h2 hidle, hf, hw] at this
    simpa [tok] using this
  refine ⟨hq, ?_⟩
  have := h.ls
  rw [hw, hq] at this
  simpa [inflight] using this.symm

/-- One complete `push` of producer `t`. -/
def pushBy (t : Nat) : List Act := [.pCall t, .p t, .p t, .p t, .p t]

/-- Two producers, three messages (one pushed while the worker runs), shutdown with one message left. -/
def goodSched : List Act :=
  pushBy 1 ++ [.callStart] ++ worker 4 ++ pushBy 2 ++ worker 4 ++ [.callShutdown, .k] ++ pushBy 1 ++ [.k] ++ worker 9 ++ [.k]

/-- Non-vacuity of `c46_shutdown_partial`. -/
example : ∃ s, exec false init goodSched = some s ∧ s.k = .returned ∧ s.snap = [0, 1] ∧ s.written = [0, 1, 2] :=
  ⟨_, rfl, by decide⟩

/-- Non-vacuity of `c47_no_lost_wakeup_partial` (all other producers have not acted). -/
example : ∃ s, exec false init (pushBy 1 ++ [.callStart] ++ worker 9) = some s ∧ s.w = .wait ∧ s.fill = 0 ∧
    s.written = [0] ∧ s.pc 1 = .idle :=
  ⟨_, rfl, by decide⟩

/-- Finding: if the worker's wait for the mutex is interrupted (`sem_wait` fails with EINTR and
`Semaphore::wait` returns false), the wake-up is used up but the message stays in the queue: the worker
sleeps with a message in the queue, until the next message arrives. -/
theorem c47_interrupted : ∃ s, exec true init (pushBy 1 ++ [.callStart] ++ worker 4 ++ [.wFails] ++ worker 1) = some s ∧
    s.w = .wait ∧ s.fill = 0 ∧ s.queue = [0] ∧ s.written = [] ∧ s.pc 1 = .idle :=
  ⟨_, rfl, by decide⟩

/-- Finding: if a producer's wait is interrupted, its message is dropped silently. -/
theorem c46_interrupted_push : ∃ s, exec true init [.callStart, .pCall 1, .pFails 1] = some s ∧
    s.pc 1 = .idle ∧ s.next = 1 ∧ s.pushed = [] :=
  ⟨_, rfl, by decide⟩

/-- Finding: if the worker's last wait for the mutex is interrupted, `shutdown()` returns with messages left
in the queue. -/
theorem c46_interrupted_shutdown : ∃ s, exec true init
    ([.callStart] ++ worker 2 ++ pushBy 1 ++ pushBy 1 ++ [.callShutdown, .k, .k] ++ worker 7 ++ [.wFails] ++ worker 1 ++ [.k]) =
      some s ∧ s.k = .returned ∧ s.snap = [0, 1] ∧ s.written = [0] :=
  ⟨_, rfl, by decide⟩

/-- Finding: a message pushed after the final loop has emptied the queue is not written by this worker (only
if the output is started again). -/
theorem c46_push_after_drain : ∃ s, exec false init
    ([.callStart] ++ worker 2 ++ [.callShutdown, .k, .k] ++ worker 6 ++ pushBy 1 ++ worker 1 ++ [.k]) =
      some s ∧ s.k = .returned ∧ s.written = [] ∧ s.pushed = [0] :=
  ⟨_, rfl, by decide⟩

/-- An output that was shut down can be started again: the worker runs again, and what was pushed in between and
afterwards is written, too. -/
example : ∃ s, exec false init ([.callStart] ++ worker 2 ++ [.callShutdown, .k, .k] ++ worker 7 ++ [.k, .k] ++ pushBy 1 ++
    [.callStart] ++ worker 7 ++ pushBy 2 ++ worker 6 ++ [.callShutdown, .k, .k] ++ worker 7 ++ [.k]) = some s ∧
    s.k = .returned ∧ s.snap = [0, 1] ∧ s.written = [0, 1] :=
  ⟨_, rfl, by decide⟩

end Verif.Logging.Worker
