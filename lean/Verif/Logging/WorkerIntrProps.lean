import Verif.Logging.WorkerIntr

/-!
# C131: exactly what interrupted semaphore waits cost
-/
namespace Verif.Logging.Worker.Intr

/-- C131, accounting, for every schedule with any interruptions: the messages inserted and the messages whose `push` was
interrupted are different, and once no `push` is under way they are all messages: nothing else is lost on the way in. -/
theorem c131_accounted (sched : List Act) (s : State) (he : exec true init sched = some s) :
    (s.pushed ++ lostPush init sched).Nodup ∧
    ((∀ t, s.pc t = .idle) → ∀ m, m ∈ s.pushed ++ lostPush init sched ↔ m < s.next) := by
  have i := inv_exec inv_init sched he
  obtain ⟨all, ln, lt, lp, lo⟩ := acc_exec sched inv_init acc_init he
  simp only [List.nil_append] at all ln lt lp lo
  constructor
  · rw [List.nodup_append]
    refine ⟨i.nd, ln, fun a ha b hb => ?_⟩
    rintro rfl
    exact lp a hb ha
  · intro hidle m
    rw [List.mem_append]
    constructor
    · rintro (h | h)
      · exact i.pn m h
      · exact lt m h
    · intro h
      rcases all m h with h | h | ⟨t, ht⟩
      · exact Or.inl h
      · exact Or.inr h
      · rw [hidle t] at ht; cases ht

/-- C131, backlog: whatever was interrupted, when the worker sleeps and no `push` is under way, all messages inserted have
been written except the last ones, and these are at most as many as the worker's waits for the mutex were interrupted in
its main loop. -/
theorem c131_backlog (sched : List Act) (s : State) (he : exec true init sched = some s) (hidle : ∀ t, s.pc t = .idle)
    (hw : s.w = .wait) (hf : s.fill = 0) :
    s.pushed = s.written ++ s.queue ∧ s.queue.length ≤ lockFails init sched := by
  have i := inv_exec inv_init sched he
  obtain ⟨on, ow, wk⟩ := bk_exec sched bk_init he
  have ho : s.owing = [] := by
    cases h : s.owing with
    | nil => rfl
    | cons t l =>
      have := (ow t).1 (by rw [h]; exact List.mem_cons_self)
      rw [hidle t] at this; cases this
  have ls := i.ls
  rw [hw] at ls wk
  rw [ho, hf] at wk
  refine ⟨by simpa [inflight] using ls, ?_⟩
  simpa [tok] using wk

theorem lift_exec (as : List Act) : ∀ {s s' : State}, exec false s as = some s' → exec true s as = some s' := by
  induction as with
  | nil => intro s s' h; exact h
  | cons a as ih =>
    intro s s' h
    obtain ⟨s1, h1, h2⟩ := Option.bind_eq_some_iff.1 h
    refine Option.bind_eq_some_iff.2 ⟨s1, ?_, ih h2⟩
    cases a <;> first | exact h1 | cases h1

theorem exec_append {intr : Bool} (a b : List Act) : ∀ s : State,
    exec intr s (a ++ b) = (exec intr s a).bind fun s' => exec intr s' b := by
  induction a with
  | nil => intro s; rfl
  | cons x a ih =>
    intro s
    simp only [List.cons_append, exec]
    cases step intr s x with
    | none => rfl
    | some s1 => exact ih s1

theorem lockFails_append (a b : List Act) : ∀ {s s' : State}, exec true s a = some s' →
    lockFails s (a ++ b) = lockFails s a + lockFails s' b := by
  induction a with
  | nil => intro s s' h; cases h; simp [lockFails]
  | cons x a ih =>
    intro s s' h
    obtain ⟨s1, h1, h2⟩ := Option.bind_eq_some_iff.1 h
    simp only [List.cons_append, lockFails, h1, ih h2, Nat.add_assoc]

theorem lockFails_worker (k : Nat) : ∀ s : State, lockFails s (worker k) = 0 := by
  induction k with
  | zero => intro s; rfl
  | succ k ih =>
    intro s
    have : worker (k + 1) = .w :: worker k := rfl
    simp only [this, lockFails, reduceCtorEq, false_and, if_false, Nat.zero_add]
    cases step true s .w with
    | none => rfl
    | some s1 => exact ih s1

/-- C131, progress: after any interruptions, if the output has not been shut down, the worker left alone comes to rest after finitely
many steps, and then at most as many messages wait in the queue as its waits for the mutex were interrupted. -/
theorem c131_progress (sched : List Act) (s : State) (he : exec true init sched = some s) (hidle : ∀ t, s.pc t = .idle)
    (hw : s.w ≠ .off) (hx : s.execute = true) :
    ∃ k s', exec true s (worker k) = some s' ∧ s'.w = .wait ∧ s'.fill = 0 ∧
      s.pushed = s'.written ++ s'.queue ∧ s'.queue.length ≤ lockFails init sched := by
  have i := inv_exec inv_init sched he
  have c := ctl_exec sched ctl_init he
  obtain ⟨k, s', h3, h4⟩ := worker_stops s
  have i1 := inv_exec i (worker k) h3
  obtain ⟨p1, p2, p3, p4⟩ := worker_pc k h3
  have h3' := lift_exec _ h3
  have hidle' : ∀ t, s'.pc t = .idle := by rw [p1]; exact hidle
  have hall : exec true init (sched ++ worker k) = some s' := by rw [exec_append, he]; exact h3'
  -- the worker does not leave its loop
  have hon : ∀ (k : Nat) (a b : State), exec false a (worker k) = some b → a.execute = true → fin a.w = false → a.w ≠ .off →
      b.w ≠ .off := by
    intro k
    induction k with
    | zero => intro a b h _ _ h2; cases h; exact h2
    | succ k ih =>
      intro a b h h1 h2 h3
      obtain ⟨a1, q1, q2⟩ := Option.bind_eq_some_iff.1 (show exec false a (.w :: worker k) = some b from h)
      have : a1.execute = true ∧ fin a1.w = false ∧ a1.w ≠ .off := by
        simp only [step, stepW] at q1
        rcases hp : a.w with _ | _ | _ | _ | _ | _ | _ | (_ | m) | m | _ | _ | m | _ | _ <;>
          rw [hp] at q1 h2 h3 <;> simp only [reduceCtorEq] at q1
        all_goals (try split at q1)
        all_goals (try (cases q1; done))
        all_goals cases q1
        all_goals simp_all [fin]
        all_goals (try split)
        all_goals simp_all [fin]
      exact ih a1 b q2 this.1 this.2.1 this.2.2
  rcases stopped_cases i1 hidle' h4 with ho | ⟨ho, hf⟩
  · exact absurd ho (hon k s s' h3 hx (c.kf hx) hw)
  · obtain ⟨b1, b2⟩ := c131_backlog _ s' hall hidle' ho hf
    rw [lockFails_append _ _ he, lockFails_worker] at b2
    exact ⟨k, s', h3', ho, hf, by rw [← b1]; exact p3.symm, b2⟩

/-- C131, shutdown: whatever else is interrupted, as long as the worker's wait for the mutex before the final loop is not,
everything inserted before `shutdown()` was called has been written when it returns. -/
theorem c131_shutdown (sched : List Act) (s : State) (he : exec true init sched = some s) (hf : finFails init sched = false)
    (hk : s.k = .returned) : s.snap <+: s.written :=
  (done_exec sched inv_init ctl_init done_init he hf).sr hk

/-- C131: `shutdown()` returns whatever was interrupted before: once the worker is left alone, it ends after finitely
many steps. -/
theorem c131_shutdown_returns (sched : List Act) (s : State) (he : exec true init sched = some s)
    (hidle : ∀ t, s.pc t = .idle) (hk : s.k = .join) :
    ∃ k s', exec true s (worker k ++ [.k]) = some s' ∧ s'.k = .returned := by
  have i := inv_exec inv_init sched he
  have c := ctl_exec sched ctl_init he
  obtain ⟨k, s', h3, h4⟩ := worker_stops s
  have i1 := inv_exec i (worker k) h3
  obtain ⟨p1, p2, p3, p4⟩ := worker_pc k h3
  have h3' := lift_exec _ h3
  have c1 := ctl_exec _ c h3'
  have hidle' : ∀ t, s'.pc t = .idle := by rw [p1]; exact hidle
  have hk' : s'.k = .join := p2.trans hk
  rcases stopped_cases i1 hidle' h4 with ho | ⟨ho, hf⟩
  · refine ⟨k, { s' with k := .returned }, ?_, rfl⟩
    rw [exec_append, h3']
    simp [exec, step, stepK, hk', ho]
  · have := c1.jw hk' ho
    omega

/-- One message that the worker is kept from taking. -/
def stall : List Act := pushBy 1 ++ worker 2 ++ [.wFails] ++ worker 1

/-- At rest. -/
def Rest (s : State) : Prop := s.w = .wait ∧ s.fill = 0 ∧ s.pc 1 = .idle ∧ s.mutex = .none ∧ s.execute = true

theorem stall_step (s : State) (h : Rest s) : ∃ s', exec true s stall = some s' ∧ Rest s' ∧
    s'.queue = s.queue ++ [s.next] ∧ s'.written = s.written ∧ lockFails s stall = 1 := by
  obtain ⟨ex, mu, fi, q, w, pc, k, nx, pu, wr, ow, sn⟩ := s
  obtain ⟨h1, h2, h3, h4, h5⟩ := h
  simp only at h1 h2 h3 h4 h5
  subst h1 h2 h4 h5
  refine ⟨⟨true, .none, 0, q ++ [nx], .wait, fun u => if u = 1 then .idle else pc u, k, nx + 1, pu ++ [nx], wr, ow, sn⟩,
    ?_, ?_, ?_, ?_, ?_⟩
  · simp [stall, pushBy, worker, List.replicate, exec, step, callP, stepP, stepW, failW, setPc, h3]
    funext u
    by_cases e : u = 1 <;> simp [e]
  · simp [Rest]
  · rfl
  · rfl
  · simp [stall, pushBy, worker, List.replicate, lockFails, step, callP, stepP, stepW, failW, setPc, h3]

/-- C131, the bound is exact: for every `n` there is a schedule in which `n` interruptions leave `n` messages in the queue, the
worker asleep and the producers idle. -/
theorem c131_backlog_tight (n : Nat) : ∃ sched s, exec true init sched = some s ∧ lockFails init sched = n ∧
    s.w = .wait ∧ s.fill = 0 ∧ (∀ t, s.pc t = .idle) ∧ s.queue.length = n ∧ s.written = [] := by
  suffices h : ∃ sched s, exec true init sched = some s ∧ lockFails init sched = n ∧ Rest s ∧ (∀ t, t ≠ 1 → s.pc t = .idle) ∧
      s.queue.length = n ∧ s.written = [] by
    obtain ⟨sched, s, h1, h2, h3, h4, h5, h6⟩ := h
    refine ⟨sched, s, h1, h2, h3.1, h3.2.1, fun t => ?_, h5, h6⟩
    by_cases e : t = 1
    · rw [e]; exact h3.2.2.1
    · exact h4 t e
  induction n with
  | zero => exact ⟨[.callStart] ++ worker 2, _, rfl, rfl, by simp [Rest, init], fun t _ => rfl, rfl, rfl⟩
  | succ n ih =>
    obtain ⟨sched, s, h1, h2, h3, h4, h5, h6⟩ := ih
    obtain ⟨s', g1, g2, g3, g4, g5⟩ := stall_step s h3
    have hpc : ∀ (as : List Act) (a b : State), exec true a as = some b → (∀ x ∈ as, ∀ t, x = .p t ∨ x = .pFails t ∨ x = .pCall t → t = 1) →
        ∀ t, t ≠ 1 → a.pc t = .idle → b.pc t = .idle := by
      intro as
      induction as with
      | nil => intro a b h _ t _ h1; cases h; exact h1
      | cons x as ih =>
        intro a b h hx t ht h1
        obtain ⟨a1, q1, q2⟩ := Option.bind_eq_some_iff.1 h
        refine ih a1 b q2 (fun y hy => hx y (List.mem_cons_of_mem _ hy)) t ht ?_
        have hx1 := hx x List.mem_cons_self
        cases x with
        | p u =>
          have := hx1 u (Or.inl rfl); subst this
          simp only [step, stepP] at q1
          split at q1
          all_goals (try split at q1)
          all_goals (try (cases q1; done))
          all_goals (cases q1; simp only [setPc, ht, if_false, h1])
        | pFails u =>
          have := hx1 u (Or.inr (Or.inl rfl)); subst this
          simp only [step, if_true, failP] at q1
          split at q1
          all_goals (try (cases q1; done))
          all_goals (cases q1; simp only [setPc, ht, if_false, h1])
        | pCall u =>
          have := hx1 u (Or.inr (Or.inr rfl)); subst this
          simp only [step, callP] at q1
          split at q1
          all_goals (try (cases q1; done))
          all_goals (cases q1; simp only [setPc, ht, if_false, h1])
        | w => rw [(stepW_pc q1).1]; exact h1
        | wFails =>
          simp only [step, if_true, failW] at q1
          split at q1
          all_goals (try (cases q1; done))
          all_goals (cases q1; exact h1)
        | k =>
          simp only [step, stepK] at q1
          split at q1
          all_goals (try split at q1)
          all_goals (try (cases q1; done))
          all_goals (cases q1; exact h1)
        | callStart =>
          simp only [step] at q1
          split at q1
          · cases q1; exact h1
          · cases q1
        | callShutdown =>
          simp only [step] at q1
          split at q1
          · split at q1 <;> (cases q1; exact h1)
          · cases q1
    refine ⟨sched ++ stall, s', ?_, ?_, g2, ?_, ?_, ?_⟩
    · rw [exec_append, h1]; exact g1
    · rw [lockFails_append _ _ h1, h2, g5]
    · intro t ht
      refine hpc stall s s' g1 ?_ t ht (h4 t ht)
      intro x hx u hu
      simp only [stall, pushBy, worker, List.replicate, List.cons_append, List.nil_append, List.mem_cons, List.not_mem_nil,
        or_false] at hx
      rcases hx with rfl | rfl | rfl | rfl | rfl | rfl | rfl | rfl | rfl <;> simp_all
    · rw [g3, List.length_append, h5]; rfl
    · rw [g4, h6]

/-- The hypotheses of `c131_progress` and `c131_shutdown` are met by executions with interruptions: three messages, the worker's wait for
the mutex interrupted once, one push interrupted; then a shutdown. -/
example : ∃ s, exec true init ([.callStart] ++ worker 2 ++ stall ++ pushBy 2 ++ worker 7 ++ [.pCall 3, .pFails 3] ++ pushBy 1) = some s ∧
    s.w = .wait ∧ s.execute = true ∧ s.written = [0] ∧ s.queue = [1, 3] ∧
    lockFails init ([.callStart] ++ worker 2 ++ stall ++ pushBy 2 ++ worker 7 ++ [.pCall 3, .pFails 3] ++ pushBy 1) = 1 ∧
    lostPush init ([.callStart] ++ worker 2 ++ stall ++ pushBy 2 ++ worker 7 ++ [.pCall 3, .pFails 3] ++ pushBy 1) = [2] :=
  ⟨_, rfl, by decide, by decide, by decide, by decide, by decide, by decide⟩

example : ∃ s, exec true init ([.callStart] ++ worker 2 ++ stall ++ pushBy 2 ++ [.callShutdown, .k, .k, .wFails] ++ worker 9 ++ [.k]) = some s ∧
    s.k = .returned ∧ s.written = [0, 1] ∧ s.snap = [0, 1] ∧
    finFails init ([.callStart] ++ worker 2 ++ stall ++ pushBy 2 ++ [.callShutdown, .k, .k, .wFails] ++ worker 9 ++ [.k]) = false :=
  ⟨_, rfl, by decide, by decide, by decide, by decide⟩

end Verif.Logging.Worker.Intr
