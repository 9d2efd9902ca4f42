import Verif.Logging.Pipe.Account

/-!
# C127: from the log statement to the output, end to end
-/
namespace Verif.Logging.Pipe

open Pool (PC Msg)

/-! ## Specification -/

/-- What output `o` has written so far of the statements of thread `t`: (stream, level, text). -/
def outputOf (s : State) (o t : Nat) : List (Nat × Nat × List Nat) :=
  (((s.W o).written.filterMap fun m => (s.names o)[m]?).filter fun e => e.2.thread = t).map
    fun e => (e.1, e.2.level, e.2.text)

/-- The log statements of thread `t` that are to appear in output `o`: those on the streams it is connected to, with
at least its level, in program order. -/
def expected (c : Conf) (s : State) (o t : Nat) : List (Nat × Nat × List Nat) :=
  (s.log t).filter fun e => o ∈ c.conn e.1 ∧ c.lv o ≤ e.2.1

/-- `m_output_stream_list` is a set. -/
def Sets (c : Conf) : Prop := ∀ a, (c.conn a).Nodup

/-! ## Proofs -/

theorem expected_eq (c : Conf) (s : State) (o t : Nat) : expected c s o t = (s.log t).filter (want c o) := rfl

theorem mem_ins {w : List Nat} {ns : List (Nat × Msg)} {e : Nat × Msg} (h : e ∈ w.filterMap fun m => ns[m]?) : e ∈ ns := by
  obtain ⟨m, _, hm⟩ := List.mem_filterMap.1 h
  exact List.mem_of_getElem? hm

theorem outputOf_eq {c : Conf} (hr : c.racy = false) {s : State} (h : PInv c s) (o t : Nat) :
    outputOf s o t = byT t ((s.W o).written.filterMap fun m => (s.names o)[m]?) := by
  unfold outputOf byT
  refine List.map_congr_left fun e he => ?_
  rw [h.tx hr o e (mem_ins (List.mem_filter.1 he).1)]

theorem byT_prefix {t : Nat} {a b : List (Nat × Msg)} (h : a <+: b) : byT t a <+: byT t b := by
  obtain ⟨r, rfl⟩ := h
  exact ⟨byT t r, by simp [byT]⟩

theorem filterMap_prefix {f : Nat → Option (Nat × Msg)} {a b : List Nat} (h : a <+: b) :
    a.filterMap f <+: b.filterMap f := by
  obtain ⟨r, rfl⟩ := h
  exact ⟨r.filterMap f, by simp⟩

theorem written_prefix {s : State} {c : Conf} (h : PInv c s) (o : Nat) : (s.W o).written <+: (s.W o).pushed := by
  rw [(h.wi o).ls, List.append_assoc]; exact List.prefix_append ..

theorem reach {c : Conf} (hc : Sets c) {n : Nat} {sched : List Act} {s : State} (he : exec c (init n) sched = some s) :
    PInv c s ∧ MInv c s := inv_exec hc (pinv_init c n) (minv_init c n) sched he

/-- C127, at any time, whatever the schedule of any number of threads, streams and outputs: what an output has written
of a thread's statements is a prefix of what it should write: nothing foreign, nothing twice, nothing out of order,
no statement missing in the middle, every text as logged. Provided `threadStream()` does not run while another thread
is at the end of `flush` (otherwise texts are lost or mixed: `c45_flush_race`), log arguments do not log, and no
semaphore wait fails. -/
theorem c127_prefix_partial (c : Conf) (hc : Sets c) (hr : c.racy = false) (n : Nat) (sched : List Act) (s : State)
    (he : exec c (init n) sched = some s) (o t : Nat) : outputOf s o t <+: expected c s o t := by
  obtain ⟨h, hm⟩ := reach hc he
  rw [outputOf_eq hr h, expected_eq, hm o t]
  exact (byT_prefix (filterMap_prefix (written_prefix h o))).trans (List.prefix_append _ _)

/-- C127: when the thread has finished its statements and the worker of the output is asleep with nothing left to do
(while no thread is pushing), the output has written exactly what it should. -/
theorem c127_complete_partial (c : Conf) (hc : Sets c) (hr : c.racy = false) (n : Nat) (sched : List Act) (s : State)
    (he : exec c (init n) sched = some s) (o t : Nat) (ht : s.busy t = none) (hw : (s.W o).w = .wait)
    (hf : (s.W o).fill = 0) (hi : ∀ a, (s.W o).pc a = .idle) : outputOf s o t = expected c s o t := by
  obtain ⟨h, hm⟩ := reach hc he
  have hq : (s.W o).queue = [] := by
    have := (h.w2 o).wk
    rw [Worker.owing_nil (h.w2 o) hi, hf, hw] at this
    simpa [Worker.tok] using this
  have hwp : (s.W o).written = (s.W o).pushed := by
    have := (h.wi o).ls
    rw [hq, hw] at this
    simpa [Worker.inflight] using this.symm
  rw [outputOf_eq hr h, expected_eq, hm o t, pend_idle ht, hwp, List.append_nil]
  rfl

/-- The worker's steps of output `o`. -/
def workerOf (o k : Nat) : List Act := List.replicate k (.output o .worker)

theorem exec_worker (c : Conf) (o k : Nat) {s : State} {w : Worker.State}
    (h : Worker.exec false (s.W o) (Worker.worker k) = some w) : exec c s (workerOf o k) = some (setW s o w) := by
  induction k generalizing s with
  | zero =>
    cases h
    simp only [workerOf, List.replicate, exec, setW, Option.some.injEq]
    have : (fun b => if b = o then s.W o else s.W b) = s.W := by funext b; split <;> simp [*]
    rw [this]
  | succ k ih =>
    obtain ⟨w1, h1, h2⟩ := Option.bind_eq_some_iff.1 h
    have e1 : step c s (.output o .worker) = some (setW s o w1) := by
      simp only [step, OAct.act, h1, Option.map_some]
    show (step c s (.output o .worker)).bind _ = _
    rw [e1]
    have h3 : Worker.exec false ((setW s o w1).W o) (Worker.worker k) = some w := by
      simp only [setW, if_true]; exact h2
    show exec c (setW s o w1) (workerOf o k) = _
    rw [ih h3]
    congr 1
    unfold setW
    congr 1
    funext b
    simp only
    split <;> simp [*]

theorem worker_prefix {c : Conf} (hc : Sets c) {n : Nat} {sched : List Act} {s : State}
    (he : exec c (init n) sched = some s) (o : Nat) (h1 : ∀ t, s.busy t = none) : ∀ a, (s.W o).pc a = .idle := by
  intro a
  obtain ⟨h, _⟩ := reach hc he
  by_cases e : (s.W o).pc a = .idle
  · exact e
  · obtain ⟨t, r, hl⟩ := h.wp o a e
    have hp := h.lp a _ hl
    have : (s.S a).pc t ≠ .idle := by intro e; rw [e] at hp; cases hp
    have := h.bz a t this
    rw [h1 t] at this; cases this

/-- C127, progress: from every reachable state in which the threads have finished their statements and the output's
worker has been started and not been told to stop, the worker alone needs only finitely many steps to write
everything: for every thread exactly the expected statements, in order, with their texts. -/
theorem c127_progress_partial (c : Conf) (hc : Sets c) (hr : c.racy = false) (n : Nat) (sched : List Act) (s : State)
    (he : exec c (init n) sched = some s) (o : Nat) (hb : ∀ t, s.busy t = none) (hw : (s.W o).w ≠ .off)
    (hx : (s.W o).execute = true) :
    ∃ k s', exec c s (workerOf o k) = some s' ∧ ∀ t, outputOf s' o t = expected c s o t := by
  obtain ⟨h, hm⟩ := reach hc he
  have hidle := worker_prefix hc he o hb
  obtain ⟨k, w, h3, h4⟩ := Worker.worker_stops (s.W o)
  have i1 := Worker.inv_exec (h.wi o) _ h3
  have i2 := Worker.inv2_exec (h.wi o) (h.w2 o) _ h3
  obtain ⟨p1, p2, p3, p4⟩ := Worker.worker_pc k h3
  have hidle' : ∀ t, w.pc t = .idle := by rw [p1]; exact hidle
  have hww : w.written = w.pushed := by
    rcases Worker.stopped_cases i1 hidle' h4 with ho | ⟨ho, hf⟩
    · exact absurd ho (Worker.worker_execute k (h.wi o) (h.w2 o) hx hw h3).2
    · have hq : w.queue = [] := by
        have := i2.wk
        rw [Worker.owing_nil i2 hidle', hf, ho] at this
        simpa [Worker.tok] using this
      have := i1.ls
      rw [ho, hq] at this
      simpa [Worker.inflight] using this.symm
  refine ⟨k, _, exec_worker c o k h3, fun t => ?_⟩
  have h' : PInv c (setW s o w) ∧ MInv c (setW s o w) := inv_exec hc h hm _ (exec_worker c o k h3)
  rw [outputOf_eq hr h'.1]
  show _ = (s.log t).filter (want c o)
  rw [hm o t, pend_idle (hb t), List.append_nil]
  simp only [setW, if_true, hww, p3]
  rfl

theorem out_snap {w w' : Worker.State} {x : OAct} (h : Worker.step false w x.act = some w') (P : List Nat)
    (h1 : P <+: w.pushed) (h2 : P <+: w.snap) : P <+: w'.pushed ∧ P <+: w'.snap := by
  refine ⟨by rw [(worker_other h).2.2]; exact h1, ?_⟩
  cases x with
  | worker =>
    have h' : Worker.stepW w = some w' := h
    unfold Worker.stepW at h'
    rcases hp : w.w with _ | _ | _ | _ | _ | _ | _ | (_ | m) | m | _ | _ | m | _ | _ <;>
      rw [hp] at h' <;> simp only [reduceCtorEq] at h'
    all_goals (try split at h')
    all_goals (try (cases h'; done))
    all_goals (cases h'; exact h2)
  | control =>
    simp only [OAct.act, Worker.step, Worker.stepK] at h
    split at h
    all_goals (try split at h)
    all_goals (try (cases h; done))
    all_goals (cases h; exact h2)
  | start =>
    simp only [OAct.act, Worker.step] at h
    split at h
    · cases h; exact h2
    · cases h
  | shutdown =>
    simp only [OAct.act, Worker.step] at h
    split at h
    · split at h
      · cases h; exact h2
      · cases h; exact h1
    · cases h

theorem p_snap {w w' : Worker.State} {a : Nat} (h : Worker.stepP w a = some w' ∨ Worker.callP w a = some w') :
    w'.snap = w.snap ∧ w.pushed <+: w'.pushed := by
  unfold Worker.stepP Worker.callP at h
  rcases hp : w.pc a with _ | m | m | _ | _ <;> rw [hp] at h <;>
    simp only [reduceCtorEq, if_true, if_false, or_false, false_or] at h
  all_goals (try split at h)
  all_goals (try (cases h; done))
  all_goals cases h
  all_goals (refine ⟨rfl, ?_⟩; first | exact List.prefix_refl _ | exact List.prefix_append _ _)

/-- Queue contents grow, and a snapshot is kept. -/
theorem tr_snap {c : Conf} {s s' : State} (ht : Tr c s s') (o : Nat) (P : List Nat) (h1 : P <+: (s.W o).pushed)
    (h2 : P <+: (s.W o).snap) : P <+: (s'.W o).pushed ∧ P <+: (s'.W o).snap := by
  cases ht with
  | enter t a i l x u o' r w hb hp hl hv hs =>
    by_cases e : o = o'
    · subst e
      obtain ⟨e1, e2⟩ := p_snap (Or.inr hs)
      simp only [name, setL, setW, if_true]
      exact ⟨h1.trans e2, by rw [e1]; exact h2⟩
    · simpa [name, setL, setW, e] using ⟨h1, h2⟩
  | prod t a i l x u o' r w hb hp hl hs =>
    by_cases e : o = o'
    · subst e
      obtain ⟨e1, e2⟩ := p_snap (Or.inl hs)
      simp only [setW, if_true]
      exact ⟨h1.trans e2, by rw [e1]; exact h2⟩
    · simpa [setW, e] using ⟨h1, h2⟩
  | out o' x w hs =>
    by_cases e : o = o'
    · subst e; simpa [setW] using out_snap hs P h1 h2
    · simpa [setW, e] using ⟨h1, h2⟩
  | _ => exact ⟨h1, h2⟩

theorem exec_snap {c : Conf} {as : List Act} {s s' : State} (he : exec c s as = some s') (o : Nat) (P : List Nat)
    (h1 : P <+: (s.W o).pushed) (h2 : P <+: (s.W o).snap) : P <+: (s'.W o).snap := by
  induction as generalizing s with
  | nil => cases he; exact h2
  | cons a as ih =>
    obtain ⟨s1, h3, h4⟩ := Option.bind_eq_some_iff.1 he
    obtain ⟨h5, h6⟩ := tr_snap (step_tr h3) o P h1 h2
    exact ih h4 h5 h6

theorem names_grow {c : Conf} {s s' : State} (ht : Tr c s s') (o : Nat) : s.names o <+: s'.names o := by
  cases ht with
  | enter t a i l x u o' r w hb hp hl hv hs =>
    by_cases e : o = o'
    · subst e; simp only [name, setL, setW, if_true]; exact List.prefix_append _ _
    · simp only [name, setL, setW, e, if_false]; exact List.prefix_refl _
  | _ => exact List.prefix_refl _

theorem exec_names {c : Conf} {as : List Act} {s s' : State} (he : exec c s as = some s') (o : Nat) :
    s.names o <+: s'.names o := by
  induction as generalizing s with
  | nil => cases he; exact List.prefix_refl _
  | cons a as ih =>
    obtain ⟨s1, h3, h4⟩ := Option.bind_eq_some_iff.1 he
    exact (names_grow (step_tr h3) o).trans (ih h4)

theorem filterMap_names {l : List Nat} {a b : List (Nat × Msg)} (h : a <+: b) (hl : ∀ m ∈ l, m < a.length) :
    l.filterMap (fun m => b[m]?) = l.filterMap (fun m => a[m]?) := by
  obtain ⟨r, rfl⟩ := h
  induction l with
  | nil => rfl
  | cons m ms ih =>
    rw [List.filterMap_cons, List.filterMap_cons, List.getElem?_append_left (hl m List.mem_cons_self),
      ih (fun k hk => hl k (List.mem_cons_of_mem _ hk))]

theorem exec_append (c : Conf) (a b : List Act) (s : State) :
    exec c s (a ++ b) = (exec c s a).bind fun s' => exec c s' b := by
  induction a generalizing s with
  | nil => rfl
  | cons x xs ih =>
    show (step c s x).bind _ = ((step c s x).bind _).bind _
    rw [Option.bind_assoc]
    congr 1
    funext s1
    exact ih s1

/-- C127, shutdown: let `shutdown()` be called on a running output while thread `t` is between statements. Whatever
happens then (other threads logging, and `t` itself): when `shutdown()` has returned, everything `t` had logged for that
output before the call has been written, in order, with its text. -/
theorem c127_shutdown_partial (c : Conf) (hc : Sets c) (hr : c.racy = false) (n : Nat) (sched rest : List Act)
    (s s1 s' : State) (o t : Nat) (he : exec c (init n) sched = some s) (ht : s.busy t = none)
    (hw : (s.W o).w ≠ .off) (h1 : step c s (.output o .shutdown) = some s1) (h2 : exec c s1 rest = some s')
    (hk : (s'.W o).k = .returned) : expected c s o t <+: outputOf s' o t := by
  obtain ⟨h, hm⟩ := reach hc he
  have he' : exec c s (.output o .shutdown :: rest) = some s' := by
    show (step c s _).bind _ = _
    rw [h1]; exact h2
  obtain ⟨h', hm'⟩ := inv_exec hc h hm _ he'
  have hs1 : (s1.W o).pushed = (s.W o).pushed ∧ (s1.W o).snap = (s.W o).pushed := by
    simp only [step, Option.map_eq_some_iff] at h1
    obtain ⟨w, hw', rfl⟩ := h1
    simp only [setW, if_true]
    exact ⟨(worker_other hw').2.2, Worker.c46_snap false (s.W o) w hw hw'⟩
  have hsn : (s.W o).pushed <+: (s'.W o).snap :=
    exec_snap h2 o _ (by rw [hs1.1]; exact List.prefix_refl _) (by rw [hs1.2]; exact List.prefix_refl _)
  have hwr := hsn.trans ((h'.w2 o).sr hk)
  rw [outputOf_eq hr h', expected_eq, hm o t, pend_idle ht, List.append_nil]
  have hn := exec_names he' o
  have : ins (s.W o) (s.names o) = (s.W o).pushed.filterMap fun m => (s'.names o)[m]? := by
    unfold ins
    rw [filterMap_names hn]
    intro m hm
    rw [← h.nx o]; exact (h.wi o).pn m hm
  rw [this]
  exact byT_prefix (filterMap_prefix hwr)

/-! ## Examples -/

/-- `k` steps of thread `t`. -/
def gos (t k : Nat) : List Act := List.replicate k (.go t)

/-- Streams 0 and 1; output 0 gets everything of both, output 1 only messages of stream 0 of level at least 3. -/
def exConf (racy : Bool) : Conf :=
  { conn := fun a => if a = 0 then [0, 1] else if a = 1 then [0] else [], lv := fun o => if o = 0 then 0 else 3, racy := racy }

theorem exConf_sets (r : Bool) : Sets (exConf r) := by
  intro a
  simp only [exConf]
  split
  · decide
  · split <;> decide

/-- Thread 1 logs "5 6" on stream 0 (level 2), then "7" on stream 1 (level 4); thread 2 logs "8" on stream 0 (level 3)
in between; output 0 is started before, output 1 after. -/
def exSched : List Act :=
  [.output 0 .start, .call 1 0 2 [5, 6]] ++ gos 1 6 ++ [.call 2 0 3 [8]] ++ gos 1 12 ++
  [.call 1 1 4 [7]] ++ gos 2 7 ++ gos 1 8 ++ gos 1 8 ++ gos 2 15 ++ List.replicate 23 (.output 0 .worker) ++
  [.output 1 .start]

/-- A thread that starts no statement is not in one. -/
theorem busy_none {c : Conf} {as : List Act} {s s' : State} (he : exec c s as = some s') (t : Nat) (h0 : s.busy t = none)
    (h : ∀ x ∈ as, ∀ a l y, x ≠ .call t a l y) : s'.busy t = none := by
  induction as generalizing s with
  | nil => cases he; exact h0
  | cons x as ih =>
    obtain ⟨s1, h1, h2⟩ := Option.bind_eq_some_iff.1 he
    refine ih h2 ?_ (fun y hy => h y (List.mem_cons_of_mem _ hy))
    have hx := h x List.mem_cons_self
    cases x with
    | call t' a l y =>
      have hne : t ≠ t' := by rintro rfl; exact hx a l y rfl
      simp only [step] at h1
      split at h1
      · simp only [poolStep, Option.map_eq_some_iff] at h1
        obtain ⟨_, ⟨p, _, rfl⟩, rfl⟩ := h1
        simpa [setB, logged, setS, hne] using h0
      · cases h1
    | output o x =>
      simp only [step, Option.map_eq_some_iff] at h1
      obtain ⟨w, _, rfl⟩ := h1
      exact h0
    | go t' =>
      by_cases e : t' = t
      · subst e
        simp only [step, h0] at h1
        cases h1
      · have key : ∀ b, s1.busy b ≠ s.busy b → b = t' := by
          intro b hb
          simp only [step, Option.bind_eq_some_iff] at h1
          obtain ⟨a, _, h1⟩ := h1
          simp only [goStep, loopStep, poolStep] at h1
          split at h1
          · split at h1
            · split at h1
              · split at h1
                · cases h1; exact absurd rfl hb
                · simp only [Option.map_eq_some_iff] at h1
                  obtain ⟨w, _, rfl⟩ := h1
                  exact absurd rfl hb
              · split at h1
                · simp only [Option.map_eq_some_iff] at h1
                  obtain ⟨w, _, rfl⟩ := h1
                  exact absurd rfl hb
                · cases h1; exact absurd rfl hb
            · simp only [Option.map_eq_some_iff] at h1
              obtain ⟨_, ⟨w, _, rfl⟩, rfl⟩ := h1
              exact absurd rfl hb
          · simp only [Option.map_eq_some_iff] at h1
            obtain ⟨_, ⟨w, _, rfl⟩, rfl⟩ := h1
            exact absurd rfl hb
          · simp only [Option.map_eq_some_iff] at h1
            obtain ⟨_, ⟨w, _, rfl⟩, rfl⟩ := h1
            refine Classical.byContradiction fun hn => hb ?_
            simp [setB, setS, hn]
          · simp only [Option.map_eq_some_iff] at h1
            obtain ⟨w, _, rfl⟩ := h1
            exact absurd rfl hb
        refine Classical.byContradiction fun hn => e (key t ?_).symm
        rw [h0]; exact hn

theorem ex_run : ∃ s, exec (exConf false) (init 2) exSched = some s ∧ s.busy 1 = none ∧ s.busy 2 = none ∧
    (s.W 0).w = .wait ∧ (s.W 0).fill = 0 ∧
    s.log 1 = [(0, 2, [5, 6]), (1, 4, [7])] ∧ outputOf s 0 1 = [(0, 2, [5, 6]), (1, 4, [7])] ∧
    outputOf s 0 2 = [(0, 3, [8])] ∧ expected (exConf false) s 1 1 = [] ∧ expected (exConf false) s 1 2 = [(0, 3, [8])] ∧
    outputOf s 1 2 = [] ∧ (s.W 1).w ≠ .off ∧ (s.W 1).execute = true :=
  ⟨_, rfl, by decide⟩

theorem ex_idle {s : State} (h : exec (exConf false) (init 2) exSched = some s) (h1 : s.busy 1 = none) (h2 : s.busy 2 = none)
    (t : Nat) : s.busy t = none := by
  by_cases e1 : t = 1
  · rw [e1]; exact h1
  · by_cases e2 : t = 2
    · rw [e2]; exact h2
    · refine busy_none h t rfl fun x hx a l y e => ?_
      subst e
      simp [exSched, gos, e1, e2] at hx

/-- The hypotheses of `c127_complete_partial` and (for output 1) of `c127_progress_partial` are met: two threads, two
streams, two outputs. -/
example : ∃ s, exec (exConf false) (init 2) exSched = some s ∧ (∀ t, s.busy t = none) ∧ (∀ a, (s.W 0).pc a = .idle) ∧
    (s.W 0).w = .wait ∧ (s.W 0).fill = 0 ∧ (s.W 1).w ≠ .off ∧ (s.W 1).execute = true ∧
    expected (exConf false) s 1 2 = [(0, 3, [8])] ∧ outputOf s 1 2 = [] := by
  obtain ⟨s, he, h1, h2, h3, h4, _, _, _, _, h5, h6, h7, h8⟩ := ex_run
  have hb := ex_idle he h1 h2
  exact ⟨s, he, hb, worker_prefix (exConf_sets false) he 0 hb, h3, h4, h7, h8, h5, h6⟩

/-- Shutdown of output 0 right after thread 1's first statement, before the worker has written it, while thread 2 is
logging. -/
def exShut1 : List Act := [.output 0 .start, .call 1 0 2 [5, 6]] ++ gos 1 6 ++ [.call 2 0 3 [8]] ++ gos 1 12
def exShut2 : List Act :=
  [.output 0 .control] ++ gos 2 13 ++ [.output 0 .control] ++ List.replicate 10 (.output 0 .worker) ++ [.output 0 .control]

/-- The hypotheses of `c127_shutdown_partial` are met. -/
example : ∃ s s1 s', exec (exConf false) (init 2) exShut1 = some s ∧ s.busy 1 = none ∧ s.busy 2 = some 0 ∧
    (s.W 0).w ≠ .off ∧ outputOf s 0 1 = [] ∧ expected (exConf false) s 0 1 = [(0, 2, [5, 6])] ∧
    step (exConf false) s (.output 0 .shutdown) = some s1 ∧ exec (exConf false) s1 exShut2 = some s' ∧
    (s'.W 0).k = .returned ∧ outputOf s' 0 1 = [(0, 2, [5, 6])] ∧ outputOf s' 0 2 = [(0, 3, [8])] :=
  ⟨_, _, _, rfl, by decide, by decide, by decide, by decide, by decide, rfl, rfl, by decide, by decide, by decide⟩

end Verif.Logging.Pipe
