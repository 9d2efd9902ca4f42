import Verif.Conc.Realtime

/-!
# C101: a thread runs in the real-time mode it was created for
-/
namespace Verif.Conc.Realtime

/-- The threads whose log statements and waits happen under LXRT. -/
abbrev Task (w : World) (c : Nat) : Prop := w.avail = true ∧ w.buddy c = true

/-- C101, `run()` starts in hard real-time iff the priority is negative. -/
theorem c101_start_mode (prio : Nat → Int) (w : World) (c : Nat) :
    ∃ w', enterThread prio w c true true = some w' ∧ w'.buddy c = true ∧ (w'.hard c = true ↔ prio c < 0)
      ∧ ∀ u, u ≠ c → w'.hard u = w.hard u := by
  unfold enterThread makeHRT World.setHard
  by_cases h : prio c < 0
  · simp [h]; intro u hu; simp [hu]
  · simp [h]; intro u hu; simp [hu]

/-- C101, every cycle of a periodic thread starts in the mode the thread was created for,
whatever happened to its mode during the cycle before. -/
theorem c101_cycle_mode (prio : Nat → Int) (w : World) (c : Nat) (new : Bool) (h : Task w c) :
    ((step prio w true (.waitPeriod c new)).hard c = true ↔ prio c < 0)
      ∧ ∀ u, u ≠ c → (step prio w true (.waitPeriod c new)).hard u = w.hard u := by
  obtain ⟨ha, hb⟩ := h
  simp only [step, waitPeriodMode, logStatement, isHardRealtime, executesHardRealtime, setHardRealtime, ensureNoHRT,
    makeHRT, makeSoft, isThisHRT, World.setHard]
  cases new <;> rcases Bool.eq_false_or_eq_true (w.hard c) with hh | hh <;> by_cases hp : prio c < 0 <;>
    simp [ha, hb, hh, hp] <;> intro u hu <;> simp [hu]

/-- What all mode functions called by thread `c` leave alone. -/
structure Frame (c : Nat) (w w' : World) : Prop where
  avail : w'.avail = w.avail
  buddy : w'.buddy = w.buddy
  other : ∀ u, u ≠ c → w'.hard u = w.hard u
  own : w'.hard c = true → w.hard c = true ∨ w.buddy c = true

theorem Frame.refl (c : Nat) (w : World) : Frame c w w := ⟨rfl, rfl, fun _ _ => rfl, Or.inl⟩

theorem Frame.trans {c : Nat} {w w' w'' : World} (h : Frame c w w') (h' : Frame c w' w'') : Frame c w w'' :=
  ⟨h'.avail.trans h.avail, h'.buddy.trans h.buddy, fun u hu => (h'.other u hu).trans (h.other u hu),
    fun hh => (h'.own hh).elim h.own (fun hb => Or.inr (by rw [h.buddy] at hb; exact hb))⟩

theorem frame_makeHRT (w : World) (c : Nat) (g : Bool) : Frame c w (makeHRT w c g) := by
  unfold makeHRT
  split
  · next h =>
    simp only [Bool.and_eq_true] at h
    exact ⟨rfl, rfl, fun u hu => by simp [World.setHard, hu], fun _ => Or.inr h.1⟩
  · exact Frame.refl c w

theorem frame_makeSoft (w : World) (c : Nat) : Frame c w (makeSoft w c) :=
  ⟨rfl, rfl, fun u hu => by simp [makeSoft, World.setHard, hu], fun h => by simp [makeSoft, World.setHard] at h⟩

theorem frame_ensureNoHRT (w : World) (c : Nat) : Frame c w (ensureNoHRT w c).1 := by
  unfold ensureNoHRT
  split
  · exact frame_makeSoft w c
  · exact Frame.refl c w

theorem frame_set (w : World) (c o : Nat) (b g : Bool) : Frame c w (setHardRealtime w c o b g).1 := by
  unfold setHardRealtime
  split
  · exact frame_makeHRT w c g
  · split
    · exact frame_makeSoft w c
    · exact Frame.refl c w

theorem frame_log (w : World) (c : Nat) (n g : Bool) : Frame c w (logStatement w c n g) := by
  unfold logStatement
  split
  · split
    · exact (frame_ensureNoHRT w c).trans (frame_makeHRT _ c g)
    · exact Frame.refl c w
  · exact Frame.refl c w

theorem frame_wait (prio : Nat → Int) (w : World) (c : Nat) (n g : Bool) : Frame c w (waitPeriodMode prio w c n g) := by
  unfold waitPeriodMode
  have h := frame_log w c n g
  simp only []
  split
  · exact h.trans ((frame_set _ c c true g).trans (frame_log _ c n g))
  · split
    · exact h.trans ((frame_set _ c c false g).trans (frame_log _ c n g))
    · exact h

/-- Everything but entering `run()` and becoming a Linux task. -/
theorem frame_step (prio : Nat → Int) (w : World) (g : Bool) (e : Ev) (h1 : ∀ u, e ≠ .enter u) (h2 : ∀ u, e ≠ .toLinux u) :
    Frame e.thread w (step prio w g e) := by
  cases e with
  | linuxCall c => exact frame_makeSoft w c
  | setHard c o b => exact frame_set w c o b g
  | check c o =>
    show Frame c w (checkHardRealtime prio w c o g).1
    unfold checkHardRealtime
    split
    · exact frame_set w c o true g
    · exact Frame.refl c w
  | log c n => exact frame_log w c n g
  | waitPeriod c n => exact frame_wait prio w c n g
  | enter c => exact absurd rfl (h1 c)
  | toLinux c => exact absurd rfl (h2 c)

/-- C101, exact effect of a log statement on the mode: with a free thread stream none; without
one the thread leaves hard real-time and returns to it if RTAI allows. -/
theorem c101_log_mode (w : World) (c : Nat) (new grant : Bool) (h : Task w c) :
    (logStatement w c new grant).hard = fun u => if u = c then w.hard c && (!new || grant) else w.hard u := by
  obtain ⟨ha, hb⟩ := h
  unfold logStatement
  cases new with
  | false => funext u; by_cases hu : u = c <;> simp [hu]
  | true =>
    rcases Bool.eq_false_or_eq_true (w.hard c) with hh | hh
    · have h1 : isThisHRT w c = true := by simp [isThisHRT, ha, hb, hh]
      simp only [if_true, h1, ensureNoHRT, makeHRT, makeSoft, World.setHard, hb, Bool.true_and]
      funext u
      cases grant <;> by_cases hu : u = c <;> simp [hu, hh]
    · have h1 : isThisHRT w c = false := by simp [isThisHRT, hh]
      funext u
      by_cases hu : u = c <;> simp [h1, hu, hh]

/-- C101, log statements keep the mode of every thread if RTAI lets the thread back into hard
real-time. -/
theorem c101_log_keeps_mode (w : World) (c : Nat) (new : Bool) : (logStatement w c new true).hard = w.hard := by
  by_cases h : Task w c
  · rw [c101_log_mode w c new true h]
    funext u
    by_cases hu : u = c <;> simp [hu]
  · have h1 : isThisHRT w c = false := by
      unfold Task at h
      simp only [isThisHRT]
      cases ha : w.avail <;> cases hb : w.buddy c <;> simp_all
    simp [logStatement, h1]

/-- C101, exact result of `setHardRealtime(b)`: it is `true` iff the call changed the mode of the
calling thread to `b`; and the mode afterwards. -/
theorem c101_set_exact (w : World) (c o : Nat) (b grant : Bool) (h : Task w c) :
    let r := setHardRealtime w c o b grant
    (r.2 = true ↔ w.hard c ≠ b ∧ r.1.hard c = b)
      ∧ (r.1.hard c = b ↔ w.hard c = b ∨ b = false ∨ grant = true)
      ∧ (∀ u, u ≠ c → r.1.hard u = w.hard u) ∧ r.1.buddy = w.buddy ∧ r.1.avail = w.avail := by
  obtain ⟨ha, hb⟩ := h
  simp only [setHardRealtime, makeHRT, makeSoft, isThisHRT, World.setHard]
  cases b <;> cases grant <;> rcases Bool.eq_false_or_eq_true (w.hard c) with hh | hh <;> simp [ha, hb, hh] <;> intro u hu <;> simp [hu]

/-- C101 (partial): `setHardRealtime(b)` called by the thread itself returns whether the thread
is in mode `b` afterwards, provided it was not in that mode before. Missing: a thread already in
the mode gets `false` (`c101_set_already`). -/
theorem c101_set_partial (w : World) (c : Nat) (b grant : Bool) (h : Task w c) (hm : w.hard c ≠ b) :
    (setHardRealtime w c c b grant).2 = true ↔ (setHardRealtime w c c b grant).1.hard c = b := by
  have := (c101_set_exact w c c b grant h).1
  simp only [this, ne_eq, hm, not_false_eq_true, true_and]

/-- Violation: a thread that is in the requested mode already is told that the request failed. -/
theorem c101_set_already (w : World) (c o : Nat) (b grant : Bool) (h : Task w c) (hm : w.hard c = b) :
    (setHardRealtime w c o b grant).2 = false ∧ (setHardRealtime w c o b grant).1.hard c = b := by
  have := c101_set_exact w c o b grant h
  refine ⟨?_, this.2.1.2 (Or.inl hm)⟩
  cases hr : (setHardRealtime w c o b grant).2 with
  | false => rfl
  | true => exact absurd hm (this.1.1 hr).1

/-- Violation: called from another thread, `setHardRealtime(b)` changes the mode of the caller
and leaves the object's thread as it is. -/
theorem c101_set_foreign (w : World) (c o : Nat) (b : Bool) (h : Task w c) (hco : o ≠ c) :
    (setHardRealtime w c o b true).1.hard c = b ∧ (setHardRealtime w c o b true).1.hard o = w.hard o := by
  have := c101_set_exact w c o b true h
  exact ⟨this.2.1.2 (Or.inr (Or.inr rfl)), this.2.2.1 o hco⟩

/-- Violation: `executesHardRealtime()` tells the mode of the calling thread; it is right for the
object's own thread, and for another one only if both are in the same mode. -/
theorem c101_executes_exact (w : World) (c o : Nat) (h : Task w c) :
    (executesHardRealtime w c o = w.hard o) ↔ w.hard c = w.hard o := by
  obtain ⟨ha, hb⟩ := h
  simp [executesHardRealtime, isThisHRT, ha, hb]

/-- Violation: `checkHardRealtime()` never does anything: its condition asks for a thread that is
in hard real-time already, has a negative priority, and is not a hard real-time thread. -/
theorem c101_check_never_acts (prio : Nat → Int) (w : World) (c o : Nat) (grant : Bool) :
    checkHardRealtime prio w c o grant = (w, false) := by
  unfold checkHardRealtime isHardRealtime
  rw [if_neg]
  rintro ⟨_, _, h1, h2⟩
  simp [h2] at h1

/-- C101, no event changes the mode of another thread. -/
theorem c101_only_own (prio : Nat → Int) (w : World) (g : Bool) (e : Ev) (u : Nat) (hu : u ≠ e.thread) :
    (step prio w g e).hard u = w.hard u := by
  by_cases h1 : ∃ v, e = .enter v
  · obtain ⟨c, rfl⟩ := h1
    simp only [Ev.thread] at hu
    simp only [step, enterThread, makeHRT, World.setHard, if_true, Option.getD_some]
    repeat' split
    all_goals simp [hu]
  · by_cases h2 : ∃ v, e = .toLinux v
    · obtain ⟨c, rfl⟩ := h2
      simp only [Ev.thread] at hu
      simp only [step, makeThisALinuxTask, makeSoft, World.setHard]
      repeat' split
      all_goals simp [hu]
    · exact (frame_step prio w g e (fun v hv => h1 ⟨v, hv⟩) (fun v hv => h2 ⟨v, hv⟩)).other u hu

/-- Only LXRT tasks are hard real-time. -/
abbrev Ok (w : World) : Prop := ∀ c, w.hard c = true → w.buddy c = true

theorem step_ok (prio : Nat → Int) (w : World) (g : Bool) (e : Ev) (h : Ok w) : Ok (step prio w g e) := by
  by_cases h1 : ∃ v, e = .enter v
  · obtain ⟨c, rfl⟩ := h1
    intro u hu
    revert hu
    have := h u
    simp only [step, enterThread, makeHRT, World.setHard, if_true, Option.getD_some]
    repeat' split
    all_goals (by_cases hu : u = c <;> simp_all)
  · by_cases h2 : ∃ v, e = .toLinux v
    · obtain ⟨c, rfl⟩ := h2
      intro u hu
      revert hu
      have := h u
      simp only [step, makeThisALinuxTask, makeSoft, World.setHard]
      by_cases ht : isThisLxrtTask w c = true
      · by_cases hu : u = c <;> simp_all
      · simp only [ht]; simpa using this
    · have f := frame_step prio w g e (fun v hv => h1 ⟨v, hv⟩) (fun v hv => h2 ⟨v, hv⟩)
      intro u hu
      rw [f.buddy]
      by_cases he : u = e.thread
      · subst he; exact (f.own hu).elim (h _) id
      · rw [f.other u he] at hu; exact h u hu

/-- C101, for every history: only LXRT tasks are ever hard real-time. -/
theorem c101_hard_only_tasks (prio : Nat → Int) (w : World) (es : List (Ev × Bool)) (h : Ok w) :
    Ok (run prio w es) := by
  induction es generalizing w with
  | nil => exact h
  | cons e r ih => exact ih _ (step_ok prio w e.2 e.1 h)

theorem run_append (prio : Nat → Int) (w : World) (a b : List (Ev × Bool)) :
    run prio w (a ++ b) = run prio (run prio w a) b := by
  induction a generalizing w with
  | nil => rfl
  | cons e r ih => exact ih _

theorem step_keeps (prio : Nat → Int) (w : World) (g : Bool) (e : Ev) (c : Nat) (he : ∀ u, e = .toLinux u → u ≠ c)
    (h : Task w c) : Task (step prio w g e) c := by
  by_cases h1 : ∃ v, e = .enter v
  · obtain ⟨v, rfl⟩ := h1
    simp only [step, enterThread, makeHRT, World.setHard, if_true, Option.getD_some]
    repeat' split
    all_goals simp [Task, h.1, h.2]
  · by_cases h2 : ∃ v, e = .toLinux v
    · obtain ⟨v, rfl⟩ := h2
      have := he v rfl
      simp only [step, makeThisALinuxTask, makeSoft, World.setHard]
      split <;> simp [Task, h.1, h.2, Ne.symm this]
    · have f := frame_step prio w g e (fun v hv => h1 ⟨v, hv⟩) (fun v hv => h2 ⟨v, hv⟩)
      exact ⟨f.avail.trans h.1, by rw [f.buddy]; exact h.2⟩

/-- C101, for every history of every program: if thread `c` entered `run()`, did not become a
Linux task again, and waits for its next period after `es`, it continues in hard real-time iff it
was created with a negative priority. -/
theorem c101_every_cycle (prio : Nat → Int) (w : World) (c : Nat) (new : Bool) (g : Bool) (es : List (Ev × Bool))
    (ha : w.avail = true) (hes : ∀ e ∈ es, ∀ u, e.1 = .toLinux u → u ≠ c) :
    ((run prio w ((.enter c, g) :: es ++ [(.waitPeriod c new, true)])).hard c = true ↔ prio c < 0) := by
  rw [run_append]
  have key : ∀ (es : List (Ev × Bool)) (w : World), Task w c →
      (∀ e ∈ es, ∀ u, e.1 = .toLinux u → u ≠ c) → Task (run prio w es) c := by
    intro es
    induction es with
    | nil => intro w h _; exact h
    | cons e r ih =>
      intro w h he
      exact ih _ (step_keeps prio w e.2 e.1 c (he e (by simp)) h) (fun e' h' => he e' (by simp [h']))
  have ht : Task (run prio w ((Ev.enter c, g) :: es)) c := by
    refine key es _ ?_ hes
    simp only [step, enterThread, makeHRT, World.setHard, if_true, Option.getD_some]
    repeat' split
    all_goals simp [Task, ha]
  exact (c101_cycle_mode prio _ c new ht).1

/-- C101, `ensureNoHRT()` returns whether the thread was in hard real-time and leaves it soft. -/
theorem c101_ensureNoHRT (w : World) (c : Nat) (h : Task w c) :
    (ensureNoHRT w c).2 = w.hard c ∧ (ensureNoHRT w c).1.hard = fun u => if u = c then false else w.hard u := by
  obtain ⟨ha, hb⟩ := h
  have h1 : isThisHRT w c = w.hard c := by simp [isThisHRT, ha, hb]
  unfold ensureNoHRT
  rw [h1]
  rcases Bool.eq_false_or_eq_true (w.hard c) with hh | hh
  · simp [hh, makeSoft, World.setHard]
  · simp only [hh]
    refine ⟨rfl, ?_⟩
    funext u
    by_cases hu : u = c <;> simp [hu, hh]

/-- C101, `makeThisAnLxrtTask()` returns 1 iff it made the caller an LXRT task that it was not
before. -/
theorem c101_startup (w : World) (c : Nat) (e : StartupEnv) (ha : w.avail = true) (w' : World) (n : Nat)
    (h : makeThisAnLxrtTask w c e = .ret w' n) :
    (n = 1 ↔ w.buddy c = false ∧ w'.buddy c = true) ∧ (n ≠ 1 → w' = w) ∧ w'.hard = w.hard := by
  revert h
  unfold makeThisAnLxrtTask isThisLxrtTask
  rcases Bool.eq_false_or_eq_true (w.buddy c) with hb | hb <;> cases e.mlock <;> cases e.sched <;> cases e.taskInit <;>
    simp [ha, hb] <;> (rintro rfl rfl; simp [hb])

/-- C101, startup followed by shutdown leaves the thread as it was. -/
theorem c101_shutdown (w : World) (c : Nat) (e : StartupEnv) (w' : World) (h : makeThisAnLxrtTask w c e = .ret w' 1)
    (hb : w.hard c = false) : (makeThisALinuxTask w' c).buddy = w.buddy ∧ (makeThisALinuxTask w' c).hard = w.hard := by
  revert h
  unfold makeThisAnLxrtTask isThisLxrtTask
  rcases Bool.eq_false_or_eq_true (w.avail) with ha | ha <;> rcases Bool.eq_false_or_eq_true (w.buddy c) with hb' | hb' <;> cases e.mlock <;> cases e.sched <;> cases e.taskInit <;> simp [ha, hb']
  rintro rfl
  simp only [makeThisALinuxTask, isThisLxrtTask, ha, makeSoft, World.setHard]
  constructor <;> funext u <;> by_cases hu : u = c <;> simp [hu, hb, hb']

/-- Without LXRT (ThreadImplPosix, ThreadImplWin32) the result says whether the mode is the
requested one: such threads are always soft. -/
theorem c101_posix (b : Bool) : setHardRealtimePosix b = true ↔ b = false := by
  cases b <;> simp [setHardRealtimePosix]

/-- Two threads: 0 is the main thread (soft), 1 a hard real-time thread. -/
def exW : World := ⟨true, fun _ => true, fun u => u == 1⟩
/-- Priorities of the example. -/
def exPrio : Nat → Int := fun u => if u = 1 then -5 else 10

example : Task exW 0 ∧ Task exW 1 ∧ Ok exW := ⟨⟨rfl, rfl⟩, ⟨rfl, rfl⟩, fun _ _ => rfl⟩
-- a hard thread that dropped to soft is hard again in the next cycle
example : (step exPrio exW true (.linuxCall 1)).hard 1 = false
    ∧ (step exPrio (step exPrio exW true (.linuxCall 1)) true (.waitPeriod 1 true)).hard 1 = true := by decide +kernel
-- checkHardRealtime(), documented to do the same, does nothing
theorem c101_check_does_not_restore :
    (checkHardRealtime exPrio (step exPrio exW true (.linuxCall 1)) 1 1 true).1.hard 1 = false
      ∧ isHardRealtime exPrio 1 = true := by decide +kernel
-- the main thread asks the object of thread 1: wrong answer, and it changes itself
theorem c101_executes_foreign : executesHardRealtime exW 0 1 = false ∧ exW.hard 1 = true := by decide +kernel
example : (setHardRealtime exW 0 1 true true).1.hard 0 = true := by decide +kernel
-- a refused return to hard real-time in a log statement
example : (logStatement exW 1 true false).hard 1 = false := by decide +kernel
example : ∃ w', makeThisAnLxrtTask ⟨true, fun _ => false, fun _ => false⟩ 0 ⟨true, true, true⟩ = .ret w' 1 ∧ w'.buddy 0 = true :=
  ⟨_, rfl, rfl⟩
example : (∀ e ∈ [((Ev.linuxCall 1), true)], ∀ u, e.1 = .toLinux u → u ≠ 1) := by simp

end Verif.Conc.Realtime
