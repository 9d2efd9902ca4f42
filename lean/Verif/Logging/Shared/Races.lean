import Verif.Logging.Shared.Props

/-!
# The data races and the deadlock that the logging library does have (C123, C124)
-/
namespace Verif.Logging.Shared
open Verif.Race

/-- Two threads. -/
def two (p q : List E) : St Bool Sem Var := ⟨fun b => if b then p else q, initial⟩

/-- Some program of two threads has a data race on `x`; `roles` says which of them is a worker thread. -/
def HasRace (worker : Nat → Bool) (role : Bool → Option Nat) (x : Var) : Prop :=
  ∃ st sched tr st', System Bool worker (fun _ => True) role st ∧ exec st sched = some (tr, st') ∧ DataRace tr x

theorem two_system {worker : Nat → Bool} {a b : Api} {p q : List E} (hp : Call worker a p) (hq : Call worker b q) :
    System Bool worker (fun _ => True) (fun _ => none) (two p q) where
  sems := rfl
  one := by intro t u o h; cases h
  has := by intro t o h; cases h
  runs := by intro t o h; cases h
  calls := by
    intro t _
    cases t
    · exact ⟨[q], by simpa using ⟨b, hq⟩, by simp [two]⟩
    · exact ⟨[p], by simpa using ⟨a, hp⟩, by simp [two]⟩

theorem worker_system {worker : Nat → Bool} {cs : List (List E)} {q : List E} (o : Nat) (hw : worker o = true)
    (hp : ∀ c ∈ cs, ∃ a, Call worker a c) (hq : Worker o q) :
    System Bool worker (fun _ => True) (fun b => if b then none else some o) (two cs.flatten q) where
  sems := rfl
  one := by intro t u o; cases t <;> cases u <;> simp
  has := by intro t o'; cases t <;> simp; rintro rfl; exact hw
  runs := by intro t o'; cases t <;> simp [two]; rintro rfl; exact hq
  calls := by
    intro t; cases t
    · simp
    · intro _; exact ⟨cs, by simpa using hp, by simp [two]⟩

/-- Finding: `printConfiguration` walks over the list of outputs without the mutex, while `addOutputStream`
modifies it. -/
theorem c123_print_race : HasRace (fun _ => false) (fun _ => none) (.outputs 0) :=
  ⟨_, [true, true, false], _, _, two_system (.add 0) (.printConfiguration [0] []), rfl,
    race_of_adjacent (a := 1) rfl rfl (by decide) (.inr rfl) (.inl rfl) (.inl rfl)⟩

/-- Finding: `setLogLevel` writes the level of a log stream while log statements read it. -/
theorem c123_level_race : HasRace (fun _ => false) (fun _ => none) (.level 0) :=
  ⟨_, [true, false], _, _, two_system (.setLogLevel [0] []) (.getLogLevel 0), rfl,
    race_of_adjacent (a := 0) rfl rfl (by decide) (.inr rfl) (.inl rfl) (.inl rfl)⟩

/-- Finding: `setActive` writes the flag while log statements read it. -/
theorem c123_active_race : HasRace (fun _ => false) (fun _ => none) (.active 0) :=
  ⟨_, [true, false], _, _, two_system (.setActive 0) (.isActive 0), rfl,
    race_of_adjacent (a := 0) rfl rfl (by decide) (.inr rfl) (.inl rfl) (.inl rfl)⟩

theorem pushes_nothing (worker : Nat → Bool) : PushAll worker [.rd (.outLevel 0)] :=
  .push 0 _ [] .nothing .done

/-- Finding: `setLogLevel` writes the level of an output while `push` reads it. -/
theorem c123_outLevel_race : HasRace (fun _ => false) (fun _ => none) (.outLevel 0) :=
  ⟨_, [false, false, false, true, false], _, _, two_system (.setLogLevel [] [0]) (.flush 0 0 _ (pushes_nothing _)), rfl,
    race_of_adjacent (a := 3) rfl rfl (by decide) (.inr rfl) (.inl rfl) (.inl rfl)⟩

/-- Finding: two concurrent `changeLogFormat` calls write the same list of format entries without a lock. -/
theorem c123_newFormat_race : HasRace (fun _ => false) (fun _ => none) (.newFormat 0) :=
  ⟨_, [true, false], _, _, two_system (.changeLogFormat 0) (.changeLogFormat 0), rfl,
    race_of_adjacent (a := 0) rfl rfl (by decide) (.inr rfl) (.inr rfl) (.inl rfl)⟩

theorem pushes_timed : PushAll (fun _ => false) [.rd (.outLevel 0), .acq (.direct 0), .acq (.format 0), .rd (.format 0),
    .rd (.timeFormat 0), .rel (.format 0), .wr (.sink 0), .rel (.direct 0)] :=
  .push 0 _ [] (.direct rfl _ .timed) .done

/-- Finding: `changeTimeFormat` writes the time format while messages are formatted. -/
theorem c123_timeFormat_race : HasRace (fun _ => false) (fun _ => none) (.timeFormat 0) :=
  ⟨_, [false, false, false, false, false, false, false, true, false], _, _,
    two_system (.changeTimeFormat 0) (.flush 0 0 _ pushes_timed), rfl,
    race_of_adjacent (a := 7) rfl rfl (by decide) (.inr rfl) (.inl rfl) (.inl rfl)⟩

theorem pushes_queued : PushAll (fun _ => true) [.rd (.outLevel 0), .acq (.queue 0), .rd (.queue 0), .wr (.queue 0),
    .rel (.queue 0), .rel (.fill 0)] :=
  .push 0 _ [] (.queued rfl) .done

/-- A worker that writes one message and waits for the next. -/
def oneMessage : List E := [.wr (.execute 0), .wr (.finished 0), .wr (.sink 0), .rd (.execute 0), .acq (.fill 0),
  .rd (.queue 0), .acq (.queue 0), .rd (.queue 0), .wr (.queue 0), .rel (.queue 0), .acq (.format 0), .rd (.format 0),
  .rel (.format 0), .wr (.sink 0), .rd (.execute 0), .acq (.fill 0)]

theorem oneMessage_worker : Worker 0 oneMessage :=
  .waiting (o := 0) [.rd (.execute 0) :: .acq (.fill 0) :: .rd (.queue 0) :: .acq (.queue 0) :: .rd (.queue 0) ::
    .wr (.queue 0) :: .rel (.queue 0) :: [.acq (.format 0), .rd (.format 0), .rel (.format 0), .wr (.sink 0)]]
    (by simpa using Round.message (o := 0) _ .plain)

/-- One log call that reaches output 0 through its queue. -/
def logCall : List E := .wr (.buffer 0) :: .acq (.stream 0) :: .rd (.outputs 0) :: [.rd (.outLevel 0), .acq (.queue 0),
  .rd (.queue 0), .wr (.queue 0), .rel (.queue 0), .rel (.fill 0)] ++
  [.rd (.pool 0), .wr (.pool 0), .rel (.stream 0), .wr (.buffer 0)]

theorem logCall_call : Call (fun _ => true) (.flush 0 0) logCall := .flush 0 0 _ pushes_queued

/-- Finding: the worker tests `m_message_queue.empty()` without the mutex while another thread pushes. -/
theorem c123_queue_race : HasRace (fun _ => true) (fun b => if b then none else some 0) (.queue 0) :=
  ⟨_, List.replicate 13 true ++ List.replicate 5 false ++ List.replicate 7 true ++ [false], _, _,
    worker_system 0 rfl (cs := [logCall, logCall]) (by simpa using ⟨_, logCall_call⟩) oneMessage_worker, rfl,
    race_of_adjacent (a := 24) rfl rfl (by decide) (.inr rfl) (.inl rfl) (.inl rfl)⟩

/-- Finding: `shutdown` clears `m_execute` while the worker reads it. -/
theorem c123_execute_race : HasRace (fun _ => true) (fun b => if b then none else some 0) (.execute 0) :=
  ⟨_, [false, false, false, true, true, false], _, _,
    worker_system 0 rfl (cs := [_]) (by simpa using ⟨_, .shutdown 0 rfl⟩) oneMessage_worker, rfl,
    race_of_adjacent (a := 4) rfl rfl (by decide) (.inr rfl) (.inl rfl) (.inl rfl)⟩

/-- Finding: `shutdown` reads `m_finished` while the worker thread writes it. -/
theorem c123_finished_race : HasRace (fun _ => true) (fun b => if b then none else some 0) (.finished 0) :=
  ⟨_, [false, false, true], _, _,
    worker_system 0 rfl (cs := [_]) (by simpa using ⟨_, .shutdown 0 rfl⟩) oneMessage_worker, rfl,
    race_of_adjacent (a := 1) rfl rfl (by decide) (.inr rfl) (.inl rfl) (.inl rfl)⟩

/-- Non-vacuity of the theorems of `Props.lean`: a worker and a thread that logs twice run to the point where
the worker waits for the next message and everything else has returned. -/
theorem logs_and_waits : ∃ st', System Bool (fun _ => true) (fun _ => True) (fun b => if b then none else some 0)
      (two [logCall].flatten oneMessage) ∧
    (exec (two [logCall].flatten oneMessage) (List.replicate 13 true ++ List.replicate 15 false)).map (·.2) = some st' ∧
    st'.prog true = [] ∧ st'.prog false = [.acq (.fill 0)] ∧ step st' true = none ∧ step st' false = none :=
  ⟨_, worker_system 0 rfl (by simpa using ⟨_, logCall_call⟩) oneMessage_worker, rfl, rfl, rfl, rfl, rfl⟩

/-- What a log call does if the output (without worker thread) that it reaches logs to the same stream in its
own `pushImpl`. -/
def reentrant : List E := [.wr (.buffer 0), .acq (.stream 0), .rd (.outputs 0), .rd (.outLevel 0), .acq (.direct 0),
  .acq (.format 0), .rd (.format 0), .rel (.format 0),
  -- the log statement inside `pushImpl`
  .rd (.active 0), .rd (.level 0), .acq (.stream 0), .rd (.pool 0), .rel (.stream 0)]

/-- C124 fails for outputs that log: the thread waits for the mutex of the log stream that it holds itself. -/
theorem c124_reentrant_output : ∃ tr st', exec (two reentrant []) (List.replicate 10 true) = some (tr, st') ∧
    (∀ t, step st' t = none) ∧ st'.prog true = [.acq (.stream 0), .rd (.pool 0), .rel (.stream 0)] :=
  ⟨_, _, rfl, by intro t; cases t <;> rfl, rfl⟩

end Verif.Logging.Shared
