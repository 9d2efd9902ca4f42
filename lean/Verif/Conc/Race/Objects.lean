import Verif.Logging.Shared.Lemmas

/-!
# Data races of active objects and dispatch threads (C125)

The accesses of one active object (icl_core_thread/ActiveObject.cpp) and of one periodic dispatch thread
(icl_core_dispatch/PeriodicDispatchThread.cpp).  Waits that fail give the variants.
-/
namespace Verif.Race.Objects
open Verif.Race Verif.Logging.Shared

/-- The semaphores of an active object. -/
inductive Sem where
  /-- ActiveObject.h:89 `m_operation_queue_mutex`, initially 1 -/
  | mutex
  /-- ActiveObject.h:90 `m_sem`, ActiveObject.cpp:30 initially 0 -/
  | count
  deriving DecidableEq, Repr

/-- The shared variables. -/
inductive Var where
  /-- ActiveObject.h:88 `m_operation_queue` -/
  | queue
  /-- Thread.h `m_execute` -/
  | execute
  /-- PeriodicDispatchThread.h:58 `m_dispatch_queue` -/
  | operations
  deriving DecidableEq, Repr

abbrev E := Ev Sem Var

/-- The initial counts: Mutex.cpp creates an unlocked mutex, ActiveObject.cpp:30 `m_sem(0)`. -/
def initial : Sem → Nat
  | .mutex => 1
  | .count => 0

/-- ActiveObject.cpp:81-93 `queue` -/
inductive Queue : List E → Prop
  | pushed : Queue [.rd .execute, .acq .mutex, .wr .queue, .rel .mutex, .rel .count]
  /-- stopped, or the lock failed -/
  | refused : Queue [.rd .execute]

/-- ActiveObject.cpp:75-79 `stop` with Thread.h:94 -/
def stop : List E := [.wr .execute, .rel .count]

/-- ActiveObject.cpp:46-64: the inner loop. The operation itself is not an access to the shared state. -/
inductive Pops : List E → Prop
  | done : Pops [.rd .queue]
  | pop (rest : List E) (h : Pops rest) : Pops (.rd .queue :: .acq .mutex :: .rd .queue :: .wr .queue :: .rel .mutex :: rest)
  /-- the lock failed -/
  | again (rest : List E) (h : Pops rest) : Pops (.rd .queue :: rest)

/-- ActiveObject.cpp:40-65: one round of the outer loop. -/
inductive Round : List E → Prop
  | stopped : Round [.rd .execute, .acq .count, .rd .execute]
  | run (es : List E) (h : Pops es) : Round (.rd .execute :: .acq .count :: .rd .execute :: es)

/-- ActiveObject.cpp:68-72: pending operations are deleted, without the mutex. -/
inductive Clear : List E → Prop
  | done : Clear [.rd .queue]
  | pop (rest : List E) (h : Clear rest) : Clear (.rd .queue :: .rd .queue :: .wr .queue :: rest)

/-- ActiveObject.cpp:34-73 `run` until it waits for the next operation. -/
def Running (es : List E) : Prop :=
  ∃ rounds : List (List E), (∀ r ∈ rounds, Round r) ∧ es = rounds.flatten ++ [.rd .execute, .acq .count]

/-- ActiveObject.cpp:34-73 `run` to its end. -/
def Ended (es : List E) : Prop :=
  ∃ (rounds : List (List E)) (c : List E), (∀ r ∈ rounds, Round r) ∧ Clear c ∧ es = rounds.flatten ++ .rd .execute :: c

/-- Any calls of `queue` and `stop` one after the other. -/
def Client (es : List E) : Prop :=
  ∃ cs : List (List E), (∀ c ∈ cs, Queue c ∨ c = stop) ∧ es = cs.flatten

/-- One active object (the thread `none`) and its clients. -/
structure System (ι : Type) (run : List E → Prop) (s : St (Option ι) Sem Var) : Prop where
  sems : s.sem = initial
  object : run (s.prog none)
  clients : ∀ t, Client (s.prog (some t))

abbrev writes : E → Bool := fun e => decide (e = .wr .queue)
abbrev accesses : E → Bool := fun e => decide (e = .rd .queue ∨ e = .wr .queue)

theorem queue_guarded {P : E → Bool} (hP : ∀ x, x ≠ .queue → P (.rd x) = false ∧ P (.wr x) = false) {es : List E}
    (h : Queue es ∨ es = stop) : guarded P .mutex false es = some false := by
  have h1 := (hP .execute (by decide)).1
  have h2 := (hP .execute (by decide)).2
  rcases h with h | rfl
  · cases h <;> simp [guarded, h1]
  · simp [stop, guarded, h2]

theorem pops_guarded {P : E → Bool} (hq : P (.rd .queue) = false) {es : List E} (h : Pops es) :
    guarded P .mutex false es = some false := by
  induction h with
  | done => simp [guarded, hq]
  | pop rest h ih => simpa [guarded, hq] using ih
  | again rest h ih => simpa [guarded, hq] using ih

theorem round_guarded {P : E → Bool} (hq : P (.rd .queue) = false) (hx : P (.rd .execute) = false) {es : List E} (h : Round es) :
    guarded P .mutex false es = some false := by
  cases h with
  | stopped => simp [guarded, hx]
  | run es h => simpa [guarded, hx] using pops_guarded hq h

theorem clear_guarded {P : E → Bool} (hq : P (.rd .queue) = false) (hw : P (.wr .queue) = false) {es : List E} (h : Clear es) :
    guarded P .mutex false es = some false := by
  induction h with
  | done => simp [guarded, hq]
  | pop rest h ih => simpa [guarded, hq, hw] using ih

theorem client_guarded {P : E → Bool} (hP : ∀ x, x ≠ .queue → P (.rd x) = false ∧ P (.wr x) = false) {es : List E}
    (h : Client es) : guarded P .mutex false es = some false := by
  obtain ⟨cs, h1, rfl⟩ := h
  exact closed_flatten P _ cs fun c hc => queue_guarded hP (h1 c hc)

section
variable {ι : Type} [DecidableEq ι] {st st' : St (Option ι) Sem Var} {sched : List (Option ι)} {tr : List (Option ι × E)}

/-- C125, the part that holds: as long as the object runs, any two modifications of its queue of operations are
ordered, however many threads queue operations and stop the object. Missing: `run` reads the queue without the
mutex (`c125_empty_race`), and modifies it without the mutex once it is stopped (`c125_clear_race`). -/
theorem c125_queue_writes_partial (h : System ι Running st) (he : exec st sched = some (tr, st')) (a b : Nat)
    (i j : Option ι) (hab : a < b) (ha : tr[a]? = some (i, .wr .queue)) (hb : tr[b]? = some (j, .wr .queue)) : HB tr a b := by
  refine no_write_race _ .mutex st (by rw [h.sems]; rfl) ?_ sched tr st' he a b i j hab ha hb
  intro t
  cases t with
  | some t =>
    have := client_guarded (P := writes) (by intro x hx; cases x <;> simp_all) (h.clients t)
    unfold writes at this
    rw [this]; rfl
  | none =>
    obtain ⟨rounds, h1, h2⟩ := h.object
    have : guarded writes .mutex false (st.prog none) = some false := by
      rw [h2, guarded_append, closed_flatten _ _ rounds (fun r hr => round_guarded (by rfl) (by rfl) (h1 r hr))]
      simp [guarded]
    unfold writes at this
    rw [this]; rfl

/-- C125: whatever the object does, also while it stops and after it has stopped, any two accesses of its
clients to the queue of operations are ordered. -/
theorem c125_clients (h : System ι (fun es => Running es ∨ Ended es) st) (he : exec st sched = some (tr, st')) (a b : Nat)
    (i j : ι) (e f : E) (hab : a < b) (ha : tr[a]? = some (some i, e)) (hb : tr[b]? = some (some j, f))
    (hea : Accesses e .queue) (hfa : Accesses f .queue) : HB tr a b := by
  refine no_race_among (fun t => t.isSome) .queue .mutex st (by rw [h.sems]; rfl) ?_ sched tr st' he a b _ _ e f
    rfl rfl hab ha hb hea hfa
  intro t
  cases t with
  | some t => rw [client_guarded (by intro x hx; cases x <;> simp_all) (h.clients t)]; rfl
  | none =>
    rcases h.object with ⟨rounds, h1, h2⟩ | ⟨rounds, c, h1, hc, h2⟩
    · rw [h2, guarded_append, closed_flatten _ _ rounds (fun r hr => round_guarded (by rfl) (by rfl) (h1 r hr))]
      simp [guarded]
    · rw [h2, guarded_append, closed_flatten _ _ rounds (fun r hr => round_guarded (by rfl) (by rfl) (h1 r hr))]
      simp only [Option.bind_some, guarded, Option.isSome_none, Bool.false_and, Bool.false_eq_true, false_and, if_false]
      rw [clear_guarded (by rfl) (by rfl) hc]; rfl

/-- C125: the object starts a round only after a call of `queue` or `stop`, and everything its caller did before
happens before it. -/
theorem c125_woken (h : System ι (fun es => Running es ∨ Ended es) st) (he : exec st sched = some (tr, st')) (b : Nat)
    (hb : tr[b]? = some (none, .acq .count)) : ∃ (a : Nat) (u : ι), tr[a]? = some (some u, .rel .count) ∧ HB tr a b ∧
      ∀ (p : Nat) (e : E), p < a → tr[p]? = some (some u, e) → HB tr p b := by
  obtain ⟨a, u, h1, h2⟩ := acq_after_rel .count sched st st' tr (by rw [h.sems]; rfl) he b none hb
  cases u with
  | some u =>
    exact ⟨a, u, h2, .sync h1 h2 hb, fun p e hp h3 => .trans (.thread hp h3 h2) (.sync h1 h2 hb)⟩
  | none =>
    exfalso
    have hm := exec_mem sched st st' tr he none _ (List.mem_of_getElem? h2)
    have hpops : ∀ es, Pops es → Ev.rel Sem.count ∉ es := by
      intro es hp; induction hp <;> simp_all
    have hround : ∀ es, Round es → Ev.rel Sem.count ∉ es := by
      intro es hr
      cases hr with
      | stopped => simp
      | run es hp => have := hpops _ hp; simp_all
    have hclear : ∀ es, Clear es → Ev.rel Sem.count ∉ es := by
      intro es hp; induction hp <;> simp_all
    rcases h.object with ⟨rounds, k1, k2⟩ | ⟨rounds, c, k1, kc, k2⟩ <;> rw [k2] at hm <;>
      simp only [List.mem_append, List.mem_flatten, List.mem_cons, List.not_mem_nil, or_false, reduceCtorEq, false_or] at hm
    · obtain ⟨l, hl, hm⟩ := hm
      exact hround l (k1 l hl) hm
    · rcases hm with ⟨l, hl, hm⟩ | hm
      · exact hround l (k1 l hl) hm
      · exact hclear c kc hm
end

/-- One object and one client. -/
def pair (o c : List E) : St (Option Unit) Sem Var := ⟨fun t => if t.isSome then c else o, initial⟩

theorem pair_system {run : List E → Prop} {o : List E} {cs : List (List E)} (h : run o) (hc : ∀ c ∈ cs, Queue c ∨ c = stop) :
    System Unit run (pair o cs.flatten) where
  sems := rfl
  object := h
  clients := fun _ => ⟨cs, hc, rfl⟩

abbrev queueCall : List E := [.rd .execute, .acq .mutex, .wr .queue, .rel .mutex, .rel .count]

/-- An object that does two operations and then waits. -/
abbrev busy : List E := [.rd .execute, .acq .count, .rd .execute, .rd .queue, .acq .mutex, .rd .queue, .wr .queue, .rel .mutex,
  .rd .queue, .rd .execute, .acq .count]

theorem busy_running : Running busy :=
  ⟨[.rd .execute :: .acq .count :: .rd .execute :: _], by simpa using .run _ (.pop _ .done), rfl⟩

/-- Non-vacuity: the object takes the operation its client has queued, then both come to rest. -/
theorem queue_and_take : ∃ tr st', System Unit Running (pair busy [queueCall].flatten) ∧
    exec (pair busy [queueCall].flatten) (List.replicate 5 (some ()) ++ List.replicate 10 none) = some (tr, st') ∧
    tr[2]? = some (some (), .wr .queue) ∧ tr[11]? = some (none, .wr .queue) ∧ st'.prog (some ()) = [] ∧
    st'.prog none = [.acq .count] :=
  ⟨_, _, pair_system busy_running (by simpa using .inl .pushed), rfl, rfl, rfl, rfl, rfl⟩

/-- Finding: the object tests whether its queue is empty without the mutex, while a client queues an
operation. -/
theorem c125_empty_race : ∃ st sched tr st', System Unit Running st ∧ exec st sched = some (tr, st') ∧ DataRace tr .queue :=
  ⟨_, List.replicate 5 (some ()) ++ List.replicate 3 none ++ [some (), some (), some (), none], _, _,
    pair_system (cs := [queueCall, queueCall]) busy_running (by simpa using .inl .pushed), rfl,
    race_of_adjacent (a := 10) rfl rfl (by decide) (.inr rfl) (.inl rfl) (.inl rfl)⟩

/-- An object that is stopped and deletes one operation. -/
abbrev clears : List E := [.rd .execute, .acq .count, .rd .execute, .rd .execute, .rd .queue, .rd .queue, .wr .queue, .rd .queue]

theorem clears_ended : Ended clears :=
  ⟨[[.rd .execute, .acq .count, .rd .execute]], _, by simpa using .stopped, .pop _ .done, rfl⟩

/-- Finding: the object deletes pending operations without the mutex, while a client whose call has seen the
object running queues another operation: two modifications of the queue that are not ordered. Client `true`
queues an operation and begins a second call, client `false` stops the object. -/
theorem c125_clear_race : ∃ st sched tr st' a, System Bool Ended st ∧ exec st sched = some (tr, st') ∧
    tr[a]? = some (some true, .wr .queue) ∧ tr[a + 1]? = some (none, .wr .queue) ∧ ¬ HB tr a (a + 1) :=
  ⟨⟨fun | none => clears | some true => queueCall ++ queueCall | some false => stop, initial⟩,
    List.replicate 6 (some true) ++ [some false] ++ List.replicate 6 none ++ [some true, some true] ++ [none], _, _, 14,
    ⟨rfl, clears_ended, fun | true => ⟨[queueCall, queueCall], by simpa using .inl .pushed, rfl⟩
                            | false => ⟨[stop], by simp, by simp⟩⟩, rfl, rfl, rfl,
    not_HB_adjacent (x := Var.queue) rfl rfl (by decide) (.inr rfl)⟩

/-- Finding: `stop()` writes the flag that the object and its clients read. -/
theorem c125_execute_race : ∃ st sched tr st', System Unit Running st ∧ exec st sched = some (tr, st') ∧ DataRace tr .execute :=
  ⟨_, [some (), none], _, _, pair_system (cs := [stop]) busy_running (by simp), rfl,
    race_of_adjacent (a := 0) rfl rfl (by decide) (.inr rfl) (.inl rfl) (.inl rfl)⟩

/-- PeriodicDispatchThread.cpp:45-48 `addOperation` -/
def addOperation : List E := [.wr .operations]

/-- PeriodicDispatchThread.cpp:50-64 `run`: `n` periods (the operations and the wait are not accesses to the
shared state). -/
def dispatch : Nat → List E
  | 0 => [.rd .execute]
  | n + 1 => .rd .execute :: .rd .operations :: .rd .execute :: dispatch n

/-- Finding: operations may not be added to a dispatch thread that runs. -/
theorem c125_dispatch_race : ∃ sched tr st', exec (pair (dispatch 1) addOperation) sched = some (tr, st') ∧
    DataRace tr .operations :=
  ⟨[none, none, some ()], _, _, rfl,
    race_of_adjacent (a := 1) rfl rfl (by decide) (.inl rfl) (.inr rfl) (.inr rfl)⟩

end Verif.Race.Objects
