import Verif.Base

/-!
# `icl_core_dispatch/PeriodicDispatchThread.cpp` (C57)

The worker's `run()` loop; `stop()` may happen at any time; `addOperation` may happen at any
time too (also from inside an operation), as one atomic `push_back` (the code does not
synchronise it). `BOOST_FOREACH` over a `std::list` visits elements appended meanwhile.
-/
namespace Verif.Dispatch

/-- Where the worker is. -/
inductive PC where
  /-- PeriodicDispatchThread.cpp:52 about to test `execute()` -/
  | cond
  /-- cpp:54 `i` operations of this cycle have been executed -/
  | loop (i : Nat)
  /-- cpp:59 about to test `execute()` -/
  | cond2
  /-- cpp:61 in `waitPeriod()` -/
  | wait
  /-- `run()` has returned -/
  | done
  deriving DecidableEq, Repr

/-- State with the recorded history. -/
structure State where
  execute : Bool
  queue : List Nat
  pc : PC
  /-- history: executed operations of the current cycle -/
  cur : List Nat
  /-- history: length of the queue when the current cycle began -/
  curStart : Nat
  /-- history: finished cycles, (queue length at the begin, executed operations) -/
  cycles : List (Nat × List Nat)
  /-- history: number of cycles begun -/
  begun : Nat
  /-- history: number of `waitPeriod()` calls -/
  waits : Nat

/-- Actions. -/
inductive Act where
  /-- the worker's next step -/
  | go
  /-- Thread.h:189 `stop()` -/
  | stop
  /-- cpp:45-48 `addOperation(op)` -/
  | add (op : Nat)
  deriving DecidableEq, Repr

/-- The beginning of `run()` with the operations `q` already added. -/
def start (q : List Nat) : State :=
  { execute := true, queue := q, pc := .cond, cur := [], curStart := 0, cycles := [], begun := 0, waits := 0 }

/-- One action. -/
def step (s : State) : Act → State
  | .stop => { s with execute := false }
  | .add op => { s with queue := s.queue ++ [op] }
  | .go =>
    match s.pc with
    | .cond =>
      if s.execute then
        { s with pc := .loop 0, cur := [], curStart := s.queue.length, begun := s.begun + 1 }
      else { s with pc := .done }
    | .loop i =>
      match s.queue[i]? with
      | some op => { s with pc := .loop (i + 1), cur := s.cur ++ [op] }
      | none => { s with pc := .cond2, cycles := s.cycles ++ [(s.curStart, s.cur)] }
    | .cond2 => { s with pc := if s.execute then .wait else .cond }
    | .wait => { s with pc := .cond, waits := s.waits + 1 }
    | .done => s

/-- Run a schedule. -/
def exec (s : State) (as : List Act) : State := as.foldl step s

/-- The invariant. -/
structure Inv (s : State) : Prop where
  cyc : ∀ c ∈ s.cycles, ∃ n, c.1 ≤ n ∧ n ≤ s.queue.length ∧ c.2 = s.queue.take n
  cur : ∀ i, s.pc = .loop i → s.cur = s.queue.take i ∧ i ≤ s.queue.length
  st : s.curStart ≤ s.queue.length
  cnt : s.begun = s.cycles.length + (match s.pc with | .loop _ => 1 | _ => 0)

theorem inv_step {s : State} (h : Inv s) (a : Act) : Inv (step s a) := by
  obtain ⟨h1, h2, h3, h4⟩ := h
  cases a with
  | stop => exact ⟨h1, h2, h3, h4⟩
  | add op =>
    refine ⟨?_, ?_, ?_, h4⟩
    · intro c hc
      obtain ⟨n, hn1, hn2, hn3⟩ := h1 c hc
      exact ⟨n, hn1, by simp only [step, List.length_append]; omega, by
        simp only [step]; rw [hn3, List.take_append_of_le_length hn2]⟩
    · intro i hi
      obtain ⟨e1, e2⟩ := h2 i hi
      simp only [step, List.length_append]
      exact ⟨by rw [e1, List.take_append_of_le_length e2], by omega⟩
    · simp only [step, List.length_append]; omega
  | go =>
    cases hp : s.pc with
    | cond =>
      rw [hp] at h4
      simp only [step, hp]
      split
      · refine ⟨h1, ?_, Nat.le_refl _, ?_⟩
        · intro i hi; injection hi with hi; subst hi; simp
        · simp only; simp only at h4; omega
      · refine ⟨h1, ?_, h3, ?_⟩
        · intro i hi; cases hi
        · simpa using h4
    | loop i =>
      rw [hp] at h4
      obtain ⟨e1, e2⟩ := h2 i hp
      simp only [step, hp]
      split
      · next op ho =>
        obtain ⟨hlt, hget⟩ := List.getElem?_eq_some_iff.1 ho
        refine ⟨h1, ?_, h3, by simpa using h4⟩
        intro j hj
        injection hj with hj; subst hj
        refine ⟨?_, by simp only; omega⟩
        simp only [e1]
        rw [List.take_add_one, ho]; rfl
      · next hn =>
        rw [List.getElem?_eq_none_iff] at hn
        refine ⟨?_, ?_, h3, ?_⟩
        · intro c hc
          simp only [List.mem_append, List.mem_singleton] at hc
          rcases hc with hc | rfl
          · exact h1 c hc
          · exact ⟨i, by simp only; omega, e2, e1⟩
        · intro j hj; cases hj
        · simp only [List.length_append, List.length_singleton]; simp only at h4; omega
    | cond2 =>
      rw [hp] at h4
      simp only [step, hp]
      refine ⟨h1, ?_, h3, ?_⟩
      · intro i hi; simp only at hi; split at hi <;> cases hi
      · cases s.execute <;> simpa using h4
    | wait =>
      rw [hp] at h4
      simp only [step, hp]
      exact ⟨h1, (fun i hi => by cases hi), h3, by simpa using h4⟩
    | done =>
      have : step s .go = s := by simp only [step, hp]
      rw [this]; exact ⟨h1, h2, h3, h4⟩

theorem inv_exec (as : List Act) : ∀ (s : State), Inv s → Inv (exec s as) := by
  induction as with
  | nil => intro s h; exact h
  | cons a as ih => intro s h; exact ih _ (inv_step h a)

theorem inv_start (q : List Nat) : Inv (start q) :=
  ⟨by simp [start], by simp [start], by simp [start], rfl⟩

/-- C57. In every schedule, each finished cycle executed, in insertion order and each exactly
once, the operations of an initial segment of the queue which contains all operations that
had been added when the cycle began; and the number of cycles begun is the number of finished
cycles, plus one while a cycle is running. -/
theorem c57_cycles (q : List Nat) (as : List Act) :
    let s := exec (start q) as
    (∀ c ∈ s.cycles, ∃ n, c.1 ≤ n ∧ n ≤ s.queue.length ∧ c.2 = s.queue.take n) ∧
    s.begun = s.cycles.length + (match s.pc with | .loop _ => 1 | _ => 0) := by
  have hi := inv_exec as _ (inv_start q)
  exact ⟨hi.cyc, hi.cnt⟩

theorem queue_fixed (as : List Act) (ha : ∀ op, Act.add op ∉ as) : ∀ (s : State),
    (∀ c ∈ s.cycles, c.1 = s.queue.length) → s.curStart = s.queue.length ∨ (∀ i, s.pc ≠ .loop i) →
    (exec s as).queue = s.queue ∧ ∀ c ∈ (exec s as).cycles, c.1 = s.queue.length := by
  induction as with
  | nil => intro s hc _; exact ⟨rfl, hc⟩
  | cons a as ih =>
    intro s hc hs
    have ha' : ∀ op, Act.add op ∉ as := fun op h => ha op (by simp [h])
    show (exec (step s a) as).queue = s.queue ∧ _
    have hq : (step s a).queue = s.queue := by
      cases a with
      | stop => rfl
      | add op => exact absurd (by simp) (ha op)
      | go => simp only [step]; (repeat' split) <;> rfl
    have := ih ha' (step s a) ?_ ?_
    · rw [hq] at this; exact this
    · intro c hcm
      rw [hq]
      cases a with
      | stop => exact hc c hcm
      | add op => exact absurd (by simp) (ha op)
      | go =>
        simp only [step] at hcm
        split at hcm
        · split at hcm <;> exact hc c hcm
        · next i hp =>
          split at hcm
          · exact hc c hcm
          · simp only [List.mem_append, List.mem_singleton] at hcm
            rcases hcm with hcm | rfl
            · exact hc c hcm
            · rcases hs with hs | hs
              · exact hs
              · exact absurd hp (hs i)
        · exact hc c hcm
        · exact hc c hcm
        · exact hc c hcm
    · rw [hq]
      cases a with
      | stop => exact hs
      | add op => exact absurd (by simp) (ha op)
      | go =>
        simp only [step]
        split
        · split
          · exact Or.inl rfl
          · exact Or.inr (fun i hi => by cases hi)
        · next i hp =>
          split
          · rcases hs with hs | hs
            · exact Or.inl hs
            · exact absurd hp (hs i)
          · exact Or.inr (fun i hi => by cases hi)
        · exact Or.inr (fun i hi => by simp only at hi; split at hi <;> cases hi)
        · exact Or.inr (fun i hi => by cases hi)
        · exact hs

/-- C57. If no operation is added while the thread runs, every finished cycle executed
exactly the operations of the dispatch queue, each once, in insertion order. -/
theorem c57_all_operations (q : List Nat) (as : List Act) (ha : ∀ op, Act.add op ∉ as) :
    ∀ c ∈ (exec (start q) as).cycles, c.2 = q := by
  intro c hc
  obtain ⟨hq, hl⟩ := queue_fixed as ha (start q) (by simp [start]) (Or.inr (by simp [start]))
  obtain ⟨n, h1, h2, h3⟩ := (c57_cycles q as).1 c hc
  have : c.1 = q.length := hl c hc
  rw [hq] at h3
  rw [h3]
  exact List.take_of_length_le (by show q.length ≤ n; omega)

theorem no_new_cycle (as : List Act) : ∀ (s : State), s.execute = false →
    (exec s as).execute = false ∧ (exec s as).begun = s.begun ∧ (exec s as).waits ≤ s.waits + (if s.pc = .wait then 1 else 0) := by
  induction as with
  | nil => intro s h; exact ⟨h, rfl, by simp [exec]⟩
  | cons a as ih =>
    intro s h
    have h1 : (step s a).execute = false := by
      cases a with
      | stop => rfl
      | add op => exact h
      | go => simp only [step]; grind
    have h2 : (step s a).begun = s.begun := by
      cases a with
      | stop => rfl
      | add op => rfl
      | go => simp only [step]; grind
    have h3 : (step s a).waits + (if (step s a).pc = .wait then 1 else 0) ≤ s.waits + (if s.pc = .wait then 1 else 0) := by
      cases a with
      | stop => exact Nat.le_refl _
      | add op => exact Nat.le_refl _
      | go => simp only [step]; grind
    obtain ⟨e1, e2, e3⟩ := ih (step s a) h1
    exact ⟨e1, by rw [← h2]; exact e2, Nat.le_trans e3 h3⟩

/-- C57. After `stop()` no further cycle begins, and the thread does not start waiting for
another period. -/
theorem c57_stop (q : List Nat) (as bs : List Act) :
    (exec (start q) (as ++ .stop :: bs)).begun = (exec (start q) as).begun ∧
    (exec (start q) (as ++ .stop :: bs)).waits ≤
      (exec (start q) as).waits + (if (exec (start q) as).pc = .wait then 1 else 0) := by
  have : exec (start q) (as ++ .stop :: bs) = exec (step (exec (start q) as) .stop) bs := by
    simp [exec, List.foldl_append]
  rw [this]
  have := no_new_cycle bs (step (exec (start q) as) .stop) rfl
  exact ⟨this.2.1, this.2.2⟩

/-- Steps the worker still needs. -/
def todo (s : State) : Nat :=
  match s.pc with
  | .cond => 1
  | .loop i => s.queue.length - i + 3
  | .cond2 => 2
  | .wait => 2
  | .done => 0

/-- C57. After `stop()` the thread finishes: `run()` returns after finitely many steps of the
worker (the rest of the current cycle). -/
theorem c57_terminates (q : List Nat) (as : List Act) :
    ∃ n, (exec (start q) (as ++ .stop :: List.replicate n .go)).pc = .done := by
  have key : ∀ (n : Nat) (s : State), s.execute = false → todo s ≤ n →
      (exec s (List.replicate n .go)).pc = .done := by
    intro n
    induction n with
    | zero =>
      intro s _ h
      unfold todo at h
      cases hp : s.pc <;> rw [hp] at h <;> simp at h
      exact hp
    | succ n ih =>
      intro s he h
      show (exec (step s .go) (List.replicate n .go)).pc = .done
      have he' : (step s .go).execute = false := by simp only [step]; grind
      refine ih _ he' ?_
      have : todo (step s .go) + 1 ≤ todo s ∨ todo (step s .go) = 0 := by
        simp only [step]
        cases hp : s.pc with
        | cond => simp [he, todo]
        | loop i =>
          simp only
          split
          · next op ho =>
            obtain ⟨hlt, _⟩ := List.getElem?_eq_some_iff.1 ho
            left; simp only [todo, hp]; omega
          · left; simp only [todo, hp]; omega
        | cond2 => simp [he, todo, hp]
        | wait => simp [todo, hp]
        | done => right; simp [todo, hp]
      omega
  have h : ∀ n, exec (start q) (as ++ .stop :: List.replicate n .go) =
      exec (step (exec (start q) as) .stop) (List.replicate n .go) := by
    intro n; simp [exec, List.foldl_append]
  exact ⟨todo (step (exec (start q) as) .stop), by rw [h]; exact key _ _ rfl (Nat.le_refl _)⟩

/-- Two operations, one full cycle, one added during the second cycle, stop. -/
example :
    let s := exec (start [7, 8]) (List.replicate 6 .go ++ [.go, .go, .add 9, .go, .stop, .go, .go, .go, .go])
    s.cycles = [(2, [7, 8]), (2, [7, 8, 9])] ∧ s.begun = 2 ∧ s.waits = 1 ∧ s.pc = .done := by decide

end Verif.Dispatch
