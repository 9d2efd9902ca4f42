import Verif.Conc.ThreadLxrt

/-!
# C103: starting threads under LXRT
-/
namespace Verif.Conc.ThreadLxrt

/-- What holds in every reachable state. -/
structure Inv (s : State) : Prop where
  runs : s.runs = if s.t = .running ∨ s.t = .ended then 1 else 0
  bar1 : s.o = .barrier → (s.t = .init ∨ s.t = .failBarrier ∨ s.t = .okBarrier) ∧ s.tid = true
  bar2 : (s.t = .init ∨ s.t = .failBarrier ∨ s.t = .okBarrier) → s.o = .barrier
  name : s.name = true ↔ (s.t ≠ .none ∨ s.o = .create)
  create : s.o = .create → s.t = .none
  begin_ : s.t = .begin_ → (s.o = .afterImpl ∨ s.o = .waitStarted) ∧ s.starting = true ∧ s.tid = true
  early : (s.o = .startJoin ∨ s.o = .implStart ∨ s.o = .create ∨ s.o = .barrier) → s.starting = true
  late : (s.o = .afterImpl ∨ s.o = .waitStarted) → (s.t = .none ∨ s.t = .failed ∨ s.t = .begin_) → s.starting = true
  failed : s.t = .failed → (s.o = .afterImpl ∨ s.o = .waitStarted) ∧ s.starting = true ∧ s.tid = true
  idle : (s.o = .idle ∨ s.o = .waitAgain ∨ s.o = .joining) → s.starting = false
  running : s.t = .running → s.finished = false ∧
    ((s.o = .afterImpl ∨ s.o = .waitStarted) ∧ s.tid = true ∨ s.o = .idle ∨ s.o = .waitAgain ∨ s.o = .joining)
  runTid : s.t = .running → s.tid = true
  started : true ∈ s.fresh → (s.t = .running ∨ s.t = .ended)
    ∧ ((s.o = .startJoin ∨ s.o = .implStart ∨ s.o = .afterImpl ∨ s.o = .waitStarted) → s.starting = true ∧ s.t = .ended)
  once : s.fresh.count true ≤ 1
  noneTid : s.t = .none → s.tid = false

theorem init_inv : Inv init := by
  constructor <;> simp [init]

theorem step_inv {s s' : State} {a : Act} (h : step s a = some s') (hi : Inv s) : Inv s' := by
  obtain ⟨h1, h2, h3, h4, h5, h6, h7, h8, h9, h10, h11, h12, h13, h14, h15⟩ := hi
  cases a <;> simp only [step] at h <;> (repeat' split at h) <;>
    (first | (cases h; done) | (simp only [Option.some.injEq] at h; subst h; constructor <;> first | grind | (cases ht : s.t <;> grind)))

theorem run_inv {s s' : State} {as : List Act} (h : Run s as s') (hi : Inv s) : Inv s' := by
  induction h with
  | nil _ => exact hi
  | cons hs _ ih => exact ih (step_inv hs hi)

theorem reachable_inv {s : State} (h : Reachable s) : Inv s := by
  obtain ⟨as, h⟩ := h
  exact run_inv h init_inv

/-- C103: when `start()` returns `true`, `run()` has been entered. -/
theorem c103_started {s : State} (h : Reachable s) (hf : true ∈ s.fresh) : s.runs = 1 := by
  have hi := reachable_inv h
  rw [hi.runs, if_pos (hi.started hf).1]

/-- C103: `start()` called for a running thread changes nothing and returns whether it runs. -/
theorem c103_again {s s' : State} (h : Reachable s) (hs : step s .waitAgain = some s') :
    s' = { s with again := (!s.finished) :: s.again, o := .idle } ∧ (s.t = .running → s'.again.head? = some true) := by
  have hi := reachable_inv h
  simp only [step] at hs
  split at hs
  · split at hs
    · cases hs
    · cases hs
      refine ⟨rfl, fun ht => ?_⟩
      simp [(hi.running ht).1]
  · cases hs

/-- C103: a `start()` that returns `false` because a resource was missing leaves no thread behind:
`run()` is not entered by it. -/
theorem c103_failed_start {s s' : State} (h : Reachable s) (hs : step s .afterImpl = some s') (hf : s'.fresh = false :: s.fresh) :
    s'.o = .idle ∧ s'.finished = true ∧ s'.starting = false ∧ s'.tid = false ∧ (s.t = .none ∨ s.t = .ended) := by
  have hi := reachable_inv h
  obtain ⟨h1, h2, h3, h4, h5, h6, h7, h8, h9, h10, h11, h12, h13, h14, h15⟩ := hi
  simp only [step] at hs
  split at hs
  · split at hs
    · cases hs; simp at hf
    · cases hs
      refine ⟨rfl, rfl, rfl, by grind, ?_⟩
      cases ht : s.t <;> grind
  · cases hs

/-- After the failed initialisation of the LXRT task. -/
theorem failed_stays {s s' : State} {as : List Act} (h : Run s as s') (hi : Inv s) (hf : s.t = .failed) :
    s'.t = .failed ∧ s'.fresh = s.fresh ∧ s'.o ≠ .idle := by
  induction h with
  | nil s =>
    refine ⟨hf, rfl, ?_⟩
    rcases (hi.failed hf).1 with h | h <;> rw [h] <;> simp
  | @cons s s1 s2 a as hs _ ih =>
    have hi' := step_inv hs hi
    have key : s1.t = .failed ∧ s1.fresh = s.fresh := by
      obtain ⟨h1, h2, h3⟩ := hi.failed hf
      cases a <;> simp only [step] at hs <;> (repeat' split at hs) <;>
        (first | (cases hs; done) | (simp only [Option.some.injEq] at hs; subst hs; grind))
    obtain ⟨k1, k2, k3⟩ := ih hi' key.1
    exact ⟨k1, k2.trans key.2, k3⟩

/-- Violation: if the LXRT task of the new thread cannot be initialised, `start()` does not return
`false`; it never returns: the new thread has ended, and nothing resets `m_starting`. -/
theorem c103_hangs {s s' : State} {as : List Act} (h : Reachable s) (hf : s.t = .failBarrier) (hr : Run s as s') :
    s'.fresh = s.fresh ∧ s'.o ≠ .idle := by
  have hi := reachable_inv h
  have hb : s.o = .barrier := hi.bar2 (Or.inr (Or.inl hf))
  cases hr with
  | nil => exact ⟨rfl, by rw [hb]; simp⟩
  | @cons _ s1 _ a as hs hr =>
    have hi' := step_inv hs hi
    have key : s1.t = .failed ∧ s1.fresh = s.fresh := by
      cases a <;> simp only [step] at hs <;> (repeat' split at hs) <;>
        (first | (cases hs; done) | (simp only [Option.some.injEq] at hs; subst hs; grind))
    obtain ⟨_, k2, k3⟩ := failed_stays hr hi' key.1
    exact ⟨k2.trans key.2, k3⟩

/-- Violation: a thread object can be started only once: the name of its semaphore stays in use.
For every history, `run()` is entered at most once and at most one `start()` of a thread that is
not running returns `true`. -/
theorem c103_only_once {s : State} (h : Reachable s) : s.runs ≤ 1 ∧ s.fresh.count true ≤ 1 := by
  have hi := reachable_inv h
  refine ⟨?_, hi.once⟩
  rw [hi.runs]; split <;> omega

theorem ended_stays {s s' : State} {as : List Act} (h : Run s as s') (hi : Inv s) (ht : s.t = .ended)
    (htid : s.tid = true) (hst : s.starting = true) (ho : s.o = .implStart ∨ s.o = .afterImpl ∨ s.o = .waitStarted) :
    s'.fresh = s.fresh ∧ s'.o ≠ .idle := by
  induction h with
  | nil s => refine ⟨rfl, ?_⟩; rcases ho with h | h | h <;> rw [h] <;> simp
  | @cons s s1 s2 a as hs _ ih =>
    have hi' := step_inv hs hi
    have hn : s.name = true := hi.name.2 (Or.inl (by rw [ht]; simp))
    have key : s1.t = .ended ∧ s1.tid = true ∧ s1.starting = true ∧
        (s1.o = .implStart ∨ s1.o = .afterImpl ∨ s1.o = .waitStarted) ∧ s1.fresh = s.fresh := by
      cases a <;> simp only [step] at hs <;> (repeat' split at hs) <;>
        (first | (cases hs; done) | (simp only [Option.some.injEq] at hs; subst hs; grind))
    obtain ⟨k1, k2, k3, k4, k5⟩ := key
    obtain ⟨j1, j2⟩ := ih hi' k1 k2 k3 k4
    exact ⟨j1.trans k5, j2⟩

/-- Violation: starting a thread again that has ended by itself before it was waited for (`wait()`
and `join()` do not join such a thread) never returns: the old thread id is taken for the new
thread. -/
theorem c103_restart_hangs {s s1 s' : State} {as : List Act} (h : Reachable s) (ht : s.t = .ended) (htid : s.tid = true)
    (hj : s.joined = true) (ho : s.o = .idle) (hfin : s.finished = true) (hs : step s .start = some s1) (hr : Run s1 as s') :
    s'.fresh = s.fresh ∧ s'.o ≠ .idle := by
  have hi := reachable_inv h
  have hst : s.starting = false := hi.idle (Or.inl ho)
  have hi' := step_inv hs hi
  simp only [step, ho, if_true, hst, hfin, hj] at hs
  simp at hs
  have e1 : s1.t = .ended := by rw [← hs]; exact ht
  have e2 : s1.tid = true := by rw [← hs]; exact htid
  have e3 : s1.starting = true := by rw [← hs]
  have e4 : s1.o = .implStart := by rw [← hs]
  have e5 : s1.fresh = s.fresh := by rw [← hs]
  obtain ⟨k1, k2⟩ := ended_stays hr hi' e1 e2 e3 (Or.inl e4)
  exact ⟨k1.trans e5, k2⟩

/-! ## The first start succeeds -/

/-- Only successful answers of the operating system. -/
def Act.lucky : Act → Bool
  | .implStart b | .create b | .taskInit b => b
  | _ => true

/-- How far the first `start()` is from returning. -/
def dist (s : State) : Nat :=
  (match s.o with
    | .idle => 0 | .waitStarted => 1 | .afterImpl => 2 | .barrier => 3 | .create => 4 | .implStart => 5
    | _ => 6)
  + (match s.t with
    | .none => 5 | .init => 4 | .failBarrier => 3 | .okBarrier => 3 | .begin_ => 2 | .running => 1 | _ => 0)

/-- States of the first start with successful answers. -/
structure First (s : State) : Prop where
  fresh : s.fresh = []
  o : s.o = .implStart ∨ s.o = .create ∨ s.o = .barrier ∨ s.o = .afterImpl ∨ s.o = .waitStarted
  t : s.t = .none ∧ (s.o = .implStart ∨ s.o = .create) ∨ s.o = .barrier ∧ (s.t = .init ∨ s.t = .okBarrier)
    ∨ (s.o = .afterImpl ∨ s.o = .waitStarted) ∧ (s.t = .begin_ ∨ s.t = .running ∨ s.t = .ended)
  tid : s.t ≠ .none → s.tid = true
  run : s.t = .running ∨ s.t = .ended → s.starting = false

theorem first_step {s s' : State} {a : Act} (hl : a.lucky = true) (hi : Inv s) (hf : First s) (h : step s a = some s') :
    (First s' ∨ (s'.o = .idle ∧ s'.fresh = [true])) ∧ dist s' < dist s := by
  obtain ⟨f1, f2, f3, f4, f5⟩ := hf
  have hn := hi.name
  have hb := hi.begin_
  clear hi
  obtain ⟨st, fi, jo, tid, nm, t, o, runs, fr, ag⟩ := s
  simp only at *
  subst f1
  rcases f3 with ⟨rfl, rfl | rfl⟩ | ⟨rfl, rfl | rfl⟩ | ⟨rfl | rfl, rfl | rfl | rfl⟩ <;>
    simp at f4 f5 hn hb <;>
    cases a <;> simp [step, Act.lucky, *] at h hl <;>
    (try subst hl) <;> (try simp at h) <;> (try (obtain ⟨_, h⟩ := h)) <;> (try subst h) <;>
    refine ⟨?_, ?_⟩ <;>
    first
      | (simp [dist]; done)
      | (right; simp; done)
      | (left; constructor <;> simp [*]; done)

theorem first_progress {s : State} (hi : Inv s) (hf : First s) : ∃ a s', a.lucky = true ∧ a ≠ .endRun ∧ step s a = some s' := by
  obtain ⟨f1, f2, f3, f4, f5⟩ := hf
  have hname := hi.name
  rcases f3 with ⟨ht, ho | ho⟩ | ⟨ho, ht | ht⟩ | ⟨ho | ho, ht⟩
  · have hn : s.name = false := by
      cases hn : s.name with
      | false => rfl
      | true => rw [hn, ht, ho] at hname; simp at hname
    exact ⟨.implStart true, { s with name := true, o := .create }, rfl, by simp, by simp [step, ho, hn]⟩
  · exact ⟨.create true, { s with tid := true, t := .init, o := .barrier }, rfl, by simp, by simp [step, ho]⟩
  · exact ⟨.taskInit true, { s with t := .okBarrier }, rfl, by simp, by simp [step, ht]⟩
  · exact ⟨.barrier, { s with t := .begin_, o := .afterImpl }, rfl, by simp, by simp [step, ho, ht]⟩
  · have : s.tid = true := f4 (by rcases ht with h | h | h <;> rw [h] <;> simp)
    exact ⟨.afterImpl, { s with o := .waitStarted }, rfl, by simp, by simp [step, ho, this]⟩
  · rcases ht with ht | ht
    · exact ⟨.begin_, { s with t := .running, starting := false, finished := false, runs := s.runs + 1 }, rfl, by simp,
        by simp [step, ht]⟩
    · have := f5 ht
      exact ⟨.waitStarted, { s with fresh := true :: s.fresh, o := .idle }, rfl, by simp, by simp [step, ho, this]⟩

/-- C103, part: for the first start only (for later starts it is false, see the violations above).
The first `start()` returns `true` if the operating system provides the semaphore, the
thread and the LXRT task: it cannot get stuck, every action brings it nearer to returning, and
whenever it has returned the result is `true` (so it returns within 10 actions of both threads). -/
theorem c103_first_start_partial {s1 s : State} {as : List Act} (hs : step init .start = some s1) (hr : Run s1 as s)
    (hl : ∀ a ∈ as, a.lucky = true) (hns : .start ∉ as ∧ .join ∉ as) :
    (s.o = .idle → s.fresh = [true] ∧ s.runs = 1)
      ∧ (s.o ≠ .idle → ∃ a s', a.lucky = true ∧ step s a = some s' ∧ dist s' < dist s) ∧ (s.o ≠ .idle → as.length + dist s ≤ 10) := by
  have hi1 := step_inv hs init_inv
  have hf1 : First s1 := by
    simp [step, init] at hs; subst hs; constructor <;> simp
  have hd1 : dist s1 = 10 := by simp [step, init] at hs; subst hs; rfl
  have gen : ∀ (as : List Act) (s0 : State) (n : Nat), Run s0 as s → (∀ a ∈ as, a.lucky = true) → (.start ∉ as ∧ .join ∉ as) → Inv s0 →
      (First s0 ∧ n + dist s0 ≤ 10 ∨ (s0.o = .idle ∧ s0.fresh = [true])) →
      (First s ∧ n + as.length + dist s ≤ 10 ∨ (s.o = .idle ∧ s.fresh = [true])) ∧ Inv s := by
    intro as
    induction as with
    | nil => intro s0 n h _ _ hi hp; cases h; exact ⟨by simpa using hp, hi⟩
    | cons a as ih =>
      intro s0 n h hl hns hi hp
      cases h with
      | cons hs' hr' =>
        have hi' := step_inv hs' hi
        have hla := hl a (by simp)
        have hl' : ∀ b ∈ as, b.lucky = true := fun b hb => hl b (by simp [hb])
        simp only [List.mem_cons, not_or] at hns
        have hns' : .start ∉ as ∧ .join ∉ as := ⟨hns.1.2, hns.2.2⟩
        rcases hp with ⟨hf, hn⟩ | ⟨ho, hfr⟩
        · obtain ⟨hf', hd⟩ := first_step hla hi hf hs'
          have := ih _ (n + 1) hr' hl' hns' hi' (by
            rcases hf' with hf' | hf'
            · exact Or.inl ⟨hf', by omega⟩
            · exact Or.inr hf')
          refine ⟨?_, this.2⟩
          rcases this.1 with ⟨h1, h2⟩ | h2
          · exact Or.inl ⟨h1, by simp only [List.length_cons]; omega⟩
          · exact Or.inr h2
        · have hk : (∀ s0', step s0 a = some s0' → s0'.o = .idle ∧ s0'.fresh = [true]) := by
            intro s0' h0
            have hst := hi.idle (Or.inl ho)
            obtain ⟨h1, h2, h3, h4, h5, h6, h7, h8, h9, h10, h11, h12, h13, h14, h15⟩ := hi
            cases a <;> simp only [step] at h0 <;> (repeat' split at h0) <;>
              (first | (cases h0; done) | (simp only [Option.some.injEq] at h0; subst h0; grind))
          have := ih _ (n + 1) hr' hl' hns' hi' (Or.inr (hk _ hs'))
          refine ⟨?_, this.2⟩
          rcases this.1 with ⟨h1, h2⟩ | h2
          · exact Or.inl ⟨h1, by simp only [List.length_cons]; omega⟩
          · exact Or.inr h2
  have hfin := gen as s1 0 hr hl hns hi1 (Or.inl ⟨hf1, by omega⟩)
  obtain ⟨hp, hi⟩ := hfin
  refine ⟨?_, ?_, ?_⟩
  · intro ho
    rcases hp with ⟨hf, _⟩ | ⟨_, hfr⟩
    · rcases hf.o with h | h | h | h | h <;> rw [h] at ho <;> cases ho
    · refine ⟨hfr, ?_⟩
      rw [hi.runs, if_pos (hi.started (by rw [hfr]; simp)).1]
  · intro ho
    rcases hp with ⟨hf, _⟩ | ⟨h, _⟩
    · obtain ⟨a, s', ha, _, hs'⟩ := first_progress hi hf
      exact ⟨a, s', ha, hs', (first_step ha hi hf hs').2⟩
    · exact absurd h ho
  · intro ho
    rcases hp with ⟨_, hf⟩ | ⟨h, _⟩
    · omega
    · exact absurd h ho

/-! ## Examples -/

/-- Run actions. -/
def exec (s : State) : List Act → Option State
  | [] => some s
  | a :: as => (step s a).bind fun s' => exec s' as

theorem exec_run {s s' : State} {as : List Act} (h : exec s as = some s') : Run s as s' := by
  induction as generalizing s with
  | nil => cases h; exact .nil _
  | cons a as ih =>
    simp only [exec, Option.bind_eq_some_iff] at h
    obtain ⟨s1, h1, h2⟩ := h
    exact .cons h1 (ih h2)

/-- A successful first start whose thread then ends by itself; then `wait()`. -/
def exRun : List Act :=
  [.start, .implStart true, .create true, .taskInit true, .barrier, .afterImpl, .begin_, .waitStarted, .endRun, .join]

-- the hypotheses of c103_restart_hangs are met after it
example : ∃ s, exec init exRun = some s ∧ s.t = .ended ∧ s.tid = true ∧ s.joined = true ∧ s.o = .idle ∧ s.finished = true
    ∧ s.fresh = [true] ∧ s.runs = 1 ∧ (step s .start).isSome := ⟨_, rfl, by decide⟩
-- a failed task initialisation
example : ∃ s, exec init [.start, .implStart true, .create true, .taskInit false] = some s ∧ s.t = .failBarrier := ⟨_, rfl, rfl⟩
-- a thread that could not be created can be tried again
example : ∃ s, exec init [.start, .implStart true, .create false, .afterImpl, .start, .implStart true, .create true] = some s
    ∧ s.fresh = [false] ∧ s.tid = true := ⟨_, rfl, by decide⟩
-- joined while running, the second start fails
theorem c103_restart_fails : ∃ s, exec init [.start, .implStart true, .create true, .taskInit true, .barrier, .afterImpl, .begin_,
    .waitStarted, .join, .endRun, .joining, .start, .implStart true, .afterImpl] = some s ∧ s.fresh = [false, true] ∧ s.o = .idle :=
  ⟨_, rfl, by decide⟩
-- start() of a running thread
example : ∃ s, exec init [.start, .implStart true, .create true, .taskInit true, .barrier, .afterImpl, .begin_,
    .waitStarted, .start, .waitAgain] = some s ∧ s.again = [true] := ⟨_, rfl, by decide⟩

end Verif.Conc.ThreadLxrt
