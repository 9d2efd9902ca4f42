import Verif.Conc.Singleton

/-!
# The guards of the singleton's lock (C27)

`Verif/Conc/Singleton.lean` lets every thread wait until it has the lock.  Here taking the lock may also
fail, and the two guards deal with that: `STMMultiThreadedWithMutex` (icl_core_thread) uses a
`ScopedMutexLock` with `force`, `STMMultiThreadedWithSemaphore` (icl_core_logging) a `ScopedSemaphore`.
-/
namespace Verif.Singleton

/-- The threading models with a lock: icl_core_thread/SingletonThreadingModels.h:39-61 and
icl_core_logging/SingletonThreadingModels.h:39-61. -/
inductive GuardKind where
  /-- `ScopedMutexLock guard(m_lock)`, with the default `force = true` -/
  | mutex
  /-- `ScopedSemaphore guard(m_lock)`, the semaphore's initial value is 1 -/
  | semaphore
  deriving DecidableEq, Repr

/-- The state of `Verif/Conc/Singleton.lean`, and for each thread whether its guard has the lock. -/
structure GState where
  base : State
  held : Nat → Bool

/-- Before the first call. -/
def ginit : GState := ⟨init, fun _ => false⟩

/-- Change one thread's guard. -/
def setHeld (f : Nat → Bool) (t : Nat) (b : Bool) : Nat → Bool := fun u => if u = t then b else f u

/-- One action of thread `t` inside `instance()`, Singleton.hpp:37-59 with the constructor and destructor of the
guard: ScopedMutexLock.cpp:30-46, ScopedSemaphore.cpp:30-46.  `fails`: the call that takes the lock reports an
error instead of waiting (for a semaphore: a signal arrived).  Everything else as in `step`. -/
def gstep (g : GuardKind) (deadThrows : Bool) (s : GState) (t : Nat) (fails : Bool) : Option GState :=
  match s.base.pc t with
  | .wantLock =>
    if fails then
      match g with
      | .mutex => some s
      | .semaphore => some ⟨setPc s.base t .locked, setHeld s.held t false⟩
    else
      match s.base.lock with
      | none => some ⟨setPc { s.base with lock := some t } t .locked, setHeld s.held t true⟩
      | some _ => none
  | .unlocking =>
    some ⟨setPc { s.base with lock := if s.held t then none else s.base.lock } t .returning, s.held⟩
  | .unlockThrow =>
    some ⟨setPc { s.base with lock := if s.held t then none else s.base.lock } t .threw, s.held⟩
  | _ => (step ⟨true, deadThrows⟩ s.base t).map fun b => ⟨b, s.held⟩

/-- States reachable in any interleaving; `allowed t`: may taking the lock fail? -/
inductive GReach (g : GuardKind) (dt allowFail : Bool) : GState → Prop where
  | init : GReach g dt allowFail ginit
  | step {s s' : GState} (t : Nat) (fails : Bool) (hf : fails = true → allowFail = true) :
      GReach g dt allowFail s → gstep g dt s t fails = some s' → GReach g dt allowFail s'

/-- Run a schedule of threads, with failures. -/
def gexec (g : GuardKind) (dt : Bool) (s : GState) : List (Nat × Bool) → Option GState
  | [] => some s
  | a :: as => (gstep g dt s a.1 a.2).bind fun s' => gexec g dt s' as

theorem setPc_pc_self (s : State) (t : Nat) (p : PC) : (setPc s t p).pc t = p := by simp [setPc]

theorem setPc_pc_other (s : State) {t u : Nat} (p : PC) (h : u ≠ t) : (setPc s t p).pc u = s.pc u := by
  simp [setPc, h]

theorem step_crit {c : Cfg} (hc : c.useLock = true) {s s' : State} {t : Nat} (h : step c s t = some s')
    (hw : s.pc t ≠ .wantLock) (u : Nat) (hu : crit (s'.pc u) = true) : crit (s.pc u) = true := by
  by_cases hut : u = t
  · subst hut
    unfold step at h
    cases hp : s.pc u with
    | wantLock => exact absurd hp hw
    | loaded x =>
      rw [hp] at h
      cases x <;> (simp only [Option.some.injEq] at h; subst h; simp [setPc, crit] at hu)
    | returning =>
      rw [hp] at h; simp only at h
      split at h <;> (simp only [Option.some.injEq] at h; subst h; simp [setPc, crit] at hu)
    | idle => rw [hp] at h; simp only [Option.some.injEq] at h; subst h; simp [setPc, crit] at hu
    | start => rw [hp] at h; simp only [Option.some.injEq] at h; subst h; simp [setPc, crit] at hu
    | done o => rw [hp] at h; simp only [Option.some.injEq] at h; subst h; simp [setPc, crit] at hu
    | threw => rw [hp] at h; simp only [Option.some.injEq] at h; subst h; simp [setPc, crit] at hu
    | ub => rw [hp] at h; cases h
    | _ => simp [crit]
  · have : s'.pc u = s.pc u := by
      unfold step at h
      repeat' (first | split at h | (simp only [Option.some.injEq] at h; subst h; simp [setPc, hut]) | cases h)
    rw [this] at hu; exact hu

theorem greach_base {g : GuardKind} {dt af : Bool} (hg : g = .semaphore → af = false) {s : GState}
    (h : GReach g dt af s) : Reach ⟨true, dt⟩ s.base ∧ ∀ t, crit (s.base.pc t) = true → s.held t = true := by
  induction h with
  | init => exact ⟨.init, fun t h => by simp [ginit, init, crit] at h⟩
  | @step s s' t fails hf _ hs ih =>
    obtain ⟨ih1, ih2⟩ := ih
    unfold gstep at hs
    have other : (step ⟨true, dt⟩ s.base t).map (fun b => GState.mk b s.held) = some s' →
        s.base.pc t ≠ .wantLock → Reach ⟨true, dt⟩ s'.base ∧ ∀ t, crit (s'.base.pc t) = true → s'.held t = true := by
      intro h hw
      simp only [Option.map_eq_some_iff] at h
      obtain ⟨b, h1, h2⟩ := h
      subst h2
      exact ⟨.step t ih1 h1, fun u hu => ih2 u (step_crit rfl h1 hw u hu)⟩
    cases hp : s.base.pc t with
    | wantLock =>
      rw [hp] at hs
      simp only at hs
      cases fails with
      | true =>
        have := hf rfl
        cases g with
        | mutex => simp only [if_true, Option.some.injEq] at hs; subst hs; exact ⟨ih1, ih2⟩
        | semaphore => rw [hg rfl] at this; cases this
      | false =>
        simp only [Bool.false_eq_true, if_false] at hs
        cases hl : s.base.lock with
        | some u => simp [hl] at hs
        | none =>
          simp only [hl, Option.some.injEq] at hs
          subst hs
          refine ⟨.step t ih1 (by simp [step, hp, hl]), fun u hu => ?_⟩
          by_cases hut : u = t
          · subst hut; simp [setHeld]
          · simp only [setPc_pc_other _ _ hut] at hu
            simp [setHeld, hut, ih2 u hu]
    | unlocking =>
      rw [hp] at hs
      simp only [Option.some.injEq] at hs
      subst hs
      have hh := ih2 t (by simp [hp, crit])
      refine ⟨.step t ih1 (by simp [step, hp, hh]), fun u hu => ?_⟩
      by_cases hut : u = t
      · subst hut; simp [setPc_pc_self, crit] at hu
      · simp only [setPc_pc_other _ _ hut] at hu; exact ih2 u hu
    | unlockThrow =>
      rw [hp] at hs
      simp only [Option.some.injEq] at hs
      subst hs
      have hh := ih2 t (by simp [hp, crit])
      refine ⟨.step t ih1 (by simp [step, hp, hh]), fun u hu => ?_⟩
      by_cases hut : u = t
      · subst hut; simp [setPc_pc_self, crit] at hu
      · simp only [setPc_pc_other _ _ hut] at hu; exact ih2 u hu
    | _ => rw [hp] at hs; exact other hs (by simp [hp])

/-- C27. With the mutex threading model, however often taking the lock fails: at most one object is ever
created, every call that returns refers to it, none throws or dereferences `NULL`. -/
theorem c27_mutex_guard (dt : Bool) {s : GState} (h : GReach .mutex dt true s) :
    s.base.count ≤ 1 ∧ (∀ t o, s.base.pc t = .done o → o = 0 ∧ s.base.count = 1) ∧
    ∀ t, s.base.pc t ≠ .threw ∧ s.base.pc t ≠ .ub := by
  obtain ⟨h1, h2, h3, _⟩ := c27_single_instance rfl (greach_base (fun e => by cases e) h).1
  exact ⟨h1, fun t o e => ⟨(h2 t o e).1, (h2 t o e).2.1⟩, h3⟩

/-- C27. The same with the semaphore threading model, as long as no signal interrupts the waiting.
Missing: with signals, see `c27_semaphore_interrupted`. -/
theorem c27_semaphore_guard_partial (dt : Bool) {s : GState} (h : GReach .semaphore dt false s) :
    s.base.count ≤ 1 ∧ (∀ t o, s.base.pc t = .done o → o = 0 ∧ s.base.count = 1) ∧
    ∀ t, s.base.pc t ≠ .threw ∧ s.base.pc t ≠ .ub := by
  obtain ⟨h1, h2, h3, _⟩ := c27_single_instance rfl (greach_base (fun _ => rfl) h).1
  exact ⟨h1, fun t o e => ⟨(h2 t o e).1, (h2 t o e).2.1⟩, h3⟩

theorem step_lock {c : Cfg} {s s' : State} {t : Nat} (h : step c s t = some s')
    (hw : s.pc t ≠ .wantLock) (hu : s.pc t ≠ .unlocking) (hu' : s.pc t ≠ .unlockThrow) :
    s'.lock = s.lock ∧ (∀ u, u ≠ t → s'.pc u = s.pc u) ∧ (crit (s.pc t) = true → crit (s'.pc t) = true) := by
  unfold step at h
  cases hp : s.pc t with
  | wantLock => exact absurd hp hw
  | unlocking => exact absurd hp hu
  | unlockThrow => exact absurd hp hu'
  | ub => rw [hp] at h; cases h
  | loaded x =>
    rw [hp] at h
    cases x <;> (simp only [Option.some.injEq] at h; subst h; refine ⟨rfl, fun u hu => by simp [setPc, hu], by simp [crit]⟩)
  | loaded2 x =>
    rw [hp] at h
    cases x with
    | some _ => simp only [Option.some.injEq] at h; subst h; exact ⟨rfl, fun u hu => by simp [setPc, hu], by simp [crit, setPc]⟩
    | none =>
      simp only at h
      repeat' split at h
      all_goals
        simp only [Option.some.injEq] at h; subst h
        exact ⟨rfl, fun u hu => by simp [setPc, hu], by simp [crit, setPc]⟩
  | returning =>
    rw [hp] at h; simp only at h
    split at h <;> (simp only [Option.some.injEq] at h; subst h; exact ⟨rfl, fun u hu => by simp [setPc, hu], by simp [crit]⟩)
  | _ =>
    rw [hp] at h; simp only [Option.some.injEq] at h; subst h
    exact ⟨rfl, fun u hu => by simp [setPc, hu], by simp [crit, setPc]⟩

/-- C27. Even with failures, a thread that has taken the lock has it until it leaves the guarded region: a guard
that did not get the lock does not release it. -/
theorem c27_guard_keeps_lock (g : GuardKind) (dt : Bool) {s : GState} (h : GReach g dt true s) (t : Nat) :
    s.base.lock = some t ↔ crit (s.base.pc t) = true ∧ s.held t = true := by
  induction h generalizing t with
  | init => simp [ginit, init]
  | @step s s' u fails hf _ hs ih =>
    unfold gstep at hs
    have other : (step ⟨true, dt⟩ s.base u).map (fun b => GState.mk b s.held) = some s' →
        s.base.pc u ≠ .wantLock → s.base.pc u ≠ .unlocking → s.base.pc u ≠ .unlockThrow →
        (s'.base.lock = some t ↔ crit (s'.base.pc t) = true ∧ s'.held t = true) := by
      intro h hw h1 h2
      simp only [Option.map_eq_some_iff] at h
      obtain ⟨b, h3, h4⟩ := h
      subst h4
      obtain ⟨e1, e2, e3⟩ := step_lock h3 hw h1 h2
      simp only [e1, ih]
      by_cases htu : t = u
      · subst htu
        exact ⟨fun ⟨a, b⟩ => ⟨e3 a, b⟩, fun ⟨a, b⟩ => ⟨step_crit rfl h3 hw t a, b⟩⟩
      · rw [e2 t htu]
    cases hp : s.base.pc u with
    | wantLock =>
      rw [hp] at hs
      simp only at hs
      cases fails with
      | true =>
        cases g with
        | mutex => simp only [if_true, Option.some.injEq] at hs; subst hs; exact ih t
        | semaphore =>
          simp only [if_true, Option.some.injEq] at hs; subst hs
          by_cases htu : t = u
          · subst htu
            have := (ih t)
            simp only [hp, crit] at this
            simp [setHeld, setPc] at this ⊢
            exact this
          · simp only [setPc_pc_other _ _ htu, setHeld, htu, if_false]
            exact ih t
      | false =>
        simp only [Bool.false_eq_true, if_false] at hs
        cases hl : s.base.lock with
        | some v => simp [hl] at hs
        | none =>
          simp only [hl, Option.some.injEq] at hs
          subst hs
          by_cases htu : t = u
          · subst htu; simp [setPc, setHeld, crit]
          · have := ih t
            simp only [hl] at this
            simp only [setPc_pc_other _ _ htu, setHeld, htu, if_false]
            rw [← this]
            simp [setPc, Ne.symm htu]
    | unlocking =>
      rw [hp] at hs
      simp only [Option.some.injEq] at hs
      subst hs
      by_cases htu : t = u
      · subst htu
        have := ih t
        simp only [hp, crit] at this
        by_cases hh : s.held t = true <;> simp [setPc, crit, hh] at this ⊢
        exact this
      · have hu := ih u
        simp only [hp, crit] at hu
        simp only [setPc_pc_other _ _ htu]
        rw [← ih t]
        by_cases hh : s.held u = true
        · simp [hh] at hu; simp [setPc, hh, hu, Ne.symm htu]
        · simp [setPc, hh]
    | unlockThrow =>
      rw [hp] at hs
      simp only [Option.some.injEq] at hs
      subst hs
      by_cases htu : t = u
      · subst htu
        have := ih t
        simp only [hp, crit] at this
        by_cases hh : s.held t = true <;> simp [setPc, crit, hh] at this ⊢
        exact this
      · have hu := ih u
        simp only [hp, crit] at hu
        simp only [setPc_pc_other _ _ htu]
        rw [← ih t]
        by_cases hh : s.held u = true
        · simp [hh] at hu; simp [setPc, hh, hu, Ne.symm htu]
        · simp [setPc, hh]
    | _ => rw [hp] at hs; exact other hs (by simp [hp]) (by simp [hp]) (by simp [hp])

/-- Reached by schedules. -/
theorem gexec_reach {g : GuardKind} {dt af : Bool} (as : List (Nat × Bool)) :
    ∀ {s s' : GState}, GReach g dt af s → (∀ a ∈ as, a.2 = true → af = true) → gexec g dt s as = some s' →
      GReach g dt af s' := by
  induction as with
  | nil => intro s s' h _ he; cases he; exact h
  | cons a as ih =>
    intro s s' h hf he
    simp only [gexec, Option.bind_eq_some_iff] at he
    obtain ⟨s1, h1, h2⟩ := he
    exact ih (.step a.1 a.2 (hf a (by simp)) h h1) (fun b hb => hf b (by simp [hb])) h2

/-- Both threads call `instance()`; taking the mutex fails twice for the second one. -/
example : ∃ s, GReach .mutex true true s ∧ s.base.pc 0 = .done 0 ∧ s.base.pc 1 = .done 0 ∧ s.base.count = 1 := by
  refine ⟨_, gexec_reach ([(0, false), (0, false), (0, false), (1, false), (1, false), (1, false), (0, false),
    (1, true), (0, false), (0, false), (1, true)] ++ List.replicate 4 (0, false) ++ List.replicate 5 (1, false)) .init
    (fun _ _ _ => rfl) rfl, ?_⟩
  decide

/-- Both threads call `instance()`, the second one waits for the first. -/
example : ∃ s, GReach .semaphore true false s ∧ s.base.pc 0 = .done 0 ∧ s.base.pc 1 = .done 0 ∧ s.base.count = 1 := by
  refine ⟨_, gexec_reach ([(0, false), (0, false), (0, false), (1, false), (1, false), (1, false)]
    ++ List.replicate 7 (0, false) ++ List.replicate 5 (1, false)) .init (by decide) rfl, ?_⟩
  decide

/-- C27 violated with the semaphore threading model: `instance()` does not ask its guard whether it has the
lock, so a signal that interrupts the second thread lets both create an object, and they return different
ones. -/
theorem c27_semaphore_interrupted : ∃ s, GReach .semaphore true true s ∧
    s.base.count = 2 ∧ s.base.pc 0 = .done 0 ∧ s.base.pc 1 = .done 1 := by
  refine ⟨_, gexec_reach (List.replicate 6 (0, false) ++ List.replicate 3 (1, false) ++ [(1, true), (1, false), (1, false)] ++
    List.replicate 4 (0, false) ++ List.replicate 4 (1, false)) .init (fun _ _ _ => rfl) rfl, ?_⟩
  decide

end Verif.Singleton
