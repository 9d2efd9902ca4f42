import Verif.Base

/-!
# Model of `icl_core/Singleton.hpp` (double-checked locking) and its properties (C27)

One action = one access to shared memory (or one lock operation); accesses are
sequentially consistent, i.e. `TThreadingModel::memoryBarrier()` does its job. Objects are
numbered in order of creation. The creation policy is `SCPCreateUsingNew`.
-/
namespace Verif.Singleton

/-- Where a thread is inside `instance()`, Singleton.hpp:37-59. -/
inductive PC where
  /-- not inside `instance()` -/
  | idle
  /-- line 39 about to read `m_instance` -/
  | start
  /-- line 41 with the value read -/
  | loaded (temp : Option Nat)
  /-- line 43 about to take the lock -/
  | wantLock
  /-- line 44 inside the guarded region, about to read again -/
  | locked
  /-- line 45 with the value read -/
  | loaded2 (temp : Option Nat)
  /-- line 52 about to create -/
  | creating
  /-- line 54 object created, about to publish -/
  | created (o : Nat)
  /-- end of the guarded region -/
  | unlocking
  /-- leaving the guarded region by an exception -/
  | unlockThrow
  /-- line 58 about to read `*m_instance` -/
  | returning
  /-- returned a reference to this object -/
  | done (o : Nat)
  /-- threw `std::logic_error` -/
  | threw
  /-- dereferenced `NULL` -/
  | ub
  deriving DecidableEq, Repr

/-- Policies: does the guard lock (`STMMultiThreaded...`) or not (`STMSingleThreaded`,
icl_core/SingletonThreadingModels.h:34-47)?  Does a dead reference throw
(`SLPDefaultLifetime`) or not (`SLPNoDestroy`, icl_core/SingletonLifetimePolicies.h:46-82)? -/
structure Cfg where
  useLock : Bool
  deadThrows : Bool
  deriving DecidableEq, Repr

/-- Shared variables (Singleton.h:73-78) and the threads' positions. -/
structure State where
  inst : Option Nat
  destroyed : Bool
  lock : Option Nat
  /-- number of objects created so far (ghost) -/
  count : Nat
  pc : Nat → PC

/-- Singleton.hpp:71-84 static initialisation. -/
def init : State := { inst := none, destroyed := false, lock := none, count := 0, pc := fun _ => .idle }

/-- Change one thread's position. -/
def setPc (s : State) (t : Nat) (p : PC) : State :=
  { s with pc := fun u => if u = t then p else s.pc u }

/-- The next action of thread `t`, Singleton.hpp:37-59; `none` = blocked. -/
def step (c : Cfg) (s : State) (t : Nat) : Option State :=
  match s.pc t with
  | .idle => some (setPc s t .start)
  | .start => some (setPc s t (.loaded s.inst))
  | .loaded (some _) => some (setPc s t .returning)
  | .loaded none => some (setPc s t .wantLock)
  | .wantLock =>
    if c.useLock then
      match s.lock with
      | none => some (setPc { s with lock := some t } t .locked)
      | some _ => none
    else some (setPc s t .locked)
  | .locked => some (setPc s t (.loaded2 s.inst))
  | .loaded2 (some _) => some (setPc s t .unlocking)
  | .loaded2 none =>
    if s.destroyed then
      if c.deadThrows then some (setPc s t .unlockThrow)
      else some (setPc { s with destroyed := false } t .creating)
    else some (setPc s t .creating)
  | .creating => some (setPc { s with count := s.count + 1 } t (.created s.count))
  | .created o => some (setPc { s with inst := some o } t .unlocking)
  | .unlocking => some (setPc { s with lock := if c.useLock then none else s.lock } t .returning)
  | .unlockThrow => some (setPc { s with lock := if c.useLock then none else s.lock } t .threw)
  | .returning =>
    match s.inst with
    | some o => some (setPc s t (.done o))
    | none => some (setPc s t .ub)
  | .done _ => some (setPc s t .idle)
  | .threw => some (setPc s t .idle)
  | .ub => none

/-- Singleton.hpp:61-69 `destroySingleton()` run by `atexit`; it takes no lock. -/
def destroy (s : State) : State := { s with inst := none, destroyed := true }

/-- One action of the system. -/
inductive Act where
  | thread (t : Nat)
  | destroy
  deriving DecidableEq, Repr

/-- Execute one action. -/
def act (c : Cfg) (s : State) : Act → Option State
  | .thread t => step c s t
  | .destroy => some (destroy s)

/-- Execute a schedule. -/
def exec (c : Cfg) (s : State) : List Act → Option State
  | [] => some s
  | a :: as => (act c s a).bind fun s' => exec c s' as

/-- States reachable by threads calling `instance()` in any interleaving. -/
inductive Reach (c : Cfg) : State → Prop where
  | init : Reach c init
  | step {s s' : State} (t : Nat) : Reach c s → step c s t = some s' → Reach c s'

/-! ## C27 -/

/-- Inside the guarded region. -/
def crit : PC → Bool
  | .locked | .loaded2 _ | .creating | .created _ | .unlocking | .unlockThrow => true
  | _ => false

/-- What is known about one thread. -/
def Ok (s : State) : PC → Prop
  | .loaded (some _) => s.inst = some 0
  | .loaded2 (some _) => s.inst = some 0
  | .loaded2 none => s.inst = none ∧ s.count = 0
  | .creating => s.inst = none ∧ s.count = 0
  | .created o => o = 0 ∧ s.inst = none ∧ s.count = 1
  | .unlocking => s.inst = some 0
  | .returning => s.inst = some 0
  | .done o => o = 0 ∧ s.inst = some 0
  | .unlockThrow => False
  | .threw => False
  | .ub => False
  | _ => True

/-- The invariant. -/
structure Inv (s : State) : Prop where
  notDestroyed : s.destroyed = false
  owner : ∀ t, crit (s.pc t) = true ↔ s.lock = some t
  ok : ∀ t, Ok s (s.pc t)
  some' : ∀ o, s.inst = some o → o = 0 ∧ s.count = 1
  none' : s.inst = none → s.count = 0 ∨ ∃ t, s.pc t = .created 0

theorem inv_init : Inv init :=
  ⟨rfl, fun t => by simp [init, crit], fun t => by simp [init, Ok], by simp [init], fun _ => Or.inl rfl⟩

/-- Threads outside the guarded region do not care about a change of owner etc. -/
theorem inv_local {s : State} (h : Inv s) (t : Nat) (p : PC) (hc : crit p = crit (s.pc t))
    (hp : Ok s p) (hn : ∀ o, s.pc t = .created o → False) : Inv (setPc s t p) := by
  refine ⟨h.notDestroyed, ?_, ?_, h.some', ?_⟩
  · intro u
    by_cases hu : u = t
    · subst hu; simp only [setPc, if_true]; rw [hc]; exact h.owner u
    · simp only [setPc, hu, if_false]; exact h.owner u
  · intro u
    by_cases hu : u = t
    · subst hu; simp only [setPc, if_true]; exact hp
    · simp only [setPc, hu, if_false]; exact h.ok u
  · intro hi
    rcases h.none' hi with h0 | ⟨u, hu⟩
    · exact Or.inl h0
    · right
      refine ⟨u, ?_⟩
      have : u ≠ t := fun e => hn 0 (by rw [← e]; exact hu)
      simp only [setPc, this, if_false]; exact hu

theorem inv_step {c : Cfg} (hc : c.useLock = true) {s s' : State} (h : Inv s) (t : Nat)
    (hs : step c s t = some s') : Inv s' := by
  have hok := h.ok t
  have hown := h.owner t
  -- only the owner is inside the guarded region
  have uniq : ∀ u, crit (s.pc t) = true → crit (s.pc u) = true → u = t := by
    intro u h1 h2
    have e1 := (h.owner t).1 h1
    have e2 := (h.owner u).1 h2
    rw [e1] at e2; injection e2 with e2; exact e2.symm
  unfold step at hs
  cases hp : s.pc t with
  | idle =>
    rw [hp] at hs; simp only [Option.some.injEq] at hs; subst hs
    exact inv_local h t _ (by simp [hp, crit]) trivial (by simp [hp])
  | start =>
    rw [hp] at hs; simp only [Option.some.injEq] at hs; subst hs
    refine inv_local h t _ (by simp [hp, crit]) ?_ (by simp [hp])
    cases hi : s.inst with
    | none => trivial
    | some o => simp only [Ok]; rw [hi, (h.some' o hi).1]
  | loaded temp =>
    cases temp with
    | none =>
      rw [hp] at hs; simp only [Option.some.injEq] at hs; subst hs
      exact inv_local h t _ (by simp [hp, crit]) trivial (by simp [hp])
    | some o =>
      rw [hp] at hs hok; simp only [Option.some.injEq] at hs; subst hs
      exact inv_local h t _ (by simp [hp, crit]) hok (by simp [hp])
  | wantLock =>
    rw [hp] at hs
    simp only [hc, if_true] at hs
    cases hl : s.lock with
    | some u => rw [hl] at hs; cases hs
    | none =>
      rw [hl] at hs; simp only [Option.some.injEq] at hs; subst hs
      refine ⟨h.notDestroyed, ?_, ?_, h.some', ?_⟩
      · intro u
        by_cases hu : u = t
        · subst hu; simp [setPc, crit]
        · have hno : ¬ crit (s.pc u) = true := by
            intro hcr; rw [h.owner u, hl] at hcr; cases hcr
          simp only [setPc, hu, if_false, hno, Bool.false_eq_true, false_iff, Option.some.injEq]
          exact fun e => hu e.symm
      · intro u
        by_cases hu : u = t
        · simp [setPc, hu, Ok]
        · simp only [setPc, hu, if_false]; exact h.ok u
      · intro hi
        rcases h.none' hi with h0 | ⟨u, hu⟩
        · exact Or.inl h0
        · right; refine ⟨u, ?_⟩
          have : u ≠ t := fun e => by rw [e, hp] at hu; cases hu
          simp only [setPc, this, if_false]; exact hu
  | locked =>
    rw [hp] at hs; simp only [Option.some.injEq] at hs; subst hs
    refine inv_local h t _ (by simp [hp, crit]) ?_ (by simp [hp])
    cases hi : s.inst with
    | some o => simp only [Ok]; rw [hi, (h.some' o hi).1]
    | none =>
      refine ⟨hi, ?_⟩
      rcases h.none' hi with h0 | ⟨u, hu⟩
      · exact h0
      · have := uniq u (by simp [hp, crit]) (by simp [hu, crit])
        rw [this, hp] at hu; cases hu
  | loaded2 temp =>
    cases temp with
    | some o =>
      rw [hp] at hs hok; simp only [Option.some.injEq] at hs; subst hs
      exact inv_local h t _ (by simp [hp, crit]) hok (by simp [hp])
    | none =>
      rw [hp] at hs hok
      simp only [h.notDestroyed, Bool.false_eq_true, if_false, Option.some.injEq] at hs
      subst hs
      exact inv_local h t _ (by simp [hp, crit]) hok (by simp [hp])
  | creating =>
    rw [hp] at hs hok; simp only [Option.some.injEq] at hs; subst hs
    obtain ⟨hi, h0⟩ := hok
    refine ⟨h.notDestroyed, ?_, ?_, ?_, ?_⟩
    · intro u
      by_cases hu : u = t
      · subst hu
        simp only [setPc, if_true, crit]; rw [hp] at hown; simpa [crit] using hown
      · simp only [setPc, hu, if_false]; exact h.owner u
    · intro u
      by_cases hu : u = t
      · simp [setPc, hu, Ok, h0, hi]
      · have hno : ¬ crit (s.pc u) = true := fun hcr => hu (uniq u (by simp [hp, crit]) hcr)
        have := h.ok u
        simp only [setPc, hu, if_false]
        cases hpu : s.pc u with
        | loaded x => cases x with
          | none => trivial
          | some _ => rw [hpu] at this; exact this
        | loaded2 x => rw [hpu] at hno; simp [crit] at hno
        | creating => rw [hpu] at hno; simp [crit] at hno
        | created x => rw [hpu] at hno; simp [crit] at hno
        | idle => trivial
        | start => trivial
        | wantLock => trivial
        | locked => trivial
        | unlocking => rw [hpu] at this; exact this
        | unlockThrow => rw [hpu] at this; exact this
        | returning => rw [hpu] at this; exact this
        | done o => rw [hpu] at this; exact this
        | threw => rw [hpu] at this; exact this
        | ub => rw [hpu] at this; exact this
    · intro o ho; simp only [setPc] at ho; rw [hi] at ho; cases ho
    · intro _; right; exact ⟨t, by simp [setPc, h0]⟩
  | created o =>
    rw [hp] at hs hok; simp only [Option.some.injEq] at hs; subst hs
    obtain ⟨rfl, hi, h1⟩ := hok
    refine ⟨h.notDestroyed, ?_, ?_, ?_, ?_⟩
    · intro u
      by_cases hu : u = t
      · subst hu
        simp only [setPc, if_true, crit]; rw [hp] at hown; simpa [crit] using hown
      · simp only [setPc, hu, if_false]; exact h.owner u
    · intro u
      by_cases hu : u = t
      · simp [setPc, hu, Ok]
      · have hno : ¬ crit (s.pc u) = true := fun hcr => hu (uniq u (by simp [hp, crit]) hcr)
        have := h.ok u
        simp only [setPc, hu, if_false]
        cases hpu : s.pc u with
        | loaded x => cases x with
          | none => trivial
          | some _ => simp [Ok]
        | loaded2 x => rw [hpu] at hno; simp [crit] at hno
        | creating => rw [hpu] at hno; simp [crit] at hno
        | created x => rw [hpu] at hno; simp [crit] at hno
        | idle => trivial
        | start => trivial
        | wantLock => trivial
        | locked => trivial
        | unlocking => simp [Ok]
        | unlockThrow => rw [hpu] at this; exact this
        | returning => simp [Ok]
        | done o => rw [hpu] at this; exact ⟨this.1, rfl⟩
        | threw => rw [hpu] at this; exact this
        | ub => rw [hpu] at this; exact this
    · intro o ho
      simp only [setPc, Option.some.injEq] at ho
      exact ⟨ho.symm, h1⟩
    · intro hn; simp [setPc] at hn
  | unlocking =>
    rw [hp] at hs hok
    simp only [hc, if_true, Option.some.injEq] at hs; subst hs
    refine ⟨h.notDestroyed, ?_, ?_, h.some', ?_⟩
    · intro u
      by_cases hu : u = t
      · subst hu; simp [setPc, crit]
      · have hno : ¬ crit (s.pc u) = true := fun hcr => hu (uniq u (by simp [hp, crit]) hcr)
        simp [setPc, hu, hno]
    · intro u
      by_cases hu : u = t
      · simp only [setPc, hu, if_true]; exact hok
      · simp only [setPc, hu, if_false]; exact h.ok u
    · intro hn
      simp only [setPc] at hn
      simp only [Ok] at hok
      rw [hok] at hn; cases hn
  | unlockThrow => rw [hp] at hok; exact hok.elim
  | returning =>
    rw [hp] at hs hok
    simp only [Ok] at hok
    simp only [hok, Option.some.injEq] at hs; subst hs
    exact inv_local h t _ (by simp [hp, crit]) ⟨rfl, hok⟩ (by simp [hp])
  | done o =>
    rw [hp] at hs; simp only [Option.some.injEq] at hs; subst hs
    exact inv_local h t _ (by simp [hp, crit]) trivial (by simp [hp])
  | threw => rw [hp] at hok; exact hok.elim
  | ub => rw [hp] at hok; exact hok.elim

theorem reach_inv {c : Cfg} (hc : c.useLock = true) {s : State} (h : Reach c s) : Inv s := by
  induction h with
  | init => exact inv_init
  | step t _ hs ih => exact inv_step hc ih t hs

/-- C27. With a locking threading model, in every interleaving of any number of threads
calling `instance()` any number of times (before program exit): at most one object is ever
created, every call that returns refers to that one object, no call throws and none
dereferences `NULL`. -/
theorem c27_single_instance {c : Cfg} (hc : c.useLock = true) {s : State} (h : Reach c s) :
    s.count ≤ 1 ∧ (∀ t o, s.pc t = .done o → o = 0 ∧ s.count = 1 ∧ s.inst = some o) ∧
    (∀ t, s.pc t ≠ .threw ∧ s.pc t ≠ .ub) ∧
    (∀ t u, crit (s.pc t) = true → crit (s.pc u) = true → t = u) := by
  have hi := reach_inv hc h
  refine ⟨?_, ?_, ?_, ?_⟩
  · cases hn : s.inst with
    | some o => rw [(hi.some' o hn).2]; exact Nat.le_refl _
    | none =>
      rcases hi.none' hn with h0 | ⟨t, ht⟩
      · omega
      · have := hi.ok t; rw [ht] at this; simp only [Ok] at this; omega
  · intro t o ht
    have := hi.ok t
    rw [ht] at this
    obtain ⟨rfl, hs⟩ := this
    exact ⟨rfl, (hi.some' 0 hs).2, hs⟩
  · intro t
    refine ⟨fun e => ?_, fun e => ?_⟩ <;> (have := hi.ok t; rw [e] at this; exact this)
  · intro t u ht hu
    have h1 := (hi.owner t).1 ht
    have h2 := (hi.owner u).1 hu
    rw [h1] at h2; injection h2

/-- C27. No deadlock: whenever a thread is inside `instance()`, that thread or the thread
holding the lock can take a step. -/
theorem c27_no_deadlock {c : Cfg} (hc : c.useLock = true) {s : State} (h : Reach c s) (t : Nat) :
    (step c s t).isSome = true ∨ ∃ u, s.lock = some u ∧ (step c s u).isSome = true := by
  have hi := reach_inv hc h
  have key : ∀ u, s.pc u ≠ .wantLock → s.pc u ≠ .ub → (step c s u).isSome = true := by
    intro u h1 h2
    unfold step
    cases hp : s.pc u with
    | wantLock => exact absurd hp h1
    | ub => exact absurd hp h2
    | loaded x => cases x <;> rfl
    | loaded2 x =>
      cases x with
      | some _ => rfl
      | none =>
        simp only
        by_cases h1 : s.destroyed = true
        · by_cases h2 : c.deadThrows = true <;> simp [h1, h2]
        · simp [h1]
    | returning => simp only; split <;> rfl
    | _ => rfl
  have hub : ∀ u, s.pc u ≠ .ub := fun u e => by have := hi.ok u; rw [e] at this; exact this
  by_cases hw : s.pc t = .wantLock
  · cases hl : s.lock with
    | none => left; simp [step, hw, hc, hl]
    | some u =>
      right
      refine ⟨u, rfl, key u ?_ (hub u)⟩
      intro e
      have := (hi.owner u).2 hl
      rw [e] at this; cases this
  · exact Or.inl (key t hw (hub t))

/-- Two calls by two threads, one after the other, both get object 0. -/
example : ((exec ⟨true, true⟩ init
    (List.replicate 9 (.thread 0) ++ [.thread 1, .thread 1, .thread 0, .thread 1, .thread 1])).map
      fun s => (s.pc 0, s.pc 1, s.count)) = some (.done 0, .done 0, 1) := by decide

/-- C27 needs the lock: with the single-threaded model two threads create two objects and
return different ones. -/
theorem c27_single_threaded_model_unsafe :
    ∃ sched s, exec ⟨false, true⟩ init sched = some s ∧ s.count = 2 ∧
      s.pc 0 = .done 0 ∧ s.pc 1 = .done 1 := by
  refine ⟨List.replicate 7 (.thread 0) ++ List.replicate 7 (.thread 1) ++
    [.thread 0, .thread 0, .thread 0, .thread 1, .thread 1, .thread 1], _, rfl, ?_⟩
  decide

/-- C27. Destruction at program exit is not synchronised: a thread that has passed the first
check when `destroySingleton` runs dereferences `NULL`. -/
theorem c27_destroy_race :
    ∃ sched s, exec ⟨true, true⟩ init sched = some s ∧ s.pc 1 = .ub := by
  refine ⟨List.replicate 10 (.thread 0) ++ List.replicate 3 (.thread 1) ++ [.destroy, .thread 1], _, rfl, ?_⟩
  decide

/-- C27. Calls made by one thread after the destruction throw `std::logic_error` under the
default lifetime policy. -/
theorem c27_dead_reference (t : Nat) (s : State) (h : s.destroyed = true) (hn : s.inst = none)
    (hl : s.lock = none) (hp : s.pc t = .idle) :
    ∃ s', exec ⟨true, true⟩ s (List.replicate 7 (.thread t)) = some s' ∧ s'.pc t = .threw ∧
      s'.count = s.count ∧ s'.lock = none := by
  refine ⟨_, by simp [exec, act, step, setPc, hp, hn, hl, h, List.replicate]; rfl, ?_⟩
  simp

/-- C27. From any state in which no call is in progress: after the destruction the next call, by
any thread, throws under the default lifetime policy, and creates nothing. -/
theorem c27_call_after_destroy (t : Nat) (s : State) (hl : s.lock = none) (hp : s.pc t = .idle) :
    ∃ s', exec ⟨true, true⟩ s (.destroy :: List.replicate 7 (.thread t)) = some s' ∧ s'.pc t = .threw ∧
      s'.count = s.count ∧ s'.inst = none ∧ s'.lock = none := by
  refine ⟨_, by simp [exec, act, step, destroy, setPc, hp, hl, List.replicate]; rfl, ?_⟩
  simp

/-- C27. Under the lifetime policy that tolerates dead references the next call creates a new
object and returns it, and later calls of all threads return this object and create nothing,
and the object counts as alive again. -/
theorem c27_resurrection (t u : Nat) (hu : u ≠ t) (s : State) (hl : s.lock = none)
    (hp : s.pc t = .idle) (hq : s.pc u = .idle) :
    ∃ s', exec ⟨true, false⟩ s (.destroy :: List.replicate 10 (.thread t)) = some s' ∧
      s'.pc t = .done s.count ∧ s'.count = s.count + 1 ∧ s'.inst = some s.count ∧
      s'.destroyed = false ∧ s'.lock = none ∧
      ∃ s'', exec ⟨true, false⟩ s' (List.replicate 4 (.thread u)) = some s'' ∧
        s''.pc u = .done s.count ∧ s''.count = s.count + 1 := by
  refine ⟨_, by simp [exec, act, step, destroy, setPc, hp, hl, List.replicate]; rfl, ?_⟩
  simp [exec, act, step, setPc, hu, hq, List.replicate]

/-- The states the last two theorems are about occur: after a completed call. -/
example : ∃ s, exec ⟨true, true⟩ init (List.replicate 10 (.thread 0)) = some s ∧
    s.inst = some 0 ∧ s.lock = none ∧ s.pc 0 = .done 0 ∧ s.pc 1 = .idle := by
  refine ⟨_, rfl, ?_⟩
  decide

end Verif.Singleton
