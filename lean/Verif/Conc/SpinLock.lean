import Verif.Base

/-!
# Model of `icl_core_thread/SpinLock.h`, `ScopedSpinLock.h` and properties (C51, C52)

One action = one atomic exchange or store; sequentially consistent.
-/
namespace Verif.SpinLock

/-- SpinLock.h:71-77 `enum LockState`. -/
inductive LockState where
  | locked | unlocked
  deriving DecidableEq, Repr

/-- SpinLock.h:50 one evaluation of the loop condition in `lock()`: new state and whether
the loop goes on. -/
def lockOnce (s : LockState) : LockState × Bool := (.locked, s == .locked)

/-- SpinLock.h:60-63 `tryLock()`: new state and returned value. -/
def tryLock (s : LockState) : LockState × Bool := (.locked, s == .locked)

/-- SpinLock.h:66-69 `unlock()`. -/
def unlock (_s : LockState) : LockState := .unlocked

/-- Where a client thread is. -/
inductive PC where
  /-- not using the lock -/
  | out
  /-- inside `lock()` (or the constructor of ScopedSpinLock, ScopedSpinLock.h:44-47) -/
  | spinning
  /-- the critical section: `lock()` returned, or `tryLock()` returned `true` -/
  | inside
  deriving DecidableEq, Repr

/-- The lock word and all threads. -/
structure State where
  word : LockState
  pc : Nat → PC

/-- SpinLock.h:37-40 constructor. -/
def init : State := ⟨.unlocked, fun _ => .out⟩

/-- Move one thread. -/
def setPc (s : State) (t : Nat) (p : PC) : State := { s with pc := fun u => if u = t then p else s.pc u }

/-- What a well-behaved client thread can do. -/
inductive Act where
  /-- call `lock()` -/
  | callLock (t : Nat)
  /-- one iteration of the loop in `lock()` -/
  | spin (t : Nat)
  /-- call `tryLock()` -/
  | tryLock (t : Nat)
  /-- leave the critical section, `unlock()` (or the destructor of ScopedSpinLock,
  ScopedSpinLock.h:52-55) -/
  | unlock (t : Nat)
  deriving DecidableEq, Repr

/-- One action; `none` if the client is not in a position to do it. `ok` is how the client
reads the result of `tryLock`: `id` for a client that follows the documentation. -/
def step (ok : Bool → Bool) (s : State) : Act → Option State
  | .callLock t => if s.pc t = .out then some (setPc s t .spinning) else none
  | .spin t =>
    if s.pc t = .spinning then
      let r := lockOnce s.word
      some (setPc { s with word := r.1 } t (if r.2 then .spinning else .inside))
    else none
  | .tryLock t =>
    if s.pc t = .out then
      let r := tryLock s.word
      some (setPc { s with word := r.1 } t (if ok r.2 then .inside else .out))
    else none
  | .unlock t => if s.pc t = .inside then some (setPc { s with word := unlock s.word } t .out) else none

/-- Is the action a `tryLock`? -/
def Act.isTry : Act → Bool
  | .tryLock _ => true
  | _ => false

/-- Run a schedule. -/
def exec (ok : Bool → Bool) (s : State) : List Act → Option State
  | [] => some s
  | a :: as => (step ok s a).bind fun s' => exec ok s' as

/-- The invariant of clients using only `lock`/`unlock`. -/
structure Inv (s : State) : Prop where
  unique : ∀ t u, s.pc t = .inside → s.pc u = .inside → t = u
  word : s.word = .locked ↔ ∃ t, s.pc t = .inside

theorem inv_init : Inv init := ⟨by simp [init], by simp [init]⟩

theorem inv_step {ok : Bool → Bool} {s s' : State} (h : Inv s) (a : Act)
    (ha : a.isTry = false ∨ ok = not) (hs : step ok s a = some s') : Inv s' := by
  obtain ⟨h1, h2⟩ := h
  cases a with
  | tryLock t =>
    have hok : ok = not := by rcases ha with ha | ha; cases ha; exact ha
    subst hok
    simp only [step, tryLock] at hs
    split at hs <;> cases hs
    constructor
    · simp only [setPc]; grind
    · simp only [setPc]; grind
  | callLock t =>
    simp only [step] at hs
    split at hs <;> cases hs
    constructor
    · simp only [setPc]; grind
    · simp only [setPc]; grind
  | spin t =>
    simp only [step, lockOnce] at hs
    split at hs <;> cases hs
    constructor
    · simp only [setPc]; grind
    · simp only [setPc]; grind
  | unlock t =>
    simp only [step, unlock] at hs
    split at hs <;> cases hs
    constructor
    · simp only [setPc]; grind
    · simp only [setPc]; grind

theorem inv_exec {ok : Bool → Bool} (as : List Act) : ∀ (s s' : State), Inv s →
    (∀ a ∈ as, a.isTry = false ∨ ok = not) → exec ok s as = some s' → Inv s' := by
  induction as with
  | nil => intro s s' h _ hs; cases hs; exact h
  | cons a as ih =>
    intro s s' h ha hs
    simp only [exec] at hs
    cases hst : step ok s a with
    | none => rw [hst] at hs; cases hs
    | some s1 =>
      rw [hst] at hs
      exact ih s1 s' (inv_step h a (ha a (by simp)) hst) (fun b hb => ha b (by simp [hb])) hs

/-- C51. With `lock()`/`unlock()` used in pairs (also through `ScopedSpinLock`), in every
interleaving at most one thread is in the critical section. -/
theorem c51_mutual_exclusion (ok : Bool → Bool) (as : List Act) (s : State) (ha : ∀ a ∈ as, a.isTry = false)
    (h : exec ok init as = some s) (t u : Nat) (ht : s.pc t = .inside) (hu : s.pc u = .inside) : t = u :=
  (inv_exec as init s inv_init (fun a h => Or.inl (ha a h)) h).unique t u ht hu

/-- C51. A released lock can be taken: whenever nobody is in the critical section, the next
iteration of any waiting thread succeeds; and while somebody is inside, it does not. -/
theorem c51_progress (ok : Bool → Bool) (as : List Act) (s : State) (ha : ∀ a ∈ as, a.isTry = false)
    (h : exec ok init as = some s) (t : Nat) (ht : s.pc t = .spinning) :
    ∃ s', step ok s (.spin t) = some s' ∧ (s'.pc t = .inside ↔ ∀ u, s.pc u ≠ .inside) := by
  have hi := inv_exec as init s inv_init (fun a h => Or.inl (ha a h)) h
  refine ⟨_, by simp only [step, ht, if_true]; rfl, ?_⟩
  simp only [setPc, if_true, lockOnce]
  cases hw : s.word with
  | locked =>
    obtain ⟨u, hu⟩ := hi.word.1 hw
    simp only [beq_self_eq_true, if_true]
    exact ⟨fun h => (by cases h), fun h => absurd hu (h u)⟩
  | unlocked =>
    simp only [show (LockState.unlocked == LockState.locked) = false from rfl, Bool.false_eq_true, if_false,
      true_iff]
    intro u hu
    have := hi.word.2 ⟨u, hu⟩
    rw [hw] at this; cases this

example : ∃ s, exec id init [.callLock 0, .callLock 1, .spin 1, .spin 0, .unlock 1, .spin 0] = some s ∧
    s.pc 0 = .inside ∧ s.pc 1 = .out := ⟨_, rfl, by decide⟩

/-- C52, the part that holds: `tryLock` never blocks and does acquire a free lock; a client
that reads its result *inverted* enters the critical section exactly when it got the lock, so
that mutual exclusion holds in every interleaving of `lock`, `tryLock` and `unlock`.
Missing: the result as documented, see `c52_result_inverted`. -/
theorem c52_inverted_reading_partial (as : List Act) (s : State) (h : exec not init as = some s) :
    (∀ t u, s.pc t = .inside → s.pc u = .inside → t = u) ∧
    ∀ t, s.pc t = .out → ∃ s', step not s (.tryLock t) = some s' ∧
      (s'.pc t = .inside ↔ ∀ u, s.pc u ≠ .inside) := by
  have hi := inv_exec as init s inv_init (fun _ _ => Or.inr rfl) h
  refine ⟨hi.unique, fun t ht => ⟨_, by simp only [step, ht, if_true]; rfl, ?_⟩⟩
  have hw := hi.word
  simp only [setPc, if_true, tryLock]
  grind

/-- C52 is violated: `tryLock` returns `true` exactly when the lock was already held by
somebody (so that the caller did *not* get it), and `false` exactly when the caller just
acquired it. -/
theorem c52_result_inverted (s : LockState) : (tryLock s).2 = true ↔ s = .locked := by
  cases s <;> simp [tryLock]

/-- C52. Consequence one: two threads that use `tryLock` as documented are both in the
critical section. -/
theorem c52_two_inside : ∃ s, exec id init [.callLock 0, .spin 0, .tryLock 1] = some s ∧
    s.pc 0 = .inside ∧ s.pc 1 = .inside := ⟨_, rfl, by decide⟩

/-- C52. Consequence two: after a `tryLock` on a free lock (which reports failure) the lock
is lost: from then on no thread that uses only `lock`/`unlock` ever enters the critical
section again. -/
theorem c52_lock_lost (as : List Act) (s : State) (ha : ∀ a ∈ as, a.isTry = false)
    (h : exec id init (.tryLock 0 :: as) = some s) (t : Nat) : s.pc t ≠ .inside := by
  have key : ∀ (as : List Act) (s0 s : State), s0.word = .locked → (∀ t, s0.pc t ≠ .inside) →
      (∀ a ∈ as, a.isTry = false) → exec id s0 as = some s → ∀ t, s.pc t ≠ .inside := by
    intro as
    induction as with
    | nil => intro s0 s _ hp _ he; cases he; exact hp
    | cons a as ih =>
      intro s0 s hw hp ha he
      simp only [exec] at he
      cases hst : step id s0 a with
      | none => rw [hst] at he; cases he
      | some s1 =>
        rw [hst] at he
        have hn := ha a (by simp)
        have : s1.word = .locked ∧ ∀ t, s1.pc t ≠ .inside := by
          cases a with
          | tryLock t => cases hn
          | callLock t =>
            simp only [step] at hst
            split at hst <;> cases hst
            exact ⟨hw, by simp only [setPc]; grind⟩
          | spin t =>
            simp only [step, lockOnce, hw] at hst
            split at hst <;> cases hst
            exact ⟨rfl, by simp only [setPc]; grind⟩
          | unlock t =>
            simp only [step, hp t, if_false] at hst; cases hst
        exact ih s1 s this.1 this.2 (fun b hb => ha b (by simp [hb])) he
  simp only [exec] at h
  exact key as _ s rfl (by intro t; simp [setPc, init, tryLock]) ha h t

end Verif.SpinLock
