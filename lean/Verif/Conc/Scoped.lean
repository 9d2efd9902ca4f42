import Verif.Base

/-!
# Scoped locks: `ScopedMutexLock.cpp`, `ScopedRWLock.cpp` (C55)

The underlying lock is represented by the results of its successive `lock()` calls, which are
arbitrary (a `lock()` may fail for any reason).
-/
namespace Verif.Scoped

/-- Calls made on the underlying lock. -/
inductive Call where
  /-- `Mutex::lock()`, `RWLock::readLock()` or `RWLock::writeLock()` with its result -/
  | lock (kind : Nat) (result : Bool)
  | unlock
  deriving DecidableEq, Repr

/-- Which lock function is called: `Mutex::lock`, `RWLock::readLock`, `RWLock::writeLock`. -/
inductive Kind where
  | mutex | read | write
  deriving DecidableEq, Repr

/-- Number used in the call trace. -/
def Kind.code : Kind → Nat
  | .mutex => 0
  | .read => 1
  | .write => 2

/-- ScopedMutexLock.cpp:30-38 and ScopedRWLock.cpp:30-41: the constructor's `do … while`.
`res n` is the result of the `n`-th `lock()` call; `fuel` bounds the number of iterations
looked at, `none` = still looping. Returns `m_is_locked` and the number of calls made. -/
def ctorLoop (force : Bool) (res : Nat → Bool) : Nat → Nat → Option (Bool × Nat)
  | 0, _ => none
  | fuel + 1, n =>
    let isLocked := res n
    if force && !isLocked then ctorLoop force res fuel (n + 1) else some (isLocked, n + 1)

/-- The constructor. -/
def ctor (force : Bool) (res : Nat → Bool) (fuel : Nat) : Option (Bool × Nat) := ctorLoop force res fuel 0

/-- ScopedMutexLock.cpp:40-46, ScopedRWLock.cpp:43-49: the destructor. -/
def dtor (isLocked : Bool) : List Call := if isLocked then [.unlock] else []

/-- All calls made during the life of a scoped lock whose constructor made `n` calls. -/
def life (k : Kind) (res : Nat → Bool) (r : Bool × Nat) : List Call :=
  (List.range r.2).map (fun i => .lock k.code (res i)) ++ dtor r.1

theorem ctorLoop_spec (force : Bool) (res : Nat → Bool) (fuel : Nat) : ∀ (n : Nat) (r : Bool × Nat),
    ctorLoop force res fuel n = some r →
    ∃ m, r.2 = n + m + 1 ∧ r.1 = res (n + m) ∧ (force = true → r.1 = true) ∧ (force = false → m = 0) ∧
      ∀ i, i < m → res (n + i) = false := by
  induction fuel with
  | zero => intro n r h; cases h
  | succ fuel ih =>
    intro n r h
    simp only [ctorLoop] at h
    split at h
    · next hc =>
      simp only [Bool.and_eq_true, Bool.not_eq_true'] at hc
      obtain ⟨m, h1, h2, h3, h4, h5⟩ := ih (n + 1) r h
      refine ⟨m + 1, by omega, by rw [h2]; congr 1; omega, h3, fun hf => by simp [hf] at hc, ?_⟩
      intro i hi
      cases i with
      | zero => exact hc.2
      | succ i => have := h5 i (by omega); rw [← this]; congr 1; omega
    · next hc =>
      cases h
      refine ⟨0, rfl, rfl, ?_, fun _ => rfl, fun i hi => absurd hi (Nat.not_lt_zero i)⟩
      intro hf
      simpa [hf] using hc

/-- C55. Whatever the results of the underlying calls: over the whole life of a scoped lock,
the number of `unlock()` calls equals the number of successful `lock()` calls and is 1 exactly
if `isLocked()`; every `lock()` call but the last one failed; with `force` the lock is held
after construction, without `force` exactly one attempt is made. -/
theorem c55_balanced (k : Kind) (force : Bool) (res : Nat → Bool) (fuel : Nat) (r : Bool × Nat)
    (h : ctor force res fuel = some r) :
    (life k res r).count .unlock = (life k res r).countP (fun c => c == .lock k.code true) ∧
    ((life k res r).count .unlock = if r.1 then 1 else 0) ∧
    (r.1 = res (r.2 - 1)) ∧ (force = true → r.1 = true) ∧ (force = false → r.2 = 1) := by
  obtain ⟨m, h1, h2, h3, h4, h5⟩ := ctorLoop_spec force res fuel 0 r h
  simp only [Nat.zero_add] at h1 h2 h5
  have hu : (life k res r).count .unlock = if r.1 then 1 else 0 := by
    have : ∀ (l : List Nat), (l.map (fun i => Call.lock k.code (res i))).count .unlock = 0 := by
      intro l; induction l with
      | nil => rfl
      | cons a l ih => simp [List.count_cons, ih]
    simp only [life, List.count_append, this, dtor]
    cases r.1 <;> rfl
  have hl : (life k res r).countP (fun c => c == .lock k.code true) = if r.1 then 1 else 0 := by
    have : ∀ (l : List Nat), (∀ i ∈ l, res i = false) →
        (l.map (fun i => Call.lock k.code (res i))).countP (fun c => c == .lock k.code true) = 0 := by
      intro l; induction l with
      | nil => intro _; rfl
      | cons a l ih =>
        intro hl
        simp only [List.map_cons, List.countP_cons, ih (fun i hi => hl i (by simp [hi])), hl a (by simp)]
        simp
    simp only [life, List.countP_append, h1, List.range_succ, List.map_append]
    rw [this _ (fun i hi => h5 i (List.mem_range.1 hi)), h2]
    cases hr : res m <;> simp [dtor, List.countP_cons, hr]
  exact ⟨by rw [hu, hl], hu, by rw [h2, h1]; rfl, h3, fun hf => by rw [h1, h4 hf]⟩

/-- C55. The constructor terminates exactly when it should: always without `force`; with
`force` iff some `lock()` call succeeds. -/
theorem c55_terminates (force : Bool) (res : Nat → Bool) :
    (∃ fuel r, ctor force res fuel = some r) ↔ (force = false ∨ ∃ n, res n = true) := by
  constructor
  · rintro ⟨fuel, r, h⟩
    obtain ⟨m, h1, h2, h3, h4, h5⟩ := ctorLoop_spec force res fuel 0 r h
    cases hf : force with
    | false => exact Or.inl rfl
    | true => exact Or.inr ⟨0 + m, by rw [← h2]; exact h3 hf⟩
  · intro h
    cases hf : force with
    | false => exact ⟨1, (res 0, 1), by simp [ctor, ctorLoop]⟩
    | true =>
      obtain ⟨n, hn⟩ : ∃ n, res n = true := by
        rcases h with h | h
        · rw [hf] at h; cases h
        · exact h
      have key : ∀ (d j : Nat), res (j + d) = true → ∃ r, ctorLoop true res (d + 1) j = some r := by
        intro d
        induction d with
        | zero => intro j hj; exact ⟨(res j, j + 1), by simp [ctorLoop] at *; simp [hj]⟩
        | succ d ih =>
          intro j hj
          cases hr : res j with
          | true => exact ⟨(true, j + 1), by rw [ctorLoop]; simp [hr]⟩
          | false =>
            obtain ⟨r, hr'⟩ := ih (j + 1) (by rw [show j + 1 + d = j + (d + 1) by omega]; exact hj)
            exact ⟨r, by rw [ctorLoop]; simp [hr]; exact hr'⟩
      obtain ⟨r, hr⟩ := key n 0 (by simpa using hn)
      exact ⟨n + 1, r, hr⟩

/-- Two failures, then success, with `force`. -/
example : ctor true (fun n => n == 2) 5 = some (true, 3) := by decide
example : life .read (fun n => n == 2) (true, 3) =
    [.lock 1 false, .lock 1 false, .lock 1 true, .unlock] := by decide

end Verif.Scoped
