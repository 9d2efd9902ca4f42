import Verif.Conc.MutexLxrt

/-!
# C102: mutexes under LXRT; C86 for the semaphores of RTAI 3.8
-/
namespace Verif.Conc.Lxrt

/-- Time-outs and errors are larger than the counts of a binary semaphore. -/
structure Good (k : Rtai) : Prop where
  one : 1 < k.timout
  err : k.timout ≤ k.err

/-- The state of a mutex and the tasks that hold it. -/
def Inv (s : Sem) (H : Nat → Bool) : Prop :=
  s.bin = true ∧ ((s.count = 1 ∧ ∀ t, H t = false) ∨ (s.count = 0 ∧ ∃ t, H t = true ∧ ∀ u, u ≠ t → H u = false))

/-- One event in the view of the tasks. -/
def after (H : Nat → Bool) (r : Rec) : Nat → Bool := fun t => holds t (H t) [r]

theorem holds_cons (t : Nat) (b : Bool) (r : Rec) (rs : List Rec) : holds t b (r :: rs) = holds t (holds t b [r]) rs := by
  obtain ⟨e, x⟩ := r
  cases e <;> rfl

theorem holds_append (t : Nat) (b : Bool) (a c : List Rec) : holds t b (a ++ c) = holds t (holds t b a) c := by
  induction a generalizing b with
  | nil => rfl
  | cons r a ih => rw [List.cons_append, holds_cons, holds_cons t b r a, ih]

theorem step_inv {k : Rtai} (hk : Good k) {s s' : Sem} {f : Fate} {e : Ev} {r : Rec} {H : Nat → Bool}
    (h : step k s f e = some (s', r)) (hi : Inv s H) (hd : ∀ t x, r = ⟨.post t, x⟩ → H t = true) : Inv s' (after H r) := by
  obtain ⟨hb, hi⟩ := hi
  have h1 := hk.one
  have h2 := hk.err
  cases e with
  | post t =>
    simp only [step, Option.some.injEq, Prod.mk.injEq] at h
    obtain ⟨rfl, rfl⟩ := h
    refine ⟨hb, Or.inl ⟨by simp [Sem.signal, hb], ?_⟩⟩
    have ht := hd t false rfl
    rcases hi with ⟨_, hi⟩ | ⟨_, v, hv, hu⟩
    · rw [hi t] at ht; cases ht
    · intro u
      simp only [after, holds]
      split
      · rfl
      · next hne =>
        have : v = t := by
          by_cases hvt : t = v
          · exact hvt.symm
          · rw [hu t hvt] at ht; cases ht
        subst this
        exact hu u (Ne.symm hne)
  | acquire t hw =>
    simp only [step, Option.map_eq_some_iff, Prod.exists, Prod.mk.injEq] at h
    obtain ⟨s1, res, ha, rfl, rfl⟩ := h
    -- either nothing happened and the result is false, or the free mutex was taken and it is true
    have key : (s1 = s ∧ result k hw res = false) ∨ (s.count = 1 ∧ s1 = { s with count := 0 } ∧ result k hw res = true) := by
      have hc : s.count = 0 ∨ s.count = 1 := by rcases hi with ⟨h, _⟩ | ⟨h, _⟩ <;> simp [h]
      have one : ((1 : Nat) : Int) = 1 := rfl
      cases hw <;> simp only [Sem.acquire] at ha <;> rcases hc with hc | hc <;> cases hfail : f.fail <;>
        cases hwoken : f.woken <;> simp [hc, hfail, hwoken] at ha <;> (obtain ⟨rfl, rfl⟩ := ha) <;>
        simp [result, hc] <;> omega
    rcases key with ⟨rfl, hr⟩ | ⟨hc, rfl, hr⟩
    · have : after H ⟨.acquire t hw, result k hw res⟩ = H := by
        funext u; simp [after, holds, hr]
      rw [this]; exact ⟨hb, hi⟩
    · refine ⟨hb, Or.inr ⟨rfl, t, by simp [after, holds, hr], ?_⟩⟩
      intro u hu
      rcases hi with ⟨_, hi⟩ | ⟨h0, _⟩
      · simp [after, holds, hr, Ne.symm hu, hi u]
      · omega

theorem run_inv {k : Rtai} (hk : Good k) {s s' : Sem} {rs : List Rec} {H : Nat → Bool} (h : Run k s rs s') (hi : Inv s H)
    (hd : ∀ a t x b, rs = a ++ ⟨.post t, x⟩ :: b → holds t (H t) a = true) : Inv s' (fun t => holds t (H t) rs) := by
  induction h generalizing H with
  | nil s => exact hi
  | @cons s s1 s2 f e r rs hs _ ih =>
    have h1 := step_inv hk hs hi (fun t x hr => by
      have := hd [] t x rs (by simp [hr])
      simpa [holds] using this)
    have h2 := ih h1 (fun a t x b hab => by
      have := hd (r :: a) t x b (by simp [hab])
      rw [holds_cons] at this
      exact this)
    have : (fun t => holds t (H t) (r :: rs)) = fun t => holds t (after H r t) rs := by
      funext t; rw [holds_cons]; rfl
    rw [this]; exact h2

theorem mutex_inv {k : Rtai} (hk : Good k) {s : Sem} {rs : List Rec} (h : Run k newMutex rs s) (hd : Disciplined rs) :
    Inv s (fun t => holds t false rs) :=
  run_inv hk h (H := fun _ => false) ⟨rfl, Or.inl ⟨rfl, fun _ => rfl⟩⟩ hd

/-- C102 (partial): mutual exclusion for all histories of tasks that unlock only what they hold.
Missing: the mutex does not know its owner, `c102_foreign_unlock`. -/
theorem c102_mutual_exclusion_partial {k : Rtai} (hk : Good k) {s : Sem} {rs : List Rec} (h : Run k newMutex rs s)
    (hd : Disciplined rs) {t u : Nat} (ht : holds t false rs = true) (hu : holds u false rs = true) : t = u := by
  rcases (mutex_inv hk h hd).2 with ⟨_, hi⟩ | ⟨_, v, _, hv⟩
  · simp [hi t] at ht
  · have h1 : t = v := by
      by_cases hh : t = v
      · exact hh
      · simp [hv t hh] at ht
    have h2 : u = v := by
      by_cases hh : u = v
      · exact hh
      · simp [hv u hh] at hu
    rw [h1, h2]

/-- C102: the outcome of the next request of any task is decided by whether anybody holds the
mutex: free, it is given with `true`; held, `lock()` blocks and the others return `false`. -/
theorem c102_next_request {k : Rtai} (hk : Good k) {s : Sem} {rs : List Rec} (h : Run k newMutex rs s) (hd : Disciplined rs)
    (t : Nat) (hw : How) (woken : Bool) :
    ((∀ u, holds u false rs = false) → ∃ s', step k s ⟨woken, false⟩ (.acquire t hw) = some (s', ⟨.acquire t hw, true⟩))
      ∧ ((∃ u, holds u false rs = true) →
        step k s ⟨woken, false⟩ (.acquire t hw) = if hw = .wait then none else some (s, ⟨.acquire t hw, false⟩)) := by
  have h1 := hk.one
  rcases (mutex_inv hk h hd).2 with ⟨hc, hi⟩ | ⟨hc, v, hv, _⟩
  · constructor
    · intro _
      cases hw <;> cases woken <;> simp [step, Sem.acquire, hc, result] <;> omega
    · rintro ⟨u, hu⟩; simp [hi u] at hu
  · constructor
    · intro hn; simp [hn v] at hv
    · intro _
      cases hw <;> simp [step, Sem.acquire, hc, result]

theorem run_append {k : Rtai} {s s' s'' : Sem} {a b : List Rec} (h : Run k s a s') (h' : Run k s' b s'') :
    Run k s (a ++ b) s'' := by
  induction h with
  | nil s => exact h'
  | cons hs _ ih => exact .cons hs (ih h')

/-- The task of an entry. -/
def Rec.task (r : Rec) : Nat :=
  match r.ev with
  | .acquire t _ => t
  | .post t => t

theorem holds_other {t : Nat} {b : Bool} {rs : List Rec} (h : ∀ r ∈ rs, r.task ≠ t) : holds t b rs = b := by
  induction rs generalizing b with
  | nil => rfl
  | cons r rs ih =>
    rw [holds_cons, ih (fun r' hr => h r' (by simp [hr]))]
    have := h r (by simp)
    obtain ⟨e, x⟩ := r
    cases e <;> simp [Rec.task] at this <;> simp [holds, this]

/-- C102, finding: the mutex is not recursive. A task that locks a mutex it holds waits for ever:
whatever the other (disciplined) tasks do, its `lock()` never returns. The POSIX and Windows
mutexes are recursive (`c85_recursive`). -/
theorem c102_relock_deadlock {k : Rtai} (hk : Good k) {s s' : Sem} {rs rs' : List Rec} (h : Run k newMutex rs s)
    (h' : Run k s rs' s') (hd : Disciplined (rs ++ rs')) (t : Nat) (ht : holds t false rs = true)
    (ho : ∀ r ∈ rs', r.task ≠ t) (woken : Bool) : step k s' ⟨woken, false⟩ (.acquire t .wait) = none := by
  have := (c102_next_request hk (run_append h h') hd t .wait woken).2 ⟨t, by rw [holds_append, holds_other ho, ht]⟩
  simpa using this

/-- Violation: `unlock()` by a task that does not hold the mutex frees it; two tasks hold it then. -/
theorem c102_foreign_unlock {k : Rtai} (hk : Good k) {t u v : Nat} (_hut : u ≠ t) (hvt : v ≠ t) (_huv : u ≠ v) :
    ∃ s, Run k newMutex [⟨.acquire t .wait, true⟩, ⟨.post v, false⟩, ⟨.acquire u .try_, true⟩] s
      ∧ holds t false [⟨.acquire t .wait, true⟩, ⟨.post v, false⟩, ⟨.acquire u .try_, true⟩] = true
      ∧ holds u false [⟨.acquire t .wait, true⟩, ⟨.post v, false⟩, ⟨.acquire u .try_, true⟩] = true := by
  have h1 := hk.one
  refine ⟨⟨true, 0⟩, ?_, ?_, ?_⟩
  · refine .cons (s' := ⟨true, 0⟩) (f := ⟨false, false⟩) (e := .acquire t .wait) ?_ ?_
    · simp [step, Sem.acquire, newMutex, result]; omega
    · refine .cons (s' := ⟨true, 1⟩) (f := ⟨false, false⟩) (e := .post v) rfl ?_
      refine .cons (s' := ⟨true, 0⟩) (f := ⟨false, false⟩) (e := .acquire u .try_) ?_ (.nil _)
      simp [step, Sem.acquire, result]; omega
  · simp [holds, hvt]
  · simp [holds]

/-- C102: an error of RTAI is reported as failure iff `SEM_ERR` is not below `SEM_TIMOUT`; else
`lock()` reports success without taking the mutex. -/
theorem c102_error_exact (k : Rtai) (s : Sem) (t : Nat) (woken : Bool) :
    step k s ⟨woken, true⟩ (.acquire t .wait) = some (s, ⟨.acquire t .wait, decide (k.err < k.timout)⟩) := by
  simp [step, Sem.acquire, result]

/-! ## RTAI 3.5 and 3.3 -/

/-- Violation (RTAI 3.5): a Linux task never gets the mutex, free or not; it does not wait either,
and its `unlock()` does nothing. -/
theorem c102_35_linux_never (m : Mutex35) (h : How) :
    acquire35 true false m h = some (.ok (m, false)) ∧ unlock35 true false m = .ok m := ⟨rfl, rfl⟩

/-- Violation (RTAI 3.5): a mutex constructed by a Linux task, for example a static one constructed
before `lxrtStartup()`, is a null pointer for every LXRT task that uses it. -/
theorem c102_35_null (h : How) :
    acquire35 true true (new35 false) h = some .ub ∧ unlock35 true true (new35 false) = .ub := ⟨rfl, rfl⟩

/-- Violation (RTAI 3.5): destroyed by a Linux task, the RTAI mutex is not released. -/
theorem c102_35_leak : destroy35 true false (new35 true) = false ∧ destroy35 true true (new35 true) = true := ⟨rfl, rfl⟩

/-- C102 for LXRT tasks (RTAI 3.5) and for all tasks (RTAI 3.3): the result says whether the mutex
was free, and afterwards it is taken; `lock()` blocks iff it is taken. -/
theorem c102_35_results (strict rt free : Bool) (h : How) (hrt : strict = true → rt = true) :
    acquire35 strict rt (some free) h =
      if free = false ∧ h = .wait then none else some (.ok (some false, free)) := by
  have hs : (strict && !rt) = false := by cases strict <;> cases rt <;> simp_all
  cases free <;> cases h <;> simp [acquire35, hs]

/-- and `unlock()` makes it free; 3.3 mutexes can be constructed anywhere. -/
theorem c102_33_unlock (strict rt free : Bool) (hrt : strict = true → rt = true) :
    unlock35 strict rt (some free) = .ok (some true) ∧ new33 rt = some true ∧ new35 true = some true := by
  have hs : (strict && !rt) = false := by cases strict <;> cases rt <;> simp_all
  simp [unlock35, hs, new33, new35]

/-! ## C86 under LXRT: counting semaphores -/

theorem cnt_run {k : Rtai} {s s' : Sem} {rs : List Rec} (h : Run k s rs s') (hb : s.bin = false) (hke : k.timout ≤ k.err)
    (hm : (s.count : Int) + posts rs < k.timout) (h0 : 0 < k.timout) :
    s'.bin = false ∧ s'.count + taken rs = s.count + posts rs := by
  induction h with
  | nil s => exact ⟨hb, by simp [taken, posts]⟩
  | @cons s s1 s2 f e r rs hs _ ih =>
    cases e with
    | post t =>
      simp only [step, Option.some.injEq, Prod.mk.injEq] at hs
      obtain ⟨rfl, rfl⟩ := hs
      simp only [posts, taken] at *
      have := ih (by simp [Sem.signal, hb]) (by simp [Sem.signal, hb]; omega)
      simp [Sem.signal, hb] at this
      exact ⟨this.1, by omega⟩
    | acquire t hw =>
      simp only [step, Option.map_eq_some_iff, Prod.exists, Prod.mk.injEq] at hs
      obtain ⟨s3, res, ha, rfl, rfl⟩ := hs
      have key : (s3 = s ∧ result k hw res = false) ∨ (0 < s.count ∧ s3 = { s with count := s.count - 1 } ∧ result k hw res = true) := by
        simp only [posts] at hm
        cases hw <;> simp only [Sem.acquire] at ha <;> by_cases hc : 0 < s.count <;> cases hfail : f.fail <;>
          cases hwoken : f.woken <;> simp [hc, hfail, hwoken] at ha <;> (obtain ⟨rfl, rfl⟩ := ha) <;>
          simp [result, hc] <;> omega
      rcases key with ⟨rfl, hr⟩ | ⟨hc, rfl, hr⟩
      · rw [hr]; simp only [posts, taken] at *
        exact ih hb hm
      · rw [hr]; simp only [posts, taken] at *
        have := ih hb (by omega)
        exact ⟨this.1, by have := this.2; omega⟩

/-- C86 under LXRT: as long as the initial value and all posts together stay below `SEM_TIMOUT`, the
waits that returned `true` never outnumber them, and a further wait succeeds iff a unit is left. -/
theorem c86_lxrt_counts {k : Rtai} (hke : k.timout ≤ k.err) (h0 : 0 < k.timout) (n : Nat) {s : Sem} {rs : List Rec}
    (h : Run k (newSem n) rs s) (hm : (n : Int) + posts rs < k.timout) (t : Nat) (hw : How) (woken : Bool) :
    taken rs ≤ n + posts rs
      ∧ (taken rs < n + posts rs → ∃ s', step k s ⟨woken, false⟩ (.acquire t hw) = some (s', ⟨.acquire t hw, true⟩))
      ∧ (taken rs = n + posts rs →
          step k s ⟨woken, false⟩ (.acquire t hw) = if hw = .wait then none else some (s, ⟨.acquire t hw, false⟩)) := by
  have := cnt_run h rfl hke hm h0
  have h2 := this.2
  simp only [newSem] at h2
  refine ⟨by omega, ?_, ?_⟩
  · intro hlt
    have hc : 0 < s.count := by omega
    cases hw <;> cases woken <;> simp [step, Sem.acquire, hc, result] <;> omega
  · intro heq
    have hc : s.count = 0 := by omega
    cases hw <;> simp [step, Sem.acquire, hc, result]

/-- C86 under LXRT violated for large counts: from `SEM_TIMOUT` units on, a wait takes one and
reports failure. -/
theorem c86_lxrt_large (k : Rtai) (n t : Nat) (h0 : 0 < k.timout) (hn : k.timout ≤ n) (hw : How) :
    step k (newSem n) ⟨false, false⟩ (.acquire t hw) = some (newSem (n - 1), ⟨.acquire t hw, false⟩) := by
  have hc : 0 < n := by omega
  cases hw <;> simp [step, Sem.acquire, newSem, result, hc] <;> omega

/-! ## Examples -/

/-- The values of RTAI 3.3. -/
def rtai33 : Rtai := ⟨65534, 65535⟩
example : Good rtai33 := ⟨by decide, by decide⟩

/-- Two tasks take turns; task 2 fails to get the mutex once and then waits for it. -/
def exRun : List Rec :=
  [⟨.acquire 1 .wait, true⟩, ⟨.acquire 2 .try_, false⟩, ⟨.post 1, false⟩, ⟨.acquire 2 .wait, true⟩]

example : Run rtai33 newMutex exRun ⟨true, 0⟩ :=
  .cons (f := ⟨false, false⟩) (e := .acquire 1 .wait) (s' := ⟨true, 0⟩) (by decide)
    (.cons (f := ⟨false, false⟩) (e := .acquire 2 .try_) (s' := ⟨true, 0⟩) (by decide)
      (.cons (f := ⟨false, false⟩) (e := .post 1) (s' := ⟨true, 1⟩) (by decide)
        (.cons (f := ⟨true, false⟩) (e := .acquire 2 .wait) (s' := ⟨true, 0⟩) (by decide) (.nil _))))

example : Disciplined exRun := by
  intro a t x b h
  match a, h with
  | [], h => simp [exRun] at h
  | [_], h => simp [exRun] at h
  | [_, _], h => simp [exRun] at h; obtain ⟨rfl, rfl, ⟨rfl, rfl⟩, _⟩ := h; decide
  | [_, _, _], h => simp [exRun] at h
  | _ :: _ :: _ :: _ :: r, h => simp [exRun] at h

example : holds 2 false exRun = true ∧ holds 1 false exRun = false := by decide

end Verif.Conc.Lxrt
