import Verif.Conc.Mutex

/-!
# C85: mutexes
-/
namespace Verif.Conc.Mutex

/-- What holds of the object at any time. -/
def Ok (s : Os) : Prop := (s.owner = none ↔ s.count = 0)

theorem step_ok {p : Plat} {s s' : Os} {e : Ev} {r : Rec} (h : step p s e = some (s', r)) (hs : Ok s) : Ok s' := by
  unfold Ok at *
  cases e with
  | acquire t hw =>
    simp only [step, Os.acquire, Option.map_eq_some_iff] at h
    obtain ⟨⟨s1, rc⟩, h1, h2⟩ := h
    cases h2
    grind
  | unlock t =>
    simp only [step, Os.release, Option.some.injEq, Prod.mk.injEq] at h
    obtain ⟨h, _⟩ := h
    subst h
    grind
  | exit t =>
    simp only [step, Os.exit, Option.some.injEq, Prod.mk.injEq] at h
    obtain ⟨h, _⟩ := h
    subst h
    grind

theorem run_ok {p : Plat} {s s' : Os} {rs : List Rec} (h : Run p s rs s') (hs : Ok s) : Ok s' := by
  induction h with
  | nil => exact hs
  | cons h1 _ ih => exact ih (step_ok h1 hs)

/-- Nobody ends while it holds the mutex. -/
def NoAbandon (rs : List Rec) : Prop := ∀ a t x b, rs = a ++ ⟨.exit t, x⟩ :: b → held t 0 a = 0

theorem held_append (t n : Nat) (a b : List Rec) : held t n (a ++ b) = held t (held t n a) b := by
  induction a generalizing n with
  | nil => rfl
  | cons r a ih =>
    obtain ⟨e, x⟩ := r
    cases e <;> simp only [List.cons_append, held] <;> exact ih _

/-- One step changes the number of times a thread holds the mutex exactly as the returned value says. -/
theorem step_held {p : Plat} {s s' : Os} {e : Ev} {r : Rec} (h : step p s e = some (s', r)) (hs : Ok s)
    (ha : s.aband = false) (hx : ∀ t, e = .exit t → s.holds t = 0) (t : Nat) :
    s'.holds t = held t (s.holds t) [r] ∧ s'.aband = false := by
  unfold Ok at hs
  cases e with
  | acquire t' hw =>
    simp only [step, Os.acquire, Option.map_eq_some_iff] at h
    obtain ⟨⟨s1, rc⟩, h1, h2⟩ := h
    cases h2
    simp only [held, Os.holds, result]
    grind
  | unlock t' =>
    simp only [step, Os.release, Option.some.injEq, Prod.mk.injEq] at h
    obtain ⟨h, h'⟩ := h
    subst h h'
    simp only [held, Os.holds]
    grind
  | exit t' =>
    simp only [step, Os.exit, Option.some.injEq, Prod.mk.injEq] at h
    obtain ⟨h, h'⟩ := h
    subst h h'
    simp only [held, Os.holds] at *
    have := hx t' rfl
    cases p with
    | posix m => grind
    | win32 => grind

/-- C85: in every history of any number of threads, each thread holds the mutex exactly as many times as
the results it got say, provided no thread ends while holding it.
Missing: see `c85_win32_abandoned` and `c85_posix_exit` for threads that do. -/
theorem c85_results_partial {p : Plat} {rs : List Rec} {s : Os} (h : Run p Os.new rs s) (hn : NoAbandon rs) (t : Nat) :
    s.holds t = held t 0 rs := by
  suffices H : ∀ s0 rs s, Run p s0 rs s → ∀ pre, NoAbandon (pre ++ rs) → Ok s0 → s0.aband = false →
      (∀ t, s0.holds t = held t 0 pre) → ∀ t, s.holds t = held t 0 (pre ++ rs) from
    H _ _ _ h [] hn (by simp [Ok, Os.new]) rfl (fun t => by simp [Os.holds, Os.new, held]) t
  intro s0 rs s h
  induction h with
  | nil s => intro pre _ _ _ hh t; simpa using hh t
  | @cons s s' s'' e r rs h1 _ ih =>
    intro pre hn ho ha hh t
    have hx : ∀ t, e = .exit t → s.holds t = 0 := by
      intro t he
      subst he
      simp only [step, Option.some.injEq, Prod.mk.injEq] at h1
      obtain ⟨_, h1⟩ := h1
      subst h1
      rw [hh t]
      exact hn pre t false rs rfl
    have hs := fun t => step_held h1 ho ha hx t
    have e' : pre ++ r :: rs = (pre ++ [r]) ++ rs := by simp
    rw [e'] at hn ⊢
    refine ih (pre ++ [r]) hn (step_ok h1 ho) (hs t).2 ?_ t
    intro t
    rw [held_append, ← hh t]
    exact (hs t).1

theorem held_mono (t : Nat) (rs : List Rec) {n m : Nat} (h : n ≤ m) : held t n rs ≤ held t m rs := by
  induction rs generalizing n m with
  | nil => exact h
  | cons r rs ih =>
    obtain ⟨e, x⟩ := r
    cases e <;> simp only [held] <;> apply ih <;> split <;> omega

/-- No thread believes to hold the mutex more often than it does. -/
theorem held_le {p : Plat} {s0 : Os} {rs : List Rec} {s : Os} (h : Run p s0 rs s) (hs : Ok s0) (t : Nat) :
    held t (s0.holds t) rs ≤ s.holds t := by
  induction h with
  | nil => exact Nat.le_refl _
  | @cons s s1 s2 e r rs h1 _ ih =>
    have h2 : held t (s.holds t) [r] ≤ s1.holds t := by
      unfold Ok at hs
      cases e with
      | acquire t' hw =>
        simp only [step, Os.acquire, Option.map_eq_some_iff] at h1
        obtain ⟨⟨s3, rc⟩, h1, h2⟩ := h1
        cases h2
        simp only [held, Os.holds, result]
        grind
      | unlock t' =>
        simp only [step, Os.release, Option.some.injEq, Prod.mk.injEq] at h1
        obtain ⟨h, h'⟩ := h1
        subst h h'
        simp only [held, Os.holds]
        grind
      | exit t' =>
        simp only [step, Os.exit, Option.some.injEq, Prod.mk.injEq] at h1
        obtain ⟨h, h'⟩ := h1
        subst h h'
        simp only [held, Os.holds]
        cases p <;> grind
    have h3 := held_mono t rs h2
    rw [← held_append] at h3
    exact Nat.le_trans h3 (ih (step_ok h1 hs))

/-- C85, mutual exclusion: in every history whatsoever, two threads never both hold the mutex, as far as
their results tell them. -/
theorem c85_mutual_exclusion {p : Plat} {rs : List Rec} {s : Os} (h : Run p Os.new rs s)
    {t t' : Nat} (ht : 0 < held t 0 rs) (ht' : 0 < held t' 0 rs) : t = t' := by
  have hn : Ok Os.new := by simp [Ok, Os.new]
  have h1 := held_le h hn t
  have h2 := held_le h hn t'
  have e : ∀ t, Os.new.holds t = 0 := fun t => by simp [Os.holds, Os.new]
  rw [e] at h1 h2
  unfold Os.holds at h1 h2
  grind

/-- C85: after as many `unlock()`s as successful locks the mutex is free again, and a free mutex is given
to whoever asks, whatever call is used. -/
theorem c85_free_again_partial {p : Plat} {rs : List Rec} {s : Os} (h : Run p Os.new rs s) (hn : NoAbandon rs)
    (hp : p ≠ .posix 0) (hz : ∀ t, held t 0 rs = 0) (t : Nat) (hw : How) :
    ∃ s', step p s (.acquire t hw) = some (s', ⟨.acquire t hw, true⟩) ∧ s'.holds t = 1 := by
  have hs : Ok s := run_ok h (by simp [Ok, Os.new])
  have ho : s.owner = none := by
    cases hw' : s.owner with
    | none => rfl
    | some o =>
      have h1 := c85_results_partial h hn o
      rw [hz o] at h1
      unfold Os.holds at h1
      unfold Ok at hs
      grind
  have ha : s.aband = false := by
    have : ∀ s0 rs s, Run p s0 rs s → ∀ pre, NoAbandon (pre ++ rs) → Ok s0 → s0.aband = false →
        (∀ t, s0.holds t = held t 0 pre) → s.aband = false := by
      intro s0 rs s h
      induction h with
      | nil s => intro pre _ _ ha _; exact ha
      | @cons s s' s'' e r rs h1 _ ih =>
        intro pre hn ho ha hh
        have hx : ∀ t, e = .exit t → s.holds t = 0 := by
          intro t he
          subst he
          simp only [step, Option.some.injEq, Prod.mk.injEq] at h1
          obtain ⟨_, h1⟩ := h1
          subst h1
          rw [hh t]
          exact hn pre t false rs rfl
        have hs := fun t => step_held h1 ho ha hx t
        have e' : pre ++ r :: rs = (pre ++ [r]) ++ rs := by simp
        rw [e'] at hn
        refine ih (pre ++ [r]) hn (step_ok h1 ho) (hs 0).2 ?_
        intro t
        rw [held_append, ← hh t]
        exact (hs t).1
    exact this _ _ _ h [] hn (by simp [Ok, Os.new]) rfl (fun t => by simp [Os.holds, Os.new, held])
  cases p with
  | posix m =>
    have : 0 < m := by cases m with | zero => exact absurd rfl hp | succ m => omega
    exact ⟨⟨some t, 1, false⟩, by simp [step, Os.acquire, ho, this, result], by simp [Os.holds]⟩
  | win32 => exact ⟨⟨some t, 1, false⟩, by simp [step, Os.acquire, ho, ha, result], by simp [Os.holds]⟩

/-- C85: `tryLock()` and the timed `lock` always return, in every state; only `lock()` can block, and only
while another thread is the owner. -/
theorem c85_blocking (p : Plat) (s : Os) (t : Nat) (hw : How) :
    step p s (.acquire t hw) = none ↔ hw = .wait ∧ ∃ o, s.owner = some o ∧ o ≠ t := by
  simp only [step, Os.acquire, Option.map_eq_none_iff]
  grind

/-- C85: the owner may lock again without blocking. -/
theorem c85_recursive (max : Nat) (s : Os) (t : Nat) (hw : How) (ho : s.owner = some t) (hm : s.count < max) :
    step (.posix max) s (.acquire t hw) = some ({ s with count := s.count + 1 }, ⟨.acquire t hw, true⟩) ∧
    step .win32 s (.acquire t hw) = some ({ s with count := s.count + 1 }, ⟨.acquire t hw, true⟩) := by
  simp [step, Os.acquire, ho, hm, result]

/-- A history with nested locks, a failed attempt and a hand-over. -/
example : ∃ s, Run (.posix 10) Os.new [⟨.acquire 1 .wait, true⟩, ⟨.acquire 1 .try_, true⟩, ⟨.acquire 2 .try_, false⟩,
      ⟨.unlock 1, false⟩, ⟨.acquire 2 .timed, false⟩, ⟨.unlock 1, false⟩, ⟨.acquire 2 .wait, true⟩] s ∧ s.holds 2 = 1 := by
  refine ⟨⟨some 2, 1, false⟩, ?_, by decide⟩
  refine Run.cons (e := .acquire 1 .wait) (by rfl) ?_
  refine Run.cons (e := .acquire 1 .try_) (by rfl) ?_
  refine Run.cons (e := .acquire 2 .try_) (by rfl) ?_
  refine Run.cons (e := .unlock 1) (by rfl) ?_
  refine Run.cons (e := .acquire 2 .timed) (by rfl) ?_
  refine Run.cons (e := .unlock 1) (by rfl) ?_
  refine Run.cons (e := .acquire 2 .wait) (by rfl) ?_
  exact Run.nil _

example : NoAbandon [⟨.acquire 1 .wait, true⟩, ⟨.unlock 1, false⟩, ⟨.exit 1, false⟩] := by
  intro a t x b h
  match a with
  | [] => simp at h
  | [_] => simp at h
  | [_, _] => simp at h; obtain ⟨rfl, rfl, ⟨rfl, rfl⟩, rfl⟩ := h; decide
  | _ :: _ :: _ :: a => simp at h

/-- Does the event belong to thread `t`? -/
def Rec.by (r : Rec) (t : Nat) : Prop :=
  match r.ev with
  | .acquire t' _ => t' = t
  | .unlock t' => t' = t
  | .exit t' => t' = t

theorem owned_forever {p : Plat} {s s' : Os} {rs : List Rec} (h : Run p s rs s') (t : Nat) (ho : s.owner = some t)
    (hn : ∀ r ∈ rs, ¬ r.by t) : s'.owner = some t ∧ ∀ r ∈ rs, ∀ t' hw, r.ev = .acquire t' hw → r.res = false := by
  induction h with
  | nil => exact ⟨ho, by simp⟩
  | @cons s s1 s2 e r rs h1 _ ih =>
    have hr := hn r (by simp)
    have : s1.owner = some t ∧ ∀ t' hw, r.ev = .acquire t' hw → r.res = false := by
      cases e with
      | acquire t' hw =>
        simp only [step, Os.acquire, Option.map_eq_some_iff] at h1
        obtain ⟨⟨s3, rc⟩, h1, h2⟩ := h1
        cases h2
        simp only [Rec.by] at hr
        simp only [result]
        grind
      | unlock t' =>
        simp only [step, Os.release, Option.some.injEq, Prod.mk.injEq] at h1
        obtain ⟨h, h'⟩ := h1
        subst h h'
        simp only [Rec.by] at hr
        grind
      | exit t' =>
        simp only [step, Os.exit, Option.some.injEq, Prod.mk.injEq] at h1
        obtain ⟨h, h'⟩ := h1
        subst h h'
        simp only [Rec.by] at hr
        grind
    obtain ⟨i1, i2⟩ := ih this.1 (fun r hr => hn r (by simp [hr]))
    refine ⟨i1, ?_⟩
    intro r' hr'
    rcases List.mem_cons.1 hr' with rfl | hr'
    · exact this.2
    · exact i2 r' hr'

/-- C85 violated (Windows): if a thread ends while it holds the mutex, the next `lock()` of another thread
returns `false` although that thread now owns the mutex; as it does not know, it does not unlock, and in
every continuation without a further event of that thread nobody gets the mutex any more. -/
theorem c85_win32_abandoned {t1 t2 : Nat} (_h : t1 ≠ t2) (hw : How) :
    ∃ s, Run .win32 Os.new [⟨.acquire t1 .wait, true⟩, ⟨.exit t1, false⟩, ⟨.acquire t2 hw, false⟩] s ∧
      s.holds t2 = 1 ∧
      ∀ rs s', Run .win32 s rs s' → (∀ r ∈ rs, ¬ r.by t2) →
        ∀ r ∈ rs, ∀ t hw, r.ev = .acquire t hw → r.res = false := by
  refine ⟨⟨some t2, 1, false⟩, ?_, by simp [Os.holds], ?_⟩
  · refine Run.cons (s' := ⟨some t1, 1, false⟩) (e := .acquire t1 .wait) (by rfl) ?_
    refine Run.cons (s' := ⟨none, 0, true⟩) (e := .exit t1) (by simp [step, Os.exit]) ?_
    refine Run.cons (s' := ⟨some t2, 1, false⟩) (e := .acquire t2 hw) (by rfl) ?_
    exact Run.nil _
  · intro rs s' hr hn
    exact (owned_forever hr t2 rfl hn).2

/-- C85 (POSIX): a mutex whose owner ended is never given to anybody again. -/
theorem c85_posix_exit (max : Nat) {s s' : Os} {rs : List Rec} (t : Nat) (ho : s.owner = some t)
    (h : Run (.posix max) (s.exit (.posix max) t) rs s') (hn : ∀ r ∈ rs, ¬ r.by t) :
    ∀ r ∈ rs, ∀ t' hw, r.ev = .acquire t' hw → r.res = false :=
  (owned_forever h t ho hn).2

end Verif.Conc.Mutex
