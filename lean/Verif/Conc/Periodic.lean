import Verif.Base

/-!
# `icl_core_thread/PeriodicThreadImplEmulate.cpp` (C64)

Times are total nanoseconds (`TimeStamp`/`TimeSpan` arithmetic and comparison agree with
that by C06-C08). `now k` is the `k`-th reading of the clock, arbitrary: `nanosleep` may return
early, late, and the clock may be set.
-/
namespace Verif.Periodic

/-- Result of one `waitPeriod()`. -/
structure Result where
  /-- durations passed to `nanosleep`, in order -/
  sleeps : List Int
  /-- the new `m_last_execution_time` -/
  last : Int
  /-- the execution time waited for -/
  next : Int
  deriving DecidableEq, Repr

/-- PeriodicThreadImplEmulate.cpp:60-67 the loop, with `left` the current `wait_time_left` and
`k` the number of clock readings so far. `none` = not finished within `fuel` iterations. -/
def loop (next : Int) (now : Nat → Int) : Nat → Nat → Int → List Int → Option Result
  | 0, _, _, _ => none
  | fuel + 1, k, left, acc =>
    if left > 0 then loop next now fuel (k + 1) (next - now k) (acc ++ [left])
    else some { sleeps := acc, last := now k, next := next }

/-- PeriodicThreadImplEmulate.cpp:43-68 `waitPeriod()`. -/
def waitPeriod (last period : Int) (now : Nat → Int) (fuel : Nat) : Option Result :=
  let n := now 0
  let next := last + period
  let left := next - n
  if left > period then loop (n + period) now fuel 1 period []
  else loop next now fuel 1 left []

theorem loop_spec (next : Int) (now : Nat → Int) (fuel : Nat) : ∀ (k : Nat) (left : Int) (acc : List Int) (r : Result),
    loop next now fuel k left acc = some r →
    ∃ m, r.last = now (k + m) ∧ r.next = next ∧
      r.sleeps = acc ++ (if m = 0 then [] else left :: (List.range (m - 1)).map (fun i => next - now (k + i))) ∧
      (m = 0 → left ≤ 0) ∧ (m ≠ 0 → 0 < left ∧ next ≤ now (k + (m - 1)) ∧ ∀ i, i < m - 1 → 0 < next - now (k + i)) := by
  induction fuel with
  | zero => intro k left acc r h; cases h
  | succ fuel ih =>
    intro k left acc r h
    simp only [loop] at h
    split at h
    · next hl =>
      obtain ⟨m, h1, h2, h3, h4, h5⟩ := ih (k + 1) _ _ r h
      refine ⟨m + 1, by rw [h1]; congr 1; omega, h2, ?_, by omega, fun _ => ⟨hl, ?_, ?_⟩⟩
      · rw [h3]
        simp only [Nat.add_sub_cancel, Nat.add_eq_zero_iff, Nat.succ_ne_self, and_false, if_false,
          List.append_assoc, List.cons_append, List.nil_append, List.append_cancel_left_eq, List.cons.injEq, true_and]
        cases m with
        | zero => simp
        | succ m =>
          simp only [Nat.add_one_ne_zero, if_false, Nat.add_sub_cancel, List.range_succ_eq_map, List.map_cons,
            List.map_map, Nat.add_zero, List.cons.injEq, true_and]
          apply List.map_congr_left
          intro i _
          simp only [Function.comp]
          rw [show k + 1 + i = k + (i + 1) by omega]
      · by_cases hm : m = 0
        · subst hm; have := h4 rfl; simp; omega
        · have := (h5 hm).2.1
          rw [show k + (m + 1 - 1) = k + 1 + (m - 1) by omega]; exact this
      · intro i hi
        by_cases hm : m = 0
        · omega
        · obtain ⟨e1, _, e3⟩ := h5 hm
          cases i with
          | zero => exact e1
          | succ i => rw [show k + (i + 1) = k + 1 + i by omega]; exact e3 i (by omega)
    · next hl =>
      cases h
      exact ⟨0, rfl, rfl, by simp, fun _ => by omega, fun h => absurd rfl h⟩

/-- C64. Whatever the clock does: each duration passed to `nanosleep` is positive, the first
one is at most the period (in particular if the clock was set back since the last cycle), and
no sleep takes place if the next execution time has already passed. -/
theorem c64_sleeps (last period : Int) (now : Nat → Int) (fuel : Nat) (r : Result)
    (h : waitPeriod last period now fuel = some r) :
    (∀ d ∈ r.sleeps, 0 < d) ∧ (∀ d, r.sleeps.head? = some d → d ≤ period) ∧
    (last + period ≤ now 0 → r.sleeps = []) := by
  simp only [waitPeriod] at h
  have pos : ∀ next k left, loop next now fuel k left [] = some r → ∀ d ∈ r.sleeps, 0 < d := by
    intro next k left h d hd
    obtain ⟨m, _, _, h3, _, h5⟩ := loop_spec _ _ _ _ _ _ _ h
    rw [h3] at hd
    by_cases hm : m = 0
    · simp [hm] at hd
    · obtain ⟨e1, _, e3⟩ := h5 hm
      simp only [hm, if_false, List.nil_append, List.mem_cons, List.mem_map, List.mem_range] at hd
      rcases hd with rfl | ⟨i, hi, rfl⟩
      · exact e1
      · exact e3 i hi
  have hd : ∀ next k left, loop next now fuel k left [] = some r → ∀ d, r.sleeps.head? = some d → d = left := by
    intro next k left h d hd
    obtain ⟨m, _, _, h3, _, _⟩ := loop_spec _ _ _ _ _ _ _ h
    rw [h3] at hd
    by_cases hm : m = 0
    · simp [hm] at hd
    · simp [hm] at hd; exact hd.symm
  have em : ∀ next k left, loop next now fuel k left [] = some r → left ≤ 0 → r.sleeps = [] := by
    intro next k left h hl
    obtain ⟨m, _, _, h3, _, h5⟩ := loop_spec _ _ _ _ _ _ _ h
    rw [h3]
    by_cases hm : m = 0
    · simp [hm]
    · have := (h5 hm).1; omega
  split at h
  · exact ⟨pos _ _ _ h, fun d e => Int.le_of_eq (hd _ _ _ h d e), fun hl => em _ _ _ h (by omega)⟩
  · refine ⟨pos _ _ _ h, fun d e => ?_, fun hl => em _ _ _ h (by omega)⟩
    rw [hd _ _ _ h d e]; omega

/-- C64. With a clock that never runs backwards: every sleep is at most the period; the call
returns only after the execution time `min(last, now) + period` has been reached, and the
recorded last execution time is at least that. -/
theorem c64_monotone_clock (last period : Int) (now : Nat → Int) (hmono : ∀ i j, i ≤ j → now i ≤ now j)
    (fuel : Nat) (r : Result) (h : waitPeriod last period now fuel = some r) :
    (∀ d ∈ r.sleeps, d ≤ period) ∧ r.next = min last (now 0) + period ∧ r.next ≤ r.last := by
  simp only [waitPeriod] at h
  have key : ∀ next left, left ≤ period → next - now 0 ≤ period → (left ≤ 0 → next ≤ now 1) →
      loop next now fuel 1 left [] = some r → (∀ d ∈ r.sleeps, d ≤ period) ∧ r.next = next ∧ r.next ≤ r.last := by
    intro next left hl hn h0 h
    obtain ⟨m, h1, h2, h3, h4, h5⟩ := loop_spec _ _ _ _ _ _ _ h
    refine ⟨?_, h2, ?_⟩
    · intro d hd
      rw [h3] at hd
      by_cases hm : m = 0
      · simp [hm] at hd
      · simp only [hm, if_false, List.nil_append, List.mem_cons, List.mem_map, List.mem_range] at hd
        rcases hd with rfl | ⟨i, hi, rfl⟩
        · exact hl
        · have := hmono 0 (1 + i) (by omega); omega
    · rw [h2, h1]
      by_cases hm : m = 0
      · subst hm; exact h0 (h4 rfl)
      · have := (h5 hm).2.1
        exact Int.le_trans this (hmono _ _ (by omega))
  have h01 := hmono 0 1 (by omega)
  split at h
  · next hc =>
    obtain ⟨a, b, c⟩ := key _ _ (Int.le_refl _) (by omega) (by omega) h
    exact ⟨a, by omega, c⟩
  · next hc =>
    obtain ⟨a, b, c⟩ := key _ _ (by omega) (by omega) (by omega) h
    exact ⟨a, by omega, c⟩

/-- C64. The call returns as soon as a clock reading has reached the execution time. -/
theorem c64_terminates (last period : Int) (now : Nat → Int)
    (hreach : ∀ t, ∃ k, ∀ j, k ≤ j → t ≤ now j) : ∃ fuel r, waitPeriod last period now fuel = some r := by
  have key : ∀ next, ∀ (d k : Nat) (left : Int) (acc : List Int), next ≤ now (k + d) →
      ∃ r, loop next now (d + 2) k left acc = some r := by
    intro next d
    induction d with
    | zero =>
      intro k left acc hk
      by_cases hl : left > 0
      · refine ⟨_, by rw [loop, if_pos hl, loop, if_neg (by simp at hk; omega)]⟩
      · exact ⟨_, by rw [loop, if_neg hl]⟩
    | succ d ih =>
      intro k left acc hk
      by_cases hl : left > 0
      · obtain ⟨r, hr⟩ := ih (k + 1) (next - now k) (acc ++ [left]) (by
          rw [show k + 1 + d = k + (d + 1) by omega]; exact hk)
        exact ⟨r, by rw [loop, if_pos hl]; exact hr⟩
      · exact ⟨_, by rw [loop, if_neg hl]⟩
  have go : ∀ next left, ∃ fuel r, loop next now fuel 1 left [] = some r := by
    intro next left
    obtain ⟨k, hk⟩ := hreach next
    obtain ⟨r, hr⟩ := key next k 1 left [] (hk _ (by omega))
    exact ⟨_, r, hr⟩
  by_cases hc : last + period - now 0 > period
  · obtain ⟨f, r, hr⟩ := go (now 0 + period) period
    exact ⟨f, r, by simp only [waitPeriod, if_pos hc]; exact hr⟩
  · obtain ⟨f, r, hr⟩ := go (last + period) (last + period - now 0)
    exact ⟨f, r, by simp only [waitPeriod, if_neg hc]; exact hr⟩

/-- One interrupted sleep: period 10, last execution at 100, now 103, woken at 106, then at
111. -/
example : waitPeriod 100 10 (fun k => [103, 106, 111].getD k 111) 5 =
    some { sleeps := [7, 4], last := 111, next := 110 } := by decide

/-- C64. The protection against long waits covers only a clock set back *between* cycles: if
the clock is set back by `b` while the thread sleeps, it goes on sleeping for the period plus
`b`, for every `b`. -/
theorem c64_clock_set_back_while_sleeping (b : Nat) :
    ∃ now r, waitPeriod 0 10 now 3 = some r ∧ (10 + (b : Int)) ∈ r.sleeps := by
  refine ⟨fun k => if k = 0 then 0 else if k = 1 then -(b : Int) else 10,
    { sleeps := [10, 10 + b], last := 10, next := 10 }, ?_, by simp⟩
  have h1 : ¬ ((0 : Int) + 10 - 0 > 10) := by omega
  have h2 : ((0 : Int) + 10 - 0 > 0) := by omega
  have h3 : ((0 : Int) + 10 - -(b : Int) > 0) := by omega
  simp only [waitPeriod, if_true, h1, if_false, loop, h2, List.nil_append, Nat.one_ne_zero, h3]
  simp

end Verif.Periodic
