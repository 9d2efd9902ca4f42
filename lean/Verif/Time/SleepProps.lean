import Verif.Time.Sleep

/-!
# C83: the sleep functions
-/
namespace Verif.Time.Sleep
open Verif.Time

theorem slept_zero : win32SleepTime = .ok ⟨0, 0⟩ := by
  unfold win32SleepTime stampDiff ctor
  exact normalizeTime_fix (by decide)

theorem norm_of_valid {rq : Spec} (h : Valid rq) : Normalised ⟨rq.sec, rq.nsec⟩ := by
  unfold Valid at h
  simp only [Normalised, I64]
  omega

theorem ctor_ms : ctor 0 1000000 = .ok ⟨0, 1000000⟩ := normalizeTime_fix (by decide)

theorem add_zero_ms : spanAdd ⟨0, 0⟩ ⟨0, 1000000⟩ = .ok ⟨0, 1000000⟩ := by
  obtain ⟨t, _, h2, _, h4, h5⟩ := c07_add (a := ⟨0, 0⟩) (b := ⟨0, 1000000⟩) (by decide) (by decide) (by decide)
  rw [h2]
  have := (c06_canonical_unique h4 (b := ⟨0, 1000000⟩) (by decide)).1.2 (by rw [h5]; decide)
  rw [this]

theorem sub_zero {t : TB} (h : Normalised t) : spanSub t ⟨0, 0⟩ = .ok t := by
  have hz : total ⟨0, 0⟩ = 0 := by decide
  obtain ⟨u, _, h2, _, _, h4, h5⟩ := c07_sub (a := t) (b := ⟨0, 0⟩) h (by decide) (by decide)
    (by rw [hz]; simpa using total_rep h)
  rw [h2]
  rw [(c06_canonical_unique h4 h).1.2 (by rw [h5, hz]; omega)]

/-- C83 (Windows `nanosleep`, complete). For every valid request the primitive gets the milliseconds of
the request (modulo 2^32), but whatever happened, the function reports success exactly for requests of
at most one millisecond; otherwise it reports failure and that the whole request remains. -/
theorem c83_win32_nanosleep {rq : Spec} (h : Valid rq) :
    win32Nanosleep rq = .ok (if rq.ns ≤ 1000000 then ⟨.win32 (wrapU32 (rq.ns / 1000000)), 0, some ⟨0, 0⟩⟩
      else ⟨.win32 (wrapU32 (rq.ns / 1000000)), -1, some rq⟩) := by
  have hn := norm_of_valid h
  unfold Valid at h
  have h1 : ofTimespec rq.sec rq.nsec = .ok ⟨rq.sec, rq.nsec⟩ := by
    unfold ofTimespec
    have : wrapI32 rq.nsec = rq.nsec := by unfold wrapI32; omega
    rw [this]; exact normalizeTime_fix hn
  have h2 : i64 (1000 * rq.sec) = .ok (1000 * rq.sec) := by
    unfold i64; rw [if_pos]; unfold I64; omega
  have hm : 1000 * rq.sec + rq.nsec.tdiv 1000000 = rq.ns / 1000000 := by
    have := tdm rq.nsec 1000000 (by decide)
    unfold Spec.ns; omega
  have h3 : i64 (1000 * rq.sec + rq.nsec.tdiv 1000000) = .ok (rq.ns / 1000000) := by
    unfold i64; rw [hm, if_pos]
    unfold I64 Spec.ns; omega
  have hge : ge ⟨0, 1000000⟩ ⟨rq.sec, rq.nsec⟩ = decide (rq.ns ≤ 1000000) := by
    have := (c07_compare (a := ⟨0, 1000000⟩) (b := ⟨rq.sec, rq.nsec⟩) (by decide) hn).2.2.2.1
    rw [Bool.eq_iff_iff, this, decide_eq_true_iff]
    simp only [total, Spec.ns]; omega
  unfold win32Nanosleep
  simp only [bind, h1, Outcome.bind, h2, h3, slept_zero, ctor_ms, add_zero_ms, hge, sub_zero hn]
  by_cases hc : rq.ns ≤ 1000000
  · simp [hc]
  · simp [hc]

/-- C83 (Windows `sleep`, complete): for every argument the result is 0 only for `sleep(0)`; for any other
argument it is 2^32 minus the argument. -/
theorem c83_win32_sleep (s : Int) (h0 : 0 ≤ s) (h1 : s < 4294967296) :
    win32Sleep s = .ok ⟨.win32 (1000 * s % 4294967296), if s = 0 then 0 else 4294967296 - s, none⟩ := by
  unfold win32Sleep
  simp only [slept_zero, bind, Outcome.bind]
  by_cases hs : s = 0
  · subst hs; rfl
  · rw [if_neg (by omega), if_neg hs]
    have : wrapU32 (0 - s) = 4294967296 - s := by unfold wrapU32; omega
    rw [this]; rfl

/-- C83 (Windows `usleep`, complete): success is reported exactly up to one millisecond. -/
theorem c83_win32_usleep (us : Int) (h0 : 0 ≤ us) (h1 : us < 4294967296) :
    win32Usleep us = .ok ⟨.win32 (us / 1000), if us ≤ 1000 then 0 else -1, none⟩ := by
  have hz : toUSec ⟨0, 0⟩ = .ok 0 := by decide
  have hw : wrapU32 (us / 1000) = us / 1000 := by unfold wrapU32; omega
  unfold win32Usleep
  simp only [slept_zero, bind, Outcome.bind, hz, hw]
  by_cases hc : us ≤ 1000
  · rw [if_pos (by omega), if_pos hc]
  · rw [if_neg (by omega), if_neg hc]

/-- C83 (the part that holds on Windows): below 2^32 - 1 milliseconds the primitive is asked to sleep the
whole milliseconds of the request, so less than one millisecond is missing.
Missing: the reported results (see above) and longer requests (`c83_win32_long_requests`). -/
theorem c83_win32_duration_partial :
    (∀ rq, Valid rq → rq.ns < 4294967295000000 → ∃ r, win32Nanosleep rq = .ok r ∧
      r.prim.ns ≤ rq.ns ∧ rq.ns < r.prim.ns + 1000000) ∧
    (∀ s, 0 ≤ s → s < 4294967 → ∃ r, win32Sleep s = .ok r ∧ r.prim.ns = s * 1000000000) ∧
    (∀ us, 0 ≤ us → us < 4294967296 → ∃ r, win32Usleep us = .ok r ∧
      r.prim.ns ≤ us * 1000 ∧ us * 1000 < r.prim.ns + 1000000) := by
  refine ⟨?_, ?_, ?_⟩
  · intro rq h hb
    refine ⟨_, c83_win32_nanosleep h, ?_⟩
    have h0 : 0 ≤ rq.ns := by unfold Valid at h; unfold Spec.ns; omega
    have : wrapU32 (rq.ns / 1000000) = rq.ns / 1000000 := by unfold wrapU32; omega
    rw [this]
    split <;> simp only [Prim.ns] <;> omega
  · intro s h0 h1
    refine ⟨_, c83_win32_sleep s h0 (by omega), ?_⟩
    simp only [Prim.ns]; omega
  · intro us h0 h1
    refine ⟨_, c83_win32_usleep us h0 h1, ?_⟩
    simp only [Prim.ns]; omega

example : Valid ⟨2, 500000000⟩ ∧ (⟨2, 500000000⟩ : Spec).ns < 4294967295000000 ∧
    win32Nanosleep ⟨2, 500000000⟩ = .ok ⟨.win32 2500, -1, some ⟨2, 500000000⟩⟩ := by
  refine ⟨by decide, by decide, ?_⟩
  rw [c83_win32_nanosleep (by decide)]; rfl

/-- The bounds of the arguments that are looked at. -/
example : Valid ⟨0, 0⟩ ∧ Valid ⟨9000000000000, 999999999⟩ ∧ ¬ Valid ⟨0, -1⟩ ∧ ¬ Valid ⟨0, 1000000000⟩ ∧ ¬ Valid ⟨-1, 0⟩ := by decide

/-- C83 violated: the usual retry loop around `nanosleep` never ends on Windows, for any request above
one millisecond. -/
theorem c83_win32_retry_never_ends {rq : Spec} (h : Valid rq) (hl : 1000000 < rq.ns) (k : Nat) :
    retry win32Nanosleep k rq = none := by
  have he := c83_win32_nanosleep h
  rw [if_neg (by omega)] at he
  induction k with
  | zero => rfl
  | succ k ih =>
    unfold retry
    rw [he]
    exact ih

/-- C83 violated: requests from 2^32 - 1 milliseconds (49.7 days) on are cut or sleep forever. -/
theorem c83_win32_long_requests :
    (∃ r, win32Nanosleep ⟨4294967, 296000000⟩ = .ok r ∧ r.prim = .win32 0) ∧
    (∃ r, win32Nanosleep ⟨4294967, 295000000⟩ = .ok r ∧ r.prim = .win32 0xFFFFFFFF) ∧
    (∃ r, win32Sleep 4294968 = .ok r ∧ r.prim = .win32 704) := by
  refine ⟨⟨_, c83_win32_nanosleep (by decide), by decide⟩, ⟨_, c83_win32_nanosleep (by decide), by decide⟩,
    ⟨_, c83_win32_sleep _ (by decide) (by decide), by decide⟩⟩

/-- C83 violated (RTAI/LXRT `nanosleep`, complete): whole seconds are slept as milliseconds, for every
request; the requested time is slept exactly if the request is below one second. -/
theorem c83_lxrt_nanosleep {rq : Spec} (h : Valid rq) :
    lxrtNanosleep rq = .ok ⟨.lxrt (rq.sec * 1000000 + rq.nsec), 0, some ⟨0, 0⟩⟩ ∧
    (∀ r, lxrtNanosleep rq = .ok r → (r.prim.ns = rq.ns ↔ rq.sec = 0) ∧ r.prim.ns ≤ rq.ns) := by
  unfold Valid at h
  have e : lxrtNanosleep rq = .ok ⟨.lxrt (rq.sec * 1000000 + rq.nsec), 0, some ⟨0, 0⟩⟩ := by
    have h1 : i64 (1000000 * rq.sec) = .ok (1000000 * rq.sec) := by
      unfold i64; rw [if_pos]; unfold I64; omega
    have h2 : i64 (1000000 * rq.sec + rq.nsec) = .ok (rq.sec * 1000000 + rq.nsec) := by
      unfold i64; rw [if_pos (by unfold I64; omega), Int.mul_comm]
    unfold lxrtNanosleep
    simp only [bind, Outcome.bind, h1, h2]
  refine ⟨e, ?_⟩
  intro r hr
  rw [e] at hr
  cases hr
  simp only [Prim.ns, Spec.ns]
  omega

/-- C83 (RTAI/LXRT `sleep`, complete): exact up to 4 seconds, too short from 5 seconds on. -/
theorem c83_lxrt_sleep (s : Int) (h0 : 0 ≤ s) :
    ∃ r, lxrtSleep s = .ok r ∧ r.result = 0 ∧ (s ≤ 4 → r.prim.ns = s * 1000000000) ∧
      (5 ≤ s → r.prim.ns < 4294967296 ∧ r.prim.ns < s * 1000000000) := by
  refine ⟨_, rfl, rfl, ?_⟩
  simp only [Prim.ns, wrapU32]
  omega

/-- C83 (RTAI/LXRT `usleep`): exact. -/
theorem c83_lxrt_usleep (us : Int) (h0 : 0 ≤ us) (h1 : us ≤ 9223372036854775) :
    ∃ r, lxrtUsleep us = .ok r ∧ r.result = 0 ∧ r.prim.ns = us * 1000 := by
  refine ⟨_, rfl, rfl, ?_⟩
  simp only [Prim.ns, wrapU64, wrapI64]
  omega

example : lxrtNanosleep ⟨2, 5⟩ = .ok ⟨.lxrt 2000005, 0, some ⟨0, 0⟩⟩ ∧ lxrtSleep 5 = .ok ⟨.lxrt 705032704, 0, none⟩ := by
  decide

end Verif.Time.Sleep
