import Verif.Time.Scale
import Verif.Time.Props
import Mathlib.Tactic.Linarith
import Mathlib.Tactic.Ring
import Mathlib.Tactic.NormNum

/-!
# C89: scaling a time span, C90: conversion from Boost time points
-/
namespace Verif.Time.Scale
open Verif.Time

/-- What is assumed about the rounding to `double`: integers up to 2^53 are exact. -/
def ExactInts (fl : ℚ → ℚ) : Prop := ∀ n : Int, -9007199254740992 ≤ n → n ≤ 9007199254740992 → fl (n : ℚ) = n

theorem trunc_int (n : Int) : trunc (n : ℚ) = n := by
  unfold trunc; split <;> simp

/-- Truncation is towards zero and by less than one. -/
theorem trunc_bounds (r : ℚ) : (0 ≤ r → (trunc r : ℚ) ≤ r ∧ r < trunc r + 1) ∧
    (r ≤ 0 → r ≤ trunc r ∧ (trunc r : ℚ) < r + 1) := by
  unfold trunc
  constructor
  · intro h; rw [if_pos h]; exact ⟨Int.floor_le r, Int.lt_floor_add_one r⟩
  · intro h
    split
    · have : r = 0 := le_antisymm h ‹_›
      subst this; simp
    · exact ⟨Int.le_ceil r, Int.ceil_lt_add_one r⟩

/-- C89, partial: excluded are factors that are not integers. For every integer factor and every rounding
that is exact on integers up to 2^53, the product is exact, provided the seconds stay below 2^53 and the
product of the nanoseconds is an `int32_t`. -/
theorem c89_scale_partial (fl : ℚ → ℚ) (hfl : ExactInts fl) (a : TB) (ha : Normalised a) (k : Int)
    (h1 : -9007199254740992 ≤ a.secs ∧ a.secs ≤ 9007199254740992)
    (h2 : -9007199254740992 < a.secs * k ∧ a.secs * k < 9007199254740992) (h3 : I32 (a.nsecs * k)) :
    ∃ b, scale fl a k = .ok b ∧ Normalised b ∧ total b = total a * k := by
  have e1 : fl (fl (a.secs : ℚ) * k) = ((a.secs * k : Int) : ℚ) := by
    rw [hfl _ h1.1 h1.2, ← Int.cast_mul, hfl _ (by omega) (by omega)]
  have e2 : fl ((a.nsecs : ℚ) * k) = ((a.nsecs * k : Int) : ℚ) := by
    unfold I32 at h3
    rw [← Int.cast_mul, hfl _ (by omega) (by omega)]
  have i1 : I64 (a.secs * k) := by unfold I64; omega
  have hr : Representable (a.secs * k * 1000000000 + a.nsecs * k) := by
    apply rep_of_bounds; unfold I32 at h3; omega
  obtain ⟨b, hb, hn, ht⟩ := c06_normalize _ _ i1 h3 hr
  refine ⟨b, ?_, hn, ?_⟩
  · simp only [scale, toI64, toI32, e1, e2, trunc_int, i64, i32, if_pos i1, if_pos h3, bind, Outcome.bind]
    exact hb
  · rw [ht]; unfold total; rw [Int.add_mul]; congr 1
    rw [Int.mul_right_comm]

/-- 1.5 s times 3. -/
example : Normalised ⟨1, 500000000⟩ ∧ I32 (500000000 * 3) ∧ ExactInts id := ⟨by decide, by decide, fun _ _ _ => rfl⟩

/-- C89, exact. In exact arithmetic the seconds and the nanoseconds are scaled and truncated separately;
for every span and every factor for which the results fit. -/
theorem c89_scale_exact (a : TB) (x : ℚ) (h1 : I64 (trunc (a.secs * x))) (h2 : I32 (trunc (a.nsecs * x)))
    (h3 : Representable (trunc (a.secs * x) * 1000000000 + trunc (a.nsecs * x))) :
    ∃ b, scale id a x = .ok b ∧ Normalised b ∧
      total b = trunc (a.secs * x) * 1000000000 + trunc (a.nsecs * x) := by
  obtain ⟨b, hb, hn, ht⟩ := c06_normalize _ _ h1 h2 h3
  refine ⟨b, ?_, hn, ht⟩
  simp only [scale, toI64, toI32, i64, i32, id, if_pos h1, if_pos h2, bind, Outcome.bind]
  exact hb

/-- C89. The result of a multiplication with a non-negative factor is less than one second and one
nanosecond short of the exact one, and never too long, for every non-negative span. -/
theorem c89_scale_error (a : TB) (ha : Normalised a) (h0 : 0 ≤ total a) (x : ℚ) (hx : 0 ≤ x)
    (h1 : I64 (trunc (a.secs * x))) (h2 : I32 (trunc (a.nsecs * x)))
    (h3 : Representable (trunc (a.secs * x) * 1000000000 + trunc (a.nsecs * x))) :
    ∃ b, scale id a x = .ok b ∧ (total b : ℚ) ≤ total a * x ∧ (total a : ℚ) * x < total b + 1000000001 := by
  obtain ⟨b, hb, hn, ht⟩ := c89_scale_exact a x h1 h2 h3
  obtain ⟨_, _, _, s1, s2⟩ := ha
  have p1 : 0 ≤ a.secs := by unfold total at h0; omega
  have p2 : 0 ≤ a.nsecs := by unfold total at h0; omega
  have q1 : (0 : ℚ) ≤ a.secs * x := mul_nonneg (by exact_mod_cast p1) hx
  have q2 : (0 : ℚ) ≤ a.nsecs * x := mul_nonneg (by exact_mod_cast p2) hx
  obtain ⟨b1, b2⟩ := (trunc_bounds _).1 q1
  obtain ⟨b3, b4⟩ := (trunc_bounds _).1 q2
  refine ⟨b, hb, ?_, ?_⟩
  · rw [ht]; unfold total; push_cast; nlinarith
  · rw [ht]; unfold total; push_cast; nlinarith

/-- C89 is violated: the fraction of a second that results from scaling the seconds is dropped. Half of
every odd number of seconds is half a second short, for every rounding that is exact on halves. -/
theorem c89_half_lost (fl : ℚ → ℚ) (s : Int) (h0 : 0 ≤ s) (h1 : s < 9007199254740992)
    (hfl : ExactInts fl) (hhalf : fl ((2 * s + 1 : Int) * (1 / 2)) = (2 * s + 1 : Int) * (1 / 2))
    (hs : 2 * s + 1 ≤ 9007199254740992) :
    scale fl ⟨2 * s + 1, 0⟩ (1 / 2) = .ok ⟨s, 0⟩ ∧ total ⟨s, 0⟩ * 2 = total ⟨2 * s + 1, 0⟩ - 1000000000 := by
  have e0 : trunc (((2 * s + 1 : Int) : ℚ) * (1 / 2)) = s := by
    unfold trunc
    rw [if_pos (by push_cast; have : (0 : ℚ) ≤ s := by exact_mod_cast h0
                   linarith)]
    rw [Int.floor_eq_iff]
    push_cast
    constructor <;> linarith
  have e1 : fl (fl ((2 * s + 1 : Int) : ℚ) * (1 / 2)) = ((2 * s + 1 : Int) : ℚ) * (1 / 2) := by
    rw [hfl _ (by omega) hs, hhalf]
  have e2 : fl (((0 : Int) : ℚ) * (1 / 2)) = ((0 : Int) : ℚ) := by
    rw [Int.cast_zero, zero_mul]; exact_mod_cast hfl 0 (by omega) (by omega)
  have i1 : I64 s := by unfold I64; omega
  constructor
  · simp only [scale, toI64, toI32, e1, e2, e0, trunc_int, i64, i32, if_pos i1, bind, Outcome.bind]
    rw [if_pos (by decide)]
    simp only [ctor]
    exact normalizeTime_fix ⟨i1, by simp, by simp, by simp, by simp⟩
  · unfold total; simp only; omega

/-- One second divided by two is nothing. -/
theorem c89_second_divided_by_two : divide id ⟨1, 0⟩ 2 = .ok ⟨0, 0⟩ := by
  have e1 : trunc (((1 : Int) : ℚ) / 2) = 0 := by
    unfold trunc; norm_num
  have e2 : trunc (((0 : Int) : ℚ) / 2) = 0 := by
    unfold trunc; norm_num
  simp only [divide, toI64, toI32, id, e1, e2]
  rw [if_neg (by norm_num)]
  simp only [i64, i32, bind, Outcome.bind]
  rw [if_pos (by decide), if_pos (by decide)]
  exact normalizeTime_fix (by decide)

/-- C89 is violated: if the scaled nanoseconds leave the range of `int32_t`, i.e. reach 2.147 s, the
result is undefined, for every rounding exact on integers; e.g. 0.999999999 s times 3. -/
theorem c89_overflow_undefined (fl : ℚ → ℚ) (hfl : ExactInts fl) (a : TB) (k : Int)
    (h1 : -9007199254740992 ≤ a.secs ∧ a.secs ≤ 9007199254740992)
    (h2 : -9007199254740992 < a.secs * k ∧ a.secs * k < 9007199254740992)
    (h3 : ¬ I32 (a.nsecs * k)) (h4 : -9007199254740992 < a.nsecs * k ∧ a.nsecs * k < 9007199254740992) :
    scale fl a k = .ub := by
  have e1 : fl (fl (a.secs : ℚ) * k) = ((a.secs * k : Int) : ℚ) := by
    rw [hfl _ h1.1 h1.2, ← Int.cast_mul, hfl _ (by omega) (by omega)]
  have e2 : fl ((a.nsecs : ℚ) * k) = ((a.nsecs * k : Int) : ℚ) := by
    rw [← Int.cast_mul, hfl _ (by omega) (by omega)]
  have i1 : I64 (a.secs * k) := by unfold I64; omega
  simp only [scale, toI64, toI32, e1, e2, trunc_int, i64, i32, if_pos i1, if_neg h3, bind, Outcome.bind]

example : scale id ⟨0, 999999999⟩ (3 : Int) = .ub :=
  c89_overflow_undefined id (fun _ _ _ => rfl) _ _ (by decide) (by decide) (by decide) (by decide)

/-- C89. Division: in exact arithmetic the members are divided and truncated separately; division by
zero is undefined. -/
theorem c89_divide_exact (a : TB) (x : ℚ) (hx : x ≠ 0) (h1 : I64 (trunc (a.secs / x))) (h2 : I32 (trunc (a.nsecs / x)))
    (h3 : Representable (trunc (a.secs / x) * 1000000000 + trunc (a.nsecs / x))) :
    (∃ b, divide id a x = .ok b ∧ Normalised b ∧
      total b = trunc (a.secs / x) * 1000000000 + trunc (a.nsecs / x)) ∧ divide id a 0 = .ub := by
  obtain ⟨b, hb, hn, ht⟩ := c06_normalize _ _ h1 h2 h3
  refine ⟨⟨b, ?_, hn, ht⟩, by simp [divide]⟩
  simp only [divide, if_neg hx, toI64, toI32, i64, i32, id, if_pos h1, if_pos h2, bind, Outcome.bind]
  exact hb

/-- C89. Division by an integer `k > 0` is exact up to the last nanosecond if `k` divides the seconds. -/
theorem c89_divide_whole (a : TB) (ha : Normalised a) (h0 : 0 ≤ total a) (q k : Int) (hk : 0 < k)
    (hq : a.secs = q * k) :
    ∃ b, divide id a k = .ok b ∧ (total b : ℚ) ≤ total a / k ∧ (total a : ℚ) / k < total b + 1 := by
  obtain ⟨g1, g2, g3, s1, s2⟩ := ha
  have p1 : 0 ≤ a.secs := by unfold total at h0; omega
  have p2 : 0 ≤ a.nsecs := by unfold total at h0; omega
  have hk0 : (k : ℚ) ≠ 0 := by exact_mod_cast (by omega : k ≠ 0)
  have hkp : (0 : ℚ) < k := by exact_mod_cast hk
  have e1 : ((a.secs : ℚ) / k) = ((q : Int) : ℚ) := by
    rw [hq]; push_cast; field_simp
  have t1 : trunc ((a.secs : ℚ) / k) = q := by rw [e1, trunc_int]
  have n0 : (0 : ℚ) ≤ (a.nsecs : ℚ) / k := div_nonneg (by exact_mod_cast p2) hkp.le
  obtain ⟨b1, b2⟩ := (trunc_bounds _).1 n0
  have hq0 : 0 ≤ q := by
    by_contra h
    have : q * k < 0 := Int.mul_neg_of_neg_of_pos (by omega) hk
    omega
  have hqle : q ≤ a.secs := by rw [hq]; nlinarith
  have tle : trunc ((a.nsecs : ℚ) / k) ≤ a.nsecs := by
    have : (a.nsecs : ℚ) / k ≤ a.nsecs := div_le_self (by exact_mod_cast p2) (by exact_mod_cast (by omega : (1 : Int) ≤ k))
    exact_mod_cast b1.trans this
  have tge : 0 ≤ trunc ((a.nsecs : ℚ) / k) := by
    unfold trunc; rw [if_pos n0]; exact Int.floor_nonneg.mpr n0
  obtain ⟨⟨b, hb, _, ht⟩, _⟩ := c89_divide_exact a k hk0 (by rw [t1]; unfold I64 at *; omega) (by unfold I32; omega)
    (by rw [t1]; apply rep_of_bounds; unfold I64 at *; omega)
  have hh : (total a : ℚ) / k = q * 1000000000 + (a.nsecs : ℚ) / k := by
    rw [← e1]; unfold total; push_cast; field_simp
  refine ⟨b, hb, ?_, ?_⟩
  · rw [ht, t1, hh]; push_cast; linarith
  · rw [ht, t1, hh]; push_cast; linarith

/-- 6.000000001 s divided by 3. -/
example : Normalised ⟨6, 1⟩ ∧ (0 : Int) ≤ total ⟨6, 1⟩ ∧ (6 : Int) = 2 * 3 := by decide

theorem wrapI32_eq_iff (ns m : Int) (hm : -1000000000 < m ∧ m < 1000000000) :
    wrapI32 ns = m ↔ (ns - m) % 4294967296 = 0 := by
  unfold wrapI32
  omega

theorem seconds_wrap (q : Int) : (1000000000 * q) % 4294967296 = 0 ↔ q % 8388608 = 0 := by
  rw [← Int.dvd_iff_emod_eq_zero, ← Int.dvd_iff_emod_eq_zero]
  rw [show (1000000000 * q : Int) = 512 * (1953125 * q) by omega, show (4294967296 : Int) = 512 * 8388608 by norm_num,
    Int.mul_dvd_mul_iff_left (by norm_num)]
  constructor
  · intro h; exact Int.dvd_of_dvd_mul_right_of_gcd_one h (by decide +kernel)
  · intro h; exact Dvd.dvd.mul_left h _

/-- C90, exact. For every Boost time point (its nanoseconds since 1970 in `int64_t`): the resulting time
stamp is the one meant iff the number of whole seconds is a multiple of 2^23. -/
theorem c90_exact (ns : Int) (h : I64 ns) :
    ∃ t, fromPtime ns = .ok t ∧ Normalised t ∧
      total t = ns.tdiv 1000000000 * 1000000000 + wrapI32 ns ∧
      (total t = ns ↔ ns.tdiv 1000000000 % 8388608 = 0) := by
  obtain ⟨d1, d2, d3⟩ := tdm ns 1000000000 (by decide)
  have hw : I32 (wrapI32 ns) := by unfold I32 wrapI32; omega
  have hs : I64 (ns.tdiv 1000000000) := by unfold I64 at *; omega
  obtain ⟨t, e, hn, ht⟩ := c06_normalize _ _ hs hw (by
    apply rep_of_bounds; unfold I64 at h; unfold I32 at hw; omega)
  refine ⟨t, e, hn, ht, ?_⟩
  rw [ht, ← seconds_wrap]
  have hm : -1000000000 < ns.tmod 1000000000 ∧ ns.tmod 1000000000 < 1000000000 := by omega
  have k1 := wrapI32_eq_iff ns (ns.tmod 1000000000) hm
  rw [show ns - ns.tmod 1000000000 = 1000000000 * ns.tdiv 1000000000 by omega] at k1
  rw [← k1]
  clear k1 hs hw ht
  omega

/-- C90, partial: excluded are all time points one second or more away from 1970 (except one second in
97 days, `c90_exact`). -/
theorem c90_instant_partial (ns : Int) (h : -1000000000 < ns ∧ ns < 1000000000) :
    ∃ t, fromPtime ns = .ok t ∧ Normalised t ∧ total t = ns := by
  obtain ⟨t, e, hn, _, hi⟩ := c90_exact ns (by unfold I64; omega)
  obtain ⟨d1, d2, d3⟩ := tdm ns 1000000000 (by decide)
  exact ⟨t, e, hn, hi.mpr (by omega)⟩

/-- C90 is violated: 1970-01-01 00:00:01 becomes 00:00:02, and 1 s after that it is 4 s. -/
theorem c90_one_second_wrong :
    fromPtime 1000000000 = .ok ⟨2, 0⟩ ∧ fromPtime 2000000000 = .ok ⟨4, 0⟩ ∧
    fromPtime 3000000000 = .ok ⟨1, 705032704⟩ := by
  refine ⟨normalizeTime_to ?_ ?_ ?_ ?_, normalizeTime_to ?_ ?_ ?_ ?_, normalizeTime_to ?_ ?_ ?_ ?_⟩ <;> decide

/-- C90 is violated: the conversion does not even keep the order of time points. -/
theorem c90_order_lost : ∃ a b ta tb, a < b ∧ fromPtime a = .ok ta ∧ fromPtime b = .ok tb ∧ total tb < total ta :=
  ⟨2000000000, 3000000000, _, _, by decide, c90_one_second_wrong.2.1, c90_one_second_wrong.2.2, by decide⟩

end Verif.Time.Scale
