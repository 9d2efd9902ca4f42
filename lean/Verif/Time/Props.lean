import Verif.Time.Lemmas

/-!
# Properties of time values (C06, C07, C08, C10, C60)

`total t` is the number of nanoseconds a value denotes, `Normalised` the canonical form,
`Representable` says that a duration fits into the type.  Every theorem concludes `.ok`:
no signed overflow (undefined behaviour) happens on the way.
-/
namespace Verif.Time

/-- C06. For every pair of member values whose duration is representable at all, the
normalisation loop terminates without overflow in the canonical representation of the
same duration. -/
theorem c06_normalize (s n : Int) (hs : I64 s) (hn : I32 n)
    (hr : Representable (s * 1000000000 + n)) :
    ∃ t, normalizeTime ⟨s, n⟩ = .ok t ∧ Normalised t ∧ total t = s * 1000000000 + n :=
  normalizeTime_ok ⟨s, n⟩ hn hs hr

/-- C06. The canonical representation is unique, and normalising it changes nothing. -/
theorem c06_canonical_unique {a b : TB} (ha : Normalised a) (hb : Normalised b) :
    (a = b ↔ total a = total b) ∧ normalizeTime a = .ok a :=
  ⟨⟨fun h => h ▸ rfl, normalised_unique ha hb⟩, normalizeTime_fix ha⟩

/-- C06. Whatever the constructor returns is canonical (also from a `timespec`). -/
theorem c06_constructors_canonical (s n : Int) (t : TB) (hs : I64 s) (hn : I32 n)
    (h : ctor s n = .ok t) : Normalised t := by
  have key : ∀ t : TB, I64 t.secs → ∀ u, normalizeTime t = .ok u → Normalised u := by
    intro t
    fun_induction normalizeTime t with
    | case1 t _ h' ih => intro _; exact ih h'.2
    | case3 t _ _ h' ih => intro _; exact ih h'.2
    | case5 t _ _ _ h' ih => intro _; exact ih h'.2
    | case7 t _ _ _ _ h' ih => intro _; exact ih h'.2
    | case9 t h0 h1 h2 h3 =>
      intro hs u hu
      injection hu with hu
      subst hu
      exact ⟨hs, by omega, by omega, by omega, by omega⟩
    | _ => intro _ u hu; simp at hu
  exact key ⟨s, n⟩ hs t h

example : normalizeTime ⟨5, -1500000000⟩ = .ok ⟨3, 500000000⟩ := by
  exact normalizeTime_to (by decide) (by decide) (by decide) (by decide)
example : I64 5 ∧ I32 (-1500000000) ∧ Representable (5 * 1000000000 + -1500000000) := by decide
/-- The sign convention: minus half a second. -/
example : Normalised ⟨0, -500000000⟩ ∧ ¬ Normalised ⟨-1, 500000000⟩ := by decide

/-- C07. `+=`/`+` (span+span, stamp+span, in both orders) is exact addition of durations. -/
theorem c07_add {a b : TB} (ha : Normalised a) (hb : Normalised b)
    (hr : Representable (total a + total b)) :
    ∃ t, addAssign a b = .ok t ∧ spanAdd a b = .ok t ∧ stampAdd a b = .ok t ∧
      Normalised t ∧ total t = total a + total b := by
  obtain ⟨t, h1, h2, h3⟩ := add_ok ha hb hr
  exact ⟨t, h1, h1, h1, h2, h3⟩

/-- C07. `-=`/`-` (span-span, stamp-span, stamp-stamp through unsigned arithmetic) is exact
subtraction of durations, whenever the subtrahend can be negated. -/
theorem c07_sub {a b : TB} (ha : Normalised a) (hb : Normalised b)
    (hneg : Representable (-total b)) (hr : Representable (total a - total b)) :
    ∃ t, subAssign a b = .ok t ∧ spanSub a b = .ok t ∧ stampSub a b = .ok t ∧
      stampDiff a b = .ok t ∧ Normalised t ∧ total t = total a - total b := by
  obtain ⟨t, h1, h2, h3⟩ := sub_ok ha hb hneg hr
  obtain ⟨t', h1', h2', h3'⟩ := diff_ok ha hb hneg hr
  have : t' = t := normalised_unique h2' h2 (by omega)
  subst this
  exact ⟨t', h1, h1, h1, h1', h2, h3⟩

/-- C07. The restriction in `c07_sub` is needed: subtracting the most negative number of
seconds overflows although the exact result fits, and the unsigned stamp difference is
then off by 2^64 seconds. -/
theorem c07_sub_most_negative :
    let a : TB := ⟨0, -1⟩
    let b : TB := ⟨-9223372036854775808, 0⟩
    Normalised a ∧ Normalised b ∧ Representable (total a - total b) ∧
    subAssign a b = .ub ∧ stampDiff a b = .ok ⟨-9223372036854775808, -1⟩ := by
  refine ⟨by decide, by decide, by decide, by decide, ?_⟩
  exact normalizeTime_to (by decide) (by decide) (by decide) (by decide)

/-- C07. All six comparisons decide the order of the durations. -/
theorem c07_compare {a b : TB} (ha : Normalised a) (hb : Normalised b) :
    (lt a b = true ↔ total a < total b) ∧ (le a b = true ↔ total a ≤ total b) ∧
    (gt a b = true ↔ total a > total b) ∧ (ge a b = true ↔ total a ≥ total b) ∧
    (eq a b = true ↔ total a = total b) ∧ (ne a b = true ↔ total a ≠ total b) := by
  have hu : (a.secs = b.secs ∧ a.nsecs = b.nsecs) ↔ total a = total b := by
    rw [← (c06_canonical_unique ha hb).1]
    constructor
    · intro h; obtain ⟨_, _⟩ := a; obtain ⟨_, _⟩ := b; simp_all
    · intro h; rw [h]; exact ⟨rfl, rfl⟩
  refine ⟨lt_iff ha hb, ?_, ?_, ?_, ?_, ?_⟩
  · simp only [le, Normalised, total] at *
    split <;> simp only [decide_eq_true_eq] <;> omega
  · simp only [gt, Normalised, total] at *
    split <;> simp only [decide_eq_true_eq] <;> omega
  · simp only [ge, Normalised, total] at *
    split <;> simp only [decide_eq_true_eq] <;> omega
  · rw [← hu]; simp [eq]
  · rw [Ne, ← hu]; simp only [ne, Bool.or_eq_true, bne_iff_ne]; omega

/-- C07. `maxTime()` is well defined, and no time compares greater than it; it is the only such time. -/
theorem c07_maxTime : ∃ m, maxTime = .ok m ∧ Normalised m ∧
    ∀ t, Normalised t → (le t m = true ∧ gt t m = false ∧ (eq t m = true ↔ t = m)) := by
  have hm : Normalised ⟨9223372036854775807, 999999999⟩ := by decide
  refine ⟨⟨9223372036854775807, 999999999⟩, normalizeTime_fix hm, hm, ?_⟩
  intro t ht
  obtain ⟨_, h2, h3, _, h5, _⟩ := c07_compare ht hm
  have hb : total t ≤ total ⟨9223372036854775807, 999999999⟩ := by
    simp only [Normalised, I64, total] at *
    omega
  refine ⟨h2.2 hb, ?_, ?_⟩
  · cases hg : gt t ⟨9223372036854775807, 999999999⟩ with
    | false => rfl
    | true => have := h3.1 hg; omega
  · rw [h5, ← (c06_canonical_unique ht hm).1]

/-- C07. Adding and subtracting the same span returns to the same stamp, and
`(a - b) + b == a`, as long as the intermediate result is representable. -/
theorem c07_round_trip {a b : TB} (ha : Normalised a) (hb : Normalised b)
    (hneg : Representable (-total b)) :
    (Representable (total a + total b) → (do let t ← stampAdd a b; stampSub t b) = .ok a) ∧
    (Representable (total a - total b) → (do let d ← stampDiff a b; stampAdd d b) = .ok a) := by
  constructor
  · intro hr
    obtain ⟨t, _, _, h3, h4, h5⟩ := c07_add ha hb hr
    obtain ⟨u, _, _, h3', _, h4', h5'⟩ := c07_sub h4 hb hneg (by rw [h5]; simpa using total_rep ha)
    have : u = a := normalised_unique h4' ha (by omega)
    show Outcome.bind _ _ = _
    rw [h3]; simp only [Outcome.bind, h3', this]
  · intro hr
    obtain ⟨t, _, _, _, h3, h4, h5⟩ := c07_sub ha hb hneg hr
    obtain ⟨u, _, _, h3', h4', h5'⟩ := c07_add h4 hb (by rw [h5]; simpa using total_rep ha)
    have : u = a := normalised_unique h4' ha (by omega)
    show Outcome.bind _ _ = _
    rw [h3]; simp only [Outcome.bind, h3', this]

/-- C07. `abs` is the absolute value. -/
theorem c07_abs {a : TB} (ha : Normalised a) (hneg : Representable (-total a)) :
    ∃ t, abs a = .ok t ∧ Normalised t ∧ total t = (total a).natAbs := by
  by_cases h : lt a zero = true
  · obtain ⟨t, _, h2, _, _, h4, h5⟩ := c07_sub zero_norm ha hneg (by
      have : total zero - total a = -total a := by simp [total, zero]
      rw [this]; exact hneg)
    refine ⟨t, by simp [abs, h, h2], h4, ?_⟩
    rw [lt_iff ha zero_norm] at h
    rw [h5]
    have : total zero = 0 := by decide
    omega
  · refine ⟨a, by simp [abs, h], ha, ?_⟩
    rw [lt_iff ha zero_norm] at h
    have : total zero = 0 := by decide
    omega

/-- C07. `futureMSec` is the clock reading plus the given number of milliseconds, for any
representable result. -/
theorem c07_futureMSec {now : TB} (hnow : Normalised now) (msec : Int) (h0 : 0 ≤ msec)
    (h1 : msec < 18446744073709551616) (hr : Representable (msec * 1000000 + total now)) :
    ∃ t, futureMSec now msec = .ok t ∧ Normalised t ∧ total t = total now + msec * 1000000 := by
  have e1 : wrapI64 (msec / 1000) = msec / 1000 := by simp only [wrapI64]; omega
  have e2 : wrapI32 (msec % 1000 * 1000000) = msec % 1000 * 1000000 := by simp only [wrapI32]; omega
  have hN : Normalised ⟨msec / 1000, msec % 1000 * 1000000⟩ := by
    simp only [Normalised, I64]; omega
  have ht : total ⟨msec / 1000, msec % 1000 * 1000000⟩ = msec * 1000000 := by
    simp only [total]; omega
  have hst : stamp (msec / 1000) (msec % 1000 * 1000000) = .ok ⟨msec / 1000, msec % 1000 * 1000000⟩ := by
    simp only [stamp, ctor, e1, e2]; exact normalizeTime_fix hN
  obtain ⟨t, a1, a2, a3⟩ := add_ok hN hnow (by rw [ht]; exact hr)
  refine ⟨t, ?_, a2, by rw [a3, ht]; omega⟩
  simp only [futureMSec, hst, bind, Outcome.bind, a1]

example : Normalised ⟨3, 999999999⟩ ∧ Normalised ⟨-2, -1⟩ ∧
    Representable (total ⟨3, 999999999⟩ + total ⟨-2, -1⟩) ∧
    Representable (-total ⟨-2, -1⟩) ∧
    Representable (total ⟨3, 999999999⟩ - total ⟨-2, -1⟩) := by decide

/-- C08. The factory functions denote exactly the given number of seconds, milli- and
microseconds, for every `int64_t` argument. -/
theorem c08_from (x : Int) (hx : I64 x) :
    (∃ t, fromSec x = .ok t ∧ Normalised t ∧ total t = x * 1000000000) ∧
    (∃ t, fromMSec x = .ok t ∧ Normalised t ∧ total t = x * 1000000) ∧
    (∃ t, fromUSec x = .ok t ∧ Normalised t ∧ total t = x * 1000) := by
  refine ⟨?_, ?_, ?_⟩
  · have hN : Normalised ⟨x, 0⟩ := by simp only [Normalised, I64] at *; omega
    exact ⟨_, normalizeTime_fix hN, hN, by simp [total]⟩
  · have := tdm x 1000 (by omega)
    have e : wrapI32 (x.tmod 1000 * 1000000) = x.tmod 1000 * 1000000 := by simp only [wrapI32]; omega
    have hN : Normalised ⟨x.tdiv 1000, x.tmod 1000 * 1000000⟩ := by
      simp only [Normalised, I64] at *; omega
    exact ⟨_, by rw [fromMSec, e]; exact normalizeTime_fix hN, hN, by simp only [total]; omega⟩
  · have := tdm x 1000000 (by omega)
    have e : wrapI32 (x.tmod 1000000 * 1000) = x.tmod 1000000 * 1000 := by simp only [wrapI32]; omega
    have hN : Normalised ⟨x.tdiv 1000000, x.tmod 1000000 * 1000⟩ := by
      simp only [Normalised, I64] at *; omega
    exact ⟨_, by rw [fromUSec, e]; exact normalizeTime_fix hN, hN, by simp only [total]; omega⟩

/-- Truncated division of a canonical value. -/
theorem total_tdiv {t : TB} (h : Normalised t) (k q : Int) (hk : 0 < k) (hkq : k * q = 1000000000)
    (hq : 0 < q) : (total t).tdiv k = t.secs * q + t.nsecs.tdiv k := by
  have h1 : total t = k * (t.secs * q) + t.nsecs := by
    simp only [total]; rw [← hkq]; rw [show k * (t.secs * q) = t.secs * (k * q) by
      rw [← Int.mul_assoc, Int.mul_comm k, Int.mul_assoc]]
  rw [h1]
  simp only [Normalised] at h
  by_cases hs : 0 < t.secs ∨ (t.secs = 0 ∧ 0 ≤ t.nsecs)
  · have hn : 0 ≤ t.nsecs := by omega
    have hm : 0 ≤ t.secs * q := Int.mul_nonneg (by omega) (by omega)
    have hm' : 0 ≤ k * (t.secs * q) := Int.mul_nonneg (by omega) hm
    rw [Int.tdiv_eq_ediv_of_nonneg (by omega), Int.tdiv_eq_ediv_of_nonneg hn,
      Int.add_comm, Int.add_mul_ediv_left _ _ (by omega)]
    omega
  · have hn : 0 ≤ -t.nsecs := by omega
    have hm : 0 ≤ (-t.secs) * q := Int.mul_nonneg (by omega) (by omega)
    have hm' : 0 ≤ k * (-t.secs * q) := Int.mul_nonneg (by omega) hm
    have e : k * (t.secs * q) + t.nsecs = -(k * (-t.secs * q) + -t.nsecs) := by
      rw [Int.neg_mul, Int.mul_neg]; omega
    rw [e, Int.neg_tdiv, Int.tdiv_eq_ediv_of_nonneg (by omega), Int.add_comm,
      Int.add_mul_ediv_left _ _ (by omega), ← Int.tdiv_eq_ediv_of_nonneg hn, Int.neg_tdiv, Int.neg_mul]
    omega

/-- C08. `toMSec`, `toUSec` and `toNSec` are the duration truncated to the unit, whenever
that number (a fortiori every intermediate one) is an `int64_t`. -/
theorem c08_to {t : TB} (h : Normalised t) :
    (I64 ((total t).tdiv 1000000) → toMSec t = .ok ((total t).tdiv 1000000)) ∧
    (I64 ((total t).tdiv 1000) → toUSec t = .ok ((total t).tdiv 1000)) ∧
    (I64 (total t) → toNSec t = .ok (total t)) := by
  have e1 := total_tdiv h 1000000 1000 (by decide) (by decide) (by decide)
  have e2 := total_tdiv h 1000 1000000 (by decide) (by decide) (by decide)
  have d1 := tdm t.nsecs 1000000 (by decide)
  have d2 := tdm t.nsecs 1000 (by decide)
  rw [e1, e2]
  refine ⟨fun hi => ?_, fun hi => ?_, fun hi => ?_⟩
  · have : I64 (t.secs * 1000) := by simp only [I64, Normalised] at *; omega
    simp only [toMSec, i64, this, if_true, bind, Outcome.bind, hi]
  · have : I64 (t.secs * 1000000) := by simp only [I64, Normalised] at *; omega
    simp only [toUSec, i64, this, if_true, bind, Outcome.bind, hi]
  · have hh : I64 (1000000000 * t.secs) := by simp only [I64, Normalised, total] at *; omega
    have he : 1000000000 * t.secs + t.nsecs = total t := by simp only [total]; omega
    simp only [toNSec, i64, hh, if_true, bind, Outcome.bind, he, hi]

/-- C08. The conversions are mutually inverse: converting an `int64_t` number of milli- or
microseconds to a span and back gives the same number. -/
theorem c08_round_trip (x : Int) (hx : I64 x) :
    (do let t ← fromMSec x; toMSec t) = .ok x ∧ (do let t ← fromUSec x; toUSec t) = .ok x := by
  obtain ⟨_, ⟨t, h1, h2, h3⟩, ⟨u, g1, g2, g3⟩⟩ := c08_from x hx
  have e1 : (total t).tdiv 1000000 = x := by rw [h3]; exact Int.mul_tdiv_cancel _ (by decide)
  have e2 : (total u).tdiv 1000 = x := by rw [g3]; exact Int.mul_tdiv_cancel _ (by decide)
  constructor
  · show Outcome.bind _ _ = _
    rw [h1]; simp only [Outcome.bind]
    have := (c08_to h2).1 (by rw [e1]; exact hx)
    rw [this, e1]
  · show Outcome.bind _ _ = _
    rw [g1]; simp only [Outcome.bind]
    have := (c08_to g2).2.1 (by rw [e2]; exact hx)
    rw [this, e2]

/-- C08 (recomposition of days, hours, minutes, seconds, and of micro- plus nanoseconds).
Each part is in its range and has the sign of the value.  Missing with respect to the full
claim: the sub-second parts do not form a positional decomposition, see
`c08_microSeconds_not_reduced`. -/
theorem c08_recompose_partial {t : TB} (h : Normalised t) :
    t.secs = days t * 86400 + hours t * 3600 + minutes t * 60 + seconds t ∧
    t.nsecs = microSeconds t * 1000 + nanoSeconds t ∧
    (0 ≤ total t → 0 ≤ days t ∧ 0 ≤ hours t ∧ hours t < 24 ∧ 0 ≤ minutes t ∧ minutes t < 60 ∧
      0 ≤ seconds t ∧ seconds t < 60 ∧ 0 ≤ milliSeconds t ∧ milliSeconds t < 1000 ∧
      0 ≤ nanoSeconds t ∧ nanoSeconds t < 1000) := by
  have d1 := tdm t.secs 86400 (by decide)
  have d2 := tdm t.secs 3600 (by decide)
  have d3 := tdm (t.secs.tdiv 3600) 24 (by decide)
  have d4 := tdm (t.secs.tmod 3600) 60 (by decide)
  have d5 := tdm t.nsecs 1000 (by decide)
  have d6 := tdm t.nsecs 1000000 (by decide)
  simp only [days, hours, minutes, seconds, microSeconds, nanoSeconds, milliSeconds,
    Normalised, total] at *
  refine ⟨?_, by omega, ?_⟩
  · by_cases hs : 0 ≤ t.secs <;> omega
  · intro ht
    have : 0 ≤ t.secs := by omega
    omega

/-- C08. The documented use ("express the time in hours, minutes, seconds, milliseconds,
microseconds and nanoseconds") fails: `microSeconds()` is not reduced modulo 1000, so the
parts do not add up. -/
theorem c08_microSeconds_not_reduced :
    let t : TB := ⟨0, 1002003⟩
    Normalised t ∧ milliSeconds t = 1 ∧ microSeconds t = 1002 ∧ nanoSeconds t = 3 ∧
    milliSeconds t * 1000000 + microSeconds t * 1000 + nanoSeconds t ≠ total t := by decide

example : I64 1234567 ∧ I64 (-1) ∧ Normalised ⟨-1, -500⟩ := by decide

/-- C10 (full characterisation on non-negative spans). The printed text denotes the value of
the span exactly when the sub-second part is not a whole number of microseconds that is not
a whole number of milliseconds.  Missing: the claim itself is false, see the
counterexamples below. -/
theorem c10_print_denotes_partial {t : TB} (h : Normalised t) (h0 : 0 ≤ total t) :
    ∃ out, print t = .ok out ∧
      (denote out = total t ↔ ¬ (t.nsecs % 1000 = 0 ∧ t.nsecs % 1000000 ≠ 0)) := by
  have hs : 0 ≤ t.secs := by simp only [Normalised, total] at *; omega
  have hn : 0 ≤ t.nsecs := by simp only [Normalised, total] at *; omega
  have hneg : ¬ t.secs < 0 := by omega
  have d1 := tdm t.secs 3600 (by decide)
  have d2 := tdm t.secs 60 (by decide)
  have d3 := tdm (t.secs.tmod 3600) 60 (by decide)
  have d4 := tdm t.nsecs 1000000 (by decide)
  have d5 := tdm t.nsecs 1000 (by decide)
  have hlast : ∀ (out : List Tok) (v : Int), (∀ x, denote (out ++ [x]) = v + denote [x]) →
      v = t.secs * 1000000000 →
      (denote (if t.nsecs.tdiv 1000000 * 1000000 = t.nsecs then out ++ [.num (t.nsecs.tdiv 1000000) "ms"]
        else if t.nsecs.tdiv 1000 * 1000 = t.nsecs then out ++ [.num t.nsecs "us"]
        else out ++ [.num t.nsecs "ns"]) = total t ↔ ¬ (t.nsecs % 1000 = 0 ∧ t.nsecs % 1000000 ≠ 0)) := by
    intro out v hv hvs
    simp only [total]
    split
    · rw [hv]; simp only [denote, unitNs]; omega
    · split
      · rw [hv]; simp only [denote, unitNs]; omega
      · rw [hv]; simp only [denote, unitNs]; omega
  simp only [print, hneg, decide_false, Bool.false_eq_true, if_false, bind, Outcome.bind]
  refine ⟨_, rfl, ?_⟩
  by_cases c1 : t.secs > 3600
  · simp only [c1, if_true]
    by_cases c2 : t.secs.tmod 3600 > 60
    · simp only [c2, if_true]
      by_cases c3 : (t.secs.tmod 3600).tmod 60 > 0
      · simp only [c3, if_true]
        exact hlast _ (t.secs * 1000000000) (by intro x; simp [denote, unitNs]; omega) rfl
      · simp only [c3, if_false]
        exact hlast _ (t.secs * 1000000000) (by intro x; simp [denote, unitNs]; omega) rfl
    · simp only [c2, if_false]
      by_cases c3 : t.secs.tmod 3600 > 0
      · simp only [c3, if_true]
        exact hlast _ (t.secs * 1000000000) (by intro x; simp [denote, unitNs]; omega) rfl
      · simp only [c3, if_false]
        exact hlast _ (t.secs * 1000000000) (by intro x; simp [denote, unitNs]; omega) rfl
  · simp only [c1, if_false]
    by_cases c2 : t.secs > 60
    · simp only [c2, if_true]
      by_cases c3 : t.secs.tmod 60 > 0
      · simp only [c3, if_true]
        exact hlast _ (t.secs * 1000000000) (by intro x; simp [denote, unitNs]; omega) rfl
      · simp only [c3, if_false]
        exact hlast _ (t.secs * 1000000000) (by intro x; simp [denote, unitNs]; omega) rfl
    · simp only [c2, if_false]
      by_cases c3 : t.secs > 0
      · simp only [c3, if_true]
        exact hlast _ (t.secs * 1000000000) (by intro x; simp [denote, unitNs]) rfl
      · simp only [c3, if_false]
        exact hlast _ (t.secs * 1000000000) (by intro x; simp; omega) rfl

/-- What is printed for `s ≥ 0` seconds and `n` nanoseconds, without the sign. -/
private def body (s n : Int) : List Tok :=
  (if s > 3600 then [.num (s.tdiv 3600) "h"] else []) ++
  (if (if s > 3600 then s.tmod 3600 else s) > 60 then [.num ((if s > 3600 then s.tmod 3600 else s).tdiv 60) "m"] else []) ++
  (if (if (if s > 3600 then s.tmod 3600 else s) > 60 then (if s > 3600 then s.tmod 3600 else s).tmod 60
        else (if s > 3600 then s.tmod 3600 else s)) > 0 then
     [.num (if (if s > 3600 then s.tmod 3600 else s) > 60 then (if s > 3600 then s.tmod 3600 else s).tmod 60
        else (if s > 3600 then s.tmod 3600 else s)) "s"] else []) ++
  [if n.tdiv 1000000 * 1000000 = n then .num (n.tdiv 1000000) "ms"
    else if n.tdiv 1000 * 1000 = n then .num n "us" else .num n "ns"]

private theorem denote_app (a b : List Tok) (h : Tok.minus ∉ a) : denote (a ++ b) = denote a + denote b := by
  induction a with
  | nil => simp [denote]
  | cons x a ih =>
    cases x with
    | minus => simp at h
    | num n u =>
      simp only [List.cons_append, denote]
      rw [ih (fun hc => h (List.mem_cons_of_mem _ hc))]
      omega

private theorem denote_body (s n : Int) (hs : 0 ≤ s) :
    denote (body s n) = s * 1000000000 +
      (if n % 1000 = 0 ∧ n % 1000000 ≠ 0 then n * 1000 else n) := by
  have d1 := tdm s 3600 (by decide)
  have d2 := tdm s 60 (by decide)
  have d3 := tdm (s.tmod 3600) 60 (by decide)
  have d4 := tdm n 1000000 (by decide)
  have d5 := tdm n 1000 (by decide)
  have hl : denote [if n.tdiv 1000000 * 1000000 = n then Tok.num (n.tdiv 1000000) "ms"
      else if n.tdiv 1000 * 1000 = n then .num n "us" else .num n "ns"] =
      (if n % 1000 = 0 ∧ n % 1000000 ≠ 0 then n * 1000 else n) := by
    by_cases c1 : n.tdiv 1000000 * 1000000 = n
    · rw [if_pos c1, if_neg (by omega)]; simp only [denote, unitNs]; omega
    · rw [if_neg c1]
      by_cases c2 : n.tdiv 1000 * 1000 = n
      · rw [if_pos c2, if_pos (by omega)]; simp only [denote, unitNs]; omega
      · rw [if_neg c2, if_neg (by omega)]; simp only [denote, unitNs]; omega
  unfold body
  rw [denote_app _ _ (by
    simp only [List.mem_append, not_or]
    refine ⟨⟨?_, ?_⟩, ?_⟩ <;> split <;> simp), hl]
  have : denote ((if s > 3600 then [Tok.num (s.tdiv 3600) "h"] else []) ++
      (if (if s > 3600 then s.tmod 3600 else s) > 60 then [.num ((if s > 3600 then s.tmod 3600 else s).tdiv 60) "m"] else []) ++
      (if (if (if s > 3600 then s.tmod 3600 else s) > 60 then (if s > 3600 then s.tmod 3600 else s).tmod 60
        else (if s > 3600 then s.tmod 3600 else s)) > 0 then
        [.num (if (if s > 3600 then s.tmod 3600 else s) > 60 then (if s > 3600 then s.tmod 3600 else s).tmod 60
        else (if s > 3600 then s.tmod 3600 else s)) "s"] else [])) = s * 1000000000 := by
    by_cases c1 : s > 3600
    · simp only [if_pos c1]
      by_cases c2 : s.tmod 3600 > 60
      · simp only [if_pos c2]
        split <;> simp [denote, unitNs] <;> omega
      · simp only [if_neg c2]
        split <;> simp [denote, unitNs] <;> omega
    · simp only [if_neg c1]
      by_cases c2 : s > 60
      · simp only [if_pos c2]
        split <;> simp [denote, unitNs] <;> omega
      · simp only [if_neg c2]
        split <;> simp [denote, unitNs] <;> omega
  rw [this]

private theorem print_eq {t : TB} (h : t.secs ≠ -9223372036854775808) (hi : I64 t.secs) :
    print t = .ok ((if t.secs < 0 then [.minus] else []) ++ body (if t.secs < 0 then -t.secs else t.secs) t.nsecs) := by
  have key : ∀ (o : List Tok) (s : Int), (Outcome.ok (
      let (out, secs) := if s > 3600 then (o ++ [.num (s.tdiv 3600) "h"], s.tmod 3600) else (o, s)
      let (out, secs) := if secs > 60 then (out ++ [.num (secs.tdiv 60) "m"], secs.tmod 60) else (out, secs)
      let out := if secs > 0 then out ++ [.num secs "s"] else out
      if t.nsecs.tdiv 1000000 * 1000000 = t.nsecs then out ++ [.num (t.nsecs.tdiv 1000000) "ms"]
      else if t.nsecs.tdiv 1000 * 1000 = t.nsecs then out ++ [.num t.nsecs "us"]
      else out ++ [.num t.nsecs "ns"]) : Outcome (List Tok)) = .ok (o ++ body s t.nsecs) := by
    intro o s
    congr 1
    unfold body
    by_cases c1 : s > 3600
    · simp only [if_pos c1]
      by_cases c2 : s.tmod 3600 > 60
      · simp only [if_pos c2]
        split <;> split <;> (try split) <;> simp
      · simp only [if_neg c2]
        split <;> split <;> (try split) <;> simp
    · simp only [if_neg c1]
      by_cases c2 : s > 60
      · simp only [if_pos c2]
        split <;> split <;> (try split) <;> simp
      · simp only [if_neg c2]
        split <;> split <;> (try split) <;> simp
  by_cases hn : t.secs < 0
  · have hr : i64 (-t.secs) = .ok (-t.secs) := by
      have hc : I64 (-t.secs) := by simp only [I64] at *; omega
      simp only [i64]
      rw [if_pos hc]
    simp only [print, hn, decide_true, if_true, bind, Outcome.bind, hr]
    exact key [.minus] (-t.secs)
  · simp only [print, hn, decide_false, Bool.false_eq_true, if_false, bind, Outcome.bind]
    exact key [] t.secs

/-- C10 (exact, for every span). Printing is undefined only for -2^63 seconds; otherwise the printed text
denotes the value of the span if and only if: for spans of at most minus one second, there is no
sub-second part; for all other spans, the sub-second part is not a whole number of microseconds that is
not a whole number of milliseconds. -/
theorem c10_print_exact {t : TB} (h : Normalised t) (hi : I64 t.secs) :
    (t.secs = -9223372036854775808 → print t = .ub) ∧
    (t.secs ≠ -9223372036854775808 → ∃ out, print t = .ok out ∧
      (denote out = total t ↔
        if total t ≤ -1000000000 then t.nsecs = 0 else ¬ (t.nsecs % 1000 = 0 ∧ t.nsecs % 1000000 ≠ 0))) := by
  constructor
  · intro e
    have : ¬ I64 (-t.secs) := by simp only [I64] at *; omega
    have hr : i64 (-t.secs) = .ub := by
      simp only [i64]
      rw [if_neg this]
    have hn : t.secs < 0 := by omega
    simp only [print, hn, decide_true, if_true, bind, Outcome.bind, hr]
  · intro e
    refine ⟨_, print_eq e hi, ?_⟩
    by_cases hn : t.secs < 0
    · have hb : total t ≤ -1000000000 := by simp only [total, Normalised] at *; omega
      rw [if_pos hn, if_pos hn, if_pos hb, List.singleton_append]
      simp only [denote]
      rw [denote_body _ _ (by omega)]
      simp only [total]
      split <;> omega
    · have hb : ¬ total t ≤ -1000000000 := by simp only [total, Normalised] at *; omega
      rw [if_neg hn, if_neg hn, if_neg hb, List.nil_append, denote_body _ _ (by omega)]
      simp only [total]
      split <;> omega

example : print ⟨-1, 0⟩ = .ok [.minus, .num 1 "s", .num 0 "ms"] ∧ print ⟨0, -5⟩ = .ok [.num (-5) "ns"] ∧
    print ⟨-9223372036854775808, 0⟩ = .ub := by decide

/-- C10 is violated: one microsecond is printed as `1000us`. -/
theorem c10_microseconds_wrong :
    Normalised ⟨0, 1000⟩ ∧ print ⟨0, 1000⟩ = .ok [.num 1000 "us"] ∧
    denote [.num 1000 "us"] ≠ total ⟨0, 1000⟩ := by decide

/-- C10 is violated: exactly one hour is not printed in hours, exactly one minute not in
minutes (the comparisons are strict). -/
theorem c10_boundary_unit_wrong :
    print ⟨3600, 0⟩ = .ok [.num 60 "m", .num 0 "ms"] ∧
    print ⟨60, 0⟩ = .ok [.num 60 "s", .num 0 "ms"] ∧
    print ⟨7260, 0⟩ = .ok [.num 2 "h", .num 60 "s", .num 0 "ms"] := by decide

/-- C10 is violated for negative spans: minus one and a half seconds is printed as
`-1s-500ms`, which denotes minus half a second. -/
theorem c10_negative_wrong :
    Normalised ⟨-1, -500000000⟩ ∧
    print ⟨-1, -500000000⟩ = .ok [.minus, .num 1 "s", .num (-500) "ms"] ∧
    denote [.minus, .num 1 "s", .num (-500) "ms"] ≠ total ⟨-1, -500000000⟩ := by decide

example : Normalised ⟨3725, 250000000⟩ ∧
    print ⟨3725, 250000000⟩ = .ok [.num 1 "h", .num 2 "m", .num 5 "s", .num 250 "ms"] := by decide

/-- C60. The absolute timeout for a non-negative relative one is the clock reading plus it;
a negative relative timeout means 365 days. -/
theorem c60_absolute {now d : TB} (hnow : Normalised now) (hd : Normalised d) :
    (0 ≤ total d → Representable (total now + total d) →
      ∃ t, getAbsoluteTimeout now d = .ok t ∧ Normalised t ∧ total t = total now + total d) ∧
    (total d < 0 → Representable (total now + 31536000000000000) →
      ∃ t, getAbsoluteTimeout now d = .ok t ∧ Normalised t ∧
        total t = total now + 31536000000000000) := by
  have hz : total zero = 0 := by decide
  have hl := lt_iff hd zero_norm
  constructor
  · intro h hr
    have : ¬ lt d zero = true := by rw [hl, hz]; omega
    obtain ⟨t, h1, h2, h3⟩ := add_ok hnow hd hr
    exact ⟨t, by simp [getAbsoluteTimeout, this, h1], h2, h3⟩
  · intro h hr
    have : lt d zero = true := by rw [hl, hz]; omega
    have hy : Normalised ⟨31536000, 0⟩ := by decide
    have hyt : total ⟨31536000, 0⟩ = 31536000000000000 := by decide
    obtain ⟨t, h1, h2, h3⟩ := add_ok hnow hy (by rw [hyt]; exact hr)
    refine ⟨t, ?_, h2, by rw [h3, hyt]⟩
    have hc : ctor (365 * 86400) 0 = .ok ⟨31536000, 0⟩ := normalizeTime_fix hy
    simp only [getAbsoluteTimeout, this, if_true, bind, Outcome.bind, hc, h1]

/-- C60. The relative timeout is the time remaining, zero when the deadline has passed. -/
theorem c60_relative {now t : TB} (hnow : Normalised now) (ht : Normalised t)
    (hneg : Representable (-total now)) (hr : Representable (total t - total now)) :
    ∃ d, getRelativeTimeout now t = .ok d ∧ Normalised d ∧
      total d = max 0 (total t - total now) := by
  have hl := lt_iff ht hnow
  by_cases h : lt t now = true
  · exact ⟨zero, by simp [getRelativeTimeout, h], zero_norm, by
      rw [hl] at h; have : total zero = 0 := by decide
      omega⟩
  · obtain ⟨d, h1, h2, h3⟩ := diff_ok ht hnow hneg hr
    exact ⟨d, by simp [getRelativeTimeout, h, h1], h2, by rw [hl] at h; omega⟩

/-- C60. Converting a relative timeout to an absolute one and back at a later clock reading
gives the remaining time, never more than was asked for. -/
theorem c60_round_trip {now now' d : TB} (h1 : Normalised now) (h2 : Normalised now')
    (hd : Normalised d) (h0 : 0 ≤ total now) (hle : total now ≤ total now') (hd0 : 0 ≤ total d)
    (hr : Representable (total now + total d)) :
    ∃ t r, getAbsoluteTimeout now d = .ok t ∧ getRelativeTimeout now' t = .ok r ∧
      total r = max 0 (total d - (total now' - total now)) ∧ total r ≤ total d := by
  obtain ⟨t, e1, e2, e3⟩ := (c60_absolute h1 hd).1 hd0 hr
  have b1 := rep_bounds (total_rep h2)
  have b2 := rep_bounds hr
  obtain ⟨r, f1, f2, f3⟩ := c60_relative h2 e2 (rep_of_bounds (by omega)) (rep_of_bounds (by omega))
  exact ⟨t, r, e1, f1, by omega, by omega⟩

example : Normalised ⟨1700000000, 5⟩ ∧ Normalised ⟨1700000001, 0⟩ ∧ Normalised ⟨2, 0⟩ ∧
    total ⟨1700000000, 5⟩ ≤ total ⟨1700000001, 0⟩ ∧
    Representable (total ⟨1700000000, 5⟩ + total ⟨2, 0⟩) := by decide

end Verif.Time
