import Verif.Util.ImaxdivModel

/-!
# C115: `imaxdiv`
-/
namespace Verif.Imaxdiv

/-- C99 7.8.2.2 with 6.5.5: the quotient with the fraction discarded, and the remainder that goes with it. -/
def IsDivision (n d q r : Int) : Prop :=
  q * d + r = n ∧ r.natAbs < d.natAbs ∧ (0 ≤ n → 0 ≤ r) ∧ (n ≤ 0 → r ≤ 0)

theorem isDivision_unique {n d q r q' r' : Int} (h : IsDivision n d q r) (h' : IsDivision n d q' r') : q = q' ∧ r = r' := by
  obtain ⟨a, b, c, e⟩ := h
  obtain ⟨a', b', c', e'⟩ := h'
  have h1 : (q - q') * d = r' - r := by rw [Int.sub_mul]; omega
  have h2 : (r' - r).natAbs < d.natAbs := by omega
  have h3 : q - q' = 0 := by
    rcases Int.lt_trichotomy (q - q') 0 with h | h | h
    · have : (r' - r).natAbs = (q - q').natAbs * d.natAbs := by rw [← h1, Int.natAbs_mul]
      have h4 : 1 * d.natAbs ≤ (q - q').natAbs * d.natAbs := Nat.mul_le_mul_right _ (by omega)
      omega
    · exact h
    · have : (r' - r).natAbs = (q - q').natAbs * d.natAbs := by rw [← h1, Int.natAbs_mul]
      have h4 : 1 * d.natAbs ≤ (q - q').natAbs * d.natAbs := Nat.mul_le_mul_right _ (by omega)
      omega
  rw [h3] at h1
  omega

theorem isDivision_trunc (n d : Int) (hd : d ≠ 0) : IsDivision n d (n.tdiv d) (n.tmod d) := by
  refine ⟨by rw [Int.mul_comm]; exact Int.mul_tdiv_add_tmod n d, ?_, ?_, ?_⟩
  · rw [Int.natAbs_tmod]; exact Nat.mod_lt _ (by omega)
  · exact fun h => Int.tmod_nonneg d h
  · intro h
    have := Int.tmod_nonneg d (a := -n) (by omega)
    rw [Int.neg_tmod] at this; omega

theorem imaxdiv_eq (n d : Int) (hd : d ≠ 0) (hm : ¬ (n = minVal ∧ d = -1)) : imaxdiv n d = .ok (n.tdiv d, n.tmod d) := by
  have h := (isDivision_trunc n d hd).2.2.2
  simp only [imaxdiv, imaxdivWith, if_neg hd, if_neg hm]
  rw [if_neg]; omega

/-- C115: `imaxdiv` returns exactly the quotient and remainder of the C standard, for every numerator and every
denominator except 0 and the one pair whose quotient is not representable. -/
theorem c115_division (n d : Int) (hd : d ≠ 0) (hm : ¬ (n = -9223372036854775808 ∧ d = -1)) (q r : Int) :
    imaxdiv n d = .ok (q, r) ↔ q * d + r = n ∧ r.natAbs < d.natAbs ∧ (0 ≤ n → 0 ≤ r) ∧ (n ≤ 0 → r ≤ 0) := by
  rw [imaxdiv_eq n d hd hm]
  constructor
  · intro h
    simp only [Outcome.ok.injEq, Prod.mk.injEq] at h
    obtain ⟨rfl, rfl⟩ := h
    exact isDivision_trunc n d hd
  · intro h
    obtain ⟨h1, h2⟩ := isDivision_unique (isDivision_trunc n d hd) h
    rw [h1, h2]

/-- C115: these two cases are undefined, and no others. -/
theorem c115_undefined_iff (n d : Int) : imaxdiv n d = .ub ↔ d = 0 ∨ (n = -9223372036854775808 ∧ d = -1) := by
  by_cases hd : d = 0
  · simp [imaxdiv, imaxdivWith, hd]
  · by_cases hm : n = minVal ∧ d = -1
    · have hm' : n = -9223372036854775808 ∧ d = -1 := hm
      simp only [imaxdiv, imaxdivWith, if_neg hd, if_pos hm, true_iff]
      exact Or.inr hm'
    · rw [imaxdiv_eq n d hd hm]
      have hm' : ¬ (n = -9223372036854775808 ∧ d = -1) := hm
      simp [hd, hm']

/-- C115: quotient and remainder are representable. -/
theorem c115_no_overflow (n d q r : Int) (hn : -9223372036854775808 ≤ n ∧ n ≤ 9223372036854775807)
    (hd : -9223372036854775808 ≤ d ∧ d ≤ 9223372036854775807) (h : imaxdiv n d = .ok (q, r)) :
    (-9223372036854775808 ≤ q ∧ q ≤ 9223372036854775807) ∧ -9223372036854775808 ≤ r ∧ r ≤ 9223372036854775807 := by
  have h0 : ¬ (d = 0 ∨ (n = -9223372036854775808 ∧ d = -1)) := by
    rw [← c115_undefined_iff, h]; intro h; cases h
  obtain ⟨a, b, c, e⟩ := (c115_division n d (by omega) (by omega) q r).1 h
  have hr : r.natAbs ≤ n.natAbs := by
    have h1 : r = n.tmod d := by
      rw [imaxdiv_eq n d (by omega) (by simp only [minVal]; omega)] at h
      simp only [Outcome.ok.injEq, Prod.mk.injEq] at h; exact h.2.symm
    rw [h1, Int.natAbs_tmod]; exact Nat.mod_le _ _
  have hq : q.natAbs = n.natAbs / d.natAbs := by
    rw [imaxdiv_eq n d (by omega) (by simp only [minVal]; omega)] at h
    simp only [Outcome.ok.injEq, Prod.mk.injEq] at h
    rw [← h.1, Int.natAbs_tdiv]; rfl
  have hq1 : q.natAbs ≤ n.natAbs := by rw [hq]; exact Nat.div_le_self _ _
  refine ⟨?_, by omega⟩
  by_cases hm : n = -9223372036854775808
  · by_cases h1 : d = 1
    · subst h1; omega
    · have hd2 : 2 ≤ d.natAbs := by omega
      have : q.natAbs ≤ n.natAbs / 2 := by rw [hq]; exact Nat.div_le_div_left hd2 (by decide)
      omega
  · omega

/-- C115: with a compiler that rounds to minus infinity the fix-up gives the standard result for every positive
denominator ... -/
theorem c115_floor_positive (n d : Int) (hd : 0 < d) : imaxdivFloor n d = imaxdiv n d := by
  have hm : ¬ (n = minVal ∧ d = -1) := by omega
  have hT := isDivision_trunc n d (by omega)
  rw [imaxdiv_eq n d (by omega) hm]
  have e1 : n.fdiv d * d + n.fmod d = n := by rw [Int.mul_comm]; exact Int.mul_fdiv_add_fmod n d
  have e2 : 0 ≤ n.fmod d := Int.fmod_nonneg_of_pos n hd
  have e3 : n.fmod d < d := Int.fmod_lt_of_pos n hd
  have e4 : n = 0 → n.fmod d = 0 := by rintro rfl; exact Int.zero_fmod d
  simp only [imaxdivFloor, imaxdivWith, if_neg hm, if_neg (show ¬ d = 0 by omega)]
  split
  · have : IsDivision n d (n.fdiv d + 1) (n.fmod d - d) := by
      refine ⟨by rw [Int.add_mul]; omega, by omega, by omega, by omega⟩
    obtain ⟨a, b⟩ := isDivision_unique this hT
    rw [a, b]
  · have : IsDivision n d (n.fdiv d) (n.fmod d) := ⟨by omega, by omega, by omega, by omega⟩
    obtain ⟨a, b⟩ := isDivision_unique this hT
    rw [a, b]

/-- C115: ... but not for a negative one: a positive numerator that is not a multiple always gets a wrong result. -/
theorem c115_floor_negative (n d : Int) (hd : d < 0) (hn : 0 < n) (hnd : ¬ d ∣ n) : imaxdivFloor n d ≠ imaxdiv n d := by
  have hm : ¬ (n = minVal ∧ d = -1) := by simp only [minVal]; omega
  have hT := isDivision_trunc n d (by omega)
  rw [imaxdiv_eq n d (by omega) hm]
  simp only [imaxdivFloor, imaxdivWith, if_neg hm, if_neg (show ¬ d = 0 by omega)]
  rw [if_neg (by omega)]
  intro h
  simp only [Outcome.ok.injEq, Prod.mk.injEq] at h
  have e2 : n.fmod d ≤ 0 := by
    have := Int.fmod_nonneg_of_pos (-n) (b := -d) (by omega)
    rw [Int.neg_fmod_neg] at this; omega
  have h1 := hT.2.2.1 (by omega)
  have h0 : n.tmod d = 0 := by omega
  exact hnd (Int.dvd_of_tmod_eq_zero h0)

/-! Concrete cases. -/

example : imaxdiv (-7) 2 = .ok (-3, -1) ∧ imaxdiv 7 (-2) = .ok (-3, 1) := by decide +kernel
example : imaxdivFloor (-7) 2 = .ok (-3, -1) ∧ imaxdivFloor 7 (-2) = .ok (-4, -1) := by decide +kernel

end Verif.Imaxdiv
