import Verif.Time.Spec

/-! Auxiliary lemmas for time values. -/
namespace Verif.Time

/-- Everything linear arithmetic needs to know about truncated division. -/
theorem tdm (x k : Int) (hk : 0 < k) : k * x.tdiv k + x.tmod k = x ∧
    (0 ≤ x → 0 ≤ x.tmod k ∧ x.tmod k < k ∧ 0 ≤ x.tdiv k) ∧
    (x ≤ 0 → -k < x.tmod k ∧ x.tmod k ≤ 0 ∧ x.tdiv k ≤ 0) := by
  refine ⟨Int.mul_tdiv_add_tmod x k, ?_, ?_⟩
  · intro h
    exact ⟨Int.tmod_nonneg _ h, Int.tmod_lt_of_pos _ hk, Int.tdiv_nonneg h (Int.le_of_lt hk)⟩
  · intro h
    have h1 := Int.tmod_nonneg k (a := -x) (by omega)
    have h2 := Int.tmod_lt_of_pos (-x) hk
    have h3 := Int.tdiv_nonneg (a := -x) (b := k) (by omega) (Int.le_of_lt hk)
    rw [Int.neg_tmod] at h1 h2
    rw [Int.neg_tdiv] at h3
    omega

theorem rep_bounds {x : Int} (h : Representable x) :
    -9223372036854775808 * 1000000000 - 999999999 ≤ x ∧
    x ≤ 9223372036854775807 * 1000000000 + 999999999 := by
  have := tdm x 1000000000 (by omega)
  unfold Representable I64 at h
  omega

theorem rep_of_bounds {x : Int} (h : -9223372036854775808 * 1000000000 - 999999999 ≤ x ∧
    x ≤ 9223372036854775807 * 1000000000 + 999999999) : Representable x := by
  have := tdm x 1000000000 (by omega)
  unfold Representable I64
  omega

/-- Unique canonical representation. -/
theorem normalised_unique {a b : TB} (ha : Normalised a) (hb : Normalised b)
    (h : total a = total b) : a = b := by
  obtain ⟨as, an⟩ := a
  obtain ⟨bs, bn⟩ := b
  simp only [Normalised, total] at *
  have : as = bs := by omega
  subst this
  have : an = bn := by omega
  subst this
  rfl

theorem total_rep {a : TB} (ha : Normalised a) : Representable (total a) := by
  apply rep_of_bounds
  simp only [Normalised, I64, total] at *
  omega

theorem normalizeTime_ok (t : TB) (hn : I32 t.nsecs) (hs : I64 t.secs)
    (hr : Representable (total t)) :
    ∃ t', normalizeTime t = .ok t' ∧ Normalised t' ∧ total t' = total t := by
  fun_induction normalizeTime t with
  | case1 t h h' ih =>
    have := ih h'.1 h'.2 (by simpa [total] using (by
      have : (t.secs + 1) * 1000000000 + (t.nsecs - 1000000000) = t.secs * 1000000000 + t.nsecs := by omega
      rw [this]; exact hr))
    obtain ⟨t', h1, h2, h3⟩ := this
    exact ⟨t', h1, h2, by rw [h3]; simp only [total]; omega⟩
  | case2 t h h' =>
    exfalso
    have := rep_bounds hr
    simp only [I32, I64, total] at *
    omega
  | case3 t _ h h' ih =>
    have := ih h'.1 h'.2 (by simpa [total] using (by
      have : (t.secs - 1) * 1000000000 + (t.nsecs + 1000000000) = t.secs * 1000000000 + t.nsecs := by omega
      rw [this]; exact hr))
    obtain ⟨t', h1, h2, h3⟩ := this
    exact ⟨t', h1, h2, by rw [h3]; simp only [total]; omega⟩
  | case4 t h0 h h' =>
    exfalso
    have := rep_bounds hr
    simp only [I32, I64, total] at *
    omega
  | case5 t _ _ h h' ih =>
    have := ih h'.1 h'.2 (by simpa [total] using (by
      have : (t.secs - 1) * 1000000000 + (t.nsecs + 1000000000) = t.secs * 1000000000 + t.nsecs := by omega
      rw [this]; exact hr))
    obtain ⟨t', h1, h2, h3⟩ := this
    exact ⟨t', h1, h2, by rw [h3]; simp only [total]; omega⟩
  | case6 t h0 h1 h h' =>
    exfalso
    have := rep_bounds hr
    simp only [I32, I64, total] at *
    omega
  | case7 t _ _ _ h h' ih =>
    have := ih h'.1 h'.2 (by simpa [total] using (by
      have : (t.secs + 1) * 1000000000 + (t.nsecs - 1000000000) = t.secs * 1000000000 + t.nsecs := by omega
      rw [this]; exact hr))
    obtain ⟨t', h1, h2, h3⟩ := this
    exact ⟨t', h1, h2, by rw [h3]; simp only [total]; omega⟩
  | case8 t h0 h1 h2 h h' =>
    exfalso
    have := rep_bounds hr
    simp only [I32, I64, total] at *
    omega
  | case9 t h0 h1 h2 h3 =>
    refine ⟨t, rfl, ?_, rfl⟩
    refine ⟨hs, ?_, ?_, ?_, ?_⟩ <;> omega

theorem normalizeTime_fix {t : TB} (h : Normalised t) : normalizeTime t = .ok t := by
  have hb := h
  unfold Normalised I64 at hb
  rw [normalizeTime]
  have h1 : ¬ (t.secs ≥ 0 ∧ t.nsecs ≥ 1000000000) := by omega
  have h2 : ¬ (t.secs ≤ 0 ∧ t.nsecs ≤ -1000000000) := by omega
  have h3 : ¬ (t.secs > 0 ∧ t.nsecs < 0) := by omega
  have h4 : ¬ (t.secs < 0 ∧ t.nsecs > 0) := by omega
  simp only [h1, h2, h3, h4, if_false]

theorem normalizeTime_to {t u : TB} (hn : I32 t.nsecs) (hs : I64 t.secs) (hu : Normalised u)
    (e : total u = total t) : normalizeTime t = .ok u := by
  obtain ⟨t', h1, h2, h3⟩ := normalizeTime_ok t hn hs (e ▸ total_rep hu)
  rw [h1, normalised_unique h2 hu (by omega)]

theorem add_ok {a b : TB} (ha : Normalised a) (hb : Normalised b)
    (hr : Representable (total a + total b)) :
    ∃ t, addAssign a b = .ok t ∧ Normalised t ∧ total t = total a + total b := by
  have hrb := rep_bounds hr
  have hs : I64 (a.secs + b.secs) := by simp only [Normalised, I64, total] at *; omega
  have hn : I32 (a.nsecs + b.nsecs) := by simp only [Normalised, I32] at *; omega
  obtain ⟨t, h1, h2, h3⟩ := normalizeTime_ok ⟨a.secs + b.secs, a.nsecs + b.nsecs⟩ hn hs (by
    apply rep_of_bounds; simp only [total] at *; omega)
  refine ⟨t, ?_, h2, by rw [h3]; simp only [total]; omega⟩
  simp only [addAssign, i64, i32, hs, hn, if_true, bind, Outcome.bind, h1]

theorem sub_ok {a b : TB} (ha : Normalised a) (hb : Normalised b)
    (hneg : Representable (-total b)) (hr : Representable (total a - total b)) :
    ∃ t, subAssign a b = .ok t ∧ Normalised t ∧ total t = total a - total b := by
  have hrb := rep_bounds hr
  have hnb := rep_bounds hneg
  have hs : I64 (a.secs - b.secs) := by simp only [Normalised, I64, total] at *; omega
  have hn : I32 (a.nsecs - b.nsecs) := by simp only [Normalised, I32] at *; omega
  obtain ⟨t, h1, h2, h3⟩ := normalizeTime_ok ⟨a.secs - b.secs, a.nsecs - b.nsecs⟩ hn hs (by
    apply rep_of_bounds; simp only [total] at *; omega)
  refine ⟨t, ?_, h2, by rw [h3]; simp only [total]; omega⟩
  simp only [subAssign, i64, i32, hs, hn, if_true, bind, Outcome.bind, h1]

theorem diff_ok {a b : TB} (ha : Normalised a) (hb : Normalised b)
    (hneg : Representable (-total b)) (hr : Representable (total a - total b)) :
    ∃ t, stampDiff a b = .ok t ∧ Normalised t ∧ total t = total a - total b := by
  obtain ⟨t, h1, h2, h3⟩ := sub_ok ha hb hneg hr
  refine ⟨t, ?_, h2, h3⟩
  rw [← h1]
  have hrb := rep_bounds hr
  have hnb := rep_bounds hneg
  have hs : I64 (a.secs - b.secs) := by simp only [Normalised, I64, total] at *; omega
  have hn : I32 (a.nsecs - b.nsecs) := by simp only [Normalised, I32] at *; omega
  have e1 : wrapI64 (wrapU64 (wrapU64 a.secs - wrapU64 b.secs)) = a.secs - b.secs := by
    simp only [wrapI64, wrapU64, I64] at *; omega
  have e2 : wrapI32 (wrapU32 (wrapU32 a.nsecs - wrapU32 b.nsecs)) = a.nsecs - b.nsecs := by
    simp only [wrapI32, wrapU32, I32] at *; omega
  simp only [stampDiff, e1, e2, ctor, subAssign, i64, i32, hs, hn, if_true, bind, Outcome.bind]

theorem lt_iff {a b : TB} (ha : Normalised a) (hb : Normalised b) :
    lt a b = true ↔ total a < total b := by
  simp only [lt, Normalised, total] at *
  split <;> simp only [decide_eq_true_eq] <;> omega

theorem zero_norm : Normalised zero := by decide

end Verif.Time
