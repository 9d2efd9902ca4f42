import Verif.Util.SeqModel

/-!
# Properties of sequence numbers (C13, C14)

`ahead mx a b` is the number of increments leading from `a` to `b` on the circle of the
numbers `0 … mx-1`.
-/
namespace Verif.SequenceNumber

/-- Forward distance from `a` to `b` on a circle of `mx` numbers. -/
def ahead (mx a b : Nat) : Nat := (b + mx - a) % mx

/-- C13. `k` increments starting from any value of `[min,max)` give the `k`-th successor
modulo the cycle, and the value never leaves the range. -/
theorem c13_increments (mx mn v k : Nat) (hm : mn < mx) (h1 : mn ≤ v) (h2 : v < mx) :
    incN mx mn k v = mn + (v - mn + k) % (mx - mn) ∧ mn ≤ incN mx mn k v ∧ incN mx mn k v < mx := by
  have key : incN mx mn k v = mn + (v - mn + k) % (mx - mn) := by
    induction k with
    | zero =>
      simp only [incN, Nat.add_zero]
      rw [Nat.mod_eq_of_lt (by omega)]; omega
    | succ k ih =>
      simp only [incN, ih, inc]
      have hlt := Nat.mod_lt (v - mn + k) (show 0 < mx - mn by omega)
      have hstep : (v - mn + (k + 1)) % (mx - mn) =
          if (v - mn + k) % (mx - mn) + 1 = mx - mn then 0 else (v - mn + k) % (mx - mn) + 1 := by
        rw [← Nat.add_assoc, Nat.add_mod]
        by_cases h1 : mx - mn = 1
        · rw [h1]; simp [Nat.mod_one]
        · rw [Nat.mod_eq_of_lt (show 1 < mx - mn by omega)]
          split
          · rename_i e; rw [e, Nat.mod_self]
          · exact Nat.mod_eq_of_lt (by omega)
      rw [hstep]
      split <;> split <;> omega
  have hlt := Nat.mod_lt (v - mn + k) (show 0 < mx - mn by omega)
  exact ⟨key, by omega, by omega⟩

/-- C13. Every value of the range is reached, within one cycle. -/
theorem c13_reaches_all (mx mn v w : Nat) (h1 : mn ≤ v) (h2 : v < mx) (h3 : mn ≤ w) (h4 : w < mx) :
    ∃ k, k < mx - mn ∧ incN mx mn k v = w := by
  by_cases h : v ≤ w
  · refine ⟨w - v, by omega, ?_⟩
    rw [(c13_increments mx mn v (w - v) (by omega) h1 h2).1, Nat.mod_eq_of_lt (by omega)]; omega
  · refine ⟨w + (mx - mn) - v, by omega, ?_⟩
    rw [(c13_increments mx mn v _ (by omega) h1 h2).1]
    have : v - mn + (w + (mx - mn) - v) = (w - mn) + (mx - mn) := by omega
    rw [this, Nat.add_mod_right, Nat.mod_eq_of_lt (by omega)]; omega

example : incN 255 0 7 250 = 2 ∧ incN 10 3 4 8 = 5 := by decide

/-- C14 (the part that holds, `min_value = 0`). Whenever `b` is ahead of `a` by at least one
and less than half the cycle, all six comparisons say that `a` is before `b` — also across
the wrap-around.  Missing with respect to the full claim: distances of exactly half the
cycle, see `c14_half_way_wrong` and `c14_odd_cycle_inconsistent`. -/
theorem c14_circular_order_partial (mx a b : Nat) (ha : a < mx) (hb : b < mx)
    (h0 : 0 < ahead mx a b) (h1 : ahead mx a b < mx / 2) :
    lt mx a b = true ∧ lt mx b a = false ∧ le mx a b = true ∧ le mx b a = false ∧
    gt mx b a = true ∧ gt mx a b = false ∧ ge mx b a = true ∧ ge mx a b = false ∧ a ≠ b := by
  have hd : ahead mx a b = if a ≤ b then b - a else b + mx - a := by
    unfold ahead
    split
    · have : b + mx - a = (b - a) + mx := by omega
      rw [this, Nat.add_mod_right, Nat.mod_eq_of_lt (by omega)]
    · exact Nat.mod_eq_of_lt (by omega)
  have hab : a ≠ b := by rintro rfl; simp at hd; omega
  have hl : lt mx a b = true := by
    simp only [lt]; rw [hd] at h0 h1
    split <;> split at h1 <;> simp only [decide_eq_true_eq] <;> omega
  have hl' : lt mx b a = false := by
    simp only [lt]; rw [hd] at h0 h1
    split <;> split at h1 <;> simp only [decide_eq_false_iff_not] <;> omega
  have e1 : (a == b) = false := by simp [hab]
  have e2 : (b == a) = false := by simp [Ne.symm hab]
  simp [le, gt, ge, eq, hl, hl', e1, e2, hab]

/-- C14 (exact criterion for even cycles, `min_value = 0`): `a < b` iff `b` is ahead of `a`
by at least one and less than half the cycle. -/
theorem c14_lt_iff_even (mx a b : Nat) (ha : a < mx) (hb : b < mx) (heven : mx % 2 = 0) :
    lt mx a b = true ↔ 0 < ahead mx a b ∧ ahead mx a b < mx / 2 := by
  have hd : ahead mx a b = if a ≤ b then b - a else b + mx - a := by
    unfold ahead
    split
    · have : b + mx - a = (b - a) + mx := by omega
      rw [this, Nat.add_mod_right, Nat.mod_eq_of_lt (by omega)]
    · exact Nat.mod_eq_of_lt (by omega)
  rw [hd]
  simp only [lt]
  split <;> split <;> simp only [decide_eq_true_eq] <;> omega

/-- C14. After `k` increments, less than half the cycle, the new number is greater than the
old one (`min_value = 0`). -/
theorem c14_increment_increases (mx v k : Nat) (hv : v < mx) (h0 : 0 < k) (h1 : k < mx / 2) :
    lt mx v (incN mx 0 k v) = true ∧ gt mx (incN mx 0 k v) v = true ∧
    lt mx (incN mx 0 k v) v = false := by
  have hk := c13_increments mx 0 v k (by omega) (by omega) hv
  simp only [Nat.sub_zero, Nat.zero_add] at hk
  have ha : ahead mx v (incN mx 0 k v) = k := by
    rw [hk.1]
    unfold ahead
    by_cases h : v + k < mx
    · rw [Nat.mod_eq_of_lt h]
      have : v + k + mx - v = k + mx := by omega
      rw [this, Nat.add_mod_right, Nat.mod_eq_of_lt (by omega)]
    · have h3 : (v + k) % mx = v + k - mx := by
        rw [Nat.mod_eq_sub_mod (by omega), Nat.mod_eq_of_lt (by omega)]
      rw [h3]
      have : v + k - mx + mx - v = k := by omega
      rw [this, Nat.mod_eq_of_lt (by omega)]
  have := c14_circular_order_partial mx v (incN mx 0 k v) hv hk.2.2 (by omega) (by omega)
  exact ⟨this.1, this.2.2.2.2.1, this.2.1⟩

/-- C14. `<` is irreflexive and asymmetric, and `<=`, `>`, `>=`, `==`, `!=` are related to it as
expected, for all values. -/
theorem c14_derived (mx a b : Nat) (ha : a < mx) (hb : b < mx) :
    lt mx a a = false ∧ ¬ (lt mx a b = true ∧ lt mx b a = true) ∧
    (le mx a b = true ↔ lt mx a b = true ∨ a = b) ∧
    (ge mx a b = true ↔ gt mx a b = true ∨ a = b) := by
  refine ⟨by simp [lt], ?_, by simp [le, eq], ?_⟩
  · simp only [lt]
    intro ⟨h1, h2⟩
    split at h1 <;> split at h2 <;> simp only [decide_eq_true_eq] at h1 h2 <;> omega
  · simp only [ge, gt, eq, Bool.and_eq_true, Bool.not_eq_true', beq_eq_false_iff_ne]
    constructor
    · intro h; by_cases e : a = b <;> simp [h, e]
    · intro h
      rcases h with h | h
      · exact h.2
      · subst h; simp [lt]

/-- C14 (exact criterion for every cycle, `min_value = 0`): `a < b` iff `b` is ahead of `a` by at least
one and less than half the cycle, or, for odd cycles, by exactly half (rounded down) across the
wrap-around. -/
theorem c14_lt_exact (mx a b : Nat) (ha : a < mx) (hb : b < mx) :
    lt mx a b = true ↔ 0 < ahead mx a b ∧
      (ahead mx a b < mx / 2 ∨ (mx % 2 = 1 ∧ ahead mx a b = mx / 2 ∧ b < a)) := by
  have hd : ahead mx a b = if a ≤ b then b - a else b + mx - a := by
    unfold ahead
    split
    · have : b + mx - a = (b - a) + mx := by omega
      rw [this, Nat.add_mod_right, Nat.mod_eq_of_lt (by omega)]
    · exact Nat.mod_eq_of_lt (by omega)
  rw [hd]
  simp only [lt]
  split <;> split <;> simp only [decide_eq_true_eq] <;> omega

/-- C14 (exact criterion for trichotomy): of `a < b`, `a == b`, `b < a` at most one holds, and one does
unless the numbers are exactly half of `max_value` (rounded down) apart. -/
theorem c14_trichotomy_exact (mx a b : Nat) (ha : a < mx) (hb : b < mx) :
    ¬ (lt mx a b = true ∧ lt mx b a = true) ∧ ¬ (lt mx a b = true ∧ a = b) ∧
    (lt mx a b = true ∨ eq a b = true ∨ lt mx b a = true ↔
      a = b ∨ (a + mx / 2 ≠ b ∧ b + mx / 2 ≠ a)) := by
  refine ⟨(c14_derived mx a b ha hb).2.1, ?_, ?_⟩
  · rintro ⟨h, rfl⟩
    rw [(c14_derived mx a a ha ha).1] at h
    exact absurd h (by decide)
  · simp only [lt, eq, beq_iff_eq]
    split <;> split <;> simp only [decide_eq_true_eq] <;> omega

/-- C14 (exact criterion for every `min_value`): after `k` increments, less than a whole cycle, the new
number is greater than the old one iff `k` is below half of `max_value` without wrap-around, and below
the cycle less half of `max_value` with wrap-around. -/
theorem c14_increment_exact (mx mn v k : Nat) (hv : mn ≤ v) (hv2 : v < mx) (h0 : 0 < k) (h1 : k < mx - mn) :
    lt mx v (incN mx mn k v) = true ↔
      if v + k < mx then k < mx / 2 else k < mx - mn - mx / 2 := by
  have hk := (c13_increments mx mn v k (by omega) hv hv2).1
  by_cases h : v + k < mx
  · have e : incN mx mn k v = v + k := by
      rw [hk, Nat.mod_eq_of_lt (by omega)]; omega
    rw [e, if_pos h]
    simp only [lt]
    split <;> simp only [decide_eq_true_eq] <;> omega
  · have e : incN mx mn k v = v + k - (mx - mn) := by
      rw [hk, Nat.mod_eq_sub_mod (by omega), Nat.mod_eq_of_lt (by omega)]; omega
    rw [e, if_neg h]
    simp only [lt]
    split <;> simp only [decide_eq_true_eq] <;> omega

example : lt 5 3 0 = true ∧ lt 110 109 (incN 110 100 1 109) = false ∧ lt 255 250 (incN 255 0 9 250) = true := by decide

/-- C14 is violated at exactly half the cycle: neither number is before the other although
they differ, and each claims to be after the other. -/
theorem c14_half_way_wrong (mx : Nat) (h : 2 ≤ mx) :
    lt mx 0 (mx / 2) = false ∧ lt mx (mx / 2) 0 = false ∧
    gt mx 0 (mx / 2) = true ∧ gt mx (mx / 2) 0 = true := by
  have h1 : 0 < mx / 2 := by omega
  have e1 : lt mx 0 (mx / 2) = false := by simp [lt, h1]
  have e2 : lt mx (mx / 2) 0 = false := by simp [lt]
  have e3 : (0 == mx / 2) = false := by simp; omega
  have e4 : (mx / 2 == 0) = false := by simp; omega
  simp [gt, eq, e1, e2, e3, e4]

/-- C14 is violated for odd `max_value`: the answer depends on where the wrap-around lies,
although the forward distance is the same. -/
theorem c14_odd_cycle_inconsistent :
    ahead 5 0 2 = ahead 5 3 0 ∧ lt 5 0 2 = false ∧ lt 5 3 0 = true := by decide

/-- C14 does not extend to `min_value > 0`: the successor across the wrap-around is not
greater, because the comparison ignores `min_value`. -/
theorem c14_min_value_wrong :
    inc 110 100 109 = 100 ∧ lt 110 109 (inc 110 100 109) = false := by decide

example : 250 < 255 ∧ 0 < ahead 255 250 5 ∧ ahead 255 250 5 < 255 / 2 := by decide

end Verif.SequenceNumber
