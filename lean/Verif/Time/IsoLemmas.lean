import Verif.Time.Iso
import Verif.Time.Lemmas

/-! Auxiliary lemmas for the ISO 8601 round trip. -/
namespace Verif.Time

theorem digitVal_digit (k : Nat) (h : k < 10) : digitVal (digit k) = some k := by
  have : ∀ k : Fin 10, digitVal (digit k.val) = some k.val := by decide
  exact this ⟨k, h⟩

theorem digit_not_sign (k : Nat) (h : k < 10) : digit k ≠ '-' ∧ digit k ≠ '+' := by
  have : ∀ k : Fin 10, digit k.val ≠ '-' ∧ digit k.val ≠ '+' := by decide
  exact this ⟨k, h⟩

theorem digitsVal_append (xs : List Char) (k : Nat) (hk : k < 10) : ∀ acc,
    digitsVal acc (xs ++ [digit k]) = (digitsVal acc xs).map (fun v => v * 10 + k) := by
  induction xs with
  | nil => intro acc; simp [digitsVal, digitVal_digit k hk]
  | cons c cs ih =>
    intro acc
    simp only [List.cons_append, digitsVal]
    cases digitVal c with
    | none => rfl
    | some v => exact ih _

theorem digitsVal_dec (w : Nat) : ∀ n, n < 10 ^ w → digitsVal 0 (dec w n) = some n := by
  induction w with
  | zero => intro n h; simp at h; simp [dec, digitsVal, h]
  | succ w ih =>
    intro n h
    have h1 : n / 10 < 10 ^ w := by
      rw [Nat.pow_succ] at h; omega
    rw [dec, digitsVal_append _ _ (Nat.mod_lt _ (by decide)), ih _ h1]
    simp; omega

theorem dec_length (w n : Nat) : (dec w n).length = w := by
  induction w generalizing n with
  | zero => rfl
  | succ w ih => simp [dec, ih]

theorem dec_head (w n : Nat) : ∃ k r, k < 10 ∧ dec (w + 1) n = digit k :: r := by
  induction w generalizing n with
  | zero => exact ⟨n % 10, [], Nat.mod_lt _ (by decide), by simp [dec]⟩
  | succ w ih =>
    obtain ⟨k, r, hk, e⟩ := ih (n / 10)
    exact ⟨k, r ++ [digit (n % 10)], hk, by rw [dec, e]; rfl⟩

theorem lexicalCast_dec (w n : Nat) (hn : n < 10 ^ (w + 1)) (hI : n ≤ 2147483647) :
    lexicalCast (dec (w + 1) n) = .ok n := by
  obtain ⟨k, r, hk, e⟩ := dec_head w n
  have hv := digitsVal_dec (w + 1) n hn
  obtain ⟨s1, s2⟩ := digit_not_sign k hk
  rw [e] at hv ⊢
  have hI' : I32 (n : Int) := by simp only [I32]; omega
  unfold lexicalCast
  split
  rename_i neg ds heq
  split at heq
  · rename_i h; simp only [List.cons.injEq] at h; exact absurd h.1 s1
  · rename_i h; simp only [List.cons.injEq] at h; exact absurd h.1 s2
  · injection heq with h1 h2
    subst h1 h2
    simp only [hv, Bool.false_eq_true, if_false, hI', if_true]

/-- Calendar invariant. -/
def Date.Valid (x : Date) : Prop :=
  1970 ≤ x.y ∧ 1 ≤ x.m ∧ x.m ≤ 12 ∧ 1 ≤ x.d ∧ x.d ≤ monthLength x.y x.m

theorem leap_eq (y : Int) :
    (y % 400 == 0 || (y % 4 == 0 && y % 100 != 0)) = isLeap y := by
  unfold isLeap; rw [Bool.or_comm]

/-- Days before the first of month `k+1`. -/
def monthSum (y : Int) : Nat → Nat
  | 0 => 0
  | k + 1 => monthSum y k + monthLength y (k + 1)

theorem monthLoop_eq (y : Int) (k : Nat) (hk : k ≤ 12) :
    monthLoop (daysPerMonth (isLeap y)) k = .ok (monthSum y k) := by
  induction k with
  | zero => rfl
  | succ k ih =>
    rw [monthLoop, ih (by omega)]
    have : Outcome.vecGet (daysPerMonth (isLeap y)) k = .ok (monthLength y (k + 1) : Int) := by
      have hc : k = 0 ∨ k = 1 ∨ k = 2 ∨ k = 3 ∨ k = 4 ∨ k = 5 ∨ k = 6 ∨ k = 7 ∨ k = 8 ∨ k = 9
        ∨ k = 10 ∨ k = 11 := by omega
      rcases hc with h | h | h | h | h | h | h | h | h | h | h | h <;> subst h <;>
        (try rfl) <;> (simp only [monthLength, daysPerMonth]; cases isLeap y <;> rfl)
    simp only [bind, Outcome.bind, this, monthSum]
    simp

/-- Day number of a date. -/
def dayNo (x : Date) : Int := yearLoop (x.y - 1970).toNat + monthSum x.y (x.m - 1) + (x.d - 1)

theorem monthSum_twelve (y : Int) : (monthSum y 12 : Int) = if isLeap y then 366 else 365 := by
  cases h : isLeap y <;> simp [monthSum, monthLength, h]

theorem nextDay_valid {x : Date} (h : x.Valid) : (nextDay x).Valid ∧ dayNo (nextDay x) = dayNo x + 1 := by
  obtain ⟨y, m, d⟩ := x
  simp only [Date.Valid] at h
  unfold nextDay
  simp only []
  by_cases h1 : d < monthLength y m
  · simp only [h1, if_true]
    refine ⟨?_, ?_⟩
    · simp only [Date.Valid]; omega
    · simp only [dayNo]; omega
  · simp only [h1, if_false]
    by_cases h2 : m < 12
    · simp only [h2, if_true]
      have hpos : ∀ k, 1 ≤ monthLength y k := by
        intro k; unfold monthLength; split <;> (try split) <;> omega
      refine ⟨⟨h.1, by simp only []; omega, by simp only []; omega, Nat.le_refl 1, hpos _⟩, ?_⟩
      simp only [dayNo]
      obtain ⟨k, rfl⟩ : ∃ k, m = k + 1 := ⟨m - 1, by omega⟩
      simp only [Nat.add_sub_cancel, monthSum]
      omega
    · simp only [h2, if_false]
      have hm : m = 12 := by omega
      subst hm
      refine ⟨⟨by simp only []; omega, Nat.le_refl 1, by simp only []; omega, Nat.le_refl 1, ?_⟩, ?_⟩
      · simp only [monthLength]; omega
      · simp only [dayNo]
        have hd : d = 31 := by simp only [monthLength] at h h1; omega
        subst hd
        obtain ⟨k, hk⟩ : ∃ k : Nat, y = 1970 + k := ⟨(y - 1970).toNat, by omega⟩
        have e1 : (y + 1 - 1970).toNat = k + 1 := by omega
        have e2 : (y - 1970).toNat = k := by omega
        rw [e1, e2]
        have h12 := monthSum_twelve y
        have h11 : monthSum y 12 = monthSum y 11 + 31 := by
          simp [monthSum, monthLength]
        have z : monthSum (y + 1) (1 - 1) = 0 := rfl
        simp only [yearLoop, ← hk, leap_eq, z, Nat.reduceSub]
        omega

theorem date_ok (n : Nat) : (dateOfDay n).Valid ∧ dayNo (dateOfDay n) = n := by
  have : dateOfDay n = times nextDay n ⟨1970, 1, 1⟩ := by simp [dateOfDay]
  rw [this]
  clear this
  induction n with
  | zero => exact ⟨by simp [Date.Valid, times, monthLength], by decide⟩
  | succ n ih =>
    have := nextDay_valid ih.1
    exact ⟨this.1, by rw [times, this.2, ih.2]; simp⟩

theorem yearLoop_mono {a b : Nat} (h : a ≤ b) : yearLoop a + 365 * (b - a) ≤ yearLoop b := by
  induction b with
  | zero => have : a = 0 := by omega
            subst this; simp
  | succ b ih =>
    by_cases hab : a = b + 1
    · subst hab; simp
    · have := ih (by omega)
      simp only [yearLoop]
      split <;> omega

theorem yearLoop_closed (k : Nat) : yearLoop k =
    365 * (k : Int) + ((1969 + k) / 4 - (1969 + k) / 100 + (1969 + k) / 400 - 477) := by
  induction k with
  | zero => decide
  | succ k ih =>
    simp only [yearLoop, ih]
    by_cases h400 : (1970 + (k : Int)) % 400 = 0
    · simp only [h400, beq_self_eq_true, Bool.true_or, if_true]; omega
    · by_cases h4 : (1970 + (k : Int)) % 4 = 0
      · by_cases h100 : (1970 + (k : Int)) % 100 = 0
        · have e : ((1970 + (k : Int)) % 400 == 0 || ((1970 + (k : Int)) % 4 == 0 && (1970 + (k : Int)) % 100 != 0)) = false := by
            simp [h400, h100]
          simp only [e, Bool.false_eq_true, if_false]; omega
        · have e : ((1970 + (k : Int)) % 400 == 0 || ((1970 + (k : Int)) % 4 == 0 && (1970 + (k : Int)) % 100 != 0)) = true := by
            simp [h4, h100]
          simp only [e, if_true]; omega
      · have e : ((1970 + (k : Int)) % 400 == 0 || ((1970 + (k : Int)) % 4 == 0 && (1970 + (k : Int)) % 100 != 0)) = false := by
          simp [h400, h4]
        simp only [e, Bool.false_eq_true, if_false]; omega

theorem yearLoop_8030 : yearLoop 8030 = 2932897 := by rw [yearLoop_closed]; decide

theorem year_le {n : Nat} (h : n < 2932897) : (dateOfDay n).y ≤ 9999 := by
  obtain ⟨hv, hn⟩ := date_ok n
  by_cases hy : (dateOfDay n).y ≤ 9999
  · exact hy
  · exfalso
    have hm := yearLoop_mono (a := 8030) (b := ((dateOfDay n).y - 1970).toNat) (by omega)
    rw [yearLoop_8030] at hm
    simp only [Date.Valid] at hv
    simp only [dayNo] at hn
    omega

end Verif.Time
