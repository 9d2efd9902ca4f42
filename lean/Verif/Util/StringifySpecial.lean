import Verif.Util.StringifyProps

/-!
# C99: subnormal numbers, infinities, NaNs and the sign of zero

Extends the model of `StringifyModel.lean` to all values of a floating point type.
-/
namespace Verif.Stringify

/-- A value of a floating point type. -/
inductive FVal where
  /-- sign and absolute value -/
  | finite (neg : Bool) (abs : ℚ)
  | inf (neg : Bool)
  | nan (neg : Bool)

/-- The number, if it is one. -/
def FVal.num : FVal → Option ℚ
  | .finite neg x => some (if neg then -x else x)
  | _ => none

/-- StringHelper.h:62-84 `stringify<double>`, `<float>`, `<long double>` for all values: `printf("%.*g")` writes the sign
of a negative zero, and `inf` and `nan` with their sign. -/
def stringifyAll (P : ℕ) : FVal → List Char
  | .finite neg x => if x = 0 then (if neg then ['-', '0'] else ['0']) else stringify P (if neg then -x else x)
  | .inf neg => (if neg then ['-'] else []) ++ ['i', 'n', 'f']
  | .nan neg => (if neg then ['-'] else []) ++ ['n', 'a', 'n']

/-- A finite value is zero or in the range of the model. -/
def FVal.Ok : FVal → Prop
  | .finite _ x => x = 0 ∨ InRange x
  | _ => True

/-- C99: the text denotes a number exactly for the finite values; the texts of infinities and NaNs, which `>>` rejects,
say which they are. -/
theorem c99_all_values (P : ℕ) (hP : 1 ≤ P) (x : FVal) (h : x.Ok) :
    ((read (stringifyAll P x)).isSome ↔ x.num.isSome) ∧
    (∀ n, stringifyAll P x = (if n then "-inf" else "inf").toList ↔ x = .inf n) ∧
    (∀ n, stringifyAll P x = (if n then "-nan" else "nan").toList ↔ x = .nan n) := by
  have fin : ∀ neg (y : ℚ), FVal.Ok (.finite neg y) → (read (stringifyAll P (.finite neg y))).isSome := by
    intro neg y hy
    simp only [stringifyAll]
    split
    · cases neg <;> decide +kernel
    · rename_i h0
      have hr : InRange y := by
        rcases hy with h1 | h1
        · exact absurd h1 h0
        · exact h1
      cases neg
      · simp [stringify_pos P hP y hr]
      · simp [stringify_neg P hP y hr]
  cases x with
  | finite neg y =>
    have hf := fin neg y h
    refine ⟨by simp [hf, FVal.num], ?_, ?_⟩ <;>
    · intro n
      simp only [reduceCtorEq, iff_false]
      intro hc
      rw [hc] at hf
      revert hf
      cases n <;> decide +kernel
  | inf neg =>
    refine ⟨by simp only [stringifyAll, FVal.num]; cases neg <;> decide +kernel, ?_, ?_⟩ <;>
    · intro n; cases neg <;> cases n <;> simp [stringifyAll]
  | nan neg =>
    refine ⟨by simp only [stringifyAll, FVal.num]; cases neg <;> decide +kernel, ?_, ?_⟩ <;>
    · intro n; cases neg <;> cases n <;> simp [stringifyAll]

/-- The sign bit. -/
def FVal.neg : FVal → Bool
  | .finite n _ => n
  | .inf n => n
  | .nan n => n

/-- C99: the text begins with a minus sign exactly for the values with a sign bit, and both zeros are read as zero. -/
theorem c99_sign (P : ℕ) (hP : 1 ≤ P) (x : FVal) (h : x.Ok) :
    ((stringifyAll P x).head? = some '-' ↔ x.neg = true) ∧
    (∀ n, x = .finite n 0 → read (stringifyAll P x) = some 0) := by
  have dc : ∀ d, d < 10 → digitChar d ≠ '-' := by decide
  have hd : ∀ d n, 1 ≤ n → ∃ a r, (digits P d).take n = a :: r ∧ a < 10 := by
    intro d n hn
    cases hl : (digits P d).take n with
    | nil =>
      have := congrArg List.length hl
      simp [digits_length] at this
      omega
    | cons a r =>
      have : a ∈ digits P d := List.mem_of_mem_take (i := n) (hl ▸ List.mem_cons_self)
      exact ⟨a, r, rfl, digits_lt _ _ a this⟩
  have hg : ∀ neg d k, (render (gNum P neg d k)).head? = some '-' ↔ neg = true := by
    intro neg d k
    have hi : (gNum P neg d k).neg = neg ∧ ∃ a r, (gNum P neg d k).int = a :: r ∧ a < 10 := by
      unfold gNum
      split
      · split
        · exact ⟨rfl, hd d _ (by omega)⟩
        · exact ⟨rfl, 0, [], rfl, by omega⟩
      · exact ⟨rfl, hd d 1 (by omega)⟩
    obtain ⟨h1, a, r, h2, h3⟩ := hi
    cases neg with
    | true => simp [render, h1]
    | false => simp [render, h1, h2, dc a h3]
  refine ⟨?_, ?_⟩
  · cases x with
    | inf n => cases n <;> simp [stringifyAll, FVal.neg]
    | nan n => cases n <;> simp [stringifyAll, FVal.neg]
    | finite n y =>
      simp only [stringifyAll, FVal.neg]
      split
      · cases n <;> simp
      · rename_i h0
        have hy : 0 < y := by
          rcases h with h1 | h1
          · exact absurd h1 h0
          · exact lt_of_lt_of_le (ten_pos _) h1.1
        have hne : (if n then -y else y) ≠ 0 := by cases n <;> simp [h0]
        rw [stringify, if_neg hne, hg]
        cases n
        · simp [hy.le]
        · simp [hy]
  · rintro n rfl
    simp only [stringifyAll, if_true]
    cases n <;> decide +kernel

example : (FVal.finite true 0).Ok ∧ stringifyAll 15 (.finite true 0) = "-0".toList ∧ stringifyAll 15 (.finite false 0) = "0".toList :=
  ⟨.inl rfl, rfl, rfl⟩

/-- C99: a value that differs from a decimal number of `P` digits by less than a twentieth of the unit of its last digit
comes out as that number, whatever the format; in particular subnormal numbers as long as they are close
enough to each other. -/
theorem c99_close_survives (P : ℕ) (hP : 1 ≤ P) (D q : ℤ) (h1 : 10 ^ (P - 1) ≤ D) (h2 : D < 10 ^ P) (x : ℚ)
    (hx : |x - D * (10 : ℚ) ^ q| < (10 : ℚ) ^ q / 20) (hr : InRange x) :
    read (stringify P x) = some (D * (10 : ℚ) ^ q) ∧ read (stringify P (-x)) = some (-(D * (10 : ℚ) ^ q)) := by
  have hv : sigVal P (D, q + P - 1) = D * (10 : ℚ) ^ q := by
    simp only [sigVal]; congr 2; omega
  suffices hs : significant P x = (D, q + P - 1) by
    rw [stringify_pos P hP x hr, stringify_neg P hP x hr, hs, hv]
    exact ⟨rfl, rfl⟩
  have hq := ten_pos q
  generalize hu : (10 : ℚ) ^ q = u at *
  have h10 : (10 : ℚ) ^ P = (10 : ℚ) ^ (P - 1) * 10 := by rw [← pow_succ]; congr 1; omega
  have hB1 : (1 : ℚ) ≤ 10 ^ (P - 1) := one_le_pow₀ (by norm_num)
  have D1 : (10 : ℚ) ^ (P - 1) ≤ D := by exact_mod_cast h1
  have D2 : (D : ℚ) + 1 ≤ (10 : ℚ) ^ P := by exact_mod_cast h2
  generalize hB : (10 : ℚ) ^ (P - 1) = B at *
  rw [h10] at D2
  have hn := abs_lt.1 hx
  have e1 : (10 : ℚ) ^ (q + P - 1) = u * B := by
    rw [← hu, ← hB, ← zpow_split]; congr 1; omega
  have e2 : (10 : ℚ) ^ (q + P - 1 + 1) = u * B * 10 := by rw [zpow_add_one₀ (by norm_num), e1]
  by_cases hlow : u * B ≤ x
  · have hup : x < u * B * 10 := by nlinarith [hn.2]
    have hlog : Int.log 10 x = q + P - 1 := log_eq (by rw [e1]; exact hlow) (by rw [e2]; exact hup)
    have hr : roundEven (x / u) = D := by
      apply roundEven_eq
      have : x / u - D = (x - D * u) / u := by field_simp
      rw [this, abs_div, abs_of_pos hq, div_lt_iff₀ hq]
      exact lt_trans hx (by linarith)
    have hne : ¬ D = 10 ^ P := by omega
    simp only [significant, hlog]
    rw [show q + (P : ℤ) - 1 - P + 1 = q by omega, hu, hr, if_neg hne]
  · push Not at hlow
    have hDB : (D : ℚ) = B := by
      have : (D : ℚ) < B + 1 := by
        by_contra hc
        push Not at hc
        nlinarith [hn.1]
      have a : D < 10 ^ (P - 1) + 1 := by
        have : (D : ℚ) < (10 : ℚ) ^ (P - 1) + 1 := by rw [hB]; exact this
        exact_mod_cast this
      have : D = 10 ^ (P - 1) := by omega
      rw [this, ← hB]; push_cast; rfl
    have hDB' : D = 10 ^ (P - 1) := by
      have : (D : ℚ) = (10 : ℚ) ^ (P - 1) := by rw [hB]; exact hDB
      exact_mod_cast this
    have hu10 : (10 : ℚ) ^ (q - 1) = u / 10 := by rw [← hu, zpow_sub_one₀ (by norm_num)]; ring
    have hlog : Int.log 10 x = q + P - 2 := by
      apply log_eq
      · have : (10 : ℚ) ^ (q + P - 2) = u * B / 10 := by
          rw [show q + (P : ℤ) - 2 = q + P - 1 - 1 by omega, zpow_sub_one₀ (by norm_num), e1]; ring
        rw [this]; rw [hDB] at hn; nlinarith [hn.1]
      · rw [show q + (P : ℤ) - 2 + 1 = q + P - 1 by omega, e1]; exact hlow
    have hr : roundEven (x / (u / 10)) = 10 ^ P := by
      apply roundEven_eq
      have h3 : (((10 : ℤ) ^ P : ℤ) : ℚ) = B * 10 := by push_cast; rw [h10]
      rw [h3]
      have : x / (u / 10) - B * 10 = (x - B * u) / (u / 10) := by field_simp
      rw [this, abs_div, abs_of_pos (show 0 < u / 10 by linarith), div_lt_iff₀ (by linarith)]
      rw [hDB] at hx
      linarith
    simp only [significant, hlog]
    rw [show q + (P : ℤ) - 2 - P + 1 = q - 1 by omega, hu10, hr, if_pos rfl, hDB']
    simp; omega

/-- The smallest positive `double`, to which the decimal number 5e-324 is rounded: it is the only multiple of itself
within half of it. -/
def smallest : ℚ := (2 : ℚ) ^ (-1074 : ℤ)

set_option exponentiation.threshold 2000 in
/-- C99 violated for subnormal numbers: 5e-324, a decimal number with one digit, is stored as `smallest` and comes out
as 4.94065645841247e-324. -/
theorem c99_subnormal_changed : |smallest - 5 * (10 : ℚ) ^ (-324 : ℤ)| ≤ smallest / 2 ∧
    read (stringify 15 smallest) = some (494065645841247 * (10 : ℚ) ^ (-338 : ℤ)) ∧
    (494065645841247 : ℚ) * (10 : ℚ) ^ (-338 : ℤ) ≠ 5 * (10 : ℚ) ^ (-324 : ℤ) := by
  refine ⟨?_, ?_, by norm_num⟩
  · rw [abs_le]; constructor <;> norm_num [smallest]
  · have hl : Int.log 10 smallest = -324 := log_eq (by norm_num [smallest]) (by norm_num [smallest])
    have hr : InRange smallest := by
      constructor
      · refine le_trans (zpow_le_zpow_right₀ (by norm_num) (show (-9990 : ℤ) ≤ -324 by norm_num)) ?_
        norm_num [smallest]
      · refine lt_of_lt_of_le ?_ (zpow_le_zpow_right₀ (by norm_num) (show (0 : ℤ) ≤ 9990 by norm_num))
        norm_num [smallest]
    rw [stringify_pos 15 (by norm_num) _ hr]
    have hd : roundEven (smallest / (10 : ℚ) ^ ((-324 : ℤ) - (15 : ℕ) + 1)) = 494065645841247 := by
      apply roundEven_eq
      rw [abs_lt]; constructor <;> norm_num [smallest]
    have hs : significant 15 smallest = (494065645841247, -324) := by
      unfold significant
      simp only [hl]
      rw [hd, if_neg (by norm_num)]
    rw [hs]; norm_num [sigVal]

set_option exponentiation.threshold 2000 in
/-- A subnormal `double` that meets the hypotheses of `c99_close_survives`: 1e-308, half a unit of the subnormal numbers off. -/
example : |((1 : ℚ) / 10 ^ 308 + smallest / 2) - ((100000000000000 : ℤ) : ℚ) * (10 : ℚ) ^ (-322 : ℤ)| <
    (10 : ℚ) ^ (-322 : ℤ) / 20 := by
  rw [abs_lt]; constructor <;> norm_num [smallest]

/-- Infinities and NaNs meet the hypothesis of `c99_all_values`. -/
example : (FVal.inf true).Ok ∧ (FVal.nan false).Ok ∧ (FVal.finite true 0).Ok := ⟨trivial, trivial, .inl rfl⟩

end Verif.Stringify
