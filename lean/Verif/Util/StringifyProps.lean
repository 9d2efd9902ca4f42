import Verif.Util.StringifyModel
import Verif.Util.StringifySpec
import Mathlib.Tactic.Linarith
import Mathlib.Tactic.Ring
import Mathlib.Tactic.NormNum
import Mathlib.Tactic.Positivity
import Mathlib.Tactic.FieldSimp
import Mathlib.Tactic.Push
import Mathlib.Data.List.TakeWhile

/-! # C99: `stringify` of floating point numbers -/
namespace Verif.Stringify

/-! ## Rounding -/

theorem roundEven_near (x : ℚ) : |x - (roundEven x : ℚ)| ≤ 1 / 2 := by
  have h1 := Int.floor_le x
  have h2 := Int.lt_floor_add_one x
  unfold roundEven
  simp only
  split
  · rw [abs_of_nonneg (by linarith)]; linarith
  · split
    · push_cast; rw [abs_le]; constructor <;> linarith
    · split
      · rw [abs_of_nonneg (by linarith)]; linarith
      · push_cast; rw [abs_le]; constructor <;> linarith

theorem roundEven_eq (x : ℚ) (n : ℤ) (h : |x - n| < 1 / 2) : roundEven x = n := by
  have h1 := roundEven_near x
  rw [abs_le] at h1
  rw [abs_lt] at h
  have a : (roundEven x : ℚ) - n < 1 := by linarith [h1.1, h.2]
  have b : (n : ℚ) - roundEven x < 1 := by linarith [h1.2, h.1]
  have a' : roundEven x - n < 1 := by exact_mod_cast a
  have b' : n - roundEven x < 1 := by exact_mod_cast b
  omega

theorem ten_pos (k : ℤ) : (0 : ℚ) < (10 : ℚ) ^ k := zpow_pos (by norm_num) _

/-- The value of the significant digits. -/
def sigVal (P : ℕ) (s : ℤ × ℤ) : ℚ := (s.1 : ℚ) * (10 : ℚ) ^ (s.2 - P + 1)

theorem log_bounds {x : ℚ} (h : 0 < x) : (10 : ℚ) ^ Int.log 10 x ≤ x ∧ x < (10 : ℚ) ^ (Int.log 10 x + 1) := by
  constructor
  · exact_mod_cast Int.zpow_log_le_self (b := 10) (by norm_num) h
  · exact_mod_cast Int.lt_zpow_succ_log_self (b := 10) (by norm_num) x

theorem log_eq {x : ℚ} {k : ℤ} (h1 : (10 : ℚ) ^ k ≤ x) (h2 : x < (10 : ℚ) ^ (k + 1)) : Int.log 10 x = k := by
  have h0 : 0 < x := lt_of_lt_of_le (ten_pos k) h1
  have a : k ≤ Int.log 10 x := (Int.zpow_le_iff_le_log (b := 10) (by norm_num) h0).1 (by exact_mod_cast h1)
  have b : Int.log 10 x < k + 1 := (Int.lt_zpow_iff_log_lt (b := 10) (by norm_num) h0).1 (by exact_mod_cast h2)
  omega

theorem zpow_split (k : ℤ) (n : ℕ) : (10 : ℚ) ^ (k + n) = (10 : ℚ) ^ k * (10 : ℚ) ^ n := by
  rw [zpow_add₀ (by norm_num), zpow_natCast]

/-- The significant digits have exactly `P` digits, and their value is within half a unit of the last one. -/
theorem significant_spec (P : ℕ) (hP : 1 ≤ P) (x : ℚ) (hx : 0 < x) :
    10 ^ (P - 1) ≤ (significant P x).1 ∧ (significant P x).1 < 10 ^ P ∧
    |x - sigVal P (significant P x)| ≤ (10 : ℚ) ^ (Int.log 10 x - P + 1) / 2 := by
  obtain ⟨b1, b2⟩ := log_bounds hx
  generalize hk : Int.log 10 x = k at *
  have hu := ten_pos (k - P + 1)
  have e1 : (10 : ℚ) ^ k = (10 : ℚ) ^ (k - P + 1) * (10 : ℚ) ^ (P - 1) := by
    rw [← zpow_split]; congr 1; omega
  have e2 : (10 : ℚ) ^ (k + 1) = (10 : ℚ) ^ (k - P + 1) * (10 : ℚ) ^ P := by
    rw [← zpow_split]; congr 1; omega
  generalize hU : (10 : ℚ) ^ (k - P + 1) = u at *
  have hr := roundEven_near (x / u)
  generalize hd : roundEven (x / u) = d at *
  have c1 : (10 : ℚ) ^ (P - 1) ≤ x / u := by rw [le_div_iff₀ hu]; linarith
  have c2 : x / u < (10 : ℚ) ^ P := by rw [div_lt_iff₀ hu]; linarith
  rw [abs_le] at hr
  have d1 : (10 : ℤ) ^ (P - 1) ≤ d := by
    have : (10 : ℚ) ^ (P - 1) - 1 < d := by linarith
    have : (10 : ℤ) ^ (P - 1) - 1 < d := by exact_mod_cast this
    omega
  have d2 : d ≤ (10 : ℤ) ^ P := by
    have : (d : ℚ) < (10 : ℚ) ^ P + 1 := by linarith
    have : d < (10 : ℤ) ^ P + 1 := by exact_mod_cast this
    omega
  have hdist : |x - d * u| ≤ u / 2 := by
    have : x - d * u = (x / u - d) * u := by field_simp
    rw [this, abs_mul, abs_of_pos hu]
    have : |x / u - d| ≤ 1 / 2 := abs_le.2 hr
    nlinarith
  have key : significant P x = if d = 10 ^ P then (10 ^ (P - 1), k + 1) else (d, k) := by
    simp only [significant, hk, hU, hd]
  rw [key]
  split
  · rename_i hc
    refine ⟨le_refl _, ?_, ?_⟩
    · exact pow_lt_pow_right₀ (by norm_num) (by omega)
    · have : sigVal P ((10 : ℤ) ^ (P - 1), k + 1) = d * u := by
        have e3 : (10 : ℚ) ^ (k + 1 - P + 1) = u * 10 := by
          rw [← hU, ← zpow_add_one₀ (by norm_num)]; congr 1; omega
        have e4 : (10 : ℚ) ^ P = (10 : ℚ) ^ (P - 1) * 10 := by rw [← pow_succ]; congr 1; omega
        simp only [sigVal, e3, hc]
        push_cast
        rw [e4]; ring
      rw [this]; exact hdist
  · rename_i hc
    refine ⟨d1, by omega, ?_⟩
    simpa [sigVal, hU] using hdist

/-- The decimal closest to `x` is found. -/
theorem significant_decimal (P p : ℕ) (hP : 1 ≤ P) (hPp : 10 ^ P ≤ 2 ^ (p - 1)) (hp : 1 ≤ p) (D : ℤ) (q : ℤ) (h1 : 10 ^ (P - 1) ≤ D)
    (h2 : D < 10 ^ P) (x : ℚ) (hx : Nearest p x (D * (10 : ℚ) ^ q)) :
    significant P x = (D, q + P - 1) := by
  obtain ⟨m, e, ⟨m1, m2, hxm⟩, hn⟩ := hx
  have hq := ten_pos q
  generalize hu : (10 : ℚ) ^ q = u at *
  have h2e : (0 : ℚ) < (2 : ℚ) ^ e := zpow_pos (by norm_num) _
  -- half a unit is at most x / 2^p
  have hhalf : (2 : ℚ) ^ e / 2 * 2 ^ p ≤ x := by
    have : (2 : ℚ) ^ p = 2 ^ (p - 1) * 2 := by rw [← pow_succ]; congr 1; omega
    rw [this, hxm]
    have : ((2 ^ (p - 1) : ℕ) : ℚ) ≤ m := by exact_mod_cast m1
    push_cast at this
    nlinarith
  generalize hg : (2 : ℚ) ^ e / 2 = g at *
  have hg0 : 0 < g := by rw [← hg]; positivity
  have hPq : (10 : ℚ) ^ P ≤ 2 ^ (p - 1) := by exact_mod_cast hPp
  have h2p : (2 : ℚ) ^ p = 2 ^ (p - 1) * 2 := by rw [← pow_succ]; congr 1; omega
  have h10 : (10 : ℚ) ^ P = (10 : ℚ) ^ (P - 1) * 10 := by rw [← pow_succ]; congr 1; omega
  have hB1 : (1 : ℚ) ≤ 10 ^ (P - 1) := one_le_pow₀ (by norm_num)
  have D1 : (10 : ℚ) ^ (P - 1) ≤ D := by exact_mod_cast h1
  have D2 : (D : ℚ) + 1 ≤ (10 : ℚ) ^ P := by exact_mod_cast h2
  generalize hA : (2 : ℚ) ^ (p - 1) = A at *
  generalize hB : (10 : ℚ) ^ (P - 1) = B at *
  rw [h2p] at hhalf
  rw [h10] at hPq D2
  rw [abs_le] at hn
  have e1 : (10 : ℚ) ^ (q + P - 1) = u * B := by
    rw [← hu, ← hB, ← zpow_split]; congr 1; omega
  have e2 : (10 : ℚ) ^ (q + P - 1 + 1) = u * B * 10 := by rw [zpow_add_one₀ (by norm_num), e1]
  -- |x - d| < u / 2
  have hgu : g < u / 2 := by
    -- g * (2A - 1) ≤ d, d ≤ (10 B - 1) u ≤ (A - 1) u
    have k1 : g * (A * 2 - 1) ≤ D * u := by nlinarith [hn.1]
    have k2 : (D : ℚ) * u ≤ (A - 1) * u := by nlinarith
    have k3 : (A - 1) * u < u / 2 * (A * 2 - 1) := by nlinarith
    have k4 : 0 < A * 2 - 1 := by nlinarith
    exact lt_of_mul_lt_mul_right (lt_of_le_of_lt (k1.trans k2) k3) (le_of_lt k4)
  have hx0 : 0 < x := by
    rw [hxm]
    have : (0 : ℚ) < m := by
      have : 0 < m := lt_of_lt_of_le (by positivity) m1
      exact_mod_cast this
    positivity
  by_cases hlow : u * B ≤ x
  · -- the exponent of x is that of d
    have hup : x < u * B * 10 := by nlinarith [hn.2]
    have hlog : Int.log 10 x = q + P - 1 := log_eq (by rw [e1]; exact hlow) (by rw [e2]; exact hup)
    have hr : roundEven (x / u) = D := by
      apply roundEven_eq
      have : x / u - D = (x - D * u) / u := by field_simp
      rw [this, abs_div, abs_of_pos hq, div_lt_iff₀ hq]
      exact lt_of_le_of_lt (abs_le.2 hn) (by linarith)
    have hne : ¬ D = 10 ^ P := by omega
    simp only [significant, hlog]
    rw [show q + (P : ℤ) - 1 - P + 1 = q by omega, hu, hr, if_neg hne]
  · -- d = 10^(P-1) * u, and x is below it
    push Not at hlow
    have hDB : (D : ℚ) = B := by
      have : (D : ℚ) < B + 1 := by
        by_contra hc
        push Not at hc
        nlinarith [hn.1]
      have a : D < 10 ^ (P - 1) + 1 := by
        have : (D : ℚ) < (10 : ℚ) ^ (P - 1) + 1 := by rw [hB]; exact this
        exact_mod_cast this
      have : D = 10 ^ (P - 1) := by omega
      rw [this, ← hB]; push_cast; rfl
    have hDB' : D = 10 ^ (P - 1) := by
      have : (D : ℚ) = (10 : ℚ) ^ (P - 1) := by rw [hB]; exact hDB
      exact_mod_cast this
    have hu10 : (10 : ℚ) ^ (q - 1) = u / 10 := by rw [← hu, zpow_sub_one₀ (by norm_num)]; ring
    have hA1 : 10 ≤ A := by nlinarith
    -- g ≤ x / (2A) < u B / (2 A) ≤ u / 20
    have hg2 : g < u / 20 := by
      have : g * (A * 2) < u * B := lt_of_le_of_lt hhalf hlow
      have k : u * B ≤ u / 20 * (A * 2) := by nlinarith
      exact lt_of_mul_lt_mul_right (lt_of_lt_of_le this k) (by linarith)
    have hlog : Int.log 10 x = q + P - 2 := by
      apply log_eq
      · have : (10 : ℚ) ^ (q + P - 2) = u * B / 10 := by
          rw [show q + (P : ℤ) - 2 = q + P - 1 - 1 by omega, zpow_sub_one₀ (by norm_num), e1]; ring
        rw [this]; rw [hDB] at hn; nlinarith [hn.1]
      · rw [show q + (P : ℤ) - 2 + 1 = q + P - 1 by omega, e1]; exact hlow
    have hr : roundEven (x / (u / 10)) = 10 ^ P := by
      apply roundEven_eq
      have h3 : (((10 : ℤ) ^ P : ℤ) : ℚ) = B * 10 := by push_cast; rw [h10]
      rw [h3]
      have : x / (u / 10) - B * 10 = (x - B * u) / (u / 10) := by field_simp
      rw [this, abs_div, abs_of_pos (show 0 < u / 10 by linarith), div_lt_iff₀ (by linarith)]
      rw [hDB] at hn
      exact lt_of_le_of_lt (abs_le.2 hn) (by linarith)
    simp only [significant, hlog]
    rw [show q + (P : ℤ) - 2 - P + 1 = q - 1 by omega, hu10, hr, if_pos rfl, hDB']
    simp; omega

/-! ## Digits -/

/-- The value of digits behind a number `a`. -/
def valFrom (a : ℕ) (l : List ℕ) : ℕ := l.foldl (fun a d => 10 * a + d) a

theorem valFrom_append (a : ℕ) (l r : List ℕ) : valFrom a (l ++ r) = valFrom (valFrom a l) r := by
  simp [valFrom, List.foldl_append]

theorem digits_length (n d : ℕ) : (digits n d).length = n := by
  induction n generalizing d with
  | zero => rfl
  | succ n ih => simp [digits, ih]

theorem digits_lt (n d : ℕ) : ∀ x ∈ digits n d, x < 10 := by
  induction n generalizing d with
  | zero => simp [digits]
  | succ n ih =>
    intro x hx
    simp only [digits, List.mem_append, List.mem_singleton] at hx
    rcases hx with hx | rfl
    · exact ih _ x hx
    · omega

theorem valFrom_digits (n d : ℕ) (h : d < 10 ^ n) : valFrom 0 (digits n d) = d := by
  induction n generalizing d with
  | zero => simp at h; subst h; rfl
  | succ n ih =>
    have : d / 10 < 10 ^ n := by rw [pow_succ] at h; omega
    rw [digits, valFrom_append, ih _ this]
    simp only [valFrom, List.foldl_cons, List.foldl_nil]
    omega

theorem valFrom_zeros (a n : ℕ) (l : List ℕ) (h : ∀ x ∈ l, x = 0) (hn : l.length = n) : valFrom a l = a * 10 ^ n := by
  induction l generalizing a n with
  | nil => subst hn; simp [valFrom]
  | cons x l ih =>
    have hx := h x List.mem_cons_self
    subst hx hn
    have : valFrom a (0 :: l) = valFrom (10 * a) l := rfl
    rw [this, ih (10 * a) l.length (fun y hy => h y (List.mem_cons_of_mem _ hy)) rfl]
    simp only [List.length_cons, pow_succ]; ring

/-- What `strip` removes. -/
theorem strip_spec (l : List ℕ) : ∃ z : List ℕ, l = strip l ++ z ∧ ∀ x ∈ z, x = 0 := by
  refine ⟨(l.reverse.takeWhile (· == 0)).reverse, ?_, ?_⟩
  · have := List.takeWhile_append_dropWhile (p := (· == 0)) (l := l.reverse)
    have h := congrArg List.reverse this
    rw [List.reverse_append, List.reverse_reverse] at h
    exact h.symm
  · intro x hx
    have := List.mem_takeWhile_imp (List.mem_reverse.1 hx)
    simpa using this

theorem digitVal_digitChar (d : ℕ) (h : d < 10) : digitVal? (digitChar d) = some d := by
  have : d = 0 ∨ d = 1 ∨ d = 2 ∨ d = 3 ∨ d = 4 ∨ d = 5 ∨ d = 6 ∨ d = 7 ∨ d = 8 ∨ d = 9 := by omega
  rcases this with h | h | h | h | h | h | h | h | h | h <;> subst h <;> decide

theorem readDigits_map (l : List ℕ) (hl : ∀ x ∈ l, x < 10) (r : List Char) (hr : ∀ c, r.head? = some c → digitVal? c = none) :
    ∀ a n, readDigits a n (l.map digitChar ++ r) = (valFrom a l, n + l.length, r) := by
  induction l with
  | nil =>
    intro a n
    cases r with
    | nil => rfl
    | cons c r =>
      have := hr c rfl
      simp [readDigits, this, valFrom]
  | cons x l ih =>
    intro a n
    simp only [List.map_cons, List.cons_append, readDigits, digitVal_digitChar x (hl x List.mem_cons_self)]
    rw [ih (fun y hy => hl y (List.mem_cons_of_mem _ hy))]
    simp only [valFrom, List.foldl_cons, List.length_cons, Prod.mk.injEq, true_and, and_true]
    omega

theorem readExp_expText (e : ℤ) (h : e.natAbs < 10000) : readExp (expText e) = some e := by
  have key : ∀ n, e.natAbs < 10 ^ (n + 1) →
      readDigits 0 0 ((digits (n + 1) e.natAbs).map digitChar) = (e.natAbs, n + 1, []) := by
    intro n hn
    have := readDigits_map (digits (n + 1) e.natAbs) (digits_lt _ _) [] (by simp) 0 0
    rw [List.append_nil] at this
    rw [this, valFrom_digits _ _ hn, digits_length]; simp
  have key2 : ∃ n, readDigits 0 0 ((digits (if e.natAbs < 100 then 2 else if e.natAbs < 1000 then 3 else 4) e.natAbs).map digitChar)
      = (e.natAbs, n + 1, []) := by
    split
    · exact ⟨1, key 1 (by norm_num; assumption)⟩
    · split
      · exact ⟨2, key 2 (by norm_num; assumption)⟩
      · exact ⟨3, key 3 (by norm_num; omega)⟩
  obtain ⟨n, hn⟩ := key2
  unfold expText
  simp only [readExp]
  rw [hn]
  by_cases hneg : e < 0
  · simp only [hneg, if_true]; congr 1; omega
  · simp only [hneg, if_false]
    have : ¬ ('+' = '-') := by decide
    simp only [this, if_false, if_true]; congr 1; omega

theorem readAbs_int (s : List Char) (v n : ℕ) (r : List Char) (h : readDigits 0 0 s = (v, n + 1, r)) (hr : ∀ t, r ≠ '.' :: t) :
    readAbs s = (readExp r).map fun e : ℤ => (v : ℚ) * (10 : ℚ) ^ e := by
  unfold readAbs
  rw [h]
  cases r with
  | nil => rfl
  | cons c t =>
    have hc : c ≠ '.' := fun hc => hr t (by rw [hc])
    split
    · rename_i heq; simp at heq
    · rename_i heq; simp only [Prod.mk.injEq, List.cons.injEq] at heq; exact absurd heq.2.2.1 hc
    · rename_i heq; simp only [Prod.mk.injEq] at heq; obtain ⟨rfl, _, rfl⟩ := heq; rfl

/-- What a rendered number means. -/
theorem read_render (neg : Bool) (int f : List ℕ) (hi : int ≠ []) (hd : ∀ x ∈ int ++ f, x < 10) (exp : Option ℤ)
    (he : ∀ e, exp = some e → e.natAbs < 10000) :
    read (render ⟨neg, int, strip f, exp⟩) =
      some ((if neg then -1 else 1) * ((valFrom 0 (int ++ f) : ℕ) : ℚ) * (10 : ℚ) ^ (exp.getD 0 - f.length)) := by
  obtain ⟨z, hz, hz0⟩ := strip_spec f
  generalize hs : strip f = s at *
  have hsd : ∀ x ∈ s, x < 10 := fun x hx => hd x (by rw [hz]; simp [hx])
  have hid : ∀ x ∈ int, x < 10 := fun x hx => hd x (by simp [hx])
  have hval : valFrom 0 (int ++ f) = valFrom (valFrom 0 int) s * 10 ^ z.length := by
    rw [hz, valFrom_append, valFrom_append, valFrom_zeros _ _ z hz0 rfl]
  have hlen : f.length = s.length + z.length := by rw [hz]; simp
  -- the exponent part
  obtain ⟨E, hEdef⟩ : ∃ E, E = expPart exp := ⟨_, rfl⟩
  have hE : readExp E = some (exp.getD 0) := by
    subst hEdef
    cases exp with
    | none => rfl
    | some e => exact readExp_expText e (he e rfl)
  have hEh : ∀ c, E.head? = some c → digitVal? c = none := by
    subst hEdef
    cases exp with
    | none => intro c h; simp [expPart] at h
    | some e => intro c h; simp [expPart, expText] at h; subst h; decide
  have hEd : ∀ r, E ≠ '.' :: r := by
    subst hEdef
    cases exp with
    | none => intro r; simp [expPart]
    | some e => intro r; simp [expPart, expText]
  -- without the sign
  have habs : readAbs (int.map digitChar ++ ((if s = [] then [] else '.' :: s.map digitChar) ++ E)) =
      some (((valFrom 0 (int ++ f) : ℕ) : ℚ) * (10 : ℚ) ^ (exp.getD 0 - f.length)) := by
    obtain ⟨i0, it, rfl⟩ : ∃ a b, int = a :: b := by
      cases int with
      | nil => exact absurd rfl hi
      | cons a b => exact ⟨a, b, rfl⟩
    by_cases hs0 : s = []
    · simp only [hs0, if_true, List.nil_append]
      rw [readAbs_int _ (valFrom 0 (i0 :: it)) it.length E (readDigits_map _ hid E hEh 0 0 |>.trans (by simp only [List.length_cons, Nat.zero_add])) hEd]
      rw [hE]
      simp only [Option.map_some, Option.some.injEq]
      rw [hval, hs0, hlen, hs0]
      simp only [List.length_nil, Nat.zero_add, valFrom, List.foldl_nil]
      push_cast
      rw [mul_assoc, ← zpow_natCast (10 : ℚ) z.length, ← zpow_add₀ (by norm_num)]
      congr 2; omega
    · simp only [hs0, if_false]
      have hdot : ∀ c, ('.' :: s.map digitChar ++ E).head? = some c → digitVal? c = none := by
        intro c h; simp at h; subst h; decide
      unfold readAbs
      rw [readDigits_map _ hid _ hdot]
      simp only [List.length_cons, Nat.zero_add, List.cons_append]
      rw [readDigits_map _ hsd E hEh, ← List.cons_append]
      obtain ⟨s0, st, rfl⟩ : ∃ a b, s = a :: b := by
        cases s with
        | nil => exact absurd rfl hs0
        | cons a b => exact ⟨a, b, rfl⟩
      simp only [List.length_cons, Nat.zero_add]
      rw [hE]
      simp only [Option.map_some, Option.some.injEq]
      rw [hval, hlen]
      push_cast
      rw [mul_assoc, ← zpow_natCast (10 : ℚ) z.length, ← zpow_add₀ (by norm_num)]
      congr 2; simp only [List.length_cons]; push_cast; omega
  have hr : render ⟨neg, int, s, exp⟩ = (if neg then ['-'] else []) ++
      (int.map digitChar ++ ((if s = [] then [] else '.' :: s.map digitChar) ++ E)) := by
    simp only [render, List.append_assoc, hEdef]
  rw [hr]
  cases neg with
  | true => simp [read, habs]
  | false =>
    simp only [Bool.false_eq_true, if_false, List.nil_append, one_mul]
    rw [← habs]
    obtain ⟨i0, it, rfl⟩ : ∃ a b, int = a :: b := by
      cases int with
      | nil => exact absurd rfl hi
      | cons a b => exact ⟨a, b, rfl⟩
    have hne : digitChar i0 ≠ '-' := by
      intro h
      have := digitVal_digitChar i0 (hid i0 List.mem_cons_self)
      rw [h] at this
      exact absurd this (by simp [digitVal?])
    simp only [List.map_cons, List.cons_append]
    unfold read
    split
    · rename_i heq; simp only [List.cons.injEq] at heq; exact absurd heq.1 hne
    · rfl

theorem valFrom_replicate (n : ℕ) (l : List ℕ) : valFrom 0 (List.replicate n 0 ++ l) = valFrom 0 l := by
  rw [valFrom_append, valFrom_zeros 0 n _ (fun x hx => List.eq_of_mem_replicate hx) (by simp)]; simp

/-- The printed text of `P` significant digits `d` with exponent `k` means `d * 10 ^ (k - P + 1)`. -/
theorem read_gNum (P : ℕ) (hP : 1 ≤ P) (neg : Bool) (d : ℕ) (hd : d < 10 ^ P) (k : ℤ) (hk : k.natAbs < 10000) :
    read (render (gNum P neg d k)) = some ((if neg then -1 else 1) * (d : ℚ) * (10 : ℚ) ^ (k - P + 1)) := by
  have hv := valFrom_digits P d hd
  have hl := digits_length P d
  have hlt := digits_lt P d
  unfold gNum
  split
  · rename_i hc
    split
    · rename_i h0
      have := read_render neg ((digits P d).take (k.toNat + 1)) ((digits P d).drop (k.toNat + 1))
        (by intro h; have := congrArg List.length h; simp [hl] at this; omega)
        (by rw [List.take_append_drop]; exact hlt) none (by simp)
      rw [this, List.take_append_drop, hv]
      rw [show (none : Option ℤ).getD 0 - (((digits P d).drop (k.toNat + 1)).length : ℤ) = k - P + 1 by
        rw [List.length_drop, hl]; simp only [Option.getD_none]; omega]
    · rename_i h0
      have := read_render neg [0] (List.replicate (-k - 1).toNat 0 ++ digits P d) (by simp)
        (by
          intro x hx
          simp only [List.mem_append, List.mem_singleton] at hx
          rcases hx with rfl | hx | hx
          · omega
          · have := List.eq_of_mem_replicate hx; omega
          · exact hlt x hx) none (by simp)
      rw [this, valFrom_append]
      have : valFrom 0 [0] = 0 := rfl
      rw [this, valFrom_replicate, hv]
      have hlen : (none : Option ℤ).getD 0 - (((List.replicate (-k - 1).toNat 0 ++ digits P d).length : ℕ) : ℤ) = k - P + 1 := by
        rw [List.length_append, List.length_replicate, hl]; simp only [Option.getD_none]; omega
      rw [hlen]
  · rename_i hc
    have := read_render neg ((digits P d).take 1) ((digits P d).drop 1)
      (by intro h; have := congrArg List.length h; simp [hl] at this; omega)
      (by rw [List.take_append_drop]; exact hlt) (some k) (by rintro e ⟨⟩; exact hk)
    rw [this, List.take_append_drop, hv]
    rw [show (some k).getD 0 - (((digits P d).drop 1).length : ℤ) = k - P + 1 by
      rw [List.length_drop, hl]; simp only [Option.getD_some]; omega]

/-! ## C99 -/

/-- The exponents of all numbers that occur are in this range (every format up to `long double`). -/
def InRange (x : ℚ) : Prop := (10 : ℚ) ^ (-9990 : ℤ) ≤ x ∧ x < (10 : ℚ) ^ (9990 : ℤ)

theorem log_range {x : ℚ} (h : InRange x) : -9990 ≤ Int.log 10 x ∧ Int.log 10 x < 9990 := by
  have h0 : 0 < x := lt_of_lt_of_le (ten_pos _) h.1
  exact ⟨(Int.zpow_le_iff_le_log (b := 10) (by norm_num) h0).1 (by exact_mod_cast h.1),
    (Int.lt_zpow_iff_log_lt (b := 10) (by norm_num) h0).1 (by exact_mod_cast h.2)⟩

theorem significant_exp (P : ℕ) (x : ℚ) : (significant P x).2 = Int.log 10 x ∨ (significant P x).2 = Int.log 10 x + 1 := by
  unfold significant
  simp only
  split
  · right; rfl
  · left; rfl

theorem stringify_pos (P : ℕ) (hP : 1 ≤ P) (x : ℚ) (h : InRange x) :
    read (stringify P x) = some (sigVal P (significant P x)) := by
  have h0 : 0 < x := lt_of_lt_of_le (ten_pos _) h.1
  have hr := log_range h
  obtain ⟨s1, s2, _⟩ := significant_spec P hP x h0
  have hk : (significant P x).2.natAbs < 10000 := by
    rcases significant_exp P x with e | e <;> rw [e] <;> omega
  have hneg : ¬ x < 0 := not_lt.2 (le_of_lt h0)
  have hd0 : 0 ≤ (significant P x).1 := le_trans (by positivity) s1
  have hd : (significant P x).1.toNat < 10 ^ P := by
    have : ((significant P x).1.toNat : ℤ) < (10 : ℤ) ^ P := by rw [Int.toNat_of_nonneg hd0]; exact s2
    exact_mod_cast this
  simp only [stringify, h0.ne', if_false, hneg]
  rw [read_gNum P hP _ _ hd _ hk]
  have : (((significant P x).1.toNat : ℕ) : ℚ) = ((significant P x).1 : ℚ) := by
    have := Int.toNat_of_nonneg hd0
    exact_mod_cast congrArg (fun z : ℤ => (z : ℚ)) this
  rw [this]
  simp [sigVal]

theorem stringify_neg (P : ℕ) (hP : 1 ≤ P) (x : ℚ) (h : InRange x) :
    read (stringify P (-x)) = some (-sigVal P (significant P x)) := by
  have h0 : 0 < x := lt_of_lt_of_le (ten_pos _) h.1
  have hr := log_range h
  obtain ⟨s1, s2, _⟩ := significant_spec P hP x h0
  have hk : (significant P x).2.natAbs < 10000 := by
    rcases significant_exp P x with e | e <;> rw [e] <;> omega
  have hneg : -x < 0 := by linarith
  have hd0 : 0 ≤ (significant P x).1 := le_trans (by positivity) s1
  have hd : (significant P x).1.toNat < 10 ^ P := by
    have : ((significant P x).1.toNat : ℤ) < (10 : ℤ) ^ P := by rw [Int.toNat_of_nonneg hd0]; exact s2
    exact_mod_cast this
  simp only [stringify, hneg.ne, if_false, hneg, if_true, neg_neg]
  rw [read_gNum P hP _ _ hd _ hk]
  have : (((significant P x).1.toNat : ℕ) : ℚ) = ((significant P x).1 : ℚ) := by
    have := Int.toNat_of_nonneg hd0
    exact_mod_cast congrArg (fun z : ℤ => (z : ℚ)) this
  rw [this]
  simp [sigVal]

/-- C99: the text always denotes a number, it differs from the value by at most half a unit of its `P`-th
significant digit, and the text of `-x` denotes the negated number. -/
theorem c99_error (P : ℕ) (hP : 1 ≤ P) (x : ℚ) (h : InRange x) (k : ℤ) (hk : (10 : ℚ) ^ k ≤ x ∧ x < (10 : ℚ) ^ (k + 1)) :
    ∃ v, read (stringify P x) = some v ∧ |x - v| ≤ (10 : ℚ) ^ (k - P + 1) / 2 ∧ read (stringify P (-x)) = some (-v) := by
  have h0 : 0 < x := lt_of_lt_of_le (ten_pos _) h.1
  refine ⟨_, stringify_pos P hP x h, ?_, stringify_neg P hP x h⟩
  have := (significant_spec P hP x h0).2.2
  rw [log_eq hk.1 hk.2] at this
  exact this

/-- C99 (partial). A decimal number with at most `P` significant digits that is stored in a format with `p`
binary digits comes out again exactly, if `10 ^ P ≤ 2 ^ (p - 1)`: `stringify` denotes the decimal number
itself, for every number of the format that is nearest to it. Missing: numbers of the format that are not
nearest to a short decimal number, see `c99_not_read_back`. -/
theorem c99_decimal_survives_partial (P p : ℕ) (hP : 1 ≤ P) (hp : 1 ≤ p) (hPp : 10 ^ P ≤ 2 ^ (p - 1)) (D : ℤ) (q : ℤ)
    (h1 : 10 ^ (P - 1) ≤ D) (h2 : D < 10 ^ P) (x : ℚ) (hx : Nearest p x (D * (10 : ℚ) ^ q)) (hr : InRange x) :
    read (stringify P x) = some (D * (10 : ℚ) ^ q) ∧ read (stringify P (-x)) = some (-(D * (10 : ℚ) ^ q)) := by
  have hs := significant_decimal P p hP hPp hp D q h1 h2 x hx
  have hv : sigVal P (D, q + P - 1) = D * (10 : ℚ) ^ q := by
    simp only [sigVal]; congr 2; omega
  rw [stringify_pos P hP x hr, stringify_neg P hP x hr, hs, hv]
  exact ⟨rfl, rfl⟩

/-- C99: hence numbers nearest to different decimal numbers with at most `P` digits get different texts. -/
theorem c99_short_decimals_differ (P p : ℕ) (hP : 1 ≤ P) (hp : 1 ≤ p) (hPp : 10 ^ P ≤ 2 ^ (p - 1)) (D D' q q' : ℤ)
    (h1 : 10 ^ (P - 1) ≤ D) (h2 : D < 10 ^ P) (h1' : 10 ^ (P - 1) ≤ D') (h2' : D' < 10 ^ P) (x x' : ℚ)
    (hx : Nearest p x (D * (10 : ℚ) ^ q)) (hx' : Nearest p x' (D' * (10 : ℚ) ^ q')) (hr : InRange x) (hr' : InRange x')
    (h : stringify P x = stringify P x') : (D : ℚ) * (10 : ℚ) ^ q = D' * (10 : ℚ) ^ q' := by
  have a := (c99_decimal_survives_partial P p hP hp hPp D q h1 h2 x hx hr).1
  have b := (c99_decimal_survives_partial P p hP hp hPp D' q' h1' h2' x' hx' hr').1
  rw [h, b] at a
  simpa using a.symm

/-- C99: zero. -/
theorem c99_zero (P : ℕ) : read (stringify P 0) = some 0 := by
  simp only [stringify, if_true]
  decide +kernel

/-- The three types: `digits10` and the number of binary digits of `double`, `float` and `long double`. -/
theorem c99_formats : 10 ^ 15 ≤ 2 ^ (53 - 1) ∧ 10 ^ 6 ≤ 2 ^ (24 - 1) ∧ 10 ^ 18 ≤ 2 ^ (64 - 1) := by
  norm_num

/-- The `double` 0.1 + 0.2. -/
def sum12 : ℚ := 5404319552844596 * (2 : ℚ) ^ (-54 : ℤ)
/-- The `double` 0.3. -/
def three10 : ℚ := 5404319552844595 * (2 : ℚ) ^ (-54 : ℤ)

/-- C99 violated: two different `double`s with the same text, so that at most one of them can be read back
from it: 0.1 + 0.2 and 0.3. -/
theorem c99_not_read_back : IsFloat 53 5404319552844596 (-54) sum12 ∧ IsFloat 53 5404319552844595 (-54) three10 ∧
    sum12 ≠ three10 ∧ read (stringify 15 sum12) = some (3 / 10) ∧ read (stringify 15 three10) = some (3 / 10) := by
  refine ⟨⟨by norm_num, by norm_num, by norm_num [sum12]⟩, ⟨by norm_num, by norm_num, by norm_num [three10]⟩,
    by norm_num [sum12, three10], ?_, ?_⟩
  · have hl : Int.log 10 sum12 = -1 := log_eq (by norm_num [sum12]) (by norm_num [sum12])
    have hr : InRange sum12 := by
      constructor
      · refine le_trans (zpow_le_zpow_right₀ (by norm_num) (show (-9990 : ℤ) ≤ -1 by norm_num)) ?_
        norm_num [sum12]
      · refine lt_of_lt_of_le ?_ (zpow_le_zpow_right₀ (by norm_num) (show (0 : ℤ) ≤ 9990 by norm_num))
        norm_num [sum12]
    rw [stringify_pos 15 (by norm_num) _ hr]
    have hd : roundEven (sum12 / (10 : ℚ) ^ ((-1 : ℤ) - (15 : ℕ) + 1)) = 300000000000000 := by
      apply roundEven_eq
      rw [abs_lt]; constructor <;> norm_num [sum12]
    have hs : significant 15 sum12 = (300000000000000, -1) := by
      unfold significant
      simp only [hl]
      rw [hd, if_neg (by norm_num)]
    rw [hs]; norm_num [sigVal]
  · have hl : Int.log 10 three10 = -1 := log_eq (by norm_num [three10]) (by norm_num [three10])
    have hr : InRange three10 := by
      constructor
      · refine le_trans (zpow_le_zpow_right₀ (by norm_num) (show (-9990 : ℤ) ≤ -1 by norm_num)) ?_
        norm_num [three10]
      · refine lt_of_lt_of_le ?_ (zpow_le_zpow_right₀ (by norm_num) (show (0 : ℤ) ≤ 9990 by norm_num))
        norm_num [three10]
    rw [stringify_pos 15 (by norm_num) _ hr]
    have hd : roundEven (three10 / (10 : ℚ) ^ ((-1 : ℤ) - (15 : ℕ) + 1)) = 300000000000000 := by
      apply roundEven_eq
      rw [abs_lt]; constructor <;> norm_num [three10]
    have hs : significant 15 three10 = (300000000000000, -1) := by
      unfold significant
      simp only [hl]
      rw [hd, if_neg (by norm_num)]
    rw [hs]; norm_num [sigVal]

/-! ### Examples -/

/-- 0.3 as a `double` meets the hypotheses of `c99_decimal_survives_partial`. -/
example : Nearest 53 three10 ((300000000000000 : ℤ) * (10 : ℚ) ^ (-15 : ℤ)) :=
  ⟨5404319552844595, -54, ⟨by norm_num, by norm_num, by norm_num [three10]⟩, by rw [abs_le]; constructor <;> norm_num [three10]⟩

example : render (gNum 15 false 300000000000000 (-1)) = "0.3".toList := by decide +kernel
example : render (gNum 15 true 123456789012345 20) = "-1.23456789012345e+20".toList := by decide +kernel
example : render (gNum 15 false 100000000000000 14) = "100000000000000".toList := by decide +kernel
example : render (gNum 15 false 100000000000000 15) = "1e+15".toList := by decide +kernel
example : render (gNum 15 false 120000000000000 (-5)) = "1.2e-05".toList := by decide +kernel
example : render (gNum 15 false 120000000000000 (-4)) = "0.00012".toList := by decide +kernel
example : read "-12.5e+02".toList = some (-1250) := by decide +kernel

end Verif.Stringify
