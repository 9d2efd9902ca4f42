import Verif.Config.ATNames
import Verif.Config.ATSpec
import Verif.Config.ATLemmas
import Verif.Config.ReadProps
import Mathlib.Data.Nat.Digits.Defs

/-!
# C78: generated subtree names are unused
-/
namespace Verif.AT

open Verif.Cfg (digits digitVal isWs intText)

/-- Decimal text of a natural number. -/
def dec (n : Nat) : S := Nat.toDigits 10 n

theorem dec_inj {i j : Nat} (h : dec i = dec j) : i = j := by
  have h2 := congrArg Cfg.magnitude h
  unfold dec at h2
  rwa [Cfg.magnitude_toDigits, Cfg.magnitude_toDigits] at h2

theorem intText_nat (n : Nat) : intText (n : Int) = dec n := by
  unfold intText dec
  rw [if_neg (by omega)]
  rfl

/-- A character that cannot be part of a number with sign and leading white space. -/
def Inert (c : Char) : Prop := ¬ ('0' ≤ c ∧ c ≤ '9') ∧ c ≠ '+' ∧ c ≠ '-' ∧ isWs c = false

/-- A name without a number at its end. -/
def NoNumber (p : S) : Prop := p = [] ∨ ∃ c, p.getLast? = some c ∧ Inert c

theorem scanInt_inert (c : Char) (r : S) (h : Inert c) : scanInt (c :: r) = .ok none := by
  obtain ⟨h1, h2, h3, h4⟩ := h
  have h0 : c ≠ '0' := by rintro rfl; exact h1 ⟨by decide, by decide⟩
  have h5 : ¬ ('1' ≤ c ∧ c ≤ '9') := fun h => h1 ⟨Char.le_trans (by decide) h.1, h.2⟩
  simp [scanInt, List.dropWhile, h4, scanSigned, h2, h3, scanMag, h0, h5]

/-! ### Scanning decimal digits -/

/-- Decimal digits only. -/
def AllDec (s : S) : Prop := ∀ c ∈ s, '0' ≤ c ∧ c ≤ '9'

theorem digitVal_dec {c : Char} (h : '0' ≤ c ∧ c ≤ '9') :
    digitVal c = some (c.toNat - '0'.toNat) ∧ c.toNat - '0'.toNat < 10 := by
  refine ⟨by simp [digitVal, h], ?_⟩
  have h2 : c.toNat ≤ '9'.toNat := h.2
  have : '9'.toNat = 57 := rfl
  have : '0'.toNat = 48 := rfl
  omega

theorem digits10_cons {c : Char} (h : '0' ≤ c ∧ c ≤ '9') (a : Nat) (s : S) :
    digits 10 a (c :: s) = digits 10 (a * 10 + (c.toNat - '0'.toNat)) s := by
  obtain ⟨h1, h2⟩ := digitVal_dec h
  rw [digits, h1]
  exact if_pos h2

theorem digits10_mono (s : S) (h : AllDec s) : ∀ {a b : Nat}, a ≤ b →
    a ≤ digits 10 b s ∧ digits 10 a s ≤ digits 10 b s := by
  induction s with
  | nil => intro a b hab; exact ⟨hab, hab⟩
  | cons c s ih =>
    intro a b hab
    rw [digits10_cons (h c (by simp)), digits10_cons (h c (by simp))]
    have hs : AllDec s := fun x hx => h x (by simp [hx])
    exact ⟨Nat.le_trans (by omega) (ih hs (Nat.le_refl _)).1, (ih hs (by omega)).2⟩

theorem digits8_le (s : S) (h : AllDec s) : ∀ {a b : Nat}, a ≤ b → digits 8 a s ≤ digits 10 b s := by
  induction s with
  | nil => intro a b hab; exact hab
  | cons c s ih =>
    intro a b hab
    have hs : AllDec s := fun x hx => h x (by simp [hx])
    rw [digits10_cons (h c (by simp))]
    obtain ⟨h1, h2⟩ := digitVal_dec (h c (by simp))
    simp only [digits, h1]
    split
    · exact ih hs (by omega)
    · exact (digits10_mono s hs (by omega)).1

theorem digits10_lt (s : S) (h : AllDec s) : ∀ a, digits 10 a s < (a + 1) * 10 ^ s.length := by
  induction s with
  | nil => intro a; simp [digits]
  | cons c s ih =>
    intro a
    have hs : AllDec s := fun x hx => h x (by simp [hx])
    rw [digits10_cons (h c (by simp))]
    obtain ⟨h1, h2⟩ := digitVal_dec (h c (by simp))
    refine Nat.lt_of_lt_of_le (ih hs _) ?_
    rw [List.length_cons, Nat.pow_succ, Nat.mul_comm (10 ^ s.length) 10, ← Nat.mul_assoc]
    exact Nat.mul_le_mul_right _ (by omega)

theorem dec_allDec (n : Nat) : AllDec (dec n) := by
  intro c hc
  obtain ⟨d, h1, h2⟩ := (Cfg.toDigits_spec (b := 10) (by omega) (by omega) n).1 c hc
  unfold digitVal at h1
  split at h1
  · assumption
  · exfalso
    split at h1
    · next h => cases h1; omega
    · split at h1
      · cases h1; omega
      · cases h1

theorem dec_digits (n : Nat) : digits 10 0 (dec n) = n :=
  (Cfg.toDigits_spec (b := 10) (by omega) (by omega) n).2

theorem dec_ne_nil (n : Nat) : dec n ≠ [] := by
  obtain ⟨c, r, h, -⟩ := Cfg.toDigits_head n
  unfold dec
  rw [h]
  exact List.cons_ne_nil _ _

theorem dec_lt (n : Nat) : n < 10 ^ (dec n).length := by
  have := digits10_lt (dec n) (dec_allDec n) 0
  rw [dec_digits] at this
  omega

theorem dec_length_le {n e : Nat} (he : 0 < e) (h : n < 10 ^ e) : (dec n).length ≤ e :=
  Nat.toDigits_length 10 n e he h

theorem not_ws_of_dec {c : Char} (h : '0' ≤ c ∧ c ≤ '9') : isWs c = false ∧ c ≠ '-' ∧ c ≠ '+' := by
  refine ⟨?_, ?_, ?_⟩
  · cases hw : isWs c with
    | false => rfl
    | true =>
      exfalso
      simp only [isWs, Bool.or_eq_true, beq_iff_eq] at hw
      rcases hw with ((((rfl | rfl) | rfl) | rfl) | rfl) | rfl <;> exact absurd h (by decide)
  · rintro rfl; exact absurd h (by decide)
  · rintro rfl; exact absurd h (by decide)

/-- What `sscanf` makes of a string of digits: octal after a leading zero. -/
def scanVal : S → Nat
  | [] => 0
  | c :: r => if c = '0' then digits 8 0 r else digits 10 0 (c :: r)

theorem scanInt_digits (c : Char) (r : S) (h : AllDec (c :: r)) (hv : digits 10 0 (c :: r) < 2147483648) :
    scanInt (c :: r) = .ok (some (scanVal (c :: r) : Int)) := by
  have hc := h c (by simp)
  have hr : AllDec r := fun x hx => h x (by simp [hx])
  obtain ⟨h1, h2, h3⟩ := not_ws_of_dec hc
  have hs : scanMag (c :: r) = some (scanVal (c :: r)) := by
    unfold scanMag scanVal
    by_cases h0 : c = '0'
    · simp only [h0, if_true]
      cases r with
      | nil => rfl
      | cons x r =>
        have hx := h x (by simp)
        have : ¬ (x = 'x' ∨ x = 'X') := by
          rintro (rfl | rfl) <;> exact absurd hx (by decide)
        simp [this]
    · have h19 : '1' ≤ c ∧ c ≤ '9' := by
        refine ⟨?_, hc.2⟩
        have h4 : '0'.toNat ≤ c.toNat := hc.1
        have h5 : c.toNat ≠ '0'.toNat := fun e => h0 (Char.ext (UInt32.toNat_inj.1 e))
        show '1'.toNat ≤ c.toNat
        have : '1'.toNat = 49 := rfl
        have : '0'.toNat = 48 := rfl
        omega
      simp [h0, h19]
  have hle : scanVal (c :: r) ≤ digits 10 0 (c :: r) := by
    simp only [scanVal]
    by_cases h0 : c = '0'
    · rw [if_pos h0, digits10_cons hc]
      exact digits8_le r hr (by omega)
    · rw [if_neg h0]
  have hfit : intFits (scanVal (c :: r) : Int) := ⟨by omega, by omega⟩
  simp [scanInt, List.dropWhile, h1, scanSigned, h2, h3, hs, hfit]

theorem scanVal_dec (n : Nat) : scanVal (dec n) = n := by
  obtain ⟨c, r, h1, -, -, h4⟩ := Cfg.toDigits_head n
  have h5 := dec_digits n
  unfold dec at *
  rw [h1] at h5 ⊢
  simp only [scanVal]
  by_cases hc : c = '0'
  · have := h4 hc
    subst this
    have : c :: r = ['0'] := by rw [← h1]; decide
    cases this
    rfl
  · rw [if_neg hc]
    exact h5

theorem scanMag_digits (c : Char) (r : S) (h : AllDec (c :: r)) :
    scanMag (c :: r) = some (scanVal (c :: r)) := by
  have hc := h c (by simp)
  unfold scanMag scanVal
  by_cases h0 : c = '0'
  · simp only [h0, if_true]
    cases r with
    | nil => rfl
    | cons x r =>
      have hx := h x (by simp)
      have : ¬ (x = 'x' ∨ x = 'X') := by
        rintro (rfl | rfl) <;> exact absurd hx (by decide)
      simp [this]
  · have h19 : '1' ≤ c ∧ c ≤ '9' := by
      refine ⟨?_, hc.2⟩
      have h4 : '0'.toNat ≤ c.toNat := hc.1
      have h5 : c.toNat ≠ '0'.toNat := fun e => h0 (Char.ext (UInt32.toNat_inj.1 e))
      show '1'.toNat ≤ c.toNat
      have : '1'.toNat = 49 := rfl
      have : '0'.toNat = 48 := rfl
      omega
    simp [h0, h19]

theorem scanInt_digits_any (c : Char) (r : S) (h : AllDec (c :: r)) :
    (∃ v, scanInt (c :: r) = .ok (some v)) ∨ scanInt (c :: r) = .ub := by
  obtain ⟨h1, h2, h3⟩ := not_ws_of_dec (h c (by simp))
  have hs := scanMag_digits c r h
  by_cases hf : intFits (scanVal (c :: r) : Int)
  · exact Or.inl ⟨_, by simp [scanInt, List.dropWhile, h1, scanSigned, h2, h3, hs, hf]; rfl⟩
  · exact Or.inr (by simp [scanInt, List.dropWhile, h1, scanSigned, h2, h3, hs, hf])

theorem scanInt_dec_large (n : Nat) (hn : 2147483648 ≤ n) : scanInt (dec n) = .ub := by
  obtain ⟨c, r, hcr⟩ : ∃ c r, dec n = c :: r := by
    cases h : dec n with
    | nil => exact absurd h (dec_ne_nil n)
    | cons c r => exact ⟨c, r, rfl⟩
  have hall : AllDec (c :: r) := hcr ▸ dec_allDec n
  obtain ⟨h1, h2, h3⟩ := not_ws_of_dec (hall c (by simp))
  have hs := scanMag_digits c r hall
  have hv : scanVal (c :: r) = n := hcr ▸ scanVal_dec n
  have hf : ¬ intFits (scanVal (c :: r) : Int) := fun h => by have := h.2; omega
  rw [hcr]
  simp [scanInt, List.dropWhile, h1, scanSigned, h2, h3, hs, hf]

theorem scanBack_digits (p ds : S) (c0 : Char) (hp : p.getLast? = some c0) (hi : Inert c0)
    (hd : AllDec ds) (hv : digits 10 0 ds < 2147483648) :
    ∀ (k : Nat) (u v : S) (i : Int), u.length = k → ds = u ++ v →
      scanBack (p ++ ds) (p.length + k) i =
        .ok (ds.length, if u = [] then i else (scanVal ds : Int)) := by
  intro k
  have hp0 : p = p.dropLast ++ [c0] := by
    obtain ⟨l, rfl⟩ := List.getLast?_eq_some_iff.1 hp
    simp
  have hpl : p.length = p.dropLast.length + 1 := by
    conv => lhs; rw [hp0]
    simp
  induction k with
  | zero =>
    intro u v i hu huv
    have : u = [] := List.eq_nil_of_length_eq_zero hu
    subst this
    have hdrop : (p ++ ds).drop p.dropLast.length = c0 :: ds := by
      conv => lhs; rw [hp0]
      simp
    rw [Nat.add_zero, hpl, scanBack, hdrop, scanInt_inert _ _ hi]
    simp only [List.length_append, if_true, hpl]
    congr 2
    omega
  | succ k ih =>
    intro u v i hu huv
    have hne : u ≠ [] := by rintro rfl; simp at hu
    obtain ⟨u', c, rfl⟩ : ∃ u' c, u = u' ++ [c] := ⟨_, _, (List.dropLast_append_getLast hne).symm⟩
    have hu' : u'.length = k := by simpa using hu
    subst huv
    have hdrop : (p ++ (u' ++ [c] ++ v)).drop (p.length + k) = c :: v := by
      subst hu'
      rw [List.drop_append]
      simp
    have hcv : AllDec (c :: v) := fun x hx => hd x (by simp at hx ⊢; rcases hx with rfl | hx <;> simp [*])
    have hval : ∀ (w : S) (a : Nat), AllDec (w ++ c :: v) → digits 10 0 (c :: v) ≤ digits 10 a (w ++ c :: v) := by
      intro w
      induction w with
      | nil => intro a h; exact (digits10_mono _ h (Nat.zero_le a)).2
      | cons x w ihw =>
        intro a h
        rw [List.cons_append, digits10_cons (h x (by simp))]
        exact ihw _ (fun y hy => h y (by simp at hy ⊢; exact Or.inr hy))
    have hle := hval u' 0 (by simpa using hd)
    have e : u' ++ [c] ++ v = u' ++ c :: v := by simp
    rw [← Nat.add_assoc, scanBack, hdrop, scanInt_digits c v hcv (by rw [e] at hv; omega)]
    show scanBack (p ++ (u' ++ [c] ++ v)) (p.length + k) _ = _
    rw [ih u' (c :: v) _ hu' e]
    congr 2
    by_cases h0 : u' = []
    · subst h0; simp
    · simp [h0]

theorem startNumber_dec (p : S) (c0 : Char) (hp : p.getLast? = some c0) (hi : Inert c0) (n : Nat)
    (hn : n < 2147483647) : startNumber (p ++ dec n) = .ok ((dec n).length, (n : Int) + 1) := by
  have h := scanBack_digits p (dec n) c0 hp hi (dec_allDec n) (by rw [dec_digits]; omega)
    (dec n).length (dec n) [] 1 rfl (by simp)
  rw [if_neg (dec_ne_nil n), scanVal_dec] at h
  have hl : (dec n).length ≠ 0 := fun h => dec_ne_nil n (List.eq_nil_of_length_eq_zero h)
  have hfit : intFits ((n : Int) + 1) := ⟨by omega, by omega⟩
  unfold startNumber
  rw [if_pos (by rw [List.length_append]; omega), List.length_append, h]
  simp [hl, hfit]

theorem startNumber_noNumber (p : S) (hp : NoNumber p) : startNumber p = .ok (0, 1) := by
  rcases hp with rfl | ⟨c0, hp, hi⟩
  · rfl
  · have h := scanBack_digits p [] c0 hp hi (by intro c hc; cases hc) (by decide) 0 [] [] 1 rfl rfl
    have hl : 0 < p.length := by
      cases p with
      | nil => cases hp
      | cons => simp
    rw [List.append_nil, Nat.add_zero] at h
    unfold startNumber
    rw [if_pos hl, h]
    simp

/-! ### The search -/

theorem printName_eq (p q : S) (i : Nat) (h : (dec i).length ≤ q.length + 5) :
    printName (p ++ q) q.length (i : Int) = .ok (p ++ dec i) := by
  unfold printName
  rw [intText_nat, List.length_append, if_pos (by omega), Nat.add_sub_cancel]
  simp

theorem printName_ub (p q : S) (i : Nat) (h : q.length + 5 < (dec i).length) :
    printName (p ++ q) q.length (i : Int) = .ub := by
  unfold printName
  rw [intText_nat, List.length_append, if_neg (by omega)]

/-- The search finds the first unused number, or stops after `n` steps. -/
theorem nameLoop_spec (names : List (Option S)) (p q : S) : ∀ (n K i : Nat), K ≤ n →
    (∀ l ≤ K, (dec (i + l)).length ≤ q.length + 5) →
    (∀ l < K, some (p ++ dec (i + l)) ∈ names) → (K < n → some (p ++ dec (i + K)) ∉ names) →
    nameLoop names (p ++ q) q.length n (i : Int) (p ++ dec i) = .ok (p ++ dec (i + K)) := by
  intro n
  induction n with
  | zero =>
    intro K i hK _ _ _
    have : K = 0 := by omega
    subst this
    rfl
  | succ n ih =>
    intro K i hK hroom hused hfree
    cases K with
    | zero =>
      have hf : some (p ++ dec i) ∉ names := hfree (by omega)
      rw [nameLoop, if_neg hf]
      rfl
    | succ K =>
      rw [nameLoop, if_pos (by simpa using hused 0 (by omega))]
      rw [show ((i : Int) + 1) = ((i + 1 : Nat) : Int) by omega,
        printName_eq p q (i + 1) (hroom 1 (by omega))]
      show nameLoop names (p ++ q) q.length n ((i + 1 : Nat) : Int) (p ++ dec (i + 1)) = _
      rw [ih K (i + 1) (by omega) (fun l hl => by
          rw [Nat.add_right_comm i 1 l, Nat.add_assoc]; exact hroom (l + 1) (by omega)) (fun l hl => by
          rw [Nat.add_right_comm i 1 l, Nat.add_assoc]; exact hused (l + 1) (by omega)) (fun hl => by
          rw [Nat.add_right_comm i 1 K, Nat.add_assoc]; exact hfree (by omega))]
      rw [Nat.add_right_comm i 1 K, Nat.add_assoc]

theorem nameLoop_ub (names : List (Option S)) (p q : S) : ∀ (n K i : Nat), K < n →
    (∀ l ≤ K, (dec (i + l)).length ≤ q.length + 5) →
    q.length + 5 < (dec (i + K + 1)).length →
    (∀ l ≤ K, some (p ++ dec (i + l)) ∈ names) →
    nameLoop names (p ++ q) q.length n (i : Int) (p ++ dec i) = .ub := by
  intro n
  induction n with
  | zero => intro K i hK; omega
  | succ n ih =>
    intro K i hK hroom hno hused
    rw [nameLoop, if_pos (by simpa using hused 0 (by omega))]
    rw [show ((i : Int) + 1) = ((i + 1 : Nat) : Int) by omega]
    cases K with
    | zero =>
      rw [printName_ub p q (i + 1) (by simpa using hno)]
      rfl
    | succ K =>
      rw [printName_eq p q (i + 1) (hroom 1 (by omega))]
      show nameLoop names (p ++ q) q.length n ((i + 1 : Nat) : Int) (p ++ dec (i + 1)) = _
      exact ih K (i + 1) (by omega) (fun l hl => by
          rw [Nat.add_right_comm i 1 l, Nat.add_assoc]; exact hroom (l + 1) (by omega)) (by
          rw [show i + 1 + K + 1 = i + (K + 1) + 1 by omega]; exact hno) (fun l hl => by
          rw [Nat.add_right_comm i 1 l, Nat.add_assoc]; exact hused (l + 1) (by omega))

theorem nameLoop_general (names : List (Option S)) (base : S) (j : Nat) : ∀ (n : Nat) (i : Int) (d r : S),
    d = base.take (base.length - j) ++ intText i → nameLoop names base j n i d = .ok r →
    some r ∈ names → r = base.take (base.length - j) ++ intText (i + n) := by
  intro n
  induction n with
  | zero =>
    intro i d r hd h _
    simp only [nameLoop, Outcome.ok.injEq] at h
    subst h
    simpa using hd
  | succ n ih =>
    intro i d r hd h hr
    simp only [nameLoop] at h
    split at h
    · unfold printName at h
      split at h
      · have := ih (i + 1) _ r rfl h hr
        rw [this]
        congr 2
        omega
      · cases h
    · simp only [Outcome.ok.injEq] at h
      subst h
      contradiction

/-! ### The properties -/

/-- C78: a name generated by `newSubNodeDescription`, whatever the base description and the
names of the subtrees are, belongs to no subtree - unless its number is 100000 or larger. -/
theorem c78_unused_partial (names : List (Option S)) (base d : S) (h : newSubNode names base = .ok d)
    (hu : some d ∈ names) : ∃ (p : S) (m : Int), p <+: base ∧ d = p ++ intText m ∧ 100000 ≤ m := by
  unfold newSubNode at h
  cases hs : startNumber base with
  | throws e => rw [hs] at h; cases h
  | ub => rw [hs] at h; cases h
  | ok s =>
    rw [hs] at h
    simp only [Outcome.bind] at h
    unfold printName at h
    by_cases hr : base.length - s.1 + (intText s.2).length + 1 ≤ base.length + 6
    · rw [if_pos hr] at h
      by_cases hn : names = []
      · simp [hn] at h
      · simp only [hn, if_false] at h
        have := nameLoop_general names base s.1 _ s.2 _ d rfl h hu
        exact ⟨_, _, List.take_prefix _ _, this, by omega⟩
    · rw [if_neg hr] at h
      cases h

/-- C78: for a base description that ends with a decimal number (the characters before it being
neither digits, signs nor white space), the new name has the number replaced by the next larger
one that is not in use; all smaller ones are in use.  From 100000 on it is not checked whether
the number is in use. -/
theorem c78_next_number (names : List (Option S)) (hne : names ≠ []) (p : S) (c0 : Char)
    (hp : p.getLast? = some c0) (hi : Inert c0) (n : Nat) (hn : n < 2147483647) :
    ∃ m, newSubNode names (p ++ Nat.toDigits 10 n) = .ok (p ++ Nat.toDigits 10 m) ∧
      n < m ∧ m ≤ max (n + 1) 100000 ∧
      (∀ k, n < k → k < m → some (p ++ Nat.toDigits 10 k) ∈ names) ∧
      (m < 100000 → some (p ++ Nat.toDigits 10 m) ∉ names) := by
  have hK : ∃ K, (K ≤ 100000 - (n + 1)) ∧ (∀ l < K, some (p ++ dec (n + 1 + l)) ∈ names) ∧
      (K < 100000 - (n + 1) → some (p ++ dec (n + 1 + K)) ∉ names) := by
    generalize 100000 - (n + 1) = N
    generalize n + 1 = a
    induction N with
    | zero => exact ⟨0, by omega, by omega, by omega⟩
    | succ N ih =>
      obtain ⟨K, h1, h2, h3⟩ := ih
      by_cases hKN : K = N
      · by_cases hu : some (p ++ dec (a + K)) ∈ names
        · refine ⟨K + 1, by omega, fun l hl => ?_, by omega⟩
          by_cases hlk : l = K
          · subst hlk; exact hu
          · exact h2 l (by omega)
        · exact ⟨K, by omega, h2, fun _ => hu⟩
      · exact ⟨K, by omega, h2, fun _ => h3 (by omega)⟩
  obtain ⟨K, hK1, hK2, hK3⟩ := hK
  have hl0 : 0 < (dec n).length := List.length_pos_iff.2 (dec_ne_nil n)
  have hroom : ∀ l ≤ K, (dec (n + 1 + l)).length ≤ (dec n).length + 5 := by
    intro l hl
    by_cases hbig : n + 1 + l ≤ 100000
    · have := dec_length_le (n := n + 1 + l) (e := 6) (by omega) (by omega)
      omega
    · have hl' : l = 0 := by omega
      subst hl'
      have h1 := dec_lt n
      have h2 : n + 1 < 10 ^ ((dec n).length + 1) := by rw [Nat.pow_succ]; omega
      have := dec_length_le (n := n + 1 + 0) (by omega) h2
      omega
  refine ⟨n + 1 + K, ?_, by omega, by omega, fun k h1 h2 => ?_, fun h => ?_⟩
  · show newSubNode names (p ++ dec n) = .ok (p ++ dec (n + 1 + K))
    unfold newSubNode
    rw [startNumber_dec p c0 hp hi n hn]
    simp only [Outcome.bind]
    rw [show ((n : Int) + 1) = ((n + 1 : Nat) : Int) by omega,
      printName_eq p (dec n) (n + 1) (hroom 0 (by omega))]
    simp only [hne, if_false]
    have e : (100000 - ((n + 1 : Nat) : Int)).toNat = 100000 - (n + 1) := by omega
    rw [e]
    exact nameLoop_spec names p (dec n) _ K (n + 1) hK1 hroom hK2 hK3
  · have := hK2 (k - (n + 1)) (by omega)
    rwa [show n + 1 + (k - (n + 1)) = k by omega] at this
  · exact hK3 (by omega)

/-- C78: for a base description without a number at its end (also the empty one), the new name is
the base description and the least positive number that is not in use, if there is one below
100000. -/
theorem c78_first_number (names : List (Option S)) (hne : names ≠ []) (p : S) (hp : NoNumber p)
    (m : Nat) (hm : 0 < m) (hm' : m < 100000) (hfree : some (p ++ Nat.toDigits 10 m) ∉ names)
    (hused : ∀ k, 0 < k → k < m → some (p ++ Nat.toDigits 10 k) ∈ names) :
    newSubNode names p = .ok (p ++ Nat.toDigits 10 m) := by
  have hroom : ∀ l ≤ m - 1, (dec (1 + l)).length ≤ ([] : S).length + 5 := fun l hl =>
    dec_length_le (by decide) (by simp; omega)
  unfold newSubNode
  rw [startNumber_noNumber p hp]
  simp only [Outcome.bind]
  have h1 := printName_eq p [] 1 (hroom 0 (by omega))
  rw [List.append_nil] at h1
  have h2 := nameLoop_spec names p [] 99999 (m - 1) 1 (by omega) hroom
    (fun l hl => hused _ (by omega) (by omega))
    (fun _ => by rw [show 1 + (m - 1) = m by omega]; exact hfree)
  rw [List.append_nil, show 1 + (m - 1) = m by omega] at h2
  change printName p 0 1 = _ at h1
  rw [h1]
  simp only [hne, if_false]
  exact h2

/-- C78 fails if all names up to 99999 are in use: the next one is written behind the end of the
heap buffer. -/
theorem c78_buffer_overflow (names : List (Option S)) (p : S) (hp : NoNumber p)
    (hused : ∀ k, 0 < k → k < 100000 → some (p ++ Nat.toDigits 10 k) ∈ names) :
    newSubNode names p = .ub := by
  have hroom : ∀ l ≤ 99998, (dec (1 + l)).length ≤ ([] : S).length + 5 := fun l hl =>
    dec_length_le (by decide) (by simp; omega)
  unfold newSubNode
  rw [startNumber_noNumber p hp]
  simp only [Outcome.bind]
  have h1 := printName_eq p [] 1 (hroom 0 (by omega))
  rw [List.append_nil] at h1
  have hno : ([] : S).length + 5 < (dec (1 + 99998 + 1)).length := by
    have h := dec_lt (1 + 99998 + 1)
    rcases Nat.lt_or_ge (([] : S).length + 5) (dec (1 + 99998 + 1)).length with h' | h'
    · exact h'
    · have : 10 ^ (dec (1 + 99998 + 1)).length ≤ 10 ^ 5 := Nat.pow_le_pow_right (by omega) h'
      omega
  have h2 := nameLoop_ub names p [] 99999 99998 1 (by omega) hroom hno
    (fun l hl => hused _ (by omega) (by omega))
  rw [List.append_nil] at h2
  change printName p 0 1 = _ at h1
  rw [h1]
  simp only
  split
  · rfl
  · exact h2

/-- C78 fails for a base description that consists of digits only, such as the names that
`addNewSubTree` makes: the code reads in front of the buffer. -/
theorem c78_all_digits_undefined (names : List (Option S)) (ds : S) (hne : ds ≠ [])
    (hd : ∀ c ∈ ds, '0' ≤ c ∧ c ≤ '9') : newSubNode names ds = .ub := by
  have key : ∀ m ≤ ds.length, ∀ i, scanBack ds m i = .ub := by
    intro m
    induction m with
    | zero => intro _ i; rfl
    | succ m ih =>
      intro hm i
      rw [scanBack]
      have hlt : m < ds.length := by omega
      rw [List.drop_eq_getElem_cons hlt]
      have hall : AllDec (ds[m] :: ds.drop (m + 1)) := by
        rw [← List.drop_eq_getElem_cons hlt]
        exact fun c hc => hd c (List.mem_of_mem_drop hc)
      -- a number that is too large is undefined as well
      obtain ⟨hw, h2, h3⟩ := not_ws_of_dec (hall ds[m] List.mem_cons_self)
      have : ∃ v, scanSigned ((ds[m] :: ds.drop (m + 1)).dropWhile isWs) = some v := by
        have hc := hall ds[m] List.mem_cons_self
        simp only [List.dropWhile, hw, scanSigned, h2, h3, if_false]
        unfold scanMag
        by_cases h0 : ds[m] = '0'
        · simp only [h0, if_true]
          cases hr : ds.drop (m + 1) with
          | nil => exact ⟨_, rfl⟩
          | cons x r =>
            have hx := hall x (by simp [hr])
            have : ¬ (x = 'x' ∨ x = 'X') := by
              rintro (rfl | rfl) <;> exact absurd hx (by decide)
            simp only [this, if_false]
            exact ⟨_, rfl⟩
        · have h19 : '1' ≤ ds[m] ∧ ds[m] ≤ '9' := by
            refine ⟨?_, hc.2⟩
            have h4 : '0'.toNat ≤ ds[m].toNat := hc.1
            have h5 : ds[m].toNat ≠ '0'.toNat := fun e => h0 (Char.ext (UInt32.toNat_inj.1 e))
            show '1'.toNat ≤ ds[m].toNat
            have : '1'.toNat = 49 := rfl
            have : '0'.toNat = 48 := rfl
            omega
          simp only [h0, h19, if_true, if_false, and_self]
          exact ⟨_, rfl⟩
      obtain ⟨v, hv⟩ := this
      simp only [scanInt, hv]
      by_cases hf : intFits v
      · simp only [hf, if_true]
        exact ih (by omega) v
      · simp only [hf, if_false]
  unfold newSubNode startNumber
  rw [if_pos (List.length_pos_iff.2 hne), key _ (Nat.le_refl _)]
  rfl

/-- C78 fails for a base description that ends in a number from 2147483647 on: reading it or the increment
overflows an `int`. -/
theorem c78_number_too_large (names : List (Option S)) (p : S) (c0 : Char) (hp : p.getLast? = some c0)
    (hi : Inert c0) (n : Nat) (hn : 2147483647 ≤ n) :
    newSubNode names (p ++ Nat.toDigits 10 n) = .ub := by
  suffices h : startNumber (p ++ dec n) = .ub by
    unfold newSubNode
    rw [show Nat.toDigits 10 n = dec n from rfl, h]
    rfl
  have hl : (dec n).length ≠ 0 := fun h => dec_ne_nil n (List.eq_nil_of_length_eq_zero h)
  unfold startNumber
  rw [if_pos (by rw [List.length_append]; omega), List.length_append]
  by_cases hle : n = 2147483647
  · have h := scanBack_digits p (dec n) c0 hp hi (dec_allDec n) (by rw [dec_digits]; omega)
      (dec n).length (dec n) [] 1 rfl (by simp)
    rw [if_neg (dec_ne_nil n), scanVal_dec] at h
    have hfit : ¬ intFits ((n : Int) + 1) := fun h => by have := h.2; omega
    rw [h]
    simp [hl, hfit]
  · have key : ∀ k, k < (dec n).length → ∀ i, scanBack (p ++ dec n) (p.length + (k + 1)) i = .ub := by
      intro k
      induction k with
      | zero =>
        intro hk i
        rw [← Nat.add_assoc, Nat.add_zero, scanBack, List.drop_left, scanInt_dec_large n (by omega)]
      | succ k ih =>
        intro hk i
        rw [← Nat.add_assoc, scanBack]
        obtain ⟨d, w, hdw⟩ : ∃ d w, (dec n).drop (k + 1) = d :: w :=
          ⟨_, _, List.drop_eq_getElem_cons hk⟩
        have hdrop : (p ++ dec n).drop (p.length + (k + 1)) = d :: w := by
          rw [← List.drop_drop, List.drop_left, hdw]
        have hall : AllDec (d :: w) := by
          rw [← hdw]
          exact fun c hc => dec_allDec n c (List.mem_of_mem_drop hc)
        rw [hdrop]
        rcases scanInt_digits_any d w hall with ⟨v, hv⟩ | hv
        · rw [hv]
          exact ih (by omega) v
        · rw [hv]
    obtain ⟨k, hk⟩ : ∃ k, (dec n).length = k + 1 := ⟨(dec n).length - 1, by omega⟩
    rw [hk, key k (by omega)]

example : newSubNode [some "a".toList] "a2147483647".toList = .ub :=
  c78_number_too_large _ "a".toList 'a' rfl (by unfold Inert; decide) 2147483647 (by omega)

example : newSubNode [some "a".toList] "a2147483646".toList = .ok "a2147483647".toList := by
  decide +kernel

/-- C78 fails for numbers from 100000 on: the generated name can be the name of a subtree. -/
theorem c78_duplicate :
    newSubNode [some "a100000".toList, some "a100001".toList] "a100000".toList = .ok "a100001".toList := by
  decide +kernel

/-- C78: a leading zero makes the number octal, and a sign or blanks before it are dropped. -/
theorem c78_octal_and_sign :
    newSubNode [some "a010".toList] "a010".toList = .ok "a9".toList ∧
    newSubNode [some "a-5".toList] "a-5".toList = .ok "a-4".toList ∧
    newSubNode [some "a 5".toList] "a 5".toList = .ok "a6".toList := by
  decide +kernel

example : ∃ m, newSubNode [some "a3".toList, some "a4".toList, none] "a3".toList = .ok ("a".toList ++ Nat.toDigits 10 m) ∧
    3 < m ∧ m ≤ 100000 :=
  let ⟨m, h1, h2, h3, _⟩ := c78_next_number [some "a3".toList, some "a4".toList, none] (by simp) "a".toList 'a'
    rfl (by unfold Inert; decide) 3 (by omega)
  ⟨m, h1, h2, by omega⟩

example : newSubNode [some "a3".toList, some "a4".toList, none] "a3".toList = .ok "a5".toList := by
  decide +kernel

example : newSubNode [some "1".toList, some "x".toList] [] = .ok ([] ++ Nat.toDigits 10 2) :=
  c78_first_number _ (by simp) [] (Or.inl rfl) 2 (by omega) (by omega) (by decide)
    (fun k h1 h2 => by have : k = 1 := by omega
                       subst this; decide)

example : newSubNode [some "7".toList] "7".toList = .ub :=
  c78_all_digits_undefined _ _ (by decide) (by decide)

/-! ### `addNewSubTree` -/

theorem comps_nodot (s : S) (h : '.' ∉ s) : comps s = [s] := by
  induction s with
  | nil => rfl
  | cons c s ih =>
    have hc : c ≠ '.' := fun e => h (by simp [e])
    rw [comps, if_neg hc, ih (fun hm => h (by simp [hm]))]

theorem dec_nodot (n : Nat) : '.' ∉ dec n := fun h => absurd (dec_allDec n _ h) (by decide)

theorem updFirst_fresh {f : Tree → Tree} {d : S} (ks : List Tree) (h : some d ∉ ks.map Tree.desc) :
    updFirst d f ks = none := by
  induction ks with
  | nil => rfl
  | cons k ks ih =>
    simp only [List.map_cons, List.mem_cons, not_or] at h
    rw [updFirst, if_neg (fun e => h.1 e.symm), ih h.2]
    rfl

/-- C78: `addNewSubTree` on a node with subtrees puts one new, empty, changed subtree in front of
them and names it with the least positive number that none of them has (below 100000); nothing
else is changed. -/
theorem c78_add_new (t : Tree) (hne : t.kids ≠ []) (m : Nat) (hm : 0 < m) (hm' : m < 100000)
    (hfree : some (Nat.toDigits 10 m) ∉ t.kids.map Tree.desc)
    (hused : ∀ k, 0 < k → k < m → some (Nat.toDigits 10 k) ∈ t.kids.map Tree.desc) :
    addNewSubTree t =
      .ok (.node t.desc t.attr t.flag (.node (some (Nat.toDigits 10 m)) none true [] :: t.kids)) := by
  unfold addNewSubTree
  rw [c78_first_number (t.kids.map Tree.desc) (by simpa using hne) [] (Or.inl rfl) m hm hm' hfree hused]
  simp only [List.nil_append, Outcome.map, setAttribute]
  change Outcome.ok (setC none (comps (dec m)) t) = _
  rw [comps_nodot _ (dec_nodot m)]
  simp only [setC, dec_ne_nil, if_false]
  rw [updFirst_fresh (d := dec m) _ hfree]
  cases t
  rfl

example : addNewSubTree (.node none none false [.node (some "1".toList) none false [], .node (some "3".toList) none false []]) =
    .ok (.node none none false [.node (some "2".toList) none true [], .node (some "1".toList) none false [],
      .node (some "3".toList) none false []]) :=
  c78_add_new _ (by simp [Tree.kids]) 2 (by omega) (by omega) (by decide)
    (fun k h1 h2 => by have : k = 1 := by omega
                       subst this; decide)

/-- `addNewSubTree` on a node without subtrees calls `subTree` through a `NULL` list. -/
theorem c78_add_new_to_leaf_undefined (d a : Option S) (c : Bool) :
    addNewSubTree (.node d a c []) = .ub := by
  unfold addNewSubTree newSubNode
  rw [startNumber_noNumber [] (Or.inl rfl)]
  rfl

end Verif.AT
