import Verif.Config.ReadModel
import Verif.Config.CfgObsProps

/-! # Typed access to the configuration: C42, C67, C68 -/
namespace Verif.Cfg
open Verif.StdMap

/-! ### Specification -/

/-- Equal up to capitalisation (ASCII); `b` is in lower case. -/
def SameLetter (a b : Char) : Prop :=
  a = b ∨ ('a' ≤ b ∧ b ≤ 'z' ∧ a.toNat + 32 = b.toNat)

/-- The text `s` is the word `w` in any capitalisation. -/
def IsWord (s : S) (w : String) : Prop := List.Forall₂ SameLetter s w.toList

/-- The text is a truth value. -/
def Truth (s : S) (b : Bool) : Prop :=
  match b with
  | true => IsWord s "1" ∨ IsWord s "yes" ∨ IsWord s "true"
  | false => IsWord s "0" ∨ IsWord s "no" ∨ IsWord s "false"

/-! ### Lemmas -/

theorem char_le_iff (a b : Char) : a ≤ b ↔ a.toNat ≤ b.toNat := by
  simp only [Char.le_def, UInt32.le_iff_toNat_le]; rfl

theorem toLowerC_eq (a b : Char) (hb : ('a' ≤ b ∧ b ≤ 'z') ∨ b = '0' ∨ b = '1') :
    toLowerC a = b ↔ SameLetter a b := by
  have hA : 'A'.toNat = 65 := rfl
  have hZ : 'Z'.toNat = 90 := rfl
  have ha : 'a'.toNat = 97 := rfl
  have hz : 'z'.toNat = 122 := rfl
  simp only [toLowerC, SameLetter, char_le_iff, hA, hZ, ha, hz] at hb ⊢
  have hinj : ∀ c d : Char, c.toNat = d.toNat → c = d := fun c d h => Char.toNat_inj.1 h
  split
  · rename_i h
    have hv : (Char.ofNat (a.toNat + 32)).toNat = a.toNat + 32 := by
      have : (a.toNat + 32).isValidChar := .inl (by omega)
      rw [Char.ofNat, dif_pos this]; rfl
    constructor
    · intro he
      rw [he] at hv
      right; omega
    · rintro (rfl | h2)
      · rcases hb with hb | rfl | rfl
        · omega
        · exact absurd h.1 (by decide)
        · exact absurd h.1 (by decide)
      · exact hinj _ _ (by omega)
  · rename_i h
    constructor
    · exact .inl
    · rintro (h2 | h2)
      · exact h2
      · omega

theorem toLower_eq (s : S) (w : String) (hw : ∀ c ∈ w.toList, ('a' ≤ c ∧ c ≤ 'z') ∨ c = '0' ∨ c = '1') :
    toLower s = w.toList ↔ IsWord s w := by
  simp only [toLower, IsWord]
  generalize w.toList = l at hw
  induction s generalizing l with
  | nil =>
    cases l with
    | nil => simp
    | cons b l => exact ⟨(fun h => by cases h), (fun h => by cases h)⟩
  | cons a s ih =>
    cases l with
    | nil => exact ⟨(fun h => by cases h), (fun h => by cases h)⟩
    | cons b l =>
      simp only [List.map_cons, List.cons.injEq, List.forall₂_cons]
      rw [toLowerC_eq a b (hw b (by simp)), ih l (fun c hc => hw c (by simp [hc]))]

theorem word_cases (s : S) :
    (toLower s = ['1'] ∨ toLower s = ['y', 'e', 's'] ∨ toLower s = ['t', 'r', 'u', 'e'] ↔ Truth s true) ∧
    (toLower s = ['0'] ∨ toLower s = ['n', 'o'] ∨ toLower s = ['f', 'a', 'l', 's', 'e'] ↔
      Truth s false) := by
  have h1 := toLower_eq s "1" (by decide)
  have h2 := toLower_eq s "yes" (by decide)
  have h3 := toLower_eq s "true" (by decide)
  have h4 := toLower_eq s "0" (by decide)
  have h5 := toLower_eq s "no" (by decide)
  have h6 := toLower_eq s "false" (by decide)
  simp only [Truth]
  rw [← h1, ← h2, ← h3, ← h4, ← h5, ← h6]
  exact ⟨Iff.rfl, Iff.rfl⟩

theorem truth_exclusive (s : S) : ¬ (Truth s true ∧ Truth s false) := by
  rintro ⟨h1, h2⟩
  rw [← (word_cases s).1] at h1
  rw [← (word_cases s).2] at h2
  rcases h1 with h1 | h1 | h1 <;> rcases h2 with h2 | h2 | h2 <;> rw [h1] at h2 <;>
    exact absurd h2 (by decide)

/-! ### C42 -/

/-- C42: `get<bool>` succeeds with `b` exactly if the key exists and its value is one of the
six words in any capitalisation; otherwise it fails and leaves the variable alone. -/
theorem c42_get_bool (items : List (S × S)) (key : S) (old : Bool) :
    (∀ b, getBool items key old = (true, b) ↔ ∃ s, lookup items key = some s ∧ Truth s b) ∧
    ((¬ ∃ s b, lookup items key = some s ∧ Truth s b) → getBool items key old = (false, old)) := by
  simp only [getBool]
  cases lookup items key with
  | none => simp
  | some s =>
    obtain ⟨w1, w2⟩ := word_cases s
    by_cases h1 : Truth s false
    · have h2 : ¬ Truth s true := fun h => truth_exclusive s ⟨h, h1⟩
      simp only [if_pos (w2.2 h1)]
      constructor
      · intro b; cases b <;> simp [h1, h2]
      · intro h; exact absurd ⟨s, false, rfl, h1⟩ h
    · simp only [if_neg (fun h => h1 (w2.1 h))]
      by_cases h2 : Truth s true
      · simp only [if_pos (w1.2 h2)]
        constructor
        · intro b; cases b <;> simp [h1, h2]
        · intro h; exact absurd ⟨s, true, rfl, h2⟩ h
      · simp only [if_neg (fun h => h2 (w1.1 h))]
        constructor
        · intro b; cases b <;> simp [h1, h2]
        · intro _; trivial

/-- C42: `strict_bool_cast` reads the first word in the same way and throws otherwise. -/
theorem c42_strict_bool_cast (s : S) :
    (∀ b, strictBoolCast s = .ok b ↔ Truth (firstWord s) b) ∧
    ((∀ b, ¬ Truth (firstWord s) b) → strictBoolCast s = .throws .invalidArgument) := by
  obtain ⟨w1, w2⟩ := word_cases (firstWord s)
  simp only [strictBoolCast]
  by_cases h1 : Truth (firstWord s) true
  · have h2 : ¬ Truth (firstWord s) false := fun h => truth_exclusive _ ⟨h1, h⟩
    simp only [if_pos (w1.2 h1)]
    constructor
    · intro b; cases b <;> simp [h1, h2]
    · intro h; exact absurd h1 (h true)
  · simp only [if_neg (fun h => h1 (w1.1 h))]
    by_cases h2 : Truth (firstWord s) false
    · simp only [if_pos (w2.2 h2)]
      constructor
      · intro b; cases b <;> simp [h1, h2]
      · intro h; exact absurd h2 (h false)
    · simp only [if_neg (fun h => h2 (w2.1 h))]
      constructor
      · intro b; cases b <;> simp [h1, h2]
      · intro _; trivial

/-- C42: `bool_cast` is true exactly for the three true words. -/
theorem c42_bool_cast (s : S) : boolCast s = true ↔ Truth (firstWord s) true := by
  simp only [boolCast, decide_eq_true_eq]
  exact (word_cases _).1

theorem firstWord_id (s : S) (h : ∀ c ∈ s, isWs c = false) : firstWord s = s := by
  have h1 : s.dropWhile isWs = s := by
    cases s with
    | nil => rfl
    | cons a s => rw [List.dropWhile_cons, h a (by simp)]; simp
  rw [firstWord, h1]
  clear h1
  induction s with
  | nil => rfl
  | cons a s ih =>
    rw [List.takeWhile_cons, h a (by simp)]
    simp only [Bool.not_false, if_true, List.cons.injEq, true_and]
    exact ih (fun c hc => h c (by simp [hc]))

theorem truth_no_space {s : S} {b : Bool} (h : Truth s b) : ∀ c ∈ s, isWs c = false := by
  have key : ∀ w : String, IsWord s w → (∀ c ∈ w.toList, '0' ≤ c) → ∀ c ∈ s, isWs c = false := by
    clear h
    intro w hw hl
    simp only [IsWord] at hw
    generalize w.toList = l at hw hl
    induction hw with
    | nil => simp
    | cons h1 _ ih =>
      rename_i _ b l1 l2 _
      intro c hc
      rcases List.mem_cons.1 hc with rfl | hc
      · have hb := hl b (by simp)
        rw [char_le_iff] at hb
        have h0 : '0'.toNat = 48 := rfl
        have h97 : 'a'.toNat = 97 := rfl
        have hge : 48 ≤ c.toNat := by
          rcases h1 with rfl | ⟨h1, _, h2⟩
          · omega
          · rw [char_le_iff] at h1; omega
        simp only [isWs, Bool.or_eq_false_iff, beq_eq_false_iff_ne]
        refine ⟨⟨⟨⟨⟨?_, ?_⟩, ?_⟩, ?_⟩, ?_⟩, ?_⟩ <;> (rintro rfl; revert hge; decide)
      · exact ih (fun c hc => hl c (by simp [hc])) c hc
  cases b with
  | true =>
    rcases h with h | h | h
    · exact key _ h (by decide)
    · exact key _ h (by decide)
    · exact key _ h (by decide)
  | false =>
    rcases h with h | h | h
    · exact key _ h (by decide)
    · exact key _ h (by decide)
    · exact key _ h (by decide)

/-- C42: whatever `get<bool>` accepts, the batch functions read in the same way; and they
agree on every value without white space. -/
theorem c42_consistent_partial (items : List (S × S)) (key : S) (old : Bool) :
    (∀ b, getBool items key old = (true, b) → cvBool items key old = (true, b)) ∧
    ((∀ s, lookup items key = some s → ∀ c ∈ s, isWs c = false) →
      getBool items key old = cvBool items key old) := by
  have main : ∀ s, (∀ c ∈ s, isWs c = false) → lookup items key = some s →
      getBool items key old = cvBool items key old := by
    intro s hs hl
    simp only [cvBool, hl]
    have hw := firstWord_id s hs
    obtain ⟨g1, g2⟩ := c42_get_bool items key old
    obtain ⟨c1, c2⟩ := c42_strict_bool_cast s
    rw [hw] at c1 c2
    by_cases h1 : Truth s true
    · rw [(c1 true).2 h1, (g1 true).2 ⟨s, hl, h1⟩]
    · by_cases h2 : Truth s false
      · rw [(c1 false).2 h2, (g1 false).2 ⟨s, hl, h2⟩]
      · have hn : ∀ b, ¬ Truth s b := by intro b; cases b <;> assumption
        rw [c2 hn]
        apply g2
        rintro ⟨s', b, hs', ht⟩
        rw [hl] at hs'
        cases hs'
        exact hn b ht
  constructor
  · intro b hb
    obtain ⟨s, hs, ht⟩ := ((c42_get_bool items key old).1 b).1 hb
    rw [← main s (truth_no_space ht) hs, hb]
  · intro h
    cases hl : lookup items key with
    | none => simp [getBool, cvBool, hl]
    | some s => exact main s (h s hl) hl

/-- C42 fails for values with white space: the batch functions accept `yes, please`-like
values that `get<bool>` rejects. -/
theorem c42_white_space_differs (old : Bool) :
    getBool [("/k".toList, " Yes  no".toList)] "/k".toList old = (false, old) ∧
    cvBool [("/k".toList, " Yes  no".toList)] "/k".toList old = (true, true) := by
  cases old <;> decide +kernel

/-- C42 fails for `paramOpt<bool>`: the option value `yes` is read as `false`. -/
theorem c42_param_opt_bool_reads_yes_as_false (old : Bool) :
    paramOptBool { opt := fun n => if n = "v".toList then some "yes".toList else none } "v".toList old
      = .ok (true, false) := by
  cases old <;> decide +kernel

/-- C42: a boolean that was set is read back. -/
theorem c42_set_get_bool (fs : Files) (k : Nat) (rx : S → S → Bool) (ops : List Op) (m : Mgr)
    (hm : runOps fs k rx newMgr ops = some m) (key : S) (hk : key ≠ configfileKey) (b old : Bool)
    (j : Nat) :
    ∃ r m', setValue fs j key (boolText b) m = some (.ok (r, m')) ∧
      getBool m'.items key old = (true, b) ∧ cvBool m'.items key old = (true, b) := by
  obtain ⟨r, m', h1, _, h2, _⟩ := c41_set_notifies_partial fs k rx ops m hm key (boolText b) hk j
  have hl : lookup m'.items key = some (boolText b) := by rw [h2]; simp
  refine ⟨r, m', h1, ?_, ?_⟩
  · simp only [getBool, hl]; clear * -; revert b old; decide +kernel
  · simp only [cvBool, hl]; clear * -; revert b old; decide +kernel

example : Truth "YeS".toList true := by
  right; left
  rw [← toLower_eq _ _ (by decide)]
  decide +kernel
example : getBool [("/k".toList, "FaLse".toList)] "/k".toList true = (true, false) := by decide +kernel

/-! ### C67: integers -/

theorem digitVal_digitChar {d : Nat} (h : d < 16) : digitVal (Nat.digitChar d) = some d := by
  have : ∀ d : Fin 16, digitVal (Nat.digitChar d.1) = some d.1 := by decide
  exact this ⟨d, h⟩

/-- All characters are digits of the base. -/
def AllDigits (b : Nat) (s : S) : Prop := ∀ c ∈ s, ∃ d, digitVal c = some d ∧ d < b

theorem digits_append {b : Nat} (s t : S) (h : AllDigits b s) (acc : Nat) :
    digits b acc (s ++ t) = digits b (digits b acc s) t := by
  induction s generalizing acc with
  | nil => rfl
  | cons c s ih =>
    obtain ⟨d, hd, hlt⟩ := h c (by simp)
    simp only [List.cons_append, digits, hd, hlt, if_true]
    exact ih (fun c hc => h c (by simp [hc])) _

theorem toDigits_spec {b : Nat} (hb : 1 < b) (hb' : b ≤ 16) (n : Nat) :
    AllDigits b (Nat.toDigits b n) ∧ digits b 0 (Nat.toDigits b n) = n := by
  induction n using Nat.strongRecOn with
  | ind n ih =>
    rw [Nat.toDigits_eq_if hb]
    split
    · rename_i hlt
      refine ⟨?_, ?_⟩
      · intro c hc
        rw [List.mem_singleton.1 hc]
        exact ⟨n, digitVal_digitChar (by omega), hlt⟩
      · simp [digits, digitVal_digitChar (show n < 16 by omega), hlt]
    · rename_i hge
      have hm : n % b < b := Nat.mod_lt _ (by omega)
      obtain ⟨h1, h2⟩ := ih (n / b) (Nat.div_lt_self (by omega) hb)
      refine ⟨?_, ?_⟩
      · intro c hc
        rcases List.mem_append.1 hc with hc | hc
        · exact h1 c hc
        · rw [List.mem_singleton.1 hc]
          exact ⟨n % b, digitVal_digitChar (by omega), hm⟩
      · rw [digits_append _ _ h1, h2]
        simp only [digits, digitVal_digitChar (show n % b < 16 by omega), hm, if_true]
        rw [Nat.mul_comm]
        exact Nat.div_add_mod n b

theorem toDigits_head (n : Nat) : ∃ c r, Nat.toDigits 10 n = c :: r ∧ '0' ≤ c ∧ c ≤ '9' ∧
    (c = '0' → n = 0) := by
  induction n using Nat.strongRecOn with
  | ind n ih =>
    rw [Nat.toDigits_eq_if (by omega)]
    split
    · rename_i hlt
      have : ∀ d : Fin 10, '0' ≤ Nat.digitChar d.1 ∧ Nat.digitChar d.1 ≤ '9' ∧
          (Nat.digitChar d.1 = '0' → d.1 = 0) := by decide
      exact ⟨_, _, rfl, this ⟨n, hlt⟩⟩
    · rename_i hge
      obtain ⟨c, r, h1, h2, h3, h4⟩ := ih (n / 10) (Nat.div_lt_self (by omega) (by omega))
      refine ⟨c, r ++ [Nat.digitChar (n % 10)], by rw [h1]; rfl, h2, h3, ?_⟩
      intro hc
      have := h4 hc
      omega

theorem magnitude_toDigits (n : Nat) : magnitude (Nat.toDigits 10 n) = n := by
  obtain ⟨c, r, h1, _, _, h4⟩ := toDigits_head n
  have hs := (toDigits_spec (b := 10) (by omega) (by omega) n).2
  by_cases hc : c = '0'
  · have := h4 hc
    subst this
    decide
  · rw [h1] at hs ⊢
    unfold magnitude
    split
    · rename_i heq; simp at heq; exact absurd heq.1 hc
    · rename_i heq; simp at heq; exact absurd heq.1 hc
    · rename_i heq; simp at heq; exact absurd heq.1 hc
    · exact hs

theorem clamp_id {bound : Nat} {n : Int} (h1 : -(bound : Int) - 1 ≤ n) (h2 : n ≤ bound) :
    clamp bound n = n := by
  simp only [clamp]
  split
  · omega
  · split
    · omega
    · rfl

/-- Text without a sign and without white space in front. -/
theorem intCast_plain (bound : Nat) (c : Char) (r : S) (hc : '0' ≤ c ∧ c ≤ '9') :
    intCast bound (c :: r) = .ok (clamp bound (magnitude (c :: r))) := by
  have h48 : '0'.toNat = 48 := rfl
  have h57 : '9'.toNat = 57 := rfl
  have hlo : 48 ≤ c.toNat := by have := hc.1; rw [char_le_iff] at this; omega
  have hws : isWs c = false := by
    simp only [isWs, Bool.or_eq_false_iff, beq_eq_false_iff_ne]
    refine ⟨⟨⟨⟨⟨?_, ?_⟩, ?_⟩, ?_⟩, ?_⟩, ?_⟩ <;> (rintro rfl; revert hlo; decide)
  have hd : (c :: r).dropWhile isWs = c :: r := by rw [List.dropWhile_cons, hws]; simp
  simp only [intCast, hd]
  split
  · rename_i heq; cases heq
  · rename_i heq
    simp only [List.cons.injEq] at heq
    rw [heq.1] at hlo; exact absurd hlo (by decide)
  · rename_i heq
    simp only [List.cons.injEq] at heq
    rw [heq.1] at hlo; exact absurd hlo (by decide)
  · rfl

/-- C67: the decimal text of every value of the type is read as this value. -/
theorem c67_decimal (bound : Nat) (n : Int) (h1 : -(bound : Int) - 1 ≤ n) (h2 : n ≤ bound) :
    intCast bound (intText n) = .ok n := by
  simp only [intText]
  split
  · rename_i hn
    have hd : ('-' :: Nat.toDigits 10 n.natAbs).dropWhile isWs = '-' :: Nat.toDigits 10 n.natAbs := by
      rw [List.dropWhile_cons]
      have : isWs '-' = false := by decide
      simp [this]
    simp only [intCast, hd, magnitude_toDigits]
    rw [clamp_id] <;> first | omega | (congr 1; omega)
  · rename_i hn
    obtain ⟨c, r, hcr, hc1, hc2, _⟩ := toDigits_head n.natAbs
    have hm := magnitude_toDigits n.natAbs
    rw [hcr] at hm ⊢
    rw [intCast_plain bound c r ⟨hc1, hc2⟩, hm, clamp_id] <;> first | omega | (congr 1; omega)

/-- C67: hexadecimal text after `0x`, for every value of the type that is not negative. -/
theorem c67_hexadecimal (bound n : Nat) (h : n ≤ bound) :
    intCast bound ('0' :: 'x' :: Nat.toDigits 16 n) = .ok n := by
  have hm : magnitude ('0' :: 'x' :: Nat.toDigits 16 n) = n :=
    (toDigits_spec (b := 16) (by omega) (by omega) n).2
  rw [intCast_plain bound '0' _ (by decide), hm, clamp_id] <;> omega

/-- C67: text that starts with `0` is read as octal. -/
theorem c67_octal (bound n : Nat) (h : n ≤ bound) :
    intCast bound ('0' :: Nat.toDigits 8 n) = .ok n := by
  have hm : magnitude ('0' :: Nat.toDigits 8 n) = n := by
    have hs := toDigits_spec (b := 8) (by omega) (by omega) n
    have hh : ∀ c, (Nat.toDigits 8 n).head? = some c → c ≠ 'x' ∧ c ≠ 'X' := by
      intro c hc
      obtain ⟨d, hd, hlt⟩ := hs.1 c (List.mem_of_mem_head? hc)
      constructor <;> rintro rfl <;> exact absurd hd (by simp [digitVal])
    unfold magnitude
    split
    · rename_i heq
      simp only [List.cons.injEq, true_and] at heq
      exact absurd rfl (hh 'x' (by rw [heq]; rfl)).1
    · rename_i heq
      simp only [List.cons.injEq, true_and] at heq
      exact absurd rfl (hh 'X' (by rw [heq]; rfl)).2
    · rename_i heq
      simp only [List.cons.injEq, true_and] at heq
      rw [← heq]; exact hs.2
    · rename_i h3
      exact absurd rfl (h3 (Nat.toDigits 8 n))
  rw [intCast_plain bound '0' _ (by decide), hm, clamp_id] <;> omega

/-- C67: an integer that was set is read back, for every key and every value of the type. -/
theorem c67_set_get (fs : Files) (k : Nat) (rx : S → S → Bool) (ops : List Op) (m : Mgr)
    (hm : runOps fs k rx newMgr ops = some m) (key : S) (hk : key ≠ configfileKey) (bound : Nat)
    (n old : Int) (h1 : -(bound : Int) - 1 ≤ n) (h2 : n ≤ bound) (j : Nat) :
    ∃ r m', setValue fs j key (intText n) m = some (.ok (r, m')) ∧
      getInt bound m'.items key old = .ok (true, n) := by
  obtain ⟨r, m', hs, _, hl, _⟩ := c41_set_notifies_partial fs k rx ops m hm key (intText n) hk j
  refine ⟨r, m', hs, ?_⟩
  have : lookup m'.items key = some (intText n) := by rw [hl]; simp
  simp only [getInt, this, c67_decimal bound n h1 h2, Outcome.map]

/-- C67: a missing key is reported and leaves the variable alone. -/
theorem c67_missing (bound : Nat) (items : List (S × S)) (key : S) (old : Int)
    (h : lookup items key = none) : getInt bound items key old = .ok (false, old) := by
  simp [getInt, h]

theorem dropWhile_nil (s : S) : s.dropWhile isWs = [] ↔ ∀ c ∈ s, isWs c = true := by
  induction s with
  | nil => simp
  | cons a s ih =>
    rw [List.dropWhile_cons]
    cases h : isWs a <;> simp [h, ih]

/-- C67 fails for values that are no numbers: an existing key is never reported as unreadable;
if anything is there to read, the call succeeds. -/
theorem c67_never_fails (bound : Nat) (items : List (S × S)) (key s : S) (old : Int)
    (h : lookup items key = some s) (hs : ∃ c ∈ s, isWs c = false) :
    ∃ n, getInt bound items key old = .ok (true, n) ∧ -(bound : Int) - 1 ≤ n ∧ n ≤ bound := by
  have hne : s.dropWhile isWs ≠ [] := by
    intro he
    obtain ⟨c, hc, hw⟩ := hs
    rw [(dropWhile_nil s).1 he c hc] at hw; cases hw
  have hcl : ∀ n, -(bound : Int) - 1 ≤ clamp bound n ∧ clamp bound n ≤ bound := by
    intro n
    simp only [clamp]
    split
    · omega
    · split <;> omega
  have : ∃ n, intCast bound s = .ok (clamp bound n) := by
    simp only [intCast]
    split
    · contradiction
    · exact ⟨_, rfl⟩
    · exact ⟨_, rfl⟩
    · exact ⟨_, rfl⟩
  obtain ⟨n, hn⟩ := this
  exact ⟨_, by simp [getInt, h, hn, Outcome.map], hcl n⟩

/-- C67: concretely, `fast` is 0, `12km` is 12, `010` is 8, `0x` is 0, and a number too large
is the largest one. -/
theorem c67_odd_numbers :
    intCast 32767 "fast".toList = .ok 0 ∧ intCast 32767 "12km".toList = .ok 12 ∧
    intCast 32767 " 010".toList = .ok 8 ∧ intCast 32767 "0x".toList = .ok 0 ∧
    intCast 32767 "70000".toList = .ok 32767 ∧ intCast 32767 "-70000".toList = .ok (-32768) := by
  decide +kernel

/-- C67 fails for an empty value (or white space only): an uninitialised variable is
returned. -/
theorem c67_blank_is_undefined (bound : Nat) (items : List (S × S)) (key s : S) (old : Int)
    (h : lookup items key = some s) (hs : ∀ c ∈ s, isWs c = true) :
    getInt bound items key old = .ub := by
  have : s.dropWhile isWs = [] := (dropWhile_nil s).2 hs
  simp [getInt, h, intCast, this, Outcome.map]

example : intText (-32768) = "-32768".toList ∧ intCast 32767 "-32768".toList = .ok (-32768) := by
  decide +kernel

/-! ### C68: batches -/

theorem batch_fold {α : Type} (rs : List (Bool × α)) : ∀ s : Bool × Bool,
    rs.foldl (fun (s : Bool × Bool) r => (true, s.2 || !r.1)) s
      = (s.1 || !rs.isEmpty, s.2 || rs.any fun r => !r.1) := by
  induction rs with
  | nil => intro s; simp
  | cons r rs ih => intro s; rw [List.foldl_cons, ih]; simp [Bool.or_assoc]

/-- What reading a single entry of a batch should give. -/
def expected {V : Type} (items : List (S × S)) (pfx : S) (i : Item V) : Option V :=
  match lookup items (pfx ++ i.key) with
  | some s => match i.conv s with
    | some v => some v
    | none => i.dflt
  | none => i.dflt

theorem get_expected {V : Type} (items : List (S × S)) (pfx : S) (i : Item V) (old : V) :
    i.get items pfx old = match expected items pfx i with
      | some v => (true, v)
      | none => (false, old) := by
  simp only [Item.get, expected]
  cases lookup items (pfx ++ i.key) with
  | none => cases i.dflt <;> simp
  | some s => cases hc : i.conv s <;> cases i.dflt <;> simp [hc]

/-- C68: every variable of a batch gets the value of its key below the prefix (with a slash
between), or its default; variables without a value keep their content, and all the others
are read even so.  The result is `true` if and only if the batch is not empty and every
variable got a value. -/
theorem c68_batch {V : Type} (items : List (S × S)) (pfx : S) (vals : List (Item V × V)) :
    (batchGet items pfx vals).2
      = vals.map (fun x => (expected items (slashed pfx) x.1).getD x.2) ∧
    ((batchGet items pfx vals).1 = true ↔
      vals ≠ [] ∧ ∀ x ∈ vals, (expected items (slashed pfx) x.1).isSome = true) := by
  have hg : ∀ x : Item V × V, x.1.get items (slashed pfx) x.2
      = ((expected items (slashed pfx) x.1).isSome, (expected items (slashed pfx) x.1).getD x.2) := by
    intro x
    rw [get_expected]
    cases expected items (slashed pfx) x.1 <;> rfl
  constructor
  · simp [batchGet, hg]
  · simp only [batchGet, batch_fold, Bool.false_or]
    by_cases h : ∀ x ∈ vals, (expected items (slashed pfx) x.1).isSome = true
    · have : ((vals.map fun x => x.1.get items (slashed pfx) x.2).any fun r => !r.1) = false := by
        rw [List.any_eq_false]
        intro r hr
        obtain ⟨x, hx, rfl⟩ := List.mem_map.1 hr
        simp [hg, h x hx]
      rw [this]
      simp only [Bool.false_eq_true, if_false, Bool.not_eq_true', List.isEmpty_eq_false_iff, ne_eq,
        List.map_eq_nil_iff]
      exact ⟨fun hv => ⟨hv, h⟩, fun hv => hv.1⟩
    · have : ((vals.map fun x => x.1.get items (slashed pfx) x.2).any fun r => !r.1) = true := by
        rw [List.any_eq_true]
        have h' : ∃ x ∈ vals, ¬ (expected items (slashed pfx) x.1).isSome = true := by
          simpa using h
        obtain ⟨x, hx, hne⟩ := h'
        exact ⟨_, List.mem_map.2 ⟨x, hx, rfl⟩, by simp [hg]; simpa using hne⟩
      rw [this]
      simp only [if_true, Bool.false_eq_true, false_iff]
      exact fun hh => h hh.2

/-- C68, prefixes: without a prefix the keys are used as they are; a prefix may be written with or without its trailing
slash, the keys are those below it. -/
theorem c68_prefix {V : Type} (items : List (S × S)) (p : S) (vals : List (Item V × V)) :
    (batchGet items [] vals).2 = vals.map (fun x => (expected items [] x.1).getD x.2) ∧
    (batchGet items (p ++ ['/']) vals).2 = vals.map (fun x => (expected items (p ++ ['/']) x.1).getD x.2) ∧
    (p ≠ [] → p.getLast? ≠ some '/' → batchGet items p vals = batchGet items (p ++ ['/']) vals) := by
  have e1 : slashed (p ++ ['/']) = p ++ ['/'] := by simp [slashed]
  refine ⟨?_, ?_, ?_⟩
  · rw [(c68_batch items [] vals).1]; rfl
  · rw [(c68_batch items (p ++ ['/']) vals).1, e1]
  · intro h1 h2
    unfold batchGet
    rw [e1, show slashed p = p ++ ['/'] by rw [slashed, if_pos ⟨h1, h2⟩]]

/-- C68: the array version has no prefix and is `true` for an empty batch, too. -/
theorem c68_array {V : Type} (items : List (S × S)) (vals : List (Item V × V)) :
    (arrayGet items vals).2 = vals.map (fun x => (expected items [] x.1).getD x.2) ∧
    ((arrayGet items vals).1 = true ↔ ∀ x ∈ vals, (expected items [] x.1).isSome = true) := by
  have hg : ∀ x : Item V × V, x.1.get items [] x.2
      = ((expected items [] x.1).isSome, (expected items [] x.1).getD x.2) := by
    intro x
    rw [get_expected]
    cases expected items [] x.1 <;> rfl
  have hf : ∀ (rs : List (Bool × V)) (s : Bool),
      rs.foldl (fun s r => if r.1 then s else false) s = (s && rs.all fun r => r.1) := by
    intro rs
    induction rs with
    | nil => intro s; simp
    | cons r rs ih =>
      intro s
      rw [List.foldl_cons, ih]
      cases hr : r.1 <;> simp [hr]
  constructor
  · simp [arrayGet, hg]
  · simp only [arrayGet, hf, Bool.true_and, List.all_eq_true]
    constructor
    · intro h x hx
      have := h _ (List.mem_map.2 ⟨x, hx, rfl⟩)
      rw [hg] at this; exact this
    · intro h r hr
      obtain ⟨x, hx, rfl⟩ := List.mem_map.1 hr
      rw [hg]; exact h x hx

/-- C68 fails for the empty list: reading nothing fails. -/
theorem c68_empty_list_fails {V : Type} (items : List (S × S)) (pfx : S) :
    (batchGet items pfx ([] : List (Item V × V))).1 = false := rfl

example : batchGet [("/a/x".toList, "1".toList)] "/a".toList
    [(⟨"x".toList, fun s => some s, none⟩, "old".toList),
     (⟨"y".toList, fun s => some s, some "d".toList⟩, "old".toList),
     (⟨"z".toList, fun s => some s, none⟩, "old".toList)]
    = (false, ["1".toList, "d".toList, "old".toList]) := by decide +kernel

end Verif.Cfg
