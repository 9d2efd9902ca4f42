import Verif.Util.CaseModel

/-!
# C149: changing the case of strings
-/
namespace Verif.Case

/-! ## Specification -/

/-- The letters, as bytes. -/
def capitals : List Byte := ascii "ABCDEFGHIJKLMNOPQRSTUVWXYZ"
/-- The small letters in the same order. -/
def smalls : List Byte := ascii "abcdefghijklmnopqrstuvwxyz"

/-- `b` is `a` with letters of `from` replaced by those of `to`. -/
def Changed (fr to : List Byte) (a b : Byte) : Prop :=
  (∃ i : Fin 26, fr[i.1]? = some a ∧ to[i.1]? = some b) ∨ (a ∉ fr ∧ b = a)

/-- All characters are changed in this way. -/
def AllChanged (fr to s r : List Byte) : Prop :=
  r.length = s.length ∧ ∀ (i : Nat) a b, s[i]? = some a → r[i]? = some b → Changed fr to a b

/-- The text has only ASCII characters, or bytes that are all ones. -/
def Plain (s : List Byte) : Prop := ∀ c ∈ s, c.toNat < 128 ∨ c.toNat = 255

/-! ## Single characters: all 256 of them -/

instance (fr to : List Byte) (a b : Byte) : Decidable (Changed fr to a b) := by unfold Changed; infer_instance

/-- The test of one character. -/
def byteOk (f : Int → Outcome Int) (fr to : List Byte) (sgn : Bool) (c : Byte) : Bool :=
  match f (arg sgn c) with
  | .ub => sgn && decide (128 ≤ c.toNat) && decide (c.toNat ≠ 255)
  | .ok x => (!sgn || decide (c.toNat < 128) || decide (c.toNat = 255)) && decide (Changed fr to c (BitVec.ofInt 8 x))
  | .throws _ => false

theorem of_byteOk {f : Int → Outcome Int} {fr to : List Byte} {sgn : Bool} {c : Byte} (h : byteOk f fr to sgn c = true) :
    (sgn = true ∧ 128 ≤ c.toNat ∧ c.toNat ≠ 255 ∧ f (arg sgn c) = .ub) ∨
    ((sgn = false ∨ c.toNat < 128 ∨ c.toNat = 255) ∧ ∃ x, f (arg sgn c) = .ok x ∧ Changed fr to c (BitVec.ofInt 8 x)) := by
  unfold byteOk at h
  cases ho : f (arg sgn c) with
  | ok x =>
    simp only [ho, Bool.and_eq_true, Bool.or_eq_true, Bool.not_eq_true', decide_eq_true_eq] at h
    exact .inr ⟨or_assoc.1 h.1, x, rfl, h.2⟩
  | throws e => simp [ho] at h
  | ub =>
    simp only [ho, Bool.and_eq_true, decide_eq_true_eq] at h
    exact .inl ⟨h.1.1, h.1.2, h.2, rfl⟩

theorem lower_byte (sgn : Bool) (c : Byte) : (sgn = true ∧ 128 ≤ c.toNat ∧ c.toNat ≠ 255 ∧ tolower (arg sgn c) = .ub) ∨
    ((sgn = false ∨ c.toNat < 128 ∨ c.toNat = 255) ∧
      ∃ x, tolower (arg sgn c) = .ok x ∧ Changed capitals smalls c (BitVec.ofInt 8 x)) := by
  have h : ∀ (sgn : Bool) (i : Fin 256), byteOk tolower capitals smalls sgn (BitVec.ofFin i) = true := by decide +kernel
  exact of_byteOk (h sgn c.toFin)

theorem upper_byte (sgn : Bool) (c : Byte) : (sgn = true ∧ 128 ≤ c.toNat ∧ c.toNat ≠ 255 ∧ toupper (arg sgn c) = .ub) ∨
    ((sgn = false ∨ c.toNat < 128 ∨ c.toNat = 255) ∧
      ∃ x, toupper (arg sgn c) = .ok x ∧ Changed smalls capitals c (BitVec.ofInt 8 x)) := by
  have h : ∀ (sgn : Bool) (i : Fin 256), byteOk toupper smalls capitals sgn (BitVec.ofFin i) = true := by decide +kernel
  exact of_byteOk (h sgn c.toFin)

/-! ## Texts -/

theorem transform_spec {f : Int → Outcome Int} {fr to : List Byte} {sgn : Bool}
    (hf : ∀ c : Byte, (sgn = true ∧ 128 ≤ c.toNat ∧ c.toNat ≠ 255 ∧ f (arg sgn c) = .ub) ∨
      ((sgn = false ∨ c.toNat < 128 ∨ c.toNat = 255) ∧ ∃ x, f (arg sgn c) = .ok x ∧ Changed fr to c (BitVec.ofInt 8 x))) :
    ∀ s : List Byte, ((sgn = false ∨ Plain s) ∧ ∃ r, transform f sgn s = .ok r ∧ AllChanged fr to s r) ∨
      (¬ (sgn = false ∨ Plain s) ∧ transform f sgn s = .ub)
  | [] => .inl ⟨.inr (by simp [Plain]), [], rfl, rfl, by simp⟩
  | c :: s => by
    rcases hf c with ⟨rfl, h1, h2, h3⟩ | ⟨h1, x, h3, h4⟩
    · refine .inr ⟨?_, by simp [transform, h3, Outcome.bind]⟩
      rintro (h | h)
      · cases h
      · rcases h c List.mem_cons_self with h | h <;> omega
    · rcases transform_spec hf s with ⟨g1, r, g2, g3, g4⟩ | ⟨g1, g2⟩
      · refine .inl ⟨?_, BitVec.ofInt 8 x :: r, by simp [transform, h3, g2, Outcome.bind, Outcome.map], by simp [g3], ?_⟩
        · rcases h1 with h1 | h1
          · exact .inl h1
          · rcases g1 with g1 | g1
            · exact .inl g1
            · refine .inr fun d hd => ?_
              rcases List.mem_cons.1 hd with rfl | hd
              · exact h1
              · exact g1 d hd
        · intro i a b ha hb
          cases i with
          | zero => simp only [List.getElem?_cons_zero, Option.some.injEq] at ha hb; subst ha hb; exact h4
          | succ i => exact g4 i a b (by simpa using ha) (by simpa using hb)
      · refine .inr ⟨?_, by simp [transform, h3, g2, Outcome.bind, Outcome.map]⟩
        rintro (h | h)
        · exact g1 (.inl h)
        · exact g1 (.inr fun d hd => h d (List.mem_cons_of_mem _ hd))

/-- `toLower` is defined exactly if `char` is unsigned or the text is plain; then it replaces the capitals by the small letters and
nothing else. What is missing: the other texts, for which it is undefined (`c149_undefined`). -/
theorem c149_lower_partial (sgn : Bool) (s : List Byte) :
    (sgn = false ∨ Plain s → ∃ r, toLower sgn s = .ok r ∧ AllChanged capitals smalls s r) ∧
    (¬ (sgn = false ∨ Plain s) → toLower sgn s = .ub) := by
  rcases transform_spec (lower_byte sgn) s with ⟨h1, h2⟩ | ⟨h1, h2⟩
  · exact ⟨fun _ => h2, fun h => absurd h1 h⟩
  · exact ⟨fun h => absurd h h1, fun _ => h2⟩

/-- The same for `toUpper`. -/
theorem c149_upper_partial (sgn : Bool) (s : List Byte) :
    (sgn = false ∨ Plain s → ∃ r, toUpper sgn s = .ok r ∧ AllChanged smalls capitals s r) ∧
    (¬ (sgn = false ∨ Plain s) → toUpper sgn s = .ub) := by
  rcases transform_spec (upper_byte sgn) s with ⟨h1, h2⟩ | ⟨h1, h2⟩
  · exact ⟨fun _ => h2, fun h => absurd h1 h⟩
  · exact ⟨fun h => absurd h h1, fun _ => h2⟩

/-- The property does not hold: with a signed `char`, every text with a byte between 128 and 254 (like each character of UTF-8
that is not an ASCII character) makes both functions undefined. -/
theorem c149_undefined (s : List Byte) (h : ∃ c ∈ s, 128 ≤ c.toNat ∧ c.toNat ≤ 254) :
    toLower true s = .ub ∧ toUpper true s = .ub := by
  have hn : ¬ (true = false ∨ Plain s) := by
    rintro (h' | h')
    · cases h'
    · obtain ⟨c, hc, h1, h2⟩ := h
      rcases h' c hc with h3 | h3 <;> omega
  exact ⟨(c149_lower_partial true s).2 hn, (c149_upper_partial true s).2 hn⟩

/-- So reading a configuration value as a `bool` is undefined exactly if `char` is signed and the value has such a byte; else it answers. -/
theorem c149_config_bool (sgn : Bool) (v : List Byte) :
    (getBool sgn v = .ub ↔ sgn = true ∧ ∃ c ∈ v, 128 ≤ c.toNat ∧ c.toNat ≤ 254) ∧
    ∀ e, getBool sgn v ≠ .throws e := by
  obtain ⟨h1, h2⟩ := c149_lower_partial sgn v
  by_cases hp : sgn = false ∨ Plain v
  · obtain ⟨r, hr, -⟩ := h1 hp
    refine ⟨⟨fun h => by simp [getBool, hr, Outcome.map] at h, ?_⟩, fun e => by simp [getBool, hr, Outcome.map]⟩
    rintro ⟨rfl, h⟩
    simp [getBool, (c149_undefined v h).1, Outcome.map]
  · refine ⟨⟨fun _ => ?_, fun _ => by simp [getBool, h2 hp, Outcome.map]⟩, fun e => by simp [getBool, h2 hp, Outcome.map]⟩
    refine ⟨by cases sgn <;> simp_all, Classical.byContradiction fun hno => hp (.inr fun c hc => ?_)⟩
    refine Classical.byContradiction fun hc' => hno ⟨c, hc, ?_⟩
    have := c.isLt
    omega

/-- What `toLower` returns it leaves alone. -/
theorem c149_again (sgn : Bool) (s r : List Byte) (h : toLower sgn s = .ok r) : toLower sgn r = .ok r := by
  have hb : ∀ (sgn : Bool) (i : Fin 256), (tolower (arg sgn (BitVec.ofFin i))).bind
        (fun x => tolower (arg sgn (BitVec.ofInt 8 x))) =
      (tolower (arg sgn (BitVec.ofFin i))).bind (fun x => .ok (arg sgn (BitVec.ofInt 8 x))) := by decide +kernel
  have ha : ∀ (sgn : Bool) (i : Fin 256), BitVec.ofInt 8 (arg sgn (BitVec.ofFin i)) = (BitVec.ofFin i : Byte) := by
    decide +kernel
  induction s generalizing r with
  | nil => simp only [toLower, transform, Outcome.ok.injEq] at h; subst h; rfl
  | cons c s ih =>
    have h1 := hb sgn c.toFin
    simp only [toLower, transform] at h ih ⊢
    cases hx : tolower (arg sgn c) with
    | throws e => simp [hx, Outcome.bind] at h
    | ub => simp [hx, Outcome.bind] at h
    | ok x =>
      rw [show BitVec.ofFin c.toFin = c from rfl, hx] at h1
      simp only [Outcome.bind] at h1
      rw [hx] at h
      simp only [Outcome.bind] at h
      cases ht : transform tolower sgn s with
      | throws e => simp [ht, Outcome.map] at h
      | ub => simp [ht, Outcome.map] at h
      | ok t =>
        simp only [ht, Outcome.map, Outcome.ok.injEq] at h
        subst h
        have h2 := ha sgn (BitVec.ofInt 8 x : Byte).toFin
        simp only [transform, h1, Outcome.bind, ih t ht, Outcome.map]
        exact congrArg Outcome.ok (congrArg (· :: t) h2)

/-! ## Examples -/

example : toLower true (ascii "Hello, World 1") = .ok (ascii "hello, world 1") ∧
    toUpper true (ascii "Hello, World 1") = .ok (ascii "HELLO, WORLD 1") := by decide +kernel

/-- "ja, öfter" in UTF-8. -/
example : ∃ c ∈ ([0x6a, 0x61, 0x2c, 0x20, 0xc3, 0xb6, 0x66, 0x74, 0x65, 0x72] : List Byte), 128 ≤ c.toNat ∧ c.toNat ≤ 254 := by
  decide +kernel

example : getBool true (ascii "TRUE") = .ok (some true) ∧ getBool true (ascii "No") = .ok (some false) ∧
    getBool true [0xc3, 0xa4] = .ub ∧ getBool false [0xc3, 0xa4] = .ok none := by decide +kernel

example : Plain (ascii "Yes") ∧ Changed capitals smalls 0x51 0x71 := by
  refine ⟨by unfold Plain; decide +kernel, by decide +kernel⟩

end Verif.Case
