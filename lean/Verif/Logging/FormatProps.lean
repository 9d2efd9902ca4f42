import Verif.Logging.Format

/-!
# C49: log format strings are parsed faithfully
-/
namespace Verif.Logging.Format

/-! ## Specification: the syntax of format strings (LogOutputStream.h:99-128) -/

/-- The letters of the documentation. -/
def letter : Kind → Char
  | .className => 'C' | .objectName => 'O' | .function => 'D' | .message => 'E' | .filename => 'F' | .line => 'G'
  | .level => 'L' | .stream => 'S' | .timestamp => 'T' | .timestampMs => 'M' | .text => '?'

/-- Is `c` one of the letters of the documentation? -/
def isLetter (c : Char) : Prop := ∃ k, k ≠ Kind.text ∧ letter k = c

/-- A piece of a format string: literal text, or `~`, width digits, prefix and letter. -/
inductive Item where
  | lit (t : List Char)
  | field (digits pre : List Char) (k : Kind)

/-- How a piece is written. -/
def Item.write : Item → List Char
  | .lit t => t
  | .field ds p k => '~' :: ds ++ p ++ [letter k]

/-- Value of a digit string. -/
def value (ds : List Char) : Nat := ds.foldl (fun n c => 10 * n + (c.toNat - 48)) 0

/-- Well-formed pieces. -/
def Item.wf : Item → Prop
  | .lit t => t ≠ [] ∧ '~' ∉ t
  | .field ds p k => (∀ c ∈ ds, c.isDigit = true) ∧ (∀ c ∈ p, ¬isLetter c) ∧ (∀ c, p.head? = some c → c.isDigit = false) ∧ k ≠ .text

/-- Well-formed formats: no two adjacent literals (they would be one). -/
def wfItems : List Item → Prop
  | [] => True
  | [i] => i.wf
  | i :: j :: is => i.wf ∧ (¬∃ t u, i = .lit t ∧ j = .lit u) ∧ wfItems (j :: is)

/-- The written format. -/
def write (is : List Item) : List Char := (is.map Item.write).flatten

/-- Text lengths. -/
def Item.len : Item → Nat
  | .lit t => t.length
  | .field _ p _ => p.length

/-- The closing parenthesis for an opening one. -/
def close : List Char → List Char
  | '(' :: _ => [')'] | '[' :: _ => [']'] | '{' :: _ => ['}'] | _ => []

/-- What a piece shows of a message. -/
def Item.show (m : Message) : Item → List Char
  | .lit t => t
  | .field ds p k =>
    match k with
    | .className => if m.className = [] then [] else p ++ m.className
    | .objectName => if m.objectName = [] then [] else p ++ m.objectName ++ close p
    | .function => if m.function = [] then [] else p ++ m.function
    | .message => m.text
    | .filename => m.filename
    | .line => Nat.toDigits 10 m.line
    | .level => m.level
    | .stream => m.stream
    | .timestamp => m.time
    | .timestampMs =>
      let d := Nat.toDigits 10 m.msec
      List.replicate (value ds % 2 ^ 64 - d.length) '0' ++ d
    | .text => []

/-! ## Lemmas -/

theorem kindOf_letter (k : Kind) (h : k ≠ .text) : kindOf (letter k) = some k := by
  cases k <;> first | rfl | exact absurd rfl h

theorem kindOf_some (c : Char) (k : Kind) (h : kindOf c = some k) : k ≠ .text ∧ letter k = c := by
  unfold kindOf at h
  repeat' split at h
  all_goals (try (cases h; done))
  all_goals (cases h; subst_vars; exact ⟨by decide, rfl⟩)

theorem kindOf_isSome (c : Char) : (kindOf c).isSome = true ↔ isLetter c := by
  constructor
  · intro h
    obtain ⟨k, hk⟩ := Option.isSome_iff_exists.1 h
    exact ⟨k, kindOf_some c k hk⟩
  · rintro ⟨k, h1, rfl⟩
    rw [kindOf_letter k h1]; rfl

theorem letter_not_digit (k : Kind) : (letter k).isDigit = false := by cases k <;> decide

theorem readWidth_eq (ds rest : List Char) (w : Nat) (hd : ∀ c ∈ ds, c.isDigit = true)
    (hr : ∀ c, rest.head? = some c → c.isDigit = false) :
    readWidth (w % 2 ^ 64) (ds ++ rest) = ((ds.foldl (fun n c => 10 * n + (c.toNat - 48)) w) % 2 ^ 64, rest) := by
  induction ds generalizing w with
  | nil =>
    rcases rest with _ | ⟨c, cs⟩
    · rfl
    · simp [readWidth, hr c rfl]
  | cons d ds ih =>
    simp only [List.cons_append, readWidth, hd d (by simp), if_true, List.foldl_cons]
    rw [← ih (10 * w + (d.toNat - 48)) (fun c hc => hd c (by simp [hc]))]
    congr 1
    show (10 * (w % 2 ^ 64) + (d.toNat - 48)) % 2 ^ 64 = _
    omega

theorem readWidth_split (l : List Char) (w : Nat) : ∃ ds, (∀ c ∈ ds, c.isDigit = true) ∧ l = ds ++ (readWidth w l).2 ∧
    (∀ c, (readWidth w l).2.head? = some c → c.isDigit = false) := by
  induction l generalizing w with
  | nil => exact ⟨[], by simp, rfl, by simp [readWidth]⟩
  | cons c cs ih =>
    simp only [readWidth]
    split
    · next h =>
      obtain ⟨ds, h1, h2, h3⟩ := ih ((10 * w + digit c) % 2 ^ 64)
      exact ⟨c :: ds, by simpa using ⟨h, h1⟩, by rw [List.cons_append, ← h2], h3⟩
    · next h => exact ⟨[], by simp, rfl, by simpa using h⟩

theorem readPrefix_eq (p rest : List Char) (hp : ∀ c ∈ p, ¬isLetter c) (hr : ∀ c, rest.head? = some c → isLetter c) :
    readPrefix (p ++ rest) = (p, rest) := by
  induction p with
  | nil =>
    rcases rest with _ | ⟨c, cs⟩
    · rfl
    · simp [readPrefix, (kindOf_isSome c).2 (hr c rfl)]
  | cons c cs ih =>
    have : ¬(kindOf c).isSome = true := fun h => hp c (by simp) ((kindOf_isSome c).1 h)
    simp only [List.cons_append, readPrefix, if_neg this, ih (fun d hd => hp d (by simp [hd]))]

theorem readPrefix_split (l : List Char) : l = (readPrefix l).1 ++ (readPrefix l).2 ∧
    (∀ c ∈ (readPrefix l).1, ¬isLetter c) ∧ (∀ c, (readPrefix l).2.head? = some c → isLetter c) := by
  induction l with
  | nil => simp [readPrefix]
  | cons c cs ih =>
    simp only [readPrefix]
    split
    · next h => exact ⟨rfl, by simp, by simpa using (kindOf_isSome c).1 h⟩
    · next h =>
      refine ⟨by simpa using ih.1, ?_, ih.2.2⟩
      intro d hd
      rcases List.mem_cons.1 hd with rfl | hd
      · exact fun hl => h ((kindOf_isSome d).2 hl)
      · exact ih.2.1 d hd

theorem readText_eq (t rest : List Char) (ht : '~' ∉ t) (hr : ∀ c, rest.head? = some c → c = '~') :
    readText (t ++ rest) = (t, rest) := by
  induction t with
  | nil =>
    rcases rest with _ | ⟨c, cs⟩
    · rfl
    · simp [readText, hr c rfl]
  | cons c cs ih =>
    have h1 : c ≠ '~' := fun h => ht (by simp [h])
    have h2 : '~' ∉ cs := fun h => ht (by simp [h])
    simp only [List.cons_append, readText, if_neg h1, ih h2]

theorem readText_split (l : List Char) : l = (readText l).1 ++ (readText l).2 ∧ '~' ∉ (readText l).1 ∧
    (∀ c, (readText l).2.head? = some c → c = '~') := by
  induction l with
  | nil => simp [readText]
  | cons c cs ih =>
    simp only [readText]
    split
    · next h => exact ⟨rfl, by simp, by simpa using h⟩
    · next h =>
      refine ⟨by simpa using ih.1, ?_, ih.2.2⟩
      intro hd
      rcases List.mem_cons.1 hd with hd | hd
      · exact h hd.symm
      · exact ih.2.1 hd

/-- The entry of a piece. -/
def Item.entry : Item → Entry
  | .lit t => ⟨.text, 0, t, []⟩
  | .field ds p k => ⟨k, value ds % 2 ^ 64, p, suffixOf k p⟩

theorem write_cons (i : Item) (is : List Item) : write (i :: is) = i.write ++ write is := rfl

theorem wf_tail {i : Item} {is : List Item} (h : wfItems (i :: is)) : wfItems is := by
  cases is with
  | nil => trivial
  | cons j is => exact h.2.2

theorem wf_head {i : Item} {is : List Item} (h : wfItems (i :: is)) : i.wf := by
  cases is with
  | nil => exact h
  | cons j is => exact h.1

theorem write_ne_nil {i : Item} (h : i.wf) : i.write ≠ [] := by
  cases i with
  | lit t => exact h.1
  | field ds p k => simp [Item.write]

/-- What follows a literal starts with `~`. -/
theorem head_after_lit {t : List Char} {is : List Item} (h : wfItems (.lit t :: is)) (tail : List Char)
    (ht : is = [] → ∀ c, tail.head? = some c → c = '~') (c : Char) (hc : (write is ++ tail).head? = some c) :
    c = '~' := by
  cases is with
  | nil => exact ht rfl c (by simpa [write] using hc)
  | cons j is =>
    cases j with
    | lit u => exact absurd ⟨t, u, rfl, rfl⟩ h.2.1
    | field ds p k => simpa [write_cons, Item.write] using hc.symm

/-- One piece at the beginning of the format. -/
theorem parse_item (n : Nat) (acc : List Entry) (i : Item) (rest : List Char) (hi : i.wf)
    (hl : ∀ t, i = .lit t → ∀ c, rest.head? = some c → c = '~') :
    parse (n + 1) acc (i.write ++ rest) =
      if i.len > 100 then .overflow
      else if rest = [] then .ok (acc ++ [i.entry]) else parse n (acc ++ [i.entry]) rest := by
  cases i with
  | lit t =>
    obtain ⟨h1, h2⟩ := hi
    have hrt := readText_eq t rest h2 (hl t rfl)
    rcases t with _ | ⟨c, cs⟩
    · exact absurd rfl h1
    · have hc : c ≠ '~' := fun h => h2 (by simp [h])
      simp only [Item.write, Item.len, Item.entry]
      rw [parse]
      · rw [hrt]; simp
      · intro r hr
        simp only [List.cons_append, List.cons.injEq] at hr
        exact hc hr.1
  | field ds p k =>
    obtain ⟨h1, h2, h3, h4⟩ := hi
    have hw : readWidth 0 (ds ++ (p ++ letter k :: rest)) = (value ds % 2 ^ 64, p ++ letter k :: rest) := by
      refine readWidth_eq ds _ 0 h1 fun c hc => ?_
      rcases p with _ | ⟨d, ps⟩
      · simp only [List.nil_append, List.head?_cons, Option.some.injEq] at hc
        rw [← hc]; exact letter_not_digit k
      · exact h3 c (by simpa using hc)
    have hp : readPrefix (p ++ letter k :: rest) = (p, letter k :: rest) :=
      readPrefix_eq p _ h2 (fun c hc => ⟨k, h4, by simpa using hc⟩)
    have e : (Item.field ds p k).write ++ rest = '~' :: (ds ++ (p ++ letter k :: rest)) := by simp [Item.write]
    rw [e]
    simp only [parse, hw, hp, kindOf_letter k h4, Option.getD_some, Item.len, Item.entry]
    rfl

/-- A field without a letter at the end of the format. -/
def Dangling (l : List Char) : Prop :=
  ∃ ds p, l = '~' :: ds ++ p ∧ (∀ c ∈ ds, c.isDigit = true) ∧ (∀ c ∈ p, ¬isLetter c) ∧
    (∀ c, p.head? = some c → c.isDigit = false) ∧ p.length ≤ 100

theorem parse_dangling (n : Nat) (acc : List Entry) (l : List Char) (h : Dangling l) : parse (n + 1) acc l = .overread := by
  obtain ⟨ds, p, rfl, h1, h2, h3, h4⟩ := h
  have hw : readWidth 0 (ds ++ p) = (value ds % 2 ^ 64, p) := readWidth_eq ds p 0 h1 h3
  have hp := readPrefix_eq p [] h2 (by simp)
  rw [List.append_nil] at hp
  rw [List.cons_append]
  simp only [parse, hw, hp]
  rw [if_neg (by omega)]

theorem parse_items (is : List Item) (n : Nat) (acc : List Entry) (tail : List Char) (h : wfItems is)
    (hlen : ∀ i ∈ is, i.len ≤ 100) (hn : is.length ≤ n) (ht : ∀ c, tail.head? = some c → c = '~')
    (hne : is ≠ [] ∨ tail ≠ []) :
    parse (n + 1) acc (write is ++ tail) =
      if tail = [] then .ok (acc ++ is.map Item.entry) else parse (n + 1 - is.length) (acc ++ is.map Item.entry) tail := by
  induction is generalizing n acc with
  | nil =>
    rcases hne with hne | hne
    · exact absurd rfl hne
    · simp [hne, write]
  | cons i is ih =>
    rw [write_cons, List.append_assoc, parse_item n acc i _ (wf_head h), if_neg (by have := hlen i (by simp); omega)]
    · by_cases hnil : is = []
      · subst hnil
        simp [write]
      · have hnn : write is ++ tail ≠ [] := by
          rcases is with _ | ⟨j, js⟩
          · exact absurd rfl hnil
          · rw [write_cons]; simp [write_ne_nil (wf_head (wf_tail h))]
        rw [if_neg hnn]
        obtain ⟨m, rfl⟩ : ∃ m, n = m + 1 := ⟨n - 1, by simp at hn; omega⟩
        rw [ih m _ (wf_tail h) (fun j hj => hlen j (by simp [hj])) (by simp at hn; omega) (Or.inl hnil)]
        simp only [List.map_cons, List.append_assoc, List.singleton_append, List.length_cons]
        rw [show m + 1 + 1 - (is.length + 1) = m + 1 - is.length by omega]
    · rintro t rfl c hc
      exact head_after_lit h tail (fun _ => ht) c hc

theorem renderMs_eq (w msec : Nat) (h : msec < 1000) :
    renderMs w msec = List.replicate (w - (Nat.toDigits 10 msec).length) '0' ++ Nat.toDigits 10 msec := by
  have : (if msec ≥ 100 then 3 else if msec ≥ 10 then 2 else 1) = (Nat.toDigits 10 msec).length := by
    have key : ∀ m : Fin 1000, (if m.val ≥ 100 then 3 else if m.val ≥ 10 then 2 else 1) = (Nat.toDigits 10 m.val).length := by
      decide +kernel
    exact key ⟨msec, h⟩
  simp only [renderMs, this, dec]

theorem suffixOf_close (p : List Char) : suffixOf .objectName p = close p := by
  unfold suffixOf close
  rw [if_pos rfl]
  rfl

theorem renderEntry_eq (m : Message) (i : Item) (hm : m.msec < 1000) (hi : i.wf) (hl : i.len < 100) :
    renderEntry m i.entry = some (i.show m) := by
  cases i with
  | lit t => simp only [Item.len] at hl; simp [renderEntry, Item.entry, Item.show, hl]
  | field ds p k =>
    simp only [Item.len] at hl
    cases k
    case text => exact absurd rfl hi.2.2.2
    case timestampMs => simp only [renderEntry, Item.entry, Item.show, renderMs_eq _ _ hm]
    all_goals simp only [renderEntry, Item.entry, Item.show, hl, if_true, suffixOf_close, dec]
    all_goals (try split)
    all_goals rfl

/-- Each part of the parse, for any format string. -/
theorem parse_total (n : Nat) : ∀ fmt : List Char, fmt.length ≤ n → fmt ≠ [] →
    (∃ is, wfItems is ∧ fmt = write is) ∨
    (∃ is, wfItems is ∧ ∃ ds p, fmt = write is ++ ('~' :: ds ++ p) ∧ (∀ c ∈ ds, c.isDigit = true) ∧
      (∀ c ∈ p, ¬isLetter c) ∧ (∀ c, p.head? = some c → c.isDigit = false)) := by
  induction n with
  | zero => intro fmt h hne; exact absurd (List.eq_nil_of_length_eq_zero (by omega)) hne
  | succ n ih =>
    intro fmt hlen hne
    have combine : ∀ (i : Item) (rest : List Char), i.wf → fmt = i.write ++ rest → 
        (∀ t, i = .lit t → ∀ c, rest.head? = some c → c = '~') → 
        (∃ is, wfItems is ∧ fmt = write is) ∨
        (∃ is, wfItems is ∧ ∃ ds p, fmt = write is ++ ('~' :: ds ++ p) ∧ (∀ c ∈ ds, c.isDigit = true) ∧
          (∀ c ∈ p, ¬isLetter c) ∧ (∀ c, p.head? = some c → c.isDigit = false)) := by
      intro i rest hi he hl
      by_cases hr : rest = []
      · left; exact ⟨[i], hi, by simp [he, hr, write]⟩
      · have hlt : rest.length ≤ n := by
          have : 0 < i.write.length := List.length_pos_iff.2 (write_ne_nil hi)
          rw [he, List.length_append] at hlen; omega
        have hwf : ∀ is tail, wfItems is → rest = write is ++ tail → wfItems (i :: is) := by
          intro is tail h1 h2
          cases is with
          | nil => exact hi
          | cons j js =>
            refine ⟨hi, ?_, h1⟩
            rintro ⟨t, u, rfl, rfl⟩
            have hu := wf_head h1
            rcases u with _ | ⟨c, cs⟩
            · exact hu.1 rfl
            · have := hl t rfl c (by rw [h2]; simp [write_cons, Item.write])
              exact hu.2 (by simp [this])
        rcases ih rest hlt hr with ⟨is, h1, h2⟩ | ⟨is, h1, ds, p, h2, h3⟩
        · left; exact ⟨i :: is, hwf is [] h1 (by simpa using h2), by rw [he, h2, write_cons]⟩
        · right; exact ⟨i :: is, hwf is _ h1 h2, ds, p, by rw [he, h2, write_cons, List.append_assoc], h3⟩
    by_cases ht : fmt.head? = some '~'
    · obtain ⟨r, rfl⟩ : ∃ r, fmt = '~' :: r := by
        rcases fmt with _ | ⟨c, r⟩
        · cases ht
        · exact ⟨r, by simpa using ht⟩
      obtain ⟨ds, h1, h2, h3⟩ := readWidth_split r 0
      obtain ⟨h4, h5, h6⟩ := readPrefix_split (readWidth 0 r).2
      have h7 : ∀ c, (readPrefix (readWidth 0 r).2).1.head? = some c → c.isDigit = false := by
        intro c hc
        refine h3 c ?_
        rw [h4]
        rcases hq : (readPrefix (readWidth 0 r).2).1 with _ | ⟨d, q⟩
        · rw [hq] at hc; cases hc
        · rw [hq] at hc; simpa using hc
      rcases hrest : (readPrefix (readWidth 0 r).2).2 with _ | ⟨c, rest⟩
      · right
        refine ⟨[], trivial, ds, (readPrefix (readWidth 0 r).2).1, ?_, h1, h5, h7⟩
        rw [hrest, List.append_nil] at h4
        show '~' :: r = [] ++ _
        rw [List.nil_append, List.cons_append, ← h4, ← h2]
      · obtain ⟨k, hk1, hk2⟩ := h6 c (by rw [hrest]; rfl)
        refine combine (.field ds (readPrefix (readWidth 0 r).2).1 k) rest ⟨h1, h5, h7, hk1⟩ ?_ (by intro t h; cases h)
        rw [hrest] at h4
        simp only [Item.write, hk2]
        have hr2 : r = ds ++ ((readPrefix (readWidth 0 r).2).1 ++ c :: rest) := by rw [← h4, ← h2]
        simp only [List.cons_append, List.append_assoc, List.nil_append]
        exact congrArg ('~' :: ·) hr2
    · obtain ⟨h1, h2, h3⟩ := readText_split fmt
      have hne1 : (readText fmt).1 ≠ [] := by
        rcases fmt with _ | ⟨c, r⟩
        · exact absurd rfl hne
        · have : c ≠ '~' := fun h => ht (by simp [h])
          simp [readText, this]
      exact combine (.lit (readText fmt).1) (readText fmt).2 ⟨hne1, h2⟩ h1 (fun _ _ => h3)

/-! ## C49 -/

theorem write_length {is : List Item} (h : wfItems is) : is.length ≤ (write is).length := by
  induction is with
  | nil => simp
  | cons i is ih =>
    have : 0 < i.write.length := List.length_pos_iff.2 (write_ne_nil (wf_head h))
    rw [write_cons, List.length_append, List.length_cons]
    have := ih (wf_tail h)
    omega

/-- C49, the part that holds: a well-formed format with texts shorter than 100 characters is accepted, and
each message is shown as its literal texts and fields in the order of the format. Missing: other formats,
see `c49_dangling`, `c49_overflow`; and the documented width `[n]`, honoured only by `~M`
(`c49_width_ignored`). -/
theorem c49_render_partial (old : List Entry) (is : List Item) (hne : is ≠ []) (hwf : wfItems is) (hlen : ∀ i ∈ is, i.len < 100) :
    ∃ es, changeLogFormat old (write is) = .ok es ∧
      ∀ m : Message, m.msec < 1000 → render m es = some ((is.map (Item.show m)).flatten) := by
  refine ⟨is.map Item.entry, ?_, fun m hm => ?_⟩
  · have hw : write is ≠ [] := by
      rcases is with _ | ⟨i, is⟩
      · exact absurd rfl hne
      · rw [write_cons]; simp [write_ne_nil (wf_head hwf)]
    have := parse_items is (write is).length [] [] hwf (fun i hi => Nat.le_of_lt (hlen i hi)) (write_length hwf)
      (by simp) (Or.inl hne)
    rw [List.append_nil] at this
    rw [changeLogFormat, if_neg hw, this]; simp
  · clear hne
    induction is with
    | nil => rfl
    | cons i is ih =>
      simp only [List.map_cons, render, renderEntry_eq m i hm (wf_head hwf) (hlen i (by simp)), Option.bind_some,
        ih (wf_tail hwf) (fun j hj => hlen j (by simp [hj])), Option.map_some, List.flatten_cons]

/-- C49: every format string is either well-formed or well-formed up to a last `~` without a letter. -/
theorem c49_grammar (fmt : List Char) (h : fmt ≠ []) :
    (∃ is, wfItems is ∧ fmt = write is) ∨
    (∃ is, wfItems is ∧ ∃ ds p, fmt = write is ++ ('~' :: ds ++ p) ∧ (∀ c ∈ ds, c.isDigit = true) ∧
      (∀ c ∈ p, ¬isLetter c) ∧ (∀ c, p.head? = some c → c.isDigit = false)) :=
  parse_total fmt.length fmt (Nat.le_refl _) h

/-- Finding: a format whose last `~` has no letter makes the parser read past the end of the string. -/
theorem c49_dangling (old : List Entry) (is : List Item) (hwf : wfItems is) (hlen : ∀ i ∈ is, i.len ≤ 100) (ds p : List Char)
    (h1 : ∀ c ∈ ds, c.isDigit = true) (h2 : ∀ c ∈ p, ¬isLetter c) (h3 : ∀ c, p.head? = some c → c.isDigit = false)
    (h4 : p.length ≤ 100) : changeLogFormat old (write is ++ ('~' :: ds ++ p)) = .overread := by
  have hne : write is ++ ('~' :: ds ++ p) ≠ [] := by simp
  have hl := write_length hwf
  rw [changeLogFormat, if_neg hne, parse_items is _ [] _ hwf hlen (by simp only [List.length_append]; omega)
    (by simp) (Or.inr (by simp)), if_neg (by simp)]
  obtain ⟨m, hm⟩ : ∃ m, (write is ++ ('~' :: ds ++ p)).length + 1 - is.length = m + 1 :=
    ⟨(write is ++ ('~' :: ds ++ p)).length - is.length, by simp only [List.length_append]; omega⟩
  rw [hm]
  exact parse_dangling m _ _ ⟨ds, p, rfl, h1, h2, h3, h4⟩

/-- Finding: a literal text or prefix of more than 100 characters overflows the entry's buffer. -/
theorem c49_overflow (old : List Entry) (is js : List Item) (i : Item) (hwf : wfItems (is ++ i :: js))
    (hlen : ∀ j ∈ is, j.len ≤ 100) (hi : i.len > 100) : changeLogFormat old (write (is ++ i :: js)) = .overflow := by
  have hl := write_length hwf
  have hne : write (is ++ i :: js) ≠ [] := by
    intro h
    rw [h] at hl
    simp at hl
  rw [changeLogFormat, if_neg hne]
  have gen : ∀ (is : List Item) (n : Nat) (acc : List Entry), wfItems (is ++ i :: js) → (∀ j ∈ is, j.len ≤ 100) →
      is.length ≤ n → parse (n + 1) acc (write (is ++ i :: js)) = .overflow := by
    intro is
    induction is with
    | nil =>
      intro n acc h1 _ _
      rw [List.nil_append, write_cons, parse_item n acc i (write js) (wf_head h1), if_pos hi]
      rintro t rfl c hc
      exact head_after_lit h1 [] (by simp) c (by simpa using hc)
    | cons j is ih =>
      intro n acc h1 h2 h3
      rw [List.cons_append, write_cons, parse_item n acc j _ (wf_head h1), if_neg (by have := h2 j (by simp); omega)]
      · have hnn : write (is ++ i :: js) ≠ [] := by
          intro h
          have := write_length (is := is ++ i :: js) (wf_tail h1)
          rw [h] at this
          simp at this
        rw [if_neg hnn]
        obtain ⟨m, rfl⟩ : ∃ m, n = m + 1 := ⟨n - 1, by simp at h3; omega⟩
        exact ih m _ (wf_tail h1) (fun k hk => h2 k (by simp [hk])) (by simp at h3; omega)
      · rintro t rfl c hc
        exact head_after_lit (t := t) h1 [] (by simp) c (by simpa using hc)
  refine gen is _ [] hwf hlen ?_
  simp only [List.length_append] at hl; omega

/-- C49: parsing always ends (the call budget, one more than the length, is never used up). -/
theorem c49_terminates (old : List Entry) (fmt : List Char) : changeLogFormat old fmt ≠ .fuel := by
  unfold changeLogFormat
  split
  · simp
  · have gen : ∀ (n : Nat) (acc : List Entry) (fmt : List Char), fmt.length ≤ n → parse (n + 1) acc fmt ≠ .fuel := by
      intro n
      induction n with
      | zero =>
        intro acc fmt h
        rw [List.eq_nil_of_length_eq_zero (Nat.le_zero.1 h)]
        simp [parse, readText]
      | succ n ih =>
        intro acc fmt h
        rw [parse.eq_def]
        simp only
        split
        · next rest =>
          obtain ⟨ds, _, h2, _⟩ := readWidth_split rest 0
          obtain ⟨h4, _, _⟩ := readPrefix_split (readWidth 0 rest).2
          have l1 := congrArg List.length h2
          have l2 := congrArg List.length h4
          rw [List.length_append] at l1 l2
          split
          · simp
          · split
            · simp
            · next c rest' hr =>
              rw [hr] at l2
              split
              · simp
              · refine ih _ _ ?_
                simp only [List.length_cons] at *; omega
        · next hnt =>
          obtain ⟨h1, _, _⟩ := readText_split fmt
          have l1 := congrArg List.length h1
          rw [List.length_append] at l1
          split
          · simp
          · split
            · simp
            · next hne =>
              refine ih _ _ ?_
              rcases fmt with _ | ⟨c, cs⟩
              · simp [readText] at hne
              · have hc : c ≠ '~' := fun hh => hnt cs (by rw [hh])
                have : 0 < (readText (c :: cs)).1.length := by simp [readText, hc]
                omega
    exact gen _ _ _ (Nat.le_refl _)

/-- C49: an empty format string leaves the format unchanged. -/
theorem c49_empty (old : List Entry) : changeLogFormat old [] = .ok old := rfl

/-- The default format `<~T.~3M> ~S(~L)~ C~(O~::D: ~E`, LogOutputStream.cpp:43. -/
def defaultItems : List Item :=
  [.lit ['<'], .field [] [] .timestamp, .lit ['.'], .field ['3'] [] .timestampMs, .lit ['>', ' '], .field [] [] .stream,
   .lit ['('], .field [] [] .level, .lit [')'], .field [] [' '] .className, .field [] ['('] .objectName,
   .field [] [':', ':'] .function, .lit [':', ' '], .field [] [] .message]

example : String.ofList (write defaultItems) = "<~T.~3M> ~S(~L)~ C~(O~::D: ~E" := by decide +kernel

theorem not_letter_of (c : Char) (h : (kindOf c).isSome = false) : ¬isLetter c := by
  intro hl
  rw [(kindOf_isSome c).2 hl] at h; cases h

/-- The default format is well-formed. -/
theorem default_wf : wfItems defaultItems ∧ ∀ i ∈ defaultItems, i.len < 100 := by
  refine ⟨?_, by simp [defaultItems, Item.len]⟩
  simp [defaultItems, wfItems, Item.wf, not_letter_of, kindOf, Char.isDigit]

/-- A message shown with the default format. -/
def exampleMsg : Message :=
  { time := ['T'], msec := 7, level := ['I'], stream := ['S'], filename := ['f'], line := 42, className := ['K'],
    objectName := ['o'], function := ['r', 'u', 'n'], text := ['h', 'i'] }

example : ((changeLogFormat [] (write defaultItems)) matches .ok _) = true := by decide

example : (match changeLogFormat [] (write defaultItems) with
    | .ok es => (render exampleMsg es).map String.ofList
    | _ => none) = some "<T.007> S(I) K(o)::run: hi" := by decide +kernel

/-- Finding: the documented minimum width has no effect on fields other than `~M`: here `~10S`. -/
theorem c49_width_ignored : (match changeLogFormat [] ['~', '1', '0', 'S'] with
    | .ok es => render exampleMsg es
    | _ => none) = some ['S'] := by decide

/-- A dangling `~`. -/
example : changeLogFormat [] ['1', '0', '0', '%', '~'] = .overread := by decide

end Verif.Logging.Format
