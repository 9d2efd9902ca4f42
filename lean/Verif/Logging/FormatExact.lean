import Verif.Logging.FormatProps

/-! # C49, exactly: what every format string does -/
namespace Verif.Logging.Format

/-- A last `~` without a letter: digits, then other characters. -/
structure Open (tail ds p : List Char) : Prop where
  eq : tail = '~' :: ds ++ p
  digits : ∀ c ∈ ds, c.isDigit = true
  noLetter : ∀ c ∈ p, ¬isLetter c
  noDigit : ∀ c, p.head? = some c → c.isDigit = false

theorem parse_open (n : Nat) (acc : List Entry) {l ds p : List Char} (h : Open l ds p) :
    parse (n + 1) acc l = if p.length > 100 then .overflow else .overread := by
  obtain ⟨rfl, h1, h2, h3⟩ := h
  have hw : readWidth 0 (ds ++ p) = (value ds % 2 ^ 64, p) := readWidth_eq ds p 0 h1 h3
  have hp := readPrefix_eq p [] h2 (by simp)
  rw [List.append_nil] at hp
  rw [List.cons_append]
  simp only [parse, hw, hp]

theorem parse_long (is : List Item) (tail : List Char) (ht : ∀ c, tail.head? = some c → c = '~') :
    ∀ (n : Nat) (acc : List Entry), wfItems is → (∃ i ∈ is, i.len > 100) → is.length ≤ n →
      parse (n + 1) acc (write is ++ tail) = .overflow := by
  induction is with
  | nil => rintro n acc _ ⟨i, hi, _⟩; simp at hi
  | cons j is ih =>
    intro n acc h1 h2 h3
    rw [write_cons, List.append_assoc, parse_item n acc j _ (wf_head h1)
      (by rintro t rfl c hc; exact head_after_lit h1 tail (fun _ => ht) c hc)]
    by_cases hj : j.len > 100
    · rw [if_pos hj]
    · rw [if_neg hj]
      obtain ⟨i, hi, hl⟩ := h2
      rcases List.mem_cons.1 hi with rfl | hi
      · exact absurd hl hj
      · have hnn : write is ++ tail ≠ [] := by
          rcases is with _ | ⟨k, ks⟩
          · simp at hi
          · rw [write_cons]; simp [write_ne_nil (wf_head (wf_tail h1))]
        rw [if_neg hnn]
        obtain ⟨m, rfl⟩ : ∃ m, n = m + 1 := ⟨n - 1, by simp at h3; have := List.length_pos_of_mem hi; omega⟩
        exact ih m _ (wf_tail h1) ⟨i, hi, hl⟩ (by simp at h3; omega)

/-- C49, exact, for every format string that is not empty: it consists of well-formed pieces, possibly followed by a
last `~` without a letter. A text of more than 100 characters anywhere makes the parser write past its buffer;
otherwise a missing last letter makes it read past the end of the string; otherwise the new format is accepted and has
one entry for each piece. -/
theorem c49_exact (old : List Entry) (fmt : List Char) (hne : fmt ≠ []) :
    (∃ is, wfItems is ∧ fmt = write is ∧ changeLogFormat old fmt =
      if is.all (fun i => i.len ≤ 100) then .ok (is.map Item.entry) else .overflow) ∨
    (∃ is tail ds p, wfItems is ∧ Open tail ds p ∧ fmt = write is ++ tail ∧ changeLogFormat old fmt =
      if is.all (fun i => i.len ≤ 100) && p.length ≤ 100 then .overread else .overflow) := by
  have hall : ∀ is : List Item, (is.all (fun i => i.len ≤ 100)) = false → ∃ i ∈ is, i.len > 100 := by
    intro is h
    rw [List.all_eq_false] at h
    obtain ⟨i, h1, h2⟩ := h
    exact ⟨i, h1, by simpa using h2⟩
  rcases c49_grammar fmt hne with ⟨is, hwf, rfl⟩ | ⟨is, hwf, ds, p, rfl, h1, h2, h3⟩
  · refine Or.inl ⟨is, hwf, rfl, ?_⟩
    have hl := write_length hwf
    have hin : is ≠ [] := by rintro rfl; exact hne rfl
    rw [changeLogFormat, if_neg hne]
    cases hb : is.all (fun i => i.len ≤ 100) with
    | true =>
      have := parse_items is (write is).length [] [] hwf (by simpa using hb) hl (by simp) (Or.inl hin)
      rw [List.append_nil] at this
      rw [this]; simp
    | false =>
      have := parse_long is [] (by simp) (write is).length [] hwf (hall is hb) hl
      rw [List.append_nil] at this
      rw [this]; simp
  · refine Or.inr ⟨is, _, ds, p, hwf, ⟨rfl, h1, h2, h3⟩, rfl, ?_⟩
    have hl := write_length hwf
    rw [changeLogFormat, if_neg hne]
    cases hb : is.all (fun i => i.len ≤ 100) with
    | true =>
      rw [parse_items is _ [] _ hwf (by simpa using hb) (by simp only [List.length_append]; omega) (by simp) (Or.inr (by simp)),
        if_neg (by simp)]
      obtain ⟨m, hm⟩ : ∃ m, (write is ++ ('~' :: ds ++ p)).length + 1 - is.length = m + 1 :=
        ⟨(write is ++ ('~' :: ds ++ p)).length - is.length, by simp only [List.length_append]; omega⟩
      rw [hm, parse_open m _ ⟨rfl, h1, h2, h3⟩]
      by_cases hp : p.length ≤ 100
      · rw [if_neg (by omega)]; simp [hp]
      · rw [if_pos (by omega)]; simp [hp]
    | false =>
      rw [parse_long is _ (by simp) _ [] hwf (hall is hb) (by simp only [List.length_append]; omega)]
      simp

/-- The pieces whose own text is shown for message `m`. -/
def Item.shows (m : Message) : Item → Prop
  | .lit _ => True
  | .field _ _ .className => m.className ≠ []
  | .field _ _ .objectName => m.objectName ≠ []
  | .field _ _ .function => m.function ≠ []
  | .field _ _ _ => False

/-- C49, exact, for an accepted format: a message is shown as the texts and fields of the pieces in order, unless a
piece has a text of exactly 100 characters that has to be shown: then an unterminated text is read. -/
theorem c49_render_exact (is : List Item) (hwf : wfItems is) (hlen : ∀ i ∈ is, i.len ≤ 100) (m : Message) (hm : m.msec < 1000) :
    ((∀ i ∈ is, i.shows m → i.len < 100) → render m (is.map Item.entry) = some ((is.map (Item.show m)).flatten)) ∧
    ((∃ i ∈ is, i.shows m ∧ i.len = 100) → render m (is.map Item.entry) = none) := by
  have one : ∀ i : Item, i.wf → i.len ≤ 100 → (i.shows m → i.len < 100) → renderEntry m i.entry = some (i.show m) := by
    intro i h1 h2 h3
    by_cases h : i.len < 100
    · exact renderEntry_eq m i hm h1 h
    · cases i with
      | lit t => exact absurd (h3 trivial) h
      | field ds p k =>
        cases k <;> simp only [Item.shows, renderEntry, Item.entry, Item.show] at h3 ⊢
        case text => exact absurd rfl h1.2.2.2
        case timestampMs => rw [renderMs_eq _ _ hm]
        case className => by_cases hc : m.className = []; simp [hc]; exact absurd (h3 hc) h
        case objectName => by_cases hc : m.objectName = []; simp [hc]; exact absurd (h3 hc) h
        case function => by_cases hc : m.function = []; simp [hc]; exact absurd (h3 hc) h
        all_goals rfl
  have bad : ∀ i : Item, i.shows m → i.len = 100 → renderEntry m i.entry = none := by
    intro i h1 h2
    cases i with
    | lit t => simp only [Item.len] at h2; simp [renderEntry, Item.entry, h2]
    | field ds p k =>
      simp only [Item.len] at h2
      cases k <;> simp only [Item.shows] at h1 <;> first | exact h1.elim | simp [renderEntry, Item.entry, h1, h2]
  constructor
  · intro h
    induction is with
    | nil => rfl
    | cons i is ih =>
      simp only [List.map_cons, render, one i (wf_head hwf) (hlen i (by simp)) (h i (by simp)), Option.bind_some,
        ih (wf_tail hwf) (fun j hj => hlen j (by simp [hj])) (fun j hj => h j (by simp [hj])), Option.map_some,
        List.flatten_cons]
  · rintro ⟨i, hi, h1, h2⟩
    induction is with
    | nil => simp at hi
    | cons j is ih =>
      simp only [List.map_cons, render]
      rcases List.mem_cons.1 hi with rfl | hi
      · rw [bad i h1 h2]; rfl
      · rw [ih (wf_tail hwf) (fun j hj => hlen j (by simp [hj])) hi]
        cases renderEntry m j.entry <;> rfl

/-- Both cases of `c49_exact` occur, and so does a text of exactly 100 characters. -/
example : changeLogFormat [] (List.replicate 100 'x' ++ ['~', 'E']) =
      .ok [⟨.text, 0, List.replicate 100 'x', []⟩, ⟨.message, 0, [], []⟩] ∧
    changeLogFormat [] (List.replicate 101 'x') = .overflow ∧ changeLogFormat [] ('~' :: List.replicate 101 'x') = .overflow ∧
    changeLogFormat [] ['~', '3', 'x'] = .overread := by decide +kernel

end Verif.Logging.Format
