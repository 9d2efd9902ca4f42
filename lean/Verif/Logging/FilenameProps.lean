import Verif.Logging.Filename

/-! # C96: the log file has the configured name -/
namespace Verif.Logging.Filename

theorem words_nonblank (s : S) (h : ∀ c ∈ s, isBlank c = false) (hs : s ≠ []) : words s = [s] := by
  induction s with
  | nil => exact absurd rfl hs
  | cons c r ih =>
    have hc := h c List.mem_cons_self
    cases r with
    | nil => simp [words, hc, addChar]
    | cons d t =>
      have hd := h d (by simp)
      have := ih (fun x hx => h x (List.mem_cons_of_mem _ hx)) (by simp)
      rw [words, this]
      simp [hc, hd, addChar]

theorem words_cons_blank {c : Char} (h : isBlank c = true) (s : S) : words (c :: s) = words s := by
  rw [words, if_pos h]

/-- Splitting at a blank. -/
theorem words_blank (a : S) (b : Char) (r : S) (ha : ∀ c ∈ a, isBlank c = false) (hn : a ≠ []) (hb : isBlank b = true) :
    words (a ++ b :: r) = a :: words r := by
  induction a with
  | nil => exact absurd rfl hn
  | cons c a ih =>
    have hc := ha c List.mem_cons_self
    cases a with
    | nil =>
      simp only [List.cons_append, List.nil_append]
      rw [words, words_cons_blank hb]
      simp only [hc, Bool.false_eq_true, if_false]
      cases hw : words r with
      | nil => simp [addChar]
      | cons w ws => simp [addChar, hb]
    | cons d t =>
      have hd := ha d (by simp)
      have := ih (fun x hx => ha x (List.mem_cons_of_mem _ hx)) (by simp)
      simp only [List.cons_append] at this ⊢
      rw [words, this]
      simp [hc, hd, addChar]

/-- C96 (partial). A configured file name without quotes, expansions, patterns and blanks is used as it
is (also if it contains parentheses or the like), for every implementation of `wordexp`.
Missing: names with blanks, see `c96_cut_at_blank`. -/
theorem c96_kept_partial (we : S → Option (List S)) (hw : Documented we) (s : S)
    (h1 : ∀ c ∈ s, isSpecial c = false) (h2 : ∀ c ∈ s, isBlank c = false) : expandFilename we s = s := by
  cases hs : s with
  | nil =>
    rw [expandFilename, hw.plain [] (by simp) (by simp)]
    simp [words]
  | cons c r =>
    rw [← hs]
    by_cases hb : ∃ c ∈ s, isBad c = true
    · rw [expandFilename, hw.bad s h1 hb]
    · have hb' : ∀ c ∈ s, isBad c = false := by
        intro c hc
        cases h : isBad c with
        | false => rfl
        | true => exact absurd ⟨c, hc, h⟩ hb
      rw [expandFilename, hw.plain s h1 hb', words_nonblank s h2 (by rw [hs]; simp)]
      simp

/-- C96: a name that `wordexp` refuses is used as it is, blanks or not. -/
theorem c96_bad_kept (we : S → Option (List S)) (hw : Documented we) (s : S)
    (h1 : ∀ c ∈ s, isSpecial c = false) (h2 : ∃ c ∈ s, isBad c = true) : expandFilename we s = s := by
  rw [expandFilename, hw.bad s h1 h2]

/-- C96 violated: everything from the first blank on is cut off, whatever follows; so the log lines of all
outputs whose names agree up to the first blank go to the same file. -/
theorem c96_cut_at_blank (we : S → Option (List S)) (hw : Documented we) (a r : S) (b : Char)
    (h1 : ∀ c ∈ a ++ b :: r, isSpecial c = false ∧ isBad c = false) (ha : ∀ c ∈ a, isBlank c = false) (hn : a ≠ [])
    (hb : isBlank b = true) : expandFilename we (a ++ b :: r) = a ∧ expandFilename we (a ++ b :: r) ≠ a ++ b :: r := by
  have e : expandFilename we (a ++ b :: r) = a := by
    rw [expandFilename, hw.plain _ (fun c hc => (h1 c hc).1) (fun c hc => (h1 c hc).2), words_blank a b r ha hn hb]
    simp
  exact ⟨e, by rw [e]; simp⟩

theorem words_blanks (s : S) (h : ∀ c ∈ s, isBlank c = true) : words s = [] := by
  induction s with
  | nil => rfl
  | cons c s ih =>
    rw [words_cons_blank (h c List.mem_cons_self)]
    exact ih fun x hx => h x (List.mem_cons_of_mem _ hx)

/-- C96: a name of blanks only (for which `wordexp` finds no word) is used as it is. -/
theorem c96_blanks_kept (we : S → Option (List S)) (hw : Documented we) (s : S)
    (h1 : ∀ c ∈ s, isSpecial c = false ∧ isBad c = false) (h : ∀ c ∈ s, isBlank c = true) : expandFilename we s = s := by
  rw [expandFilename, hw.plain s (fun c hc => (h1 c hc).1) (fun c hc => (h1 c hc).2), words_blanks s h]
  simp

/-- C96: the exact condition for plain names without leading blanks. -/
theorem c96_kept_iff (we : S → Option (List S)) (hw : Documented we) (s : S)
    (h1 : ∀ c ∈ s, isSpecial c = false ∧ isBad c = false) (h0 : ∀ c, s.head? = some c → isBlank c = false) :
    expandFilename we s = s ↔ ∀ c ∈ s, isBlank c = false := by
  constructor
  · intro he
    apply Classical.byContradiction
    intro hb
    have key : ∀ s : S, (¬ ∀ c ∈ s, isBlank c = false) →
        ∃ a b r, s = a ++ b :: r ∧ (∀ c ∈ a, isBlank c = false) ∧ isBlank b = true := by
      intro s
      induction s with
      | nil => intro h; exact absurd (by simp) h
      | cons c t ih =>
        intro h
        cases hc : isBlank c with
        | true => exact ⟨[], c, t, rfl, by simp, hc⟩
        | false =>
          obtain ⟨a, b, r, h1, h2, h3⟩ := ih (fun h' => h (by
            intro x hx
            rcases List.mem_cons.1 hx with rfl | hx
            · exact hc
            · exact h' x hx))
          refine ⟨c :: a, b, r, by rw [h1]; rfl, ?_, h3⟩
          intro x hx
          rcases List.mem_cons.1 hx with rfl | hx
          · exact hc
          · exact h2 x hx
    obtain ⟨a, b, r, hs, ha, hb'⟩ := key s hb
    subst hs
    have hn : a ≠ [] := by
      rintro rfl
      have := h0 b rfl
      rw [hb'] at this; cases this
    exact (c96_cut_at_blank we hw a r b h1 ha hn hb').2 he
  · exact c96_kept_partial we hw s (fun c hc => (h1 c hc).1)

theorem words_eq_nil (s : S) (h : words s = []) : ∀ c ∈ s, isBlank c = true := by
  induction s with
  | nil => simp
  | cons c r ih =>
    cases hc : isBlank c with
    | true =>
      rw [words_cons_blank hc] at h
      intro x hx
      rcases List.mem_cons.1 hx with rfl | hx
      · exact hc
      · exact ih h x hx
    | false =>
      rw [words] at h
      simp only [hc, Bool.false_eq_true, if_false] at h
      unfold addChar at h
      split at h
      · split at h <;> cases h
      · cases h

theorem words_no_blank (s : S) : ∀ w ∈ words s, ∀ c ∈ w, isBlank c = false := by
  induction s with
  | nil => simp [words]
  | cons c r ih =>
    cases hc : isBlank c with
    | true => rw [words_cons_blank hc]; exact ih
    | false =>
      rw [words]
      simp only [hc, Bool.false_eq_true, if_false]
      unfold addChar
      split
      · rename_i d w ws' hd hw
        rw [hw] at ih
        split
        · intro x hx
          rcases List.mem_cons.1 hx with rfl | hx
          · intro y hy; simp at hy; subst hy; exact hc
          · exact ih x hx
        · intro x hx
          rcases List.mem_cons.1 hx with rfl | hx
          · intro y hy
            rcases List.mem_cons.1 hy with rfl | hy
            · exact hc
            · exact ih w List.mem_cons_self y hy
          · exact ih x (List.mem_cons_of_mem _ hx)
      · intro x hx
        rcases List.mem_cons.1 hx with rfl | hx
        · intro y hy; simp at hy; subst hy; exact hc
        · exact ih x hx

/-- C96: the exact condition for all plain names: kept iff there are no blanks or only blanks. -/
theorem c96_kept_exact (we : S → Option (List S)) (hw : Documented we) (s : S)
    (h1 : ∀ c ∈ s, isSpecial c = false ∧ isBad c = false) :
    expandFilename we s = s ↔ (∀ c ∈ s, isBlank c = false) ∨ (∀ c ∈ s, isBlank c = true) := by
  constructor
  · intro he
    rw [expandFilename, hw.plain s (fun c hc => (h1 c hc).1) (fun c hc => (h1 c hc).2)] at he
    simp only at he
    cases hws : words s with
    | nil => exact Or.inr (words_eq_nil s hws)
    | cons w ws =>
      rw [hws] at he
      simp at he
      left
      have := words_no_blank s w (by rw [hws]; simp)
      rw [he] at this
      exact this
  · rintro (h | h)
    · exact c96_kept_partial we hw s (fun c hc => (h1 c hc).1) h
    · exact c96_blanks_kept we hw s h1 h

/-- A `wordexp` that behaves as documented on all strings without special characters exists, and with it
two different configured names give the same file. -/
theorem c96_same_file : ∃ we, Documented we ∧
    expandFilename we "/var/log/my app.log".toList = "/var/log/my".toList ∧
    expandFilename we "/var/log/my other.log".toList = "/var/log/my".toList ∧
    expandFilename we "/var/log/(1).log".toList = "/var/log/(1).log".toList := by
  refine ⟨fun s => if s.any isBad then none else some (words s), ⟨?_, ?_⟩, by decide, by decide, by decide⟩
  · intro s _ h
    have : s.any isBad = false := by
      rw [List.any_eq_false]; intro c hc; simp [h c hc]
    simp [this]
  · intro s _ h
    have : s.any isBad = true := by
      rw [List.any_eq_true]; exact h
    simp [this]

end Verif.Logging.Filename
