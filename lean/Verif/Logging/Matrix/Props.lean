import Verif.Logging.Matrix.Model

/-! # C112: what a logged Eigen matrix looks like, and what can be read off it -/
namespace Verif.Logging.Matrix
open Verif.Logging

/-! ## Specification -/

/-- Columns of a matrix, written entries. -/
def columns {α : Type} (sh : α → List Char) (rows cols : Nat) (m : Nat → Nat → α) : List (List (List Char)) :=
  (List.range cols).map fun j => (List.range rows).map fun i => sh (m i j)

/-- Entries are written without blanks, and not as just a semicolon. -/
def Word (t : List Char) : Prop := ' ' ∉ t ∧ t ≠ [';']

instance (t : List Char) : Decidable (Word t) := by unfold Word; infer_instance

/-- The sizes that are logged as `[ ]`. -/
def Blank (rows cols : Nat) : Prop := cols = 0 ∨ (rows = 0 ∧ cols = 1)

/-! ## Lemmas -/

/-- Words of the text: the columns with `;` in between. -/
def joinCols : List (List (List Char)) → List (List Char)
  | [] => []
  | [g] => g
  | g :: h :: t => g ++ [';'] :: joinCols (h :: t)

/-- Each word with a blank before it. -/
def spaced (ts : List (List Char)) : List Char := ts.flatMap fun t => ' ' :: t

theorem spaced_append (a b : List (List Char)) : spaced (a ++ b) = spaced a ++ spaced b := by simp [spaced]

theorem column_text {α : Type} (sh : α → List Char) (rows : Nat) (m : Nat → Nat → α) (col : Nat) :
    (column sh rows m col).flatten = spaced ((List.range rows).map fun i => sh (m i col)) := by
  unfold column spaced
  induction List.range rows with
  | nil => rfl
  | cons a l ih => simp [List.flatMap_cons, ih]

theorem body_text {α : Type} (sh : α → List Char) (rows : Nat) (m : Nat → Nat → α) : ∀ (n k cols : Nat), k + n = cols →
    ((List.range' k n).flatMap fun col =>
      column sh rows m col ++ (if col + 1 < cols then [[' ', ';']] else [])).flatten =
    spaced (joinCols ((List.range' k n).map fun j => (List.range rows).map fun i => sh (m i j))) := by
  intro n
  induction n with
  | zero => intro k cols h; rfl
  | succ n ih =>
    intro k cols h
    have ih' := ih (k + 1) cols (by omega)
    rw [List.range'_succ, List.flatMap_cons, List.flatten_append, List.flatten_append, ih', column_text]
    cases n with
    | zero => simp [joinCols, spaced]; omega
    | succ n =>
      rw [List.range'_succ, List.map_cons, List.map_cons, List.map_cons, joinCols, spaced_append,
        if_pos (by omega)]
      simp [spaced]

theorem text_eq {α : Type} (sh : α → List Char) (rows cols : Nat) (m : Nat → Nat → α) :
    text sh rows cols m = '[' :: spaced (joinCols (columns sh rows cols m) ++ [[']']]) := by
  have := body_text sh rows m cols 0 cols (by omega)
  rw [← List.range_eq_range'] at this
  unfold text writes columns
  rw [List.flatten_append, List.flatten_append, this, spaced_append]
  simp [spaced]

theorem split_at {α : Type} {x : α} : ∀ {a b c d : List α}, x ∉ a → x ∉ c → a ++ x :: b = c ++ x :: d → a = c ∧ b = d
  | [], b, [], d, _, _, h => by simpa using h
  | [], b, y :: c, d, _, hc, h => by simp at h; exact absurd h.1 (by simp at hc; exact hc.1)
  | y :: a, b, [], d, ha, _, h => by simp at h; exact absurd h.1.symm (by simp at ha; exact ha.1)
  | y :: a, b, z :: c, d, ha, hc, h => by
    simp at h ha hc
    obtain ⟨h1, h2⟩ := split_at ha.2 hc.2 h.2
    exact ⟨by rw [h.1, h1], h2⟩

theorem spaced_inj : ∀ {a b : List (List Char)}, (∀ t ∈ a, ' ' ∉ t) → (∀ t ∈ b, ' ' ∉ t) → spaced a = spaced b → a = b
  | [], [], _, _, _ => rfl
  | [], t :: b, _, _, h => by simp [spaced] at h
  | t :: a, [], _, _, h => by simp [spaced] at h
  | t :: a, u :: b, ha, hb, h => by
    have e : ∀ (t : List Char) (a : List (List Char)), spaced (t :: a) = ' ' :: (t ++ spaced a) := by
      intro t a; simp [spaced]
    rw [e, e] at h
    have h := (List.cons.inj h).2
    have key : ∀ a : List (List Char), spaced a = [] ∨ ∃ r, spaced a = ' ' :: r := by
      intro a; cases a with
      | nil => exact Or.inl rfl
      | cons x y => exact Or.inr ⟨_, e x y⟩
    have ht := ha t (by simp)
    have hu := hb u (by simp)
    have htu : t = u ∧ spaced a = spaced b := by
      rcases key a with h1 | ⟨r, h1⟩ <;> rcases key b with h2 | ⟨q, h2⟩
      · rw [h1, h2] at h ⊢; simpa using h
      · rw [h1, h2] at h; simp at h; exact absurd (by rw [h]; simp) ht
      · rw [h1, h2] at h; simp at h; exact absurd (by rw [← h]; simp) hu
      · rw [h1, h2] at h ⊢
        obtain ⟨h3, h4⟩ := split_at ht hu h
        exact ⟨h3, by rw [h4]⟩
    rw [htu.1, spaced_inj (fun x hx => ha x (by simp [hx])) (fun x hx => hb x (by simp [hx])) htu.2]

theorem joinCols_inj : ∀ {G H : List (List (List Char))}, (∀ g ∈ G, [';'] ∉ g) → (∀ h ∈ H, [';'] ∉ h) →
    joinCols G = joinCols H → G = H ∨ ((G = [] ∨ G = [[]]) ∧ (H = [] ∨ H = [[]]))
  | [], [], _, _, _ => Or.inl rfl
  | [], [h], _, _, e => by simp [joinCols] at e; subst e; simp
  | [], g :: h :: t, _, _, e => by simp [joinCols] at e
  | [g], [], _, _, e => by simp [joinCols] at e; subst e; simp
  | [g], [h], _, _, e => by simp [joinCols] at e; subst e; simp
  | [g], h :: i :: t, hG, _, e => by simp [joinCols] at e; exact absurd (by rw [e]; simp) (hG g (by simp))
  | g :: h :: t, [], _, _, e => by simp [joinCols] at e
  | g :: h :: t, [i], _, hH, e => by simp [joinCols] at e; exact absurd (by rw [← e]; simp) (hH i (by simp))
  | g :: h :: t, g' :: h' :: t', hG, hH, e => by
    simp only [joinCols] at e
    obtain ⟨e1, e2⟩ := split_at (hG g (by simp)) (hH g' (by simp)) e
    have := joinCols_inj (fun x hx => hG x (by simp at hx ⊢; exact Or.inr hx)) (fun x hx => hH x (by simp at hx ⊢; exact Or.inr hx)) e2
    rcases this with h1 | ⟨h1, h2⟩
    · exact Or.inl (by rw [e1, h1])
    · simp at h1 h2
      exact Or.inl (by rw [e1, h1.1, h1.2, h2.1, h2.2])

theorem joinCols_mem {G : List (List (List Char))} {t : List Char} (h : t ∈ joinCols G) : t = [';'] ∨ ∃ g ∈ G, t ∈ g := by
  induction G with
  | nil => simp [joinCols] at h
  | cons g G ih =>
    cases G with
    | nil => exact Or.inr ⟨g, by simp, h⟩
    | cons g' G =>
      simp only [joinCols, List.mem_append, List.mem_cons] at h
      rcases h with h | h | h
      · exact Or.inr ⟨g, by simp, h⟩
      · exact Or.inl h
      · rcases ih h with h | ⟨x, h1, h2⟩
        · exact Or.inl h
        · exact Or.inr ⟨x, by simp at h1 ⊢; exact Or.inr h1, h2⟩

theorem columns_mem {α : Type} {sh : α → List Char} {rows cols : Nat} {m : Nat → Nat → α} {g : List (List Char)}
    (h : g ∈ columns sh rows cols m) : ∀ t ∈ g, ∃ a, t = sh a := by
  unfold columns at h
  simp only [List.mem_map] at h
  obtain ⟨j, _, rfl⟩ := h
  intro t ht
  simp only [List.mem_map] at ht
  obtain ⟨i, _, rfl⟩ := ht
  exact ⟨_, rfl⟩

theorem columns_blank {α : Type} {sh : α → List Char} {rows cols : Nat} {m : Nat → Nat → α} :
    (columns sh rows cols m = [] ∨ columns sh rows cols m = [[]]) ↔ Blank rows cols := by
  unfold columns Blank
  match cols with
  | 0 => simp
  | 1 => simp [List.range_succ]
  | n + 2 => simp [List.range_succ_eq_map]

/-! ## Theorems -/

/-- C112: the text, for every matrix with at least one row and one column: an opening bracket, the *columns* in order,
separated by ` ; `, each with its entries from top to bottom separated by single blanks, a closing bracket. -/
theorem c112_layout {α : Type} (sh : α → List Char) (rows cols : Nat) (m : Nat → Nat → α) (hr : 0 < rows) (hc : 0 < cols) :
    text sh rows cols m = "[ ".toList ++
      (" ; ".toList).intercalate ((columns sh rows cols m).map fun c => (" ".toList).intercalate c) ++ " ]".toList := by
  rw [text_eq]
  have hne : ∀ g ∈ columns sh rows cols m, g ≠ [] := by
    intro g hg
    unfold columns at hg
    simp only [List.mem_map] at hg
    obtain ⟨j, _, rfl⟩ := hg
    simp; omega
  have hc0 : columns sh rows cols m ≠ [] := by unfold columns; simp; omega
  generalize columns sh rows cols m = G at *
  have e1 : "[ ".toList = ['[', ' '] := by decide
  have e2 : " ; ".toList = [' ', ';', ' '] := by decide
  have e3 : " ".toList = [' '] := by decide
  have e4 : " ]".toList = [' ', ']'] := by decide
  rw [e1, e2, e3, e4, spaced_append]
  have inner : ∀ g : List (List Char), g ≠ [] → spaced g = ' ' :: List.intercalate [' '] g := by
    intro g hg
    induction g with
    | nil => exact absurd rfl hg
    | cons t g ih =>
      cases g with
      | nil => simp [spaced, List.intercalate]
      | cons u g =>
        have := ih (by simp)
        simp only [spaced, List.flatMap_cons] at this ⊢
        rw [this]
        simp [List.intercalate, List.intersperse]
  have outer : ∀ G : List (List (List Char)), G ≠ [] → (∀ g ∈ G, g ≠ []) →
      spaced (joinCols G) = ' ' :: List.intercalate [' ', ';', ' '] (G.map fun c => List.intercalate [' '] c) := by
    intro G hG hg
    induction G with
    | nil => exact absurd rfl hG
    | cons g G ih =>
      cases G with
      | nil => simp only [joinCols]; rw [inner g (hg g (by simp))]; simp [List.intercalate]
      | cons h G =>
        have := ih (by simp) (fun x hx => hg x (by simp at hx ⊢; exact Or.inr hx))
        simp only [joinCols]
        rw [spaced_append, inner g (hg g (by simp))]
        have e5 : spaced ([';'] :: joinCols (h :: G)) = ' ' :: ';' :: spaced (joinCols (h :: G)) := by simp [spaced]
        rw [e5, this]
        simp [List.intercalate, List.intersperse]
  rw [outer G hc0 hne]
  simp [spaced]

/-- C112: the text determines the matrix, for all matrices and every way of writing the entries as distinct words: two
matrices are logged alike exactly if they have the same size and the same entries, or both have one of the sizes
that are logged as `[ ]` (no column, or one column without rows). -/
theorem c112_determines {α : Type} (sh : α → List Char) (hw : ∀ a, Word (sh a)) (hi : ∀ a b, sh a = sh b → a = b)
    (r c r' c' : Nat) (m m' : Nat → Nat → α) :
    text sh r c m = text sh r' c' m' ↔
      (r = r' ∧ c = c' ∧ ∀ i j, i < r → j < c → m i j = m' i j) ∨ (Blank r c ∧ Blank r' c') := by
  rw [text_eq, text_eq]
  have hsp : ∀ (r c : Nat) (m : Nat → Nat → α), ∀ t ∈ joinCols (columns sh r c m) ++ [[']']], ' ' ∉ t := by
    intro r c m t ht
    rcases List.mem_append.1 ht with ht | ht
    · rcases joinCols_mem ht with rfl | ⟨g, h1, h2⟩
      · decide
      · obtain ⟨a, rfl⟩ := columns_mem h1 t h2
        exact (hw a).1
    · simp at ht; subst ht; decide
  have hse : ∀ (r c : Nat) (m : Nat → Nat → α), ∀ g ∈ columns sh r c m, [';'] ∉ g := by
    intro r c m g hg h
    obtain ⟨a, e⟩ := columns_mem hg _ h
    exact (hw a).2 e.symm
  constructor
  · intro h
    have h := spaced_inj (hsp r c m) (hsp r' c' m') (List.cons.inj h).2
    have h := List.append_cancel_right h
    rcases joinCols_inj (hse r c m) (hse r' c' m') h with h | h
    · have hl : c = c' := by simpa [columns] using congrArg List.length h
      subst hl
      by_cases h0 : c = 0
      · exact Or.inr ⟨Or.inl h0, Or.inl h0⟩
      · have hj : ∀ j, j < c → ((List.range r).map fun i => sh (m i j)) = (List.range r').map fun i => sh (m' i j) := by
          intro j hj
          have := congrArg (fun l => l[j]?) h
          simpa [columns, hj] using this
        have hrr : r = r' := by simpa using congrArg List.length (hj 0 (by omega))
        subst hrr
        refine Or.inl ⟨rfl, rfl, fun i j h1 h2 => ?_⟩
        have := congrArg (fun l => l[i]?) (hj j h2)
        exact hi _ _ (by simpa [h1] using this)
    · exact Or.inr ⟨columns_blank.1 h.1, columns_blank.1 h.2⟩
  · rintro (⟨rfl, rfl, h⟩ | ⟨h1, h2⟩)
    · have : columns sh r c m = columns sh r c m' := by
        unfold columns
        refine List.map_congr_left fun j hj => List.map_congr_left fun i hi => ?_
        rw [h i j (List.mem_range.1 hi) (List.mem_range.1 hj)]
      rw [this]
    · have key : ∀ (r c : Nat) (m : Nat → Nat → α), Blank r c → joinCols (columns sh r c m) = [] := by
        intro r c m h
        rcases columns_blank.2 h with h | h <;> rw [h] <;> rfl
      rw [key r c m h1, key r' c' m' h2]

/-- C112: the record: `stream << matrix << flush` hands over exactly the first 2046 characters of the text (up to a zero
character, if an entry is written with one), whatever the size of the matrix; nothing is written outside the buffer. -/
theorem c112_record {α : Type} (sh : α → List Char) (rows cols : Nat) (m : Nat → Nat → α)
    (hz : ∀ a, '\x00' ∉ sh a) (hl : ∀ a, (sh a).length < 2048) :
    record sh rows cols m = some [(text sh rows cols m).take 2046] := by
  have run : ∀ (ws : List (List Char)), (∀ w ∈ ws, w.length < 2048 ∧ '\x00' ∉ w) → ∀ (s : TStream) (done : List Char),
      BInv s (done.take 2046) → s.out = [] → '\x00' ∉ done →
      (runOps s (ws.map (fun w => BufOp.write w 1) ++ [.flush])).map (·.out) = some [(done ++ ws.flatten).take 2046] := by
    intro ws
    induction ws with
    | nil =>
      intro _ s done hb ho hd
      obtain ⟨s', e, o, _⟩ := flush_ok hb
      simp only [List.map_nil, List.nil_append, runOps, BufOp.run, e, Option.bind, Option.map, o, ho]
      have : cstr (done.take 2046) = done.take 2046 := by
        unfold cstr
        rw [List.takeWhile_eq_self_iff]
        intro x hx
        have := List.mem_of_mem_take hx
        simp; rintro rfl; exact hd this
      rw [this]; simp
    | cons w ws ih =>
      intro hw s done hb ho hd
      have hw0 := hw w (by simp)
      obtain ⟨s', e, o, b⟩ := write_ok (src := w) (prot := 1) hb (by omega)
      have hcat : done.take 2046 ++ w.take (if (done.take 2046).length + w.length + 1 ≤ 2047 then w.length
          else 2047 - 1 - (done.take 2046).length) = (done ++ w).take 2046 := by
        rw [List.take_append, List.length_take]
        congr 1
        split
        · rw [List.take_of_length_le (Nat.le_refl _), List.take_of_length_le (by omega)]
        · by_cases h : done.length ≤ 2046
          · rw [Nat.min_eq_right h]
          · rw [Nat.min_eq_left (by omega)]
            rw [show 2047 - 1 - 2046 = 0 by omega, show 2046 - done.length = 0 by omega]
      rw [hcat] at b
      have := ih (fun x hx => hw x (by simp [hx])) s' (done ++ w) b (by rw [o, ho])
        (by simp only [List.mem_append]; rintro (h | h); exacts [hd h, hw0.2 h])
      simp only [List.map_cons, List.cons_append, runOps, BufOp.run, e, Option.bind_some]
      rw [this]
      simp
  have hall : ∀ w ∈ writes sh rows cols m, w.length < 2048 ∧ '\x00' ∉ w := by
    intro w hw
    unfold writes column at hw
    simp only [List.mem_append, List.mem_flatMap, List.mem_singleton, List.mem_range, List.mem_cons, List.not_mem_nil, or_false] at hw
    rcases hw with (rfl | ⟨j, _, ⟨i, _, rfl | rfl⟩ | h⟩) | rfl
    · decide
    · decide
    · exact ⟨hl _, hz _⟩
    · split at h
      · simp at h; subst h; decide
      · simp at h
    · decide
  have := run (writes sh rows cols m) hall TStream.new [] (by simpa using binv_new) rfl (by simp)
  unfold record
  rw [this]
  rfl

/-! ## Concrete cases -/

/-- The 2 × 3 matrix with rows `0 1 2` and `3 4 5`, single-digit entries. -/
example : text (fun n : Fin 10 => [Char.ofNat (48 + n.val)]) 2 3 (fun i j => ⟨(3 * i + j) % 10, by omega⟩) =
    "[ 0 3 ; 1 4 ; 2 5 ]".toList := by decide +kernel

example : ∀ a : Fin 10, Word [Char.ofNat (48 + a.val)] ∧ '\x00' ∉ [Char.ofNat (48 + a.val)] := by decide +kernel

example : ∀ a b : Fin 10, [Char.ofNat (48 + a.val)] = [Char.ofNat (48 + b.val)] → a = b := by decide +kernel

end Verif.Logging.Matrix
