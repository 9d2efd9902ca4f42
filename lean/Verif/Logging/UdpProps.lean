import Verif.Logging.Udp

/-! # UDP log records (C71) -/
namespace Verif.Logging.Udp

theorem escape_id (s : S) : escape s = s := by
  unfold escape
  induction s with
  | nil => rfl
  | cons c s ih =>
    simp only [List.flatMap_cons, ih]
    by_cases h : c = '\''
    · subst h; rfl
    · simp [h]

theorem read_str (done : List (List Val)) (r : List Val) (s rest : S) (h : '\'' ∉ s) (acc : S) :
    sqlRows done (.str r acc) (s ++ rest) = sqlRows done (.str r (acc ++ s)) rest := by
  induction s generalizing acc with
  | nil => simp
  | cons c s ih =>
    simp only [List.mem_cons, not_or] at h
    simp only [List.cons_append, sqlRows, Ne.symm h.1, if_false]
    rw [ih h.2]
    simp

theorem read_quoted (done : List (List Val)) (r : List Val) (s rest : S) (h : '\'' ∉ s) :
    sqlRows done (.value r) (quoted s ++ rest) = sqlRows done (.quote r s) rest := by
  simp only [quoted, List.cons_append, List.append_assoc, sqlRows, if_true]
  rw [read_str done r s _ h []]
  simp [sqlRows]

theorem read_text (done : List (List Val)) (r : List Val) (s rest : S) (h : '\'' ∉ s) :
    sqlRows done (.value r) (quoted s ++ ',' :: rest) = sqlRows done (.value (r ++ [.text s])) rest := by
  rw [read_quoted done r s _ h]
  simp [sqlRows]

theorem digitChar_ok (k : Nat) (h : k < 10) : (Nat.digitChar k).isDigit = true ∧ (Nat.digitChar k).toNat - 48 = k ∧
    Nat.digitChar k ≠ '\'' := by
  have : ∀ k < 10, (Nat.digitChar k).isDigit = true ∧ (Nat.digitChar k).toNat - 48 = k ∧ Nat.digitChar k ≠ '\'' := by
    decide
  exact this k h

theorem num_step (n : Nat) (h : 10 ≤ n) : num n = num (n / 10) ++ [Nat.digitChar (n % 10)] := by
  unfold num
  exact Nat.toDigits_of_base_le (by omega) h

theorem num_digit (n : Nat) (h : n < 10) : num n = [Nat.digitChar n] := by
  unfold num
  exact Nat.toDigits_of_lt_base h

theorem read_num (done : List (List Val)) (r : List Val) (n : Nat) : ∀ rest : S,
    sqlRows done (.value r) (num n ++ rest) = sqlRows done (.digits r n) rest := by
  induction n using Nat.strongRecOn with
  | ind n ih =>
    intro rest
    rcases Nat.lt_or_ge n 10 with h | h
    · obtain ⟨h1, h2, h3⟩ := digitChar_ok n h
      rw [num_digit n h]
      simp only [List.cons_append, List.nil_append, sqlRows, h1, h2, h3, if_true, if_false]
    · obtain ⟨h1, h2, h3⟩ := digitChar_ok (n % 10) (Nat.mod_lt _ (by omega))
      rw [num_step n h, List.append_assoc, ih (n / 10) (by omega)]
      simp only [List.cons_append, List.nil_append, sqlRows, h1, h2, if_true]
      rw [Nat.div_add_mod]

theorem read_num' (done : List (List Val)) (r : List Val) (n : Nat) (rest : S) :
    sqlRows done (.value r) (num n ++ ',' :: rest) = sqlRows done (.value (r ++ [.num n])) rest := by
  rw [read_num]
  have : ¬ (','.isDigit = true) := by decide
  simp only [sqlRows, this, if_false, if_true]
  rfl

/-- A record without its last apostrophe. -/
def openRecord (m : Msg) (t : S) : S :=
  quoted m.system ++ ',' :: (quoted m.time ++ ',' :: (num m.nsec ++ ',' :: (quoted m.level ++ ',' ::
    (quoted m.stream ++ ',' :: (quoted m.file ++ ',' :: (num m.line ++ ',' :: (quoted m.cls ++ ',' ::
    (quoted m.object ++ ',' :: (quoted m.func ++ ',' :: t)))))))))

theorem glue (a b c d e f g h i j k : S) (q : Char) :
    a ++ [q] ++ b ++ [q] ++ c ++ [q] ++ d ++ [q] ++ e ++ [q] ++ f ++ [q] ++ g ++ [q] ++ h ++ [q] ++ i ++ [q] ++ j
      ++ [q] ++ k =
    a ++ q :: (b ++ q :: (c ++ q :: (d ++ q :: (e ++ q :: (f ++ q :: (g ++ q :: (h ++ q :: (i ++ q ::
      (j ++ q :: k))))))))) := by
  simp only [List.append_assoc, List.cons_append, List.nil_append]

theorem glue' (a b c d e f g h i j k l : S) (q : Char) :
    (a ++ q :: (b ++ q :: (c ++ q :: (d ++ q :: (e ++ q :: (f ++ q :: (g ++ q :: (h ++ q :: (i ++ q ::
      (j ++ q :: k)))))))))) ++ l =
    a ++ q :: (b ++ q :: (c ++ q :: (d ++ q :: (e ++ q :: (f ++ q :: (g ++ q :: (h ++ q :: (i ++ q ::
      (j ++ q :: (k ++ l)))))))))) := by
  simp only [List.append_assoc, List.cons_append]

theorem openRecord_append (m : Msg) (t l : S) : openRecord m t ++ l = openRecord m (t ++ l) := by
  unfold openRecord
  exact glue' ..

theorem record_eq (m : Msg) : record m = openRecord m (quoted m.text) := by
  unfold record openRecord
  rw [escape_id, escape_id]
  exact glue ..

theorem read_openRecord (done : List (List Val)) (m : Msg) (h : ∀ s ∈ m.texts, '\'' ∉ s) (rest : S) :
    sqlRows done (.value []) (openRecord m (quoted m.text ++ rest)) =
      sqlRows done (.quote (m.row.dropLast) m.text) rest := by
  simp only [Msg.texts, List.mem_cons, List.not_mem_nil, or_false, forall_eq_or_imp, forall_eq] at h
  obtain ⟨h1, h2, h3, h4, h5, h6, h7, h8, h9⟩ := h
  unfold openRecord
  rw [read_text _ _ _ _ h1, read_text _ _ _ _ h2, read_num', read_text _ _ _ _ h3, read_text _ _ _ _ h4,
    read_text _ _ _ _ h5, read_num', read_text _ _ _ _ h6, read_text _ _ _ _ h7, read_text _ _ _ _ h8,
    read_quoted _ _ _ _ h9]
  rfl

theorem row_eq (m : Msg) : m.row.dropLast ++ [.text m.text] = m.row := rfl

theorem statement_eq (m : Msg) : statement (record m) = '(' :: openRecord m (quoted m.text ++ [')']) := by
  rw [record_eq, statement, List.cons_append, openRecord_append]

theorem read_row (d : List (List Val)) (s : S) : sqlRows d .row ('(' :: s) = sqlRows d (.value []) s := by
  simp only [sqlRows, if_true]

/-- C71, the part that holds: if no text of the message contains an apostrophe, the server adds
exactly one row, with exactly the fields of the message. -/
theorem c71_record_partial (m : Msg) (h : ∀ s ∈ m.texts, '\'' ∉ s) : inserted (record m) = [m.row] := by
  unfold inserted
  rw [statement_eq m, read_row, read_openRecord [] m h]
  simp [sqlRows, row_eq]

/-- A message. -/
def exampleMsg : Msg :=
  { system := "robot".toList, time := "2020-01-31 12:00:00".toList, nsec := 1200, level := "Info".toList,
    stream := "Motor".toList, file := "a.cpp".toList, line := 42, cls := [], object := [], func := "run".toList,
    text := "ready (1, 2)\n".toList }

example : (∀ s ∈ exampleMsg.texts, '\'' ∉ s) ∧
    record exampleMsg =
      "'robot','2020-01-31 12:00:00',1200,'Info','Motor','a.cpp',42,'','','run','ready (1, 2)\n'".toList := by
  decide +kernel

/-! ## Findings -/

/-- C71 is violated: `escape` changes nothing (the expansion of the format string `\'` is a plain
apostrophe). -/
theorem c71_escape_does_nothing (s : S) : escape s = s := escape_id s

/-- C71 is violated: any logged text can forge further records.  For all harmless messages `m` and
`forged` there is a text which, logged in place of that of `m`, makes the server add the row of `m`
and the row of `forged`. -/
theorem c71_forged_record (m forged : Msg) (hm : ∀ s ∈ m.texts, '\'' ∉ s) (hf : ∀ s ∈ forged.texts, '\'' ∉ s) :
    ∃ text : S, inserted (record { m with text := text }) = [m.row, forged.row] := by
  refine ⟨m.text ++ '\'' :: ')' :: ',' :: '(' :: openRecord forged ('\'' :: forged.text), ?_⟩
  unfold inserted
  rw [statement_eq]
  have : openRecord { m with text := m.text ++ '\'' :: ')' :: ',' :: '(' :: openRecord forged ('\'' :: forged.text) }
      (quoted (m.text ++ '\'' :: ')' :: ',' :: '(' :: openRecord forged ('\'' :: forged.text)) ++ [')']) =
      openRecord m (quoted m.text ++ (')' :: ',' :: '(' :: openRecord forged (quoted forged.text ++ [')']))) := by
    show openRecord m _ = _
    congr 1
    simp only [quoted, List.cons_append, List.append_assoc, openRecord_append, List.nil_append]
  simp only [this, read_row]
  rw [read_openRecord [] m hm]
  have e2 : ∀ r a s, sqlRows [] (.quote r a) (')' :: ',' :: '(' :: s) = sqlRows [r ++ [.text a]] (.value []) s := by
    intro r a s; simp [sqlRows]
  rw [e2, read_openRecord _ forged hf]
  simp [sqlRows, row_eq]

/-- C71 is violated: a text in which an apostrophe is followed by an ordinary character (as in
`don't`) is lost. -/
theorem c71_apostrophe_loses_message (m : Msg) (a b : S) (c : Char) (hm : ∀ s ∈ m.texts, '\'' ∉ s) (ha : '\'' ∉ a)
    (hc : c ≠ '\'' ∧ c ≠ ',' ∧ c ≠ ')') : inserted (record { m with text := a ++ '\'' :: c :: b }) = [] := by
  unfold inserted
  rw [statement_eq]
  have : openRecord { m with text := a ++ '\'' :: c :: b } (quoted (a ++ '\'' :: c :: b) ++ [')']) =
      openRecord { m with text := a } (quoted ({ m with text := a } : Msg).text ++ (c :: b ++ ['\'', ')'])) := by
    show openRecord m _ = openRecord m _
    congr 1
    simp only [quoted, List.cons_append, List.append_assoc, List.nil_append]
  simp only [this, read_row]
  rw [read_openRecord]
  · simp [sqlRows, hc]
  · intro s hs
    simp only [Msg.texts, List.mem_cons, List.not_mem_nil, or_false] at hs hm
    rcases hs with h | h | h | h | h | h | h | h | h
    all_goals first
      | (subst h; exact ha)
      | (apply hm; simp [h])

/-! ## Exactly which messages arrive: counting apostrophes -/

/-- The number of apostrophes. -/
def apos (s : S) : Nat := s.count '\''

/-- The apostrophes needed to write a value. -/
def valW : Val → Nat
  | .text s => 2 + 2 * apos s
  | .num _ => 0

/-- The apostrophes needed to write a row. -/
def rowW (r : List Val) : Nat := (r.map valW).sum

/-- The apostrophes needed to write rows. -/
def rowsW (d : List (List Val)) : Nat := (d.map rowW).sum

/-- The apostrophes read in a state. -/
def stW : St → Nat
  | .row => 0
  | .value r => rowW r
  | .str r acc => rowW r + 1 + 2 * apos acc
  | .quote r acc => rowW r + 2 + 2 * apos acc
  | .digits r _ => rowW r
  | .after => 0

theorem apos_cons (c : Char) (s : S) : apos (c :: s) = apos s + if c = '\'' then 1 else 0 := by
  simp [apos, List.count_cons]

theorem apos_append (a b : S) : apos (a ++ b) = apos a + apos b := by simp [apos]

theorem rowW_append (a b : List Val) : rowW (a ++ b) = rowW a + rowW b := by simp [rowW]

theorem rowsW_snoc (d : List (List Val)) (r : List Val) : rowsW (d ++ [r]) = rowsW d + rowW r := by simp [rowsW]

theorem rowW_text (s : S) : rowW [.text s] = 2 + 2 * apos s := by simp [rowW, valW]

theorem rowW_num (n : Nat) : rowW [.num n] = 0 := by simp [rowW, valW]

theorem sqlRows_weight (s : S) : ∀ (done : List (List Val)) (st : St) (rows : List (List Val)),
    sqlRows done st s = some rows → rowsW rows = rowsW done + stW st + apos s := by
  induction s with
  | nil =>
    intro done st rows h
    cases st <;> simp [sqlRows] at h
    subst h; simp [stW, apos]
  | cons c s ih =>
    intro done st rows h
    rw [apos_cons]
    cases st with
    | row =>
      simp only [sqlRows] at h
      split at h
      · rename_i hc; subst hc
        have := ih _ _ _ h
        simp [stW, rowW] at this ⊢; omega
      · cases h
    | value r =>
      simp only [sqlRows] at h
      split at h
      · rename_i hc; subst hc
        have := ih _ _ _ h
        simp only [stW, if_true] at this ⊢
        simp [apos] at this ⊢; omega
      · rename_i hc
        split at h
        · have := ih _ _ _ h
          simp only [stW, if_neg hc] at this ⊢; omega
        · cases h
    | str r acc =>
      simp only [sqlRows] at h
      split at h
      · rename_i hc; subst hc
        have := ih _ _ _ h
        simp only [stW, if_true] at this ⊢; omega
      · rename_i hc
        have := ih _ _ _ h
        have h1 : apos [c] = 0 := by rw [apos_cons, if_neg hc]; rfl
        simp only [stW, if_neg hc, apos_append, h1] at this ⊢; omega
    | quote r acc =>
      simp only [sqlRows] at h
      split at h
      · rename_i hc; subst hc
        have := ih _ _ _ h
        have h1 : apos ['\''] = 1 := rfl
        simp only [stW, if_true, apos_append, h1] at this ⊢; omega
      · rename_i hc
        split at h
        · have := ih _ _ _ h
          simp only [stW, if_neg hc, rowW_append, rowW_text] at this ⊢; omega
        · split at h
          · have := ih _ _ _ h
            simp only [stW, if_neg hc, rowsW_snoc, rowW_append, rowW_text] at this ⊢; omega
          · cases h
    | digits r n =>
      simp only [sqlRows] at h
      split at h
      · rename_i hd
        have hc : c ≠ '\'' := by rintro rfl; revert hd; decide
        have := ih _ _ _ h
        simp only [stW, if_neg hc] at this ⊢; omega
      · split at h
        · rename_i hc
          have hc : c ≠ '\'' := by rw [hc]; decide
          have := ih _ _ _ h
          simp only [stW, if_neg hc, rowW_append, rowW_num] at this ⊢; omega
        · split at h
          · rename_i hc
            have hc : c ≠ '\'' := by rw [hc]; decide
            have := ih _ _ _ h
            simp only [stW, if_neg hc, rowsW_snoc, rowW_append, rowW_num] at this ⊢; omega
          · cases h
    | after =>
      simp only [sqlRows] at h
      split at h
      · rename_i hc; subst hc
        have := ih _ _ _ h
        simp [stW] at this ⊢; omega
      · cases h

theorem apos_num (n : Nat) : apos (num n) = 0 := by
  induction n using Nat.strongRecOn with
  | ind n ih =>
    rcases Nat.lt_or_ge n 10 with h | h
    · rw [num_digit n h, apos_cons, if_neg (digitChar_ok n h).2.2]; rfl
    · rw [num_step n h, apos_append, ih (n / 10) (by omega), apos_cons,
        if_neg (digitChar_ok (n % 10) (Nat.mod_lt _ (by omega))).2.2]; rfl

theorem apos_quoted (s : S) : apos (quoted s) = 2 + apos s := by
  rw [quoted, List.cons_append, apos_cons, apos_append, if_pos rfl]
  have : apos ['\''] = 1 := rfl
  omega

theorem apos_comma (s : S) : apos (',' :: s) = apos s := by rw [apos_cons, if_neg (by decide)]; rfl

/-- C71, exactly: a message arrives as one row with exactly the logged fields if and only if none of its texts
contains an apostrophe. -/
theorem c71_record_iff (m : Msg) : inserted (record m) = [m.row] ↔ ∀ s ∈ m.texts, '\'' ∉ s := by
  refine ⟨?_, c71_record_partial m⟩
  intro h
  have h' : sqlRows [] .row (statement (record m)) = some [m.row] := by
    unfold inserted at h
    cases hs : sqlRows [] .row (statement (record m)) with
    | none => rw [hs] at h; cases h
    | some r => rw [hs] at h; simp only [Option.getD] at h; rw [h]
  have hw := sqlRows_weight _ _ _ _ h'
  rw [statement_eq] at hw
  simp only [openRecord, apos_cons, apos_append, apos_quoted, apos_num] at hw
  have e1 : ('(' = '\'') = False := by decide
  have e2 : (',' = '\'') = False := by decide
  have e3 : (')' = '\'') = False := by decide
  have e4 : apos [] = 0 := rfl
  simp only [e1, e2, e3, e4, if_false] at hw
  simp only [rowsW, rowW, Msg.row, List.map_cons, List.map_nil, List.sum_cons, List.sum_nil, valW, stW] at hw
  have hz : ∀ s ∈ m.texts, apos s = 0 := by
    simp only [Msg.texts, List.mem_cons, List.not_mem_nil, or_false, forall_eq_or_imp, forall_eq]
    refine ⟨?_, ?_, ?_, ?_, ?_, ?_, ?_, ?_, ?_⟩ <;> omega
  intro s hs
  exact List.count_eq_zero.1 (hz s hs)

example : inserted (record { exampleMsg with text := "don't".toList }) = [] := by decide +kernel

end Verif.Logging.Udp
