import Verif.Time.IsoProps

/-!
# Printed time stamps sort chronologically (C69)

`<` on `List Char` is the lexicographic order, as `std::string::operator<` (the characters are
ASCII).
-/
namespace Verif.Time

theorem lt_append_right (a a' b b' : List Char) (hl : a.length = a'.length) (h : a < a') : a ++ b < a' ++ b' := by
  induction a generalizing a' with
  | nil =>
    cases a' with
    | nil => exact absurd h (by simp)
    | cons => simp at hl
  | cons x a ih =>
    cases a' with
    | nil => simp at hl
    | cons y a' =>
      simp only [List.cons_append, List.cons_lt_cons_iff] at h ⊢
      rcases h with h | ⟨h, h'⟩
      · exact Or.inl h
      · exact Or.inr ⟨h, ih a' (by simpa using hl) h'⟩

theorem lt_append_left (a b b' : List Char) (h : b < b') : a ++ b < a ++ b' := by
  induction a with
  | nil => exact h
  | cons x a ih => simp only [List.cons_append, List.cons_lt_cons_iff]; exact Or.inr ⟨trivial, ih⟩

theorem digit_lt (j k : Nat) (hk : k < 10) (h : j < k) : digit j < digit k := by
  have : ∀ k < 10, ∀ j < k, digit j < digit k := by decide
  exact this k hk j h

theorem dec_lt (w : Nat) : ∀ j k, k < 10 ^ w → j < k → dec w j < dec w k := by
  induction w with
  | zero => intro j k hk h; simp at hk; omega
  | succ w ih =>
    intro j k hk h
    simp only [dec]
    rcases Nat.lt_or_ge (j / 10) (k / 10) with h' | h'
    · exact lt_append_right _ _ _ _ (by simp [dec_length])
        (ih _ _ (by rw [Nat.pow_succ] at hk; omega) h')
    · have he : j / 10 = k / 10 := by omega
      rw [he]
      apply lt_append_left
      simp only [List.cons_lt_cons_iff]
      exact Or.inl (digit_lt _ _ (by omega) (by omega))

/-- Order of dates. -/
def Date.Before (a b : Date) : Prop :=
  a.y < b.y ∨ a.y = b.y ∧ (a.m < b.m ∨ a.m = b.m ∧ a.d < b.d)

theorem before_trans {a b c : Date} (h1 : a.Before b) (h2 : b.Before c) : a.Before c := by
  simp only [Date.Before] at *; omega

theorem before_next {x : Date} : x.Before (nextDay x) := by
  simp only [Date.Before, nextDay]
  split
  · simp
  · split
    · simp
    · exact Or.inl (Int.lt_succ _)

theorem date_before (m n : Nat) (h : m < n) : (dateOfDay m).Before (dateOfDay n) := by
  have e (k : Nat) : dateOfDay k = times nextDay k ⟨1970, 1, 1⟩ := by simp [dateOfDay]
  simp only [e]
  clear e
  induction n with
  | zero => omega
  | succ n ih =>
    simp only [times]
    by_cases hm : m = n
    · subst hm; exact before_next
    · exact before_trans (ih (by omega)) before_next

theorem date_str_lt {a b : Date} (ha : a.Valid) (hb : b.Valid) (hay : a.y ≤ 9999) (hby : b.y ≤ 9999)
    (h : a.Before b) (r s : List Char) :
    dec 4 a.y.toNat ++ dec 2 a.m ++ dec 2 a.d ++ r < dec 4 b.y.toNat ++ dec 2 b.m ++ dec 2 b.d ++ s := by
  simp only [Date.Valid] at ha hb
  have hbd : b.d < 100 := by
    have : ∀ y m, monthLength y m ≤ 31 := by intro y m; unfold monthLength; split <;> (try split) <;> omega
    have := this b.y b.m
    omega
  simp only [List.append_assoc]
  rcases h with h | ⟨h, h'⟩
  · exact lt_append_right _ _ _ _ (by simp [dec_length]) (dec_lt 4 _ _ (by omega) (by omega))
  · rw [h]
    apply lt_append_left
    rcases h' with h' | ⟨h', h''⟩
    · exact lt_append_right _ _ _ _ (by simp [dec_length]) (dec_lt 2 _ _ (by omega) (by omega))
    · rw [h']
      exact lt_append_left _ _ _ (lt_append_right _ _ _ _ (by simp [dec_length]) (dec_lt 2 _ _ (by omega) (by omega)))

theorem format_lt {t u : TB} (ht : Normalised t) (hu : Normalised u) (ht0 : 0 ≤ total t)
    (hm : u.secs < 253402300800) (h : total t < total u) {a b : List Char}
    (ha : formatIso t = .ok a) (hb : formatIso u = .ok b) : a < b := by
  have hts : 0 ≤ t.secs := by simp only [Normalised, total] at *; omega
  have htn : 0 ≤ t.nsecs := by simp only [Normalised, total] at *; omega
  have hus : 0 ≤ u.secs := by simp only [Normalised, total] at *; omega
  have hun : 0 ≤ u.nsecs := by simp only [Normalised, total] at *; omega
  have hsu : t.secs < u.secs ∨ t.secs = u.secs ∧ t.nsecs < u.nsecs := by
    simp only [Normalised, total] at *; omega
  have hu9 : u.nsecs < 1000000000 := by simp only [Normalised] at *; omega
  have h1 := (c09_format_calendar ht ht0 (by omega)).2.2.2.2.2.2
  have h2 := (c09_format_calendar hu (by omega) hm).2.2.2.2.2.2
  rw [ha] at h1; rw [hb] at h2
  simp only [Outcome.ok.injEq] at h1 h2
  obtain ⟨m, hm'⟩ : ∃ n : Nat, t.secs / 86400 = n := ⟨(t.secs / 86400).toNat, by omega⟩
  obtain ⟨n, hn'⟩ : ∃ n : Nat, u.secs / 86400 = n := ⟨(u.secs / 86400).toNat, by omega⟩
  rw [hm'] at h1; rw [hn'] at h2
  have hvm := (date_ok m).1
  have hvn := (date_ok n).1
  have hym := year_le (n := m) (by omega)
  have hyn := year_le (n := n) (by omega)
  rw [h1, h2]
  rcases Nat.lt_or_ge m n with hmn | hmn
  · have := date_str_lt hvm hvn hym hyn (date_before m n hmn)
      (['T'] ++ (dec 2 ((t.secs % 86400).toNat / 3600) ++ (dec 2 ((t.secs % 86400).toNat / 60 % 60)
      ++ (dec 2 ((t.secs % 86400).toNat % 60) ++ ([','] ++ dec 9 t.nsecs.toNat)))))
      (['T'] ++ (dec 2 ((u.secs % 86400).toNat / 3600) ++ (dec 2 ((u.secs % 86400).toNat / 60 % 60)
      ++ (dec 2 ((u.secs % 86400).toNat % 60) ++ ([','] ++ dec 9 u.nsecs.toNat)))))
    simpa only [List.append_assoc] using this
  · have hmn' : m = n := by omega
    subst hmn'
    simp only [List.append_assoc]
    apply lt_append_left; apply lt_append_left; apply lt_append_left; apply lt_append_left
    have hd : (dec 2 ((t.secs % 86400).toNat / 3600)).length = (dec 2 ((u.secs % 86400).toNat / 3600)).length := by
      simp [dec_length]
    generalize hx : (t.secs % 86400).toNat = x at *
    generalize hy : (u.secs % 86400).toNat = y at *
    have hxy : x < y ∨ x = y ∧ t.nsecs < u.nsecs := by omega
    have hy' : y < 86400 := by omega
    rcases hxy with hxy | ⟨hxy, hns⟩
    · by_cases c1 : x / 3600 < y / 3600
      · exact lt_append_right _ _ _ _ (by simp [dec_length]) (dec_lt 2 _ _ (by omega) c1)
      · have e1 : x / 3600 = y / 3600 := by omega
        rw [e1]; apply lt_append_left
        by_cases c2 : x / 60 % 60 < y / 60 % 60
        · exact lt_append_right _ _ _ _ (by simp [dec_length]) (dec_lt 2 _ _ (by omega) c2)
        · have e2 : x / 60 % 60 = y / 60 % 60 := by omega
          rw [e2]; apply lt_append_left
          exact lt_append_right _ _ _ _ (by simp [dec_length]) (dec_lt 2 _ _ (by omega) (by omega))
    · subst hxy
      apply lt_append_left; apply lt_append_left; apply lt_append_left; apply lt_append_left
      exact dec_lt 9 _ _ (by omega) (by omega)

/-- C69: for any two canonical time stamps from 1970 to the end of year 9999, the text of the
earlier one is the smaller string (and so the order of the texts is the order in time). -/
theorem c69_text_order (t u : TB) (ht : Normalised t) (hu : Normalised u) (ht0 : 0 ≤ total t)
    (hu0 : 0 ≤ total u) (htm : t.secs < 253402300800) (hum : u.secs < 253402300800) :
    ∃ a b : List Char, formatIso t = .ok a ∧ formatIso u = .ok b ∧ a.length = 25 ∧ b.length = 25 ∧
      (a < b ↔ total t < total u) ∧ (a = b ↔ t = u) := by
  have h1 := (c09_format_calendar ht ht0 htm).2.2.2.2.2.2
  have h2 := (c09_format_calendar hu hu0 hum).2.2.2.2.2.2
  refine ⟨_, _, h1, h2, by simp [dec_length], by simp [dec_length], ?_, ?_⟩
  · constructor
    · intro hlt
      rcases Int.lt_trichotomy (total t) (total u) with h | h | h
      · exact h
      · have : t = u := by
          cases t; cases u; simp only [Normalised, total, TB.mk.injEq] at *; omega
        subst this
        exact absurd hlt (List.lt_irrefl _)
      · exact absurd (List.lt_trans hlt (format_lt hu ht hu0 htm h h2 h1)) (List.lt_irrefl _)
    · intro h
      exact format_lt ht hu ht0 hum h h1 h2
  · constructor
    · intro he
      rcases Int.lt_trichotomy (total t) (total u) with h | h | h
      · have := format_lt ht hu ht0 hum h h1 h2
        rw [he] at this
        exact absurd this (List.lt_irrefl _)
      · cases t; cases u; simp only [Normalised, total, TB.mk.injEq] at *; omega
      · have := format_lt hu ht hu0 htm h h2 h1
        rw [he] at this
        exact absurd this (List.lt_irrefl _)
    · intro he; subst he; rfl

/-- Before 1000-01-01 and after 9999 there is no 25 character text; within, a concrete pair. -/
example : Normalised ⟨951782400, 5⟩ ∧ Normalised ⟨951782399, 999999999⟩ ∧
    total ⟨951782399, 999999999⟩ < total ⟨951782400, 5⟩ := by decide

end Verif.Time
