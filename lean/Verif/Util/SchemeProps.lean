import Verif.Util.SchemeSpec

/-! # Scheme strings: C31 -/
namespace Verif.Scheme

/-! ### The pieces -/

theorem alpha_eq : alpha = Char.isAlpha := by
  funext c
  rw [Bool.eq_iff_iff]
  simp only [alpha, Char.isAlpha, Char.isUpper, Char.isLower, Char.le_def, decide_eq_true_eq,
    Bool.or_eq_true, Bool.and_eq_true, ge_iff_le]
  exact Or.comm

theorem alnum_spec : alnum = Char.isAlphanum := by
  funext c
  rw [Bool.eq_iff_iff]
  simp only [alnum, alpha_eq, Char.isAlphanum, Char.isDigit, Char.le_def, decide_eq_true_eq,
    Bool.or_eq_true, Bool.and_eq_true, ge_iff_le]

theorem specCh_eq : specCh = isSpec := by
  funext c
  by_cases h1 : c = '?' <;> by_cases h2 : c = '#' <;> simp [specCh, isSpec, h1, h2]

theorem valueCh_eq : valueCh = isValue := by
  funext c
  rw [Bool.eq_iff_iff]
  simp only [valueCh, space, isValue, List.mem_cons, List.not_mem_nil, or_false, Bool.not_eq_true',
    Bool.or_eq_false_iff, beq_eq_false_iff_ne, decide_eq_true_eq, not_or, ne_eq]
  constructor
  · rintro ⟨⟨h1, h2⟩, ⟨⟨⟨⟨h3, h4⟩, h5⟩, h6⟩, h7⟩, h8⟩; exact ⟨h1, h2, h3, h4, h5, h6, h7, h8⟩
  · rintro ⟨h1, h2, h3, h4, h5, h6, h7, h8⟩; exact ⟨⟨h1, h2⟩, ⟨⟨⟨⟨h3, h4⟩, h5⟩, h6⟩, h7⟩, h8⟩

theorem lowerC_eq : lowerC = Char.toLower := by
  funext c
  simp only [lowerC, Char.toLower, Char.le_def]
  by_cases h : 'A'.val ≤ c.val ∧ c.val ≤ 'Z'.val
  · rw [if_pos h, dif_pos h]
    have h1 : c.val.toNat ≤ 90 := h.2
    apply Char.ext
    apply UInt32.toNat.inj
    have hv : (c.toNat + 32).isValidChar := Or.inl (by simp only [Char.toNat]; omega)
    have e1 : (Char.ofNat (c.toNat + 32)).val.toNat = c.val.toNat + 32 := by
      have : (Char.ofNat (c.toNat + 32)).toNat = c.toNat + 32 := by
        rw [Char.ofNat, dif_pos hv]; rfl
      exact this
    have e2 : ('a'.val - 'A'.val).toNat = 32 := by decide
    rw [e1]
    show _ = (c.val + ('a'.val - 'A'.val)).toNat
    rw [UInt32.toNat_add, e2]
    omega
  · rw [if_neg h, dif_neg h]

/-- The string does not start with a character of this kind. -/
def Stop (f : Char → Bool) (s : S) : Prop := ∀ c, s.head? = some c → f c = false

theorem takeWhile_good {f : Char → Bool} {w r : S} (hw : ∀ c ∈ w, f c = true) (hr : Stop f r) :
    (w ++ r).takeWhile f = w ∧ (w ++ r).dropWhile f = r := by
  induction w with
  | nil =>
    cases r with
    | nil => exact ⟨rfl, rfl⟩
    | cons c r =>
      have := hr c rfl
      simp [List.takeWhile_cons, List.dropWhile_cons, this]
  | cons c w ih =>
    have hc := hw c (by simp)
    obtain ⟨h1, h2⟩ := ih (fun c hc => hw c (by simp [hc]))
    simp [List.takeWhile_cons, List.dropWhile_cons, hc, h1, h2]

theorem plus_good {f : Char → Bool} {w r : S} (hw : Good f w) (hr : Stop f r) :
    plus f (w ++ r) = some (w, r) := by
  obtain ⟨h1, h2⟩ := takeWhile_good hw.2 hr
  simp [plus, h1, h2, hw.1]

theorem plus_some {f : Char → Bool} {s w r : S} (h : plus f s = some (w, r)) :
    Good f w ∧ s = w ++ r ∧ Stop f r := by
  simp only [plus] at h
  split at h
  · cases h
  · rename_i hne
    cases h
    refine ⟨⟨hne, ?_⟩, (List.takeWhile_append_dropWhile).symm, ?_⟩
    · clear hne
      induction s with
      | nil => simp
      | cons c s ih =>
        rw [List.takeWhile_cons]
        split
        · rename_i hc
          intro d hd
          rcases List.mem_cons.1 hd with rfl | hd
          · exact hc
          · exact ih d hd
        · simp
    · clear hne
      induction s with
      | nil => intro c hc; simp at hc
      | cons c s ih =>
        rw [List.dropWhile_cons]
        split
        · exact ih
        · rename_i hc
          intro d hd
          simp at hd
          rw [← hd]; simpa using hc

theorem plus_stop {f : Char → Bool} {s : S} (h : Stop f s) : plus f s = none := by
  cases s with
  | nil => rfl
  | cons c s => simp [plus, List.takeWhile_cons, h c rfl]

theorem starSep_sound (sep : Char) (f : Char → Bool) (k : Nat) : ∀ s,
    ∃ ws : List S, (∀ w ∈ ws, Good f w) ∧ (starSep sep f k s).1 = ws.flatMap (fun v => sep :: v) ∧
      s = (starSep sep f k s).1 ++ (starSep sep f k s).2 := by
  induction k with
  | zero => intro s; exact ⟨[], by simp, rfl, rfl⟩
  | succ k ih =>
    intro s
    cases s with
    | nil => exact ⟨[], by simp, rfl, rfl⟩
    | cons c r =>
      simp only [starSep]
      split
      · rename_i hc
        subst hc
        cases hp : plus f r with
        | none => exact ⟨[], by simp, rfl, rfl⟩
        | some x =>
          obtain ⟨w, r'⟩ := x
          obtain ⟨hw, rfl, _⟩ := plus_some hp
          obtain ⟨ws, h1, h2, h3⟩ := ih r'
          refine ⟨w :: ws, ?_, ?_, ?_⟩
          · intro v hv
            rcases List.mem_cons.1 hv with rfl | hv
            · exact hw
            · exact h1 v hv
          · simp [h2]
          · simp only [List.cons_append, List.append_assoc, List.cons.injEq, true_and]
            rw [← h3]
      · exact ⟨[], by simp, rfl, rfl⟩

theorem starSep_complete (sep : Char) (f : Char → Bool) (hsep : f sep = false) :
    ∀ (ws : List S) (k : Nat) (t : S), (∀ w ∈ ws, Good f w) →
      (ws.flatMap (fun v => sep :: v) ++ t).length ≤ k → Stop f t → t.head? ≠ some sep →
      starSep sep f k (ws.flatMap (fun v => sep :: v) ++ t) = (ws.flatMap (fun v => sep :: v), t) := by
  intro ws
  induction ws with
  | nil =>
    intro k t _ _ _ h2
    cases k with
    | zero => rfl
    | succ k =>
      cases t with
      | nil => rfl
      | cons c r =>
        have : c ≠ sep := fun e => h2 (by simp [e])
        simp [starSep, this]
  | cons w ws ih =>
    intro k t hws hk hst h2
    cases k with
    | zero => simp at hk
    | succ k =>
      have hst' : Stop f (ws.flatMap (fun v => sep :: v) ++ t) := by
        cases ws with
        | nil => simpa using hst
        | cons v vs => intro c hc; simp at hc; rw [← hc]; exact hsep
      have hp := plus_good (hws w (by simp)) hst'
      have := ih k t (fun v hv => hws v (by simp [hv])) (by simp at hk ⊢; omega) hst h2
      simp only [List.flatMap_cons, List.cons_append, List.append_assoc, starSep, if_true, hp, this]

/-! ### Scheme name -/

theorem alpha_plus : alpha '+' = false := by decide
theorem alpha_colon : alpha ':' = false := by decide
theorem alnum_eq : alnum '=' = false := by decide
theorem alnum_us : alnum '_' = false := by decide
theorem alnum_q : alnum '?' = false := by decide
theorem alnum_hy : alnum '-' = false := by decide
theorem value_amp : valueCh '&' = false := by decide

theorem schemeP_complete (ws : List S) (r : S) (h : Words alpha ws) :
    schemeP (joined '+' ws ++ (colon ++ r)) = some (joined '+' ws ++ colon, r) := by
  cases ws with
  | nil => exact absurd rfl h.1
  | cons w ws =>
    have hstop : Stop alpha (ws.flatMap (fun v => '+' :: v) ++ (colon ++ r)) := by
      intro c hc
      cases ws with
      | nil => simp [colon] at hc; rw [← hc]; exact alpha_colon
      | cons v vs => simp at hc; rw [← hc]; exact alpha_plus
    have h1 := plus_good (h.2 w (by simp)) hstop
    have h2 := starSep_complete '+' alpha alpha_plus ws
      (ws.flatMap (fun v => '+' :: v) ++ (colon ++ r)).length (colon ++ r)
      (fun v hv => h.2 v (by simp [hv])) (Nat.le_refl _)
      (by intro c hc; simp [colon] at hc; rw [← hc]; exact alpha_colon) (by simp [colon])
    have h3 : colon.isPrefixOf (colon ++ r) = true := by
      rw [List.isPrefixOf_iff_prefix]; exact List.prefix_append _ _
    simp only [schemeP, joined, List.append_assoc, h1, h2, h3, if_true]
    simp [colon]

theorem schemeP_sound {s n r : S} (h : schemeP s = some (n, r)) :
    ∃ ws, Words alpha ws ∧ n = joined '+' ws ++ colon ∧ s = n ++ r := by
  simp only [schemeP] at h
  split at h
  · cases h
  · rename_i w r1 hp
    obtain ⟨hw, rfl, _⟩ := plus_some hp
    obtain ⟨ws, h1, h2, h3⟩ := starSep_sound '+' alpha r1.length r1
    split at h
    · rename_i hpre
      rw [List.isPrefixOf_iff_prefix] at hpre
      obtain ⟨t, ht⟩ := hpre
      cases h
      refine ⟨w :: ws, ⟨by simp, ?_⟩, ?_, ?_⟩
      · intro v hv
        rcases List.mem_cons.1 hv with rfl | hv
        · exact hw
        · exact h1 v hv
      · simp [joined, h2]
      · rw [← ht]
        have : (colon ++ t).drop 3 = t := by simp [colon]
        rw [this]
        have h5 : r1 = (starSep '+' alpha r1.length r1).1 ++ (colon ++ t) := by rw [ht]; exact h3
        calc w ++ r1 = w ++ ((starSep '+' alpha r1.length r1).1 ++ (colon ++ t)) := by rw [← h5]
          _ = _ := by simp
    · cases h

/-! ### Anchor -/

theorem anchorP_complete (a : S × Option S) (t : S) (h1 : Good alnum a.1)
    (h2 : ∀ v, a.2 = some v → Good alnum v) (ht : t.head? = none ∨ t.head? = some '?') :
    anchorP ('#' :: (anchorText a ++ t)) = some (anchorText a, t) := by
  have hst : Stop alnum t := by
    intro c hc
    rcases ht with ht | ht
    · rw [ht] at hc; cases hc
    · rw [ht] at hc; cases hc; exact alnum_q
  obtain ⟨w, o⟩ := a
  cases o with
  | none =>
    have := plus_good h1 hst
    simp only [anchorP, anchorText, this]
    split
    · rename_i r2
      simp at ht
    · rfl
  | some v =>
    have hv := h2 v rfl
    have e1 := plus_good (r := '-' :: (v ++ t)) h1 (by intro c hc; simp at hc; rw [← hc]; exact alnum_hy)
    have e2 := plus_good hv hst
    simp only [anchorP, anchorText, List.append_assoc, List.cons_append, e1, e2]

theorem anchorP_sound {s a r : S} (h : anchorP s = some (a, r)) :
    ∃ p : S × Option S, a = anchorText p ∧ Good alnum p.1 ∧ (∀ v, p.2 = some v → Good alnum v) ∧
      s = '#' :: (a ++ r) := by
  unfold anchorP at h
  split at h
  · rename_i r0
    split at h
    · cases h
    · rename_i w r1 hp
      obtain ⟨hw, rfl, _⟩ := plus_some hp
      split at h
      · rename_i r2
        split at h
        · rename_i w2 r3 hp2
          obtain ⟨hw2, rfl, _⟩ := plus_some hp2
          cases h
          exact ⟨(w, some w2), rfl, hw, by simp; exact hw2, by simp⟩
        · cases h
          exact ⟨(_, none), rfl, hw, by simp, by simp⟩
      · cases h
        exact ⟨(_, none), rfl, hw, by simp, by simp⟩
  · cases h

/-! ### Queries -/

theorem keyTail_cons (c : Char) (r : S) (h : alnum c = true) :
    keyTail (c :: r) = (c :: (keyTail r).1, (keyTail r).2) := by
  cases r with
  | nil => simp [keyTail, h]
  | cons d r => rw [keyTail.eq_def]; simp only [h, if_true]

theorem keyTail_word (w t : S) (h : ∀ c ∈ w, alnum c = true) :
    keyTail (w ++ t) = (w ++ (keyTail t).1, (keyTail t).2) := by
  induction w with
  | nil => rfl
  | cons c w ih =>
    rw [List.cons_append, keyTail_cons _ _ (h c (by simp)), ih (fun c hc => h c (by simp [hc]))]
    rfl

theorem keyTail_words (ws : List S) (r : S) (h : ∀ w ∈ ws, Good alnum w) :
    keyTail (ws.flatMap (fun v => '_' :: v) ++ '=' :: r)
      = (ws.flatMap (fun v => '_' :: v), '=' :: r) := by
  induction ws with
  | nil =>
    cases r with
    | nil => simp [keyTail, alnum_eq]
    | cons c r => rw [List.flatMap_nil, List.nil_append, keyTail.eq_def]; simp [alnum_eq]
  | cons w ws ih =>
    have hw := h w (by simp)
    have := ih (fun v hv => h v (by simp [hv]))
    cases w with
    | nil => exact absurd rfl hw.1
    | cons d w =>
      have hd := hw.2 d (by simp)
      have hwd : ∀ c ∈ w, alnum c = true := fun c hc => hw.2 c (by simp [hc])
      simp only [List.flatMap_cons, List.cons_append, List.append_assoc]
      rw [keyTail.eq_def]
      simp only [alnum_us, Bool.false_eq_true, if_false, hd, and_self, if_true]
      rw [keyTail_word _ _ hwd, this]

theorem keyP_complete (ws : List S) (r : S) (h : Words alnum ws) :
    keyP (joined '_' ws ++ '=' :: r) = some (joined '_' ws, '=' :: r) := by
  cases ws with
  | nil => exact absurd rfl h.1
  | cons w ws =>
    have hst : Stop alnum (ws.flatMap (fun v => '_' :: v) ++ '=' :: r) := by
      intro c hc
      cases ws with
      | nil => simp at hc; rw [← hc]; exact alnum_eq
      | cons v vs => simp at hc; rw [← hc]; exact alnum_us
    have h1 := plus_good (h.2 w (by simp)) hst
    have h2 := keyTail_words ws r (fun v hv => h.2 v (by simp [hv]))
    simp only [keyP, joined, List.append_assoc, h1, h2]

theorem keyTail_sound (s : S) : s = (keyTail s).1 ++ (keyTail s).2 ∧
    ∃ (w : S) (ws : List S), (∀ c ∈ w, alnum c = true) ∧ (∀ v ∈ ws, Good alnum v) ∧
      (keyTail s).1 = w ++ ws.flatMap (fun v => '_' :: v) := by
  fun_induction keyTail s with
  | case1 => exact ⟨rfl, [], [], by simp, by simp, rfl⟩
  | case2 c h => exact ⟨rfl, [c], [], by simpa using h, by simp, rfl⟩
  | case3 c h => exact ⟨rfl, [], [], by simp, by simp, rfl⟩
  | case4 c d r h x ih =>
    obtain ⟨h1, w, ws, h2, h3, h4⟩ := ih
    refine ⟨by simp only [List.cons_append]; rw [← h1], c :: w, ws, ?_, h3, ?_⟩
    · intro e he
      rcases List.mem_cons.1 he with rfl | he
      · exact h
      · exact h2 e he
    · simp only [List.cons_append]; rw [← h4]
  | case5 c d r h h' x ih =>
    obtain ⟨h1, w, ws, h2, h3, h4⟩ := ih
    refine ⟨by simp only [List.cons_append]; rw [← h1], [], (d :: w) :: ws, by simp, ?_, ?_⟩
    · intro v hv
      rcases List.mem_cons.1 hv with rfl | hv
      · refine ⟨by simp, ?_⟩
        intro e he
        rcases List.mem_cons.1 he with rfl | he
        · exact h'.2
        · exact h2 e he
      · exact h3 v hv
    · simp only [List.flatMap_cons, List.cons_append, List.nil_append]
      rw [h'.1, ← h4]
  | case6 c d r h h' => exact ⟨rfl, [], [], by simp, by simp, rfl⟩

theorem keyP_sound {s n r : S} (h : keyP s = some (n, r)) :
    ∃ ws, Words alnum ws ∧ n = joined '_' ws ∧ s = n ++ r := by
  simp only [keyP] at h
  split at h
  · cases h
  · rename_i w0 r0 hp
    obtain ⟨hw0, rfl, _⟩ := plus_some hp
    obtain ⟨h1, w, ws, h2, h3, h4⟩ := keyTail_sound r0
    cases h
    refine ⟨(w0 ++ w) :: ws, ⟨by simp, ?_⟩, ?_, ?_⟩
    · intro v hv
      rcases List.mem_cons.1 hv with rfl | hv
      · refine ⟨by simp [hw0.1], ?_⟩
        intro c hc
        rcases List.mem_append.1 hc with hc | hc
        · exact hw0.2 c hc
        · exact h2 c hc
      · exact h3 v hv
    · simp [joined, h4]
    · rw [List.append_assoc, ← h1]

theorem setValue_last (q : List Query) (k v : S) : setValue (q ++ [⟨k, []⟩]) v = q ++ [⟨k, v⟩] := by
  induction q with
  | nil => rfl
  | cons a q ih =>
    cases q with
    | nil => rfl
    | cons b q => simp only [List.cons_append, setValue] at ih ⊢; rw [ih]

/-- The query of a pair. -/
def toQuery (q : List S × S) : Query := ⟨joined '_' q.1, q.2⟩

theorem pairP_complete (q : List Query) (p : List S × S) (t : S) (h1 : Words alnum p.1)
    (h2 : Good valueCh p.2) (ht : Stop valueCh t) :
    pairP q (pairText p ++ t) = (q ++ [toQuery p], some t) := by
  have e1 := keyP_complete p.1 (p.2 ++ t) h1
  have e2 := plus_good h2 ht
  simp only [pairP, pairText, List.append_assoc, List.cons_append, e1, e2, setValue_last, toQuery]

theorem pairP_sound {q q' : List Query} {s r : S} (h : pairP q s = (q', some r)) :
    ∃ p : List S × S, Words alnum p.1 ∧ Good valueCh p.2 ∧ s = pairText p ++ r ∧
      q' = q ++ [toQuery p] := by
  unfold pairP at h
  split at h
  · cases h
  · rename_i k r0 hk
    obtain ⟨ws, hws, rfl, rfl⟩ := keyP_sound hk
    split at h
    · rename_i r1
      split at h
      · rename_i v r2 hp
        obtain ⟨hv, rfl, _⟩ := plus_some hp
        cases h
        refine ⟨(ws, v), hws, hv, by simp [pairText], ?_⟩
        rw [setValue_last]; rfl
      · cases h
    · cases h

theorem stop_amp (ps : List (List S × S)) : Stop valueCh (ps.flatMap fun x => '&' :: pairText x) := by
  intro c hc
  cases ps with
  | nil => simp at hc
  | cons p ps => simp at hc; rw [← hc]; exact value_amp

theorem starPair_complete : ∀ (ps : List (List S × S)) (k : Nat) (q : List Query),
    (∀ p ∈ ps, Words alnum p.1 ∧ Good valueCh p.2) →
    (ps.flatMap fun x => '&' :: pairText x).length ≤ k →
    starPair k q (ps.flatMap fun x => '&' :: pairText x) = (q ++ ps.map toQuery, []) := by
  intro ps
  induction ps with
  | nil => intro k q _ _; cases k <;> simp [starPair]
  | cons p ps ih =>
    intro k q h hk
    cases k with
    | zero => simp at hk
    | succ k =>
      have hp := h p (by simp)
      have e := pairP_complete q p (ps.flatMap fun x => '&' :: pairText x) hp.1 hp.2 (stop_amp ps)
      have := ih k (q ++ [toQuery p]) (fun x hx => h x (by simp [hx])) (by simp at hk ⊢; omega)
      simp only [List.flatMap_cons, List.cons_append, starPair, e, this, List.map_cons,
        List.append_assoc, List.nil_append]

theorem starPair_sound : ∀ (k : Nat) (q : List Query) (s : S), (starPair k q s).2 = [] →
    ∃ ps : List (List S × S), (∀ p ∈ ps, Words alnum p.1 ∧ Good valueCh p.2) ∧
      s = (ps.flatMap fun x => '&' :: pairText x) ∧ (starPair k q s).1 = q ++ ps.map toQuery := by
  intro k
  induction k with
  | zero => intro q s h; simp [starPair] at h; subst h; exact ⟨[], by simp, rfl, by simp [starPair]⟩
  | succ k ih =>
    intro q s h
    unfold starPair at h ⊢
    split at h
    · rename_i heq; cases heq
    · rename_i k' q0 r heq
      cases heq
      split at h
      · rename_i q' r' hp
        obtain ⟨p, h1, h2, rfl, rfl⟩ := pairP_sound hp
        obtain ⟨ps, h3, h4, h5⟩ := ih _ _ h
        refine ⟨p :: ps, ?_, ?_, ?_⟩
        · intro x hx
          rcases List.mem_cons.1 hx with rfl | hx
          · exact ⟨h1, h2⟩
          · exact h3 x hx
        · rw [List.flatMap_cons, ← h4]; rfl
        · simp only [hp, h5]; simp
      · rename_i q' hp
        simp at h
    · rename_i q0 s0 k' hk hne
      cases hk
      simp only at h
      subst h
      exact ⟨[], by simp, rfl, by simp⟩

theorem optQuery_complete (q : List Query) (ps : List (List S × S))
    (h : ∀ p ∈ ps, Words alnum p.1 ∧ Good valueCh p.2) :
    optQuery q (queryText ps) = (q ++ ps.map toQuery, []) := by
  cases ps with
  | nil => simp [optQuery, queryText]
  | cons p ps =>
    have hp := h p (by simp)
    have e := pairP_complete q p (ps.flatMap fun x => '&' :: pairText x) hp.1 hp.2 (stop_amp ps)
    have e2 := starPair_complete ps (ps.flatMap fun x => '&' :: pairText x).length (q ++ [toQuery p])
      (fun x hx => h x (by simp [hx])) (Nat.le_refl _)
    simp only [optQuery, queryText, e, e2]
    simp

theorem optQuery_sound (q : List Query) (s : S) (h : (optQuery q s).2 = []) :
    ∃ ps : List (List S × S), (∀ p ∈ ps, Words alnum p.1 ∧ Good valueCh p.2) ∧
      s = queryText ps ∧ (optQuery q s).1 = q ++ ps.map toQuery := by
  unfold optQuery at h ⊢
  split at h
  · rename_i r
    split at h
    · rename_i q' r' hp
      obtain ⟨p, h1, h2, rfl, rfl⟩ := pairP_sound hp
      obtain ⟨ps, h3, h4, h5⟩ := starPair_sound _ _ _ h
      refine ⟨p :: ps, ?_, ?_, ?_⟩
      · intro x hx
        rcases List.mem_cons.1 hx with rfl | hx
        · exact ⟨h1, h2⟩
        · exact h3 x hx
      · rw [queryText, ← h4]
      · simp only [hp, h5]; simp
    · simp at h
  · simp only at h
    subst h
    exact ⟨[], by simp, rfl, by simp⟩

/-! ### C31 -/

theorem alpha_spec {c : Char} (h : alpha c = true) : specCh c = true := by
  simp only [specCh, Bool.and_eq_true, bne_iff_ne]
  constructor <;> (rintro rfl; exact absurd h (by decide))

theorem joined_alpha (ws : List S) (h : ∀ w ∈ ws, Good alpha w) :
    ∀ c ∈ joined '+' ws, specCh c = true := by
  intro c hc
  cases ws with
  | nil => simp [joined] at hc
  | cons w ws =>
    simp only [joined, List.mem_append, List.mem_flatMap] at hc
    rcases hc with hc | ⟨v, hv, hc⟩
    · exact alpha_spec ((h w (by simp)).2 c hc)
    · rcases List.mem_cons.1 hc with rfl | hc
      · decide
      · exact alpha_spec ((h v (by simp [hv])).2 c hc)

/-- If `a` is made of characters of one kind and `a ++ x = b ++ y` where `y` does not start
with such a character, then `a` is a prefix of `b`. -/
theorem prefix_of_stop {f : Char → Bool} {a x b y : S} (ha : ∀ c ∈ a, f c = true) (hy : Stop f y)
    (h : a ++ x = b ++ y) : ∃ z, b = a ++ z := by
  induction a generalizing b with
  | nil => exact ⟨b, rfl⟩
  | cons c a ih =>
    cases b with
    | nil =>
      simp only [List.nil_append, List.cons_append] at h
      have := hy c (by rw [← h]; rfl)
      rw [ha c (by simp)] at this; cases this
    | cons d b =>
      simp only [List.cons_append, List.cons.injEq] at h
      obtain ⟨rfl, h⟩ := h
      obtain ⟨z, rfl⟩ := ih (fun c hc => ha c (by simp [hc])) h
      exact ⟨z, rfl⟩

theorem kindOf_spec (n : S) : kindOf (n ++ colon) = kindSpec n := by
  have e : ∀ w : S, (n ++ colon = w ++ colon) ↔ n = w := fun w => List.append_left_inj colon
  have h1 := e "file".toList
  have h2 := e "http".toList
  have h3 := e "camera".toList
  have h4 := e "gps".toList
  have g1 : "file".toList ++ colon = ['f', 'i', 'l', 'e', ':', '/', '/'] := by decide
  have g2 : "http".toList ++ colon = ['h', 't', 't', 'p', ':', '/', '/'] := by decide
  have g3 : "camera".toList ++ colon = ['c', 'a', 'm', 'e', 'r', 'a', ':', '/', '/'] := by decide
  have g4 : "gps".toList ++ colon = ['g', 'p', 's', ':', '/', '/'] := by decide
  rw [g1] at h1; rw [g2] at h2; rw [g3] at h3; rw [g4] at h4
  simp only [kindOf, kindSpec, h1, h2, h3, h4]

/-- `Parts.Valid` in terms of the model's character classes. -/
structure ValidM (p : Parts) : Prop where
  scheme : ∀ ws, p.scheme = some ws → Words alpha ws
  noScheme : p.scheme = none → ∀ ws r, Words alpha ws → p.spec ≠ joined '+' ws ++ (colon ++ r)
  spec : Good specCh p.spec
  anchor : ∀ a, p.anchor = some a → Good alnum a.1 ∧ ∀ v, a.2 = some v → Good alnum v
  queries : ∀ q ∈ p.queries, Words alnum q.1 ∧ Good valueCh q.2

theorem valid_iff (p : Parts) : p.Valid ↔ ValidM p := by
  constructor
  · intro h
    exact ⟨by rw [alpha_eq]; exact h.scheme, by rw [alpha_eq]; exact h.noScheme,
      by rw [specCh_eq]; exact h.spec, by rw [alnum_spec]; exact h.anchor,
      by rw [alnum_spec, valueCh_eq]; exact h.queries⟩
  · intro h
    exact ⟨by rw [← alpha_eq]; exact h.scheme, by rw [← alpha_eq]; exact h.noScheme,
      by rw [← specCh_eq]; exact h.spec, by rw [← alnum_spec]; exact h.anchor,
      by rw [← alnum_spec, ← valueCh_eq]; exact h.queries⟩

/-- `Parts.result` with the model's lower-casing. -/
def resultM (p : Parts) (old : Scheme) : Scheme where
  kind := match p.scheme with
    | some ws => kindSpec ((joined '+' ws).map lowerC)
    | none => old.kind
  name := match p.scheme with
    | some ws => (joined '+' ws).map lowerC ++ colon
    | none => old.name
  specifier := p.spec
  anchor := match p.anchor with
    | some a => anchorText a
    | none => old.anchor
  queries := p.queries.map fun q => ⟨joined '_' q.1, q.2⟩

theorem result_eq (p : Parts) (old : Scheme) : p.result old = resultM p old := by
  rw [resultM, lowerC_eq]; rfl

theorem anchorText_stop (p : Parts) : Stop specCh (p.anchorPart ++ queryText p.queries) := by
  intro c hc
  cases ha : p.anchor with
  | some a => simp [Parts.anchorPart, ha] at hc; rw [← hc]; decide
  | none =>
    cases hq : p.queries with
    | nil => simp [Parts.anchorPart, ha, hq, queryText] at hc
    | cons q qs => simp [Parts.anchorPart, ha, hq, queryText] at hc; rw [← hc]; decide

theorem lower_colon (ws : List S) :
    (joined '+' ws ++ colon).map lowerC = (joined '+' ws).map lowerC ++ colon := by
  rw [List.map_append]
  have : colon.map lowerC = colon := by decide
  rw [this]

/-- A scheme object with the scheme of the parts. -/
def withScheme (p : Parts) (old : Scheme) : Scheme :=
  ⟨(resultM p old).kind, (resultM p old).name, old.specifier, old.anchor, []⟩

theorem optScheme_sound (old : Scheme) (s : S) : ∃ o : Option (List S),
    (∀ ws, o = some ws → Words alpha ws) ∧ (o = none → schemeP s = none) ∧
    ∀ sp a ps, optScheme { old with queries := [] } s =
        (withScheme ⟨o, sp, a, ps⟩ old, (optScheme { old with queries := [] } s).2) ∧
      s = (Parts.schemeText ⟨o, sp, a, ps⟩) ++ (optScheme { old with queries := [] } s).2 := by
  cases hsc : schemeP s with
  | none =>
    refine ⟨none, by simp, by simp, ?_⟩
    intro sp a ps
    simp [optScheme, hsc, withScheme, resultM, Parts.schemeText]
  | some x =>
    obtain ⟨n, r1⟩ := x
    obtain ⟨ws, hws, rfl, rfl⟩ := schemeP_sound hsc
    refine ⟨some ws, by intro ws' h; cases h; exact hws, by simp, ?_⟩
    intro sp a ps
    simp only [optScheme, hsc, withScheme, resultM, Parts.schemeText, addScheme, lower_colon,
      kindOf_spec, and_self]

theorem optAnchor_sound (sc : Scheme) (s : S) : ∃ a : Option (S × Option S),
    (∀ x, a = some x → Good alnum x.1 ∧ ∀ v, x.2 = some v → Good alnum v) ∧
    ∀ o sp ps, optAnchor sc s = ({ sc with anchor := (resultM ⟨o, sp, a, ps⟩ sc).anchor },
        (optAnchor sc s).2) ∧
      s = (Parts.anchorPart ⟨o, sp, a, ps⟩) ++ (optAnchor sc s).2 := by
  cases han : anchorP s with
  | none =>
    refine ⟨none, by simp, ?_⟩
    intro o sp ps
    simp [optAnchor, han, resultM, Parts.anchorPart]
  | some x =>
    obtain ⟨a, r3⟩ := x
    obtain ⟨p, rfl, h3, h4, rfl⟩ := anchorP_sound han
    refine ⟨some p, by intro x hx; cases hx; exact ⟨h3, h4⟩, ?_⟩
    intro o sp ps
    simp [optAnchor, han, resultM, Parts.anchorPart]

theorem optScheme_complete (p : Parts) (hv : ValidM p) (old : Scheme) :
    optScheme { old with queries := [] } p.text
      = (withScheme p old, p.spec ++ (p.anchorPart ++ queryText p.queries)) := by
  have hstop := anchorText_stop p
  cases ho : p.scheme with
  | some ws =>
    have ht : p.text = joined '+' ws ++ (colon ++ (p.spec ++ (p.anchorPart ++ queryText p.queries))) := by
      simp only [Parts.text, Parts.schemeText, ho]; simp
    rw [ht]
    simp only [optScheme, schemeP_complete ws _ (hv.scheme ws ho), withScheme, resultM, addScheme,
      lower_colon, kindOf_spec, ho]
  | none =>
    have ht : p.text = p.spec ++ (p.anchorPart ++ queryText p.queries) := by
      simp only [Parts.text, Parts.schemeText, ho]; simp
    have : schemeP p.text = none := by
      cases hsc : schemeP p.text with
      | none => rfl
      | some x =>
        obtain ⟨n, r1⟩ := x
        obtain ⟨ws, hws, rfl, hx⟩ := schemeP_sound hsc
        rw [ht] at hx
        have hall : ∀ c ∈ joined '+' ws ++ colon, specCh c = true := by
          intro c hc
          rcases List.mem_append.1 hc with hc | hc
          · exact joined_alpha ws hws.2 c hc
          · have : ∀ c ∈ colon, specCh c = true := by decide
            exact this c hc
        obtain ⟨z, hz⟩ := prefix_of_stop hall hstop hx.symm
        exact absurd (by rw [hz]; simp) (hv.noScheme ho ws z hws)
    simp only [optScheme, this, withScheme, resultM, ho]
    rw [ht]

theorem optAnchor_complete (p : Parts) (hv : ValidM p) (sc : Scheme) :
    optAnchor sc (p.anchorPart ++ queryText p.queries)
      = ({ sc with anchor := (resultM p sc).anchor }, queryText p.queries) := by
  have hq : (queryText p.queries).head? = none ∨ (queryText p.queries).head? = some '?' := by
    cases p.queries <;> simp [queryText]
  cases ha : p.anchor with
  | some a =>
    have := anchorP_complete a (queryText p.queries) (hv.anchor a ha).1 (hv.anchor a ha).2 hq
    simp only [optAnchor, Parts.anchorPart, ha, List.cons_append, this, resultM]
  | none =>
    have : anchorP (queryText p.queries) = none := by
      unfold anchorP
      split
      · rename_i r0 heq
        rw [heq] at hq; simp at hq
      · rfl
    simp only [optAnchor, Parts.anchorPart, ha, List.nil_append, this, resultM]

theorem accepts_model (old r : Scheme) (str : S) :
    parseScheme old str = (true, r) ↔
      ∃ p : Parts, ValidM p ∧ str.takeWhile (· != '\x00') = p.text ∧ r = resultM p old := by
  generalize hs : str.takeWhile (· != '\x00') = s
  constructor
  · intro h
    simp only [parseScheme, hs] at h
    obtain ⟨o, hows, hnone, hsc⟩ := optScheme_sound old s
    split at h
    · cases h
    · rename_i sp s2 hp
      obtain ⟨hsp, hs1, hst⟩ := plus_some hp
      obtain ⟨a, ha, hsa⟩ := optAnchor_sound
        { (optScheme { old with queries := [] } s).1 with specifier := sp } s2
      simp only [Prod.mk.injEq, beq_iff_eq] at h
      obtain ⟨hend, hr⟩ := h
      obtain ⟨ps, hps, hs3, hq⟩ := optQuery_sound _ _ hend
      obtain ⟨hsc1, hsc2⟩ := hsc sp a ps
      obtain ⟨hsa1, hsa2⟩ := hsa o sp ps
      refine ⟨⟨o, sp, a, ps⟩, ⟨hows, ?_, hsp, ha, hps⟩, ?_, ?_⟩
      · intro ho ws r1 hws he
        have ho' : o = none := ho
        have he' : sp = joined '+' ws ++ (colon ++ r1) := he
        subst ho'
        have := hnone rfl
        have e3 : s = joined '+' ws ++ (colon ++ (r1 ++ s2)) := by
          rw [hsc2, hs1, he']; simp [Parts.schemeText]
        rw [e3, schemeP_complete ws _ hws] at this
        cases this
      · rw [hsc2, hs1, hsa2, hs3]; rfl
      · rw [← hr, hq, hsa1, hsc1]
        simp only [withScheme, resultM, List.nil_append]
        rfl
  · rintro ⟨p, hv, rfl, rfl⟩
    simp only [parseScheme, hs, optScheme_complete p hv old, plus_good hv.spec (anchorText_stop p),
      optAnchor_complete p hv, optQuery_complete _ p.queries hv.queries]
    simp only [withScheme, resultM, List.nil_append, beq_self_eq_true]
    rfl

/-- C31: `parseScheme` accepts a string (up to its first NUL) exactly if it has valid parts, and
then the output object holds these parts. -/
theorem c31_accepts_grammar (old r : Scheme) (str : S) :
    parseScheme old str = (true, r) ↔
      ∃ p : Parts, p.Valid ∧ str.takeWhile (· != '\x00') = p.text ∧ r = p.result old := by
  rw [accepts_model]
  constructor
  · rintro ⟨p, h1, h2, h3⟩; exact ⟨p, (valid_iff p).2 h1, h2, by rw [result_eq]; exact h3⟩
  · rintro ⟨p, h1, h2, h3⟩; exact ⟨p, (valid_iff p).1 h1, h2, by rw [← result_eq]; exact h3⟩

/-- C31: the grammar is unambiguous: a string has at most one result. -/
theorem c31_unambiguous (p p' : Parts) (old : Scheme) (hp : p.Valid) (hp' : p'.Valid)
    (h : p.text = p'.text) (h0 : '\x00' ∉ p.text) : p.result old = p'.result old := by
  have ht : p.text.takeWhile (· != '\x00') = p.text := by
    have hall : ∀ c ∈ p.text, (c != '\x00') = true := by
      intro c hc; simp only [bne_iff_ne]; rintro rfl; exact h0 hc
    have := (takeWhile_good (r := []) hall (by intro c hc; simp at hc)).1
    simpa using this
  have h1 := (c31_accepts_grammar old (p.result old) p.text).2 ⟨p, hp, ht, rfl⟩
  have h2 := (c31_accepts_grammar old (p'.result old) p.text).2 ⟨p', hp', by rw [ht, h], rfl⟩
  rw [h1] at h2
  exact (Prod.mk.inj h2).2

theorem lower_id (s : S) (h : ∀ c ∈ s, ¬ ('A' ≤ c ∧ c ≤ 'Z')) : s.map lowerC = s := by
  induction s with
  | nil => rfl
  | cons c s ih =>
    rw [List.map_cons, ih (fun c hc => h c (by simp [hc]))]
    simp [lowerC, h c (by simp)]

theorem print_queries (ps : List (List S × S)) : printQueries (ps.map toQuery) = queryText ps := by
  cases ps with
  | nil => rfl
  | cons p ps =>
    simp only [printQueries, List.map_cons, queryText, pairText, toQuery, List.flatMap_map, List.cons_append,
      List.append_assoc]

/-- C31: with a new output object, printing the result gives the input again, if the scheme is
in lower case and there are not both an anchor and queries. -/
theorem c31_print_partial (p : Parts) (hv : p.Valid)
    (hlow : ∀ ws, p.scheme = some ws → ∀ w ∈ ws, ∀ c ∈ w, ¬ ('A' ≤ c ∧ c ≤ 'Z'))
    (hboth : p.anchor = none ∨ p.queries = []) :
    print (p.result fresh) = p.text := by
  have hq := print_queries p.queries
  have hn : (p.result fresh).name = p.schemeText := by
    cases ho : p.scheme with
    | none => simp [Parts.result, ho, fresh, Parts.schemeText]
    | some ws =>
      have : (joined '+' ws).map Char.toLower = joined '+' ws := by
        rw [← lowerC_eq]
        apply lower_id
        intro c hc
        have hws := hlow ws ho
        cases ws with
        | nil => simp [joined] at hc
        | cons w ws =>
          simp only [joined, List.mem_append, List.mem_flatMap] at hc
          rcases hc with hc | ⟨v, hv, hc⟩
          · exact hws w (by simp) c hc
          · rcases List.mem_cons.1 hc with rfl | hc
            · decide
            · exact hws v (by simp [hv]) c hc
      simp [Parts.result, ho, Parts.schemeText, this]
  have hqq : (p.result fresh).queries = p.queries.map toQuery := rfl
  simp only [print, hqq, hq, hn]
  show p.schemeText ++ p.spec ++ _ ++ _ = p.text
  cases ha : p.anchor with
  | none => simp [Parts.result, ha, fresh, Parts.text, Parts.anchorPart]
  | some a =>
    have hne : (anchorText a).length > 0 := by
      have := (hv.anchor a ha).1.1
      obtain ⟨w, o⟩ := a
      have hw : 0 < w.length := List.length_pos_iff.2 this
      cases o <;> simp [anchorText] <;> omega
    rcases hboth with h | h
    · rw [ha] at h; cases h
    · simp [Parts.result, ha, Parts.text, Parts.anchorPart, h, queryText, hne]

/-- C31: what is printed, for every accepted string and a new output object: the scheme in lower case, the
specifier, the queries and then the anchor. -/
theorem c31_print_exact (p : Parts) (hv : p.Valid) :
    print (p.result fresh) = p.schemeText.map Char.toLower ++ (p.spec ++ (queryText p.queries ++ p.anchorPart)) := by
  have hq := print_queries p.queries
  have hn : (p.result fresh).name = p.schemeText.map Char.toLower := by
    cases ho : p.scheme with
    | none => simp [Parts.result, ho, fresh, Parts.schemeText]
    | some ws =>
      have : colon.map Char.toLower = colon := by decide
      simp [Parts.result, ho, Parts.schemeText, this]
  have hqq : (p.result fresh).queries = p.queries.map toQuery := rfl
  simp only [print, hqq, hq, hn]
  show p.schemeText.map Char.toLower ++ p.spec ++ _ ++ _ = _
  cases ha : p.anchor with
  | none => simp [Parts.result, ha, fresh, Parts.anchorPart]
  | some a =>
    have hne : (anchorText a).length > 0 := by
      have := (hv.anchor a ha).1.1
      obtain ⟨w, o⟩ := a
      have hw : 0 < w.length := List.length_pos_iff.2 this
      cases o <;> simp [anchorText] <;> omega
    simp [Parts.result, ha, Parts.anchorPart, hne]

/-- C31, exactly: printing gives the input again if and only if the scheme is in lower case and there are not
both an anchor and queries. -/
theorem c31_print_iff (p : Parts) (hv : p.Valid) :
    print (p.result fresh) = p.text ↔
      p.schemeText.map Char.toLower = p.schemeText ∧ (p.anchor = none ∨ p.queries = []) := by
  rw [c31_print_exact p hv, Parts.text]
  constructor
  · intro h
    obtain ⟨h1, h2⟩ := List.append_inj h (by simp)
    refine ⟨h1, ?_⟩
    have h3 := List.append_cancel_left h2
    cases ha : p.anchor with
    | none => exact Or.inl rfl
    | some a =>
      cases hq : p.queries with
      | nil => exact Or.inr rfl
      | cons q qs =>
        rw [hq] at h3
        simp [Parts.anchorPart, ha, queryText] at h3
  · rintro ⟨h1, h2⟩
    rw [h1]
    rcases h2 with h2 | h2
    · simp [Parts.anchorPart, h2]
    · simp [h2, queryText]

/-- C31 fails for a string with anchor and queries: what is printed is a different string,
and parsing that gives a different result. -/
theorem c31_anchor_and_query_do_not_survive :
    parseScheme fresh "http://h/p#top?a=1".toList
      = (true, ⟨.http, "http://".toList, "h/p".toList, "top".toList, [⟨"a".toList, "1".toList⟩]⟩) ∧
    print (parseScheme fresh "http://h/p#top?a=1".toList).2 = "http://h/p?a=1#top".toList ∧
    parseScheme fresh "http://h/p?a=1#top".toList
      = (true, ⟨.http, "http://".toList, "h/p".toList, [], [⟨"a".toList, "1#top".toList⟩]⟩) := by
  decide +kernel

/-- C31 fails for an output object that is used again (every `SchemeParser` does): scheme and
anchor of the previous string remain if the new one has none. -/
theorem c31_previous_parts_remain :
    parseScheme (parseScheme fresh "camera://one#left".toList).2 "plain".toList
      = (true, ⟨.camera, "camera://".toList, "plain".toList, "left".toList, []⟩) := by
  decide +kernel

/-- C31: a rejected string leaves its parts in the output object, down to a query without
value. -/
theorem c31_rejected_leaves_parts :
    parseScheme fresh "gps://dev?key".toList
      = (false, ⟨.gps, "gps://".toList, "dev".toList, [], [⟨"key".toList, []⟩]⟩) := by
  decide +kernel

/-- C31: text after a NUL is ignored. -/
theorem c31_nul_cuts (old : Scheme) (s t : S) (h : '\x00' ∉ s) :
    parseScheme old (s ++ '\x00' :: t) = parseScheme old s := by
  have hall : ∀ c ∈ s, (c != '\x00') = true := by
    intro c hc; simp only [bne_iff_ne]; rintro rfl; exact h hc
  have h1 := (takeWhile_good (r := '\x00' :: t) hall (by intro c hc; simp at hc; rw [← hc]; rfl)).1
  have h2 := (takeWhile_good (r := []) hall (by intro c hc; simp at hc)).1
  simp only [List.append_nil] at h2
  simp only [parseScheme, h1, h2]

/-- Non-vacuity: all parts at once. -/
example : parseScheme fresh "File+Gz:///tmp/x y.dat#part-2?k_1=v&b=2=3".toList
    = (true, ⟨.other, "file+gz://".toList, "/tmp/x y.dat".toList, "part-2".toList,
        [⟨"k_1".toList, "v".toList⟩, ⟨"b".toList, "2=3".toList⟩]⟩) := by decide +kernel
example : (parseScheme fresh "FILE://".toList).1 = false := by decide +kernel

end Verif.Scheme
