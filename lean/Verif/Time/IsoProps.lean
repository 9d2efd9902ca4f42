import Verif.Time.IsoLemmas

/-! # ISO 8601 formatting and parsing (C09) -/
namespace Verif.Time

/-- C09 (what is printed). For every canonical time stamp from 1970-01-01 up to the end of
year 9999, formatting succeeds and prints the calendar date of its day (obtained by counting
days from 1970-01-01), the time of day and the nanoseconds. -/
theorem c09_format_calendar {t : TB} (h : Normalised t) (h0 : 0 ≤ total t)
    (hmax : t.secs < 253402300800) :
    let x := dateOfDay (t.secs / 86400)
    1970 ≤ x.y ∧ x.y ≤ 9999 ∧ 1 ≤ x.m ∧ x.m ≤ 12 ∧ 1 ≤ x.d ∧ x.d ≤ monthLength x.y x.m ∧
    formatIso t = .ok (dec 4 x.y.toNat ++ dec 2 x.m ++ dec 2 x.d ++ ['T']
      ++ dec 2 ((t.secs % 86400).toNat / 3600) ++ dec 2 ((t.secs % 86400).toNat / 60 % 60)
      ++ dec 2 ((t.secs % 86400).toNat % 60) ++ [','] ++ dec 9 t.nsecs.toNat) := by
  have hs : 0 ≤ t.secs := by simp only [Normalised, total] at *; omega
  have hn : 0 ≤ t.nsecs := by simp only [Normalised, total] at *; omega
  obtain ⟨n, hn'⟩ : ∃ n : Nat, t.secs / 86400 = n := ⟨(t.secs / 86400).toNat, by omega⟩
  obtain ⟨hv, _⟩ := date_ok n
  have hy := year_le (n := n) (by omega)
  simp only [hn']
  refine ⟨hv.1, hy, hv.2.1, hv.2.2.1, hv.2.2.2.1, hv.2.2.2.2, ?_⟩
  have ha : adjustNsec t = t := by rw [adjustNsec]; simp; omega
  have hyy : 1000 ≤ (dateOfDay n).y ∧ (dateOfDay n).y ≤ 9999 := ⟨by have := hv.1; omega, hy⟩
  simp only [formatIso, ha, strfTime, hn', hyy, and_self, if_true, bind, Outcome.bind]

/-- C09 (also before 1970). Formatting prints the whole second at or before the instant, as
the C library prints it, and the non-negative rest in nanoseconds; this holds for every
canonical value, including those with negative nanoseconds. -/
theorem c09_format_instant {t : TB} (h : Normalised t) :
    formatIso t = (strfTime (total t / 1000000000)).map
      (fun a => a ++ [','] ++ dec 9 (total t % 1000000000).toNat) := by
  have ha : adjustNsec t = ⟨total t / 1000000000, total t % 1000000000⟩ := by
    simp only [Normalised, total] at *
    rw [adjustNsec]
    split
    · rw [adjustNsec]
      have : ¬ t.nsecs + 1000000000 < 0 := by omega
      simp only [this, if_false, TB.mk.injEq]
      omega
    · cases t; simp only [TB.mk.injEq] at *; omega
  simp only [formatIso, ha, bind, Outcome.bind]
  cases strfTime (total t / 1000000000) <;> rfl

example : formatIso ⟨0, -1⟩ = .ok "19691231T235959,999999999".toList := by
  rw [c09_format_instant (by decide)]; decide +kernel

/-- C09 (round trip). Parsing the printed text gives back the same time stamp, for every
canonical time stamp from 1970-01-01 to the end of year 9999. -/
theorem c09_round_trip {t : TB} (h : Normalised t) (h0 : 0 ≤ total t)
    (hmax : t.secs < 253402300800) :
    (do let s ← formatIso t; fromIso s) = .ok t := by
  have hs : 0 ≤ t.secs := by simp only [Normalised, total] at *; omega
  have hn : 0 ≤ t.nsecs := by simp only [Normalised, total] at *; omega
  have hn9 : t.nsecs < 1000000000 := by simp only [Normalised] at *; omega
  obtain ⟨y1, y2, m1, m2, d1, d2, hf⟩ := c09_format_calendar h h0 hmax
  obtain ⟨n, hn'⟩ : ∃ n : Nat, t.secs / 86400 = n := ⟨(t.secs / 86400).toNat, by omega⟩
  obtain ⟨hv, hday⟩ := date_ok n
  rw [hn'] at y1 y2 m1 m2 d1 d2 hf
  generalize dateOfDay (n : Int) = x at *
  obtain ⟨y, m, d⟩ := x
  simp only at y1 y2 m1 m2 d1 d2 hf
  obtain ⟨yn, rfl⟩ : ∃ k : Nat, y = k := ⟨y.toNat, by omega⟩
  simp only [Int.toNat_natCast] at hf
  obtain ⟨q, hq⟩ : ∃ q, q = (t.secs % 86400).toNat := ⟨_, rfl⟩
  rw [← hq] at hf
  obtain ⟨ns, hns⟩ : ∃ k, k = t.nsecs.toNat := ⟨_, rfl⟩
  rw [← hns] at hf
  have hd99 : monthLength yn m ≤ 31 := by unfold monthLength; split <;> (try split) <;> omega
  have e1 : lexicalCast (dec 4 yn) = .ok yn := lexicalCast_dec 3 yn (by omega) (by omega)
  have e2 : lexicalCast (dec 2 m) = .ok m := lexicalCast_dec 1 m (by omega) (by omega)
  have e3 : lexicalCast (dec 2 d) = .ok d := lexicalCast_dec 1 d (by omega) (by omega)
  have e4 : lexicalCast (dec 2 (q / 3600)) = .ok (q / 3600 : Nat) :=
    lexicalCast_dec 1 _ (by omega) (by omega)
  have e5 : lexicalCast (dec 2 (q / 60 % 60)) = .ok (q / 60 % 60 : Nat) :=
    lexicalCast_dec 1 _ (by omega) (by omega)
  have e6 : lexicalCast (dec 2 (q % 60)) = .ok (q % 60 : Nat) :=
    lexicalCast_dec 1 _ (by omega) (by omega)
  have e7 : lexicalCast (dec 9 ns) = .ok ns := lexicalCast_dec 8 ns (by omega) (by omega)
  show Outcome.bind _ _ = _
  rw [hf]
  simp only [Outcome.bind]
  generalize hS : dec 4 yn ++ dec 2 m ++ dec 2 d ++ ['T'] ++ dec 2 (q / 3600) ++ dec 2 (q / 60 % 60)
    ++ dec 2 (q % 60) ++ [','] ++ dec 9 ns = S
  have hlen : S.length = 25 := by rw [← hS]; simp [dec_length]
  have s1 : substr S 0 4 = dec 4 yn := by rw [← hS]; rfl
  have s2 : substr S 4 2 = dec 2 m := by rw [← hS]; rfl
  have s3 : substr S 6 2 = dec 2 d := by rw [← hS]; rfl
  have s4 : substr S 9 2 = dec 2 (q / 3600) := by rw [← hS]; rfl
  have s5 : substr S 11 2 = dec 2 (q / 60 % 60) := by rw [← hS]; rfl
  have s6 : substr S 13 2 = dec 2 (q % 60) := by rw [← hS]; rfl
  have s7 : substr (substr S 16 9 ++ List.replicate 9 '0') 0 9 = dec 9 ns := by rw [← hS]; rfl
  have hml := monthLoop_eq (yn : Int) (m - 1) (by omega)
  have hm1 : ((m : Int) - 1).toNat = m - 1 := by omega
  simp only [fromIso, isoFields, hlen, s1, s2, s3, s4, s5, s6, s7, e1, e2, e3, e4, e5, e6, e7, leap_eq, hm1, hml,
    bind, Outcome.bind, ge_iff_le, gt_iff_lt, Nat.reduceLeDiff, Nat.reduceLT, if_true]
  simp only [dayNo] at hday
  have hsec : wrapU64 (86400 * (yearLoop ((yn : Int) - 1970).toNat + (monthSum yn (m - 1) : Int)
      + ((d : Int) - 1)) + 3600 * ((q / 3600 : Nat) : Int) + 60 * ((q / 60 % 60 : Nat) : Int)
      + ((q % 60 : Nat) : Int)) = t.secs := by
    rw [hday]
    simp only [wrapU64]
    have hqq : (q : Int) = t.secs % 86400 := by omega
    have : t.secs = 86400 * n + q := by omega
    have h36 : q / 60 / 60 = q / 3600 := by rw [Nat.div_div_eq_div_mul]
    have hsum : 3600 * (q / 3600) + 60 * (q / 60 % 60) + q % 60 = q := by omega
    omega
  rw [hsec]
  have hI : I64 t.secs := h.1
  have w1 : wrapI64 t.secs = t.secs := by simp only [wrapI64, I64] at *; omega
  have w2 : wrapI32 (wrapU32 (ns : Int)) = t.nsecs := by simp only [wrapI32, wrapU32]; omega
  simp only [stamp, ctor, w1, w2]
  exact normalizeTime_fix h

/-- The hypotheses are met at the turn of a leap day, and the text is as expected. -/
example : Normalised ⟨951782400, 5⟩ ∧ 0 ≤ total ⟨951782400, 5⟩ ∧ (951782400 : Int) < 253402300800 := by
  decide
example : (fromIso "20000229T000000,000000005".toList) = .ok ⟨951782400, 5⟩ := by
  have h : isoFields "20000229T000000,000000005".toList = .ok (951782400, 5) := by decide +kernel
  rw [fromIso, h]; exact normalizeTime_fix (by decide)

/-- C09 does not extend before 1970: the last second of 1969 is printed correctly but read
back as the last second of 1970. -/
theorem c09_before_1970_wrong :
    formatIso ⟨-1, 0⟩ = .ok "19691231T235959,000000000".toList ∧
    fromIso "19691231T235959,000000000".toList = .ok ⟨31535999, 0⟩ := by
  refine ⟨?_, ?_⟩
  · have ha : adjustNsec ⟨-1, 0⟩ = ⟨-1, 0⟩ := by rw [adjustNsec]; simp
    simp only [formatIso, ha]; decide +kernel
  · have h : isoFields "19691231T235959,000000000".toList = .ok (31535999, 0) := by
      decide +kernel
    rw [fromIso, h]; exact normalizeTime_fix (by decide)

/-- C09: month numbers are not validated. A month of 14 or more makes the parser read past
the end of its table of month lengths. -/
theorem c09_month_out_of_bounds : fromIso "19701401".toList = .ub := by
  have h : isoFields "19701401".toList = .ub := by decide +kernel
  rw [fromIso, h]; rfl

/-- C09: the number of days since the epoch computed by the parser's year loop, in closed
form, for every year from 1970 on. -/
theorem c09_year_loop (y : Nat) (h : 1970 ≤ y) :
    yearLoop (y - 1970) = 365 * ((y : Int) - 1970)
      + (((y : Int) - 1) / 4 - ((y : Int) - 1) / 100 + ((y : Int) - 1) / 400 - 477) := by
  rw [yearLoop_closed]
  have e : ((y - 1970 : Nat) : Int) = (y : Int) - 1970 := by omega
  rw [e]
  have : (1969 + ((y : Int) - 1970)) = (y : Int) - 1 := by omega
  rw [this]

end Verif.Time
