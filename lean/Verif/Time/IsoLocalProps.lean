import Verif.Time.IsoLocal
import Verif.Time.IsoOrder

/-! # The other ISO 8601 formatters (C91) -/
namespace Verif.Time

/-- The date and time of day fields of an instant given in whole seconds since 1970. -/
structure Fields where
  date : Date
  hour : Nat
  minute : Nat
  second : Nat

/-- Specification: the fields of the second number `s`. -/
def fieldsOf (s : Int) : Fields :=
  ⟨dateOfDay (s / 86400), (s % 86400).toNat / 3600, (s % 86400).toNat / 60 % 60, (s % 86400).toNat % 60⟩

/-- Specification: `YYYY-MM-DD hh:mm:ss`. -/
def Fields.ext (f : Fields) : List Char :=
  dec 4 f.date.y.toNat ++ ['-'] ++ dec 2 f.date.m ++ ['-'] ++ dec 2 f.date.d ++ [' '] ++ dec 2 f.hour
    ++ [':'] ++ dec 2 f.minute ++ [':'] ++ dec 2 f.second

/-- Specification: `YYYYMMDDThhmmss`. -/
def Fields.basic (f : Fields) : List Char :=
  dec 4 f.date.y.toNat ++ dec 2 f.date.m ++ dec 2 f.date.d ++ ['T'] ++ dec 2 f.hour
    ++ dec 2 f.minute ++ dec 2 f.second

theorem secs_nonneg {t : TB} (h : Normalised t) (h0 : 0 ≤ total t) : 0 ≤ t.secs ∧ t.secs = total t / 1000000000
    ∧ t.nsecs = total t % 1000000000 := by
  simp only [Normalised, total] at *; omega

theorem year_ok {s : Int} (h : 0 ≤ s) (hmax : s < 253402300800) :
    1000 ≤ (dateOfDay (s / 86400)).y ∧ (dateOfDay (s / 86400)).y ≤ 9999 := by
  obtain ⟨n, hn'⟩ : ∃ n : Nat, s / 86400 = n := ⟨(s / 86400).toNat, by omega⟩
  rw [hn']
  have := (date_ok n).1.1
  exact ⟨by omega, year_le (by omega)⟩

theorem strfTimeExt_ok {s : Int} (h : 0 ≤ s) (hmax : s < 253402300800) :
    strfTimeExt s = .ok (fieldsOf s).ext := by
  have := year_ok h hmax
  simp only [strfTimeExt, this, and_self, if_true, fieldsOf, Fields.ext]

theorem strfTime_ok {s : Int} (h : 0 ≤ s) (hmax : s < 253402300800) :
    strfTime s = .ok (fieldsOf s).basic := by
  have := year_ok h hmax
  simp only [strfTime, this, and_self, if_true, fieldsOf, Fields.basic]

theorem adjustNsec_eq {t : TB} (h : Normalised t) :
    adjustNsec t = ⟨total t / 1000000000, total t % 1000000000⟩ := by
  simp only [Normalised, total] at *
  rw [adjustNsec]
  split
  · rw [adjustNsec]
    have : ¬ t.nsecs + 1000000000 < 0 := by omega
    simp only [this, if_false, TB.mk.injEq]
    omega
  · cases t; simp only [TB.mk.injEq] at *; omega

/-- C91 (UTC, extended). From 1970 to the end of year 9999 `formatIso8601UTC()` prints date
and time of the second in which the instant lies. -/
theorem c91_utc_partial {t : TB} (h : Normalised t) (h0 : 0 ≤ total t)
    (hmax : total t < 253402300800 * 1000000000) :
    formatExtUTC t = .ok (fieldsOf (total t / 1000000000)).ext := by
  obtain ⟨h1, h2, _⟩ := secs_nonneg h h0
  rw [formatExtUTC, strfTimeExt_ok h1 (by omega), h2]

example : formatExtUTC ⟨5101199, 999999999⟩ = .ok "1970-03-01 00:59:59".toList := by
  rw [formatExtUTC, strfTimeExt_ok (by decide) (by decide)]; decide +kernel

/-- C91 (violation). Before 1970 the extended formats print the second after the one in which
the instant lies: one nanosecond before 1970 is printed as 1970-01-01 00:00:00, whereas
`formatIso8601BasicUTC()` prints 1969-12-31. -/
theorem c91_before_1970_rounds_up :
    Normalised ⟨0, -1⟩ ∧ formatExtUTC ⟨0, -1⟩ = .ok "1970-01-01 00:00:00".toList ∧
      formatIso ⟨0, -1⟩ = .ok "19691231T235959,999999999".toList := by
  refine ⟨by decide, by decide +kernel, ?_⟩
  rw [c09_format_instant (by decide)]; decide +kernel

/-- C91 (exactly when it is wrong). The extended UTC format prints the second at or before the
instant unless the instant lies before 1970 and is not a whole second, and then it prints the
next second. -/
theorem c91_utc_exact {t : TB} (h : Normalised t) :
    formatExtUTC t = strfTimeExt
      (if total t < 0 ∧ total t % 1000000000 ≠ 0 then total t / 1000000000 + 1
       else total t / 1000000000) := by
  have : t.secs = (if total t < 0 ∧ total t % 1000000000 ≠ 0 then total t / 1000000000 + 1
       else total t / 1000000000) := by
    by_cases c : total t < 0 ∧ total t % 1000000000 ≠ 0
    · rw [if_pos c]; simp only [Normalised, total] at *; omega
    · rw [if_neg c]; simp only [Normalised, total] at *; omega
  rw [formatExtUTC, ← this]

/-- C91 (local time). With any time zone, both local formats print the UTC fields of the
instant shifted by the zone's offset, as long as the shifted time lies between 1970 and the
end of year 9999; the basic format adds the nanoseconds. -/
theorem c91_local (off : Int → Int) {t : TB} (h : Normalised t) (h0 : 0 ≤ total t)
    (hlo : 0 ≤ total t / 1000000000 + off (total t / 1000000000))
    (hhi : total t / 1000000000 + off (total t / 1000000000) < 253402300800) :
    formatExtLocal off t = .ok (fieldsOf (total t / 1000000000 + off (total t / 1000000000))).ext ∧
    formatIsoLocal off t = .ok ((fieldsOf (total t / 1000000000 + off (total t / 1000000000))).basic
      ++ [','] ++ dec 9 (total t % 1000000000).toNat) := by
  obtain ⟨h1, h2, _⟩ := secs_nonneg h h0
  constructor
  · rw [formatExtLocal, h2, strfTimeExt_ok hlo hhi]
  · simp only [formatIsoLocal, adjustNsec_eq h, strfTime_ok hlo hhi, bind, Outcome.bind]

example : formatIsoLocal (fun _ => 3600) ⟨5101199, 5⟩ = .ok "19700301T015959,000000005".toList ∧
    formatExtLocal (fun _ => 3600) ⟨5101199, 5⟩ = .ok "1970-03-01 01:59:59".toList := by
  constructor
  · rw [(c91_local _ (by decide) (by decide) (by decide) (by decide)).2]; decide +kernel
  · rw [(c91_local _ (by decide) (by decide) (by decide) (by decide)).1]; decide +kernel

/-- C91 (the local formats with the zone UTC are the UTC formats), for every time stamp. -/
theorem c91_local_utc (t : TB) :
    formatExtLocal (fun _ => 0) t = formatExtUTC t ∧ formatIsoLocal (fun _ => 0) t = formatIso t := by
  simp only [formatExtLocal, formatExtUTC, formatIsoLocal, formatIso, Int.add_zero, and_self]

theorem ext_lt {s u : Int} (h0 : 0 ≤ s) (hmax : u < 253402300800) (h : s < u) :
    (fieldsOf s).ext < (fieldsOf u).ext := by
  obtain ⟨m, hm'⟩ : ∃ n : Nat, s / 86400 = n := ⟨(s / 86400).toNat, by omega⟩
  obtain ⟨n, hn'⟩ : ∃ n : Nat, u / 86400 = n := ⟨(u / 86400).toNat, by omega⟩
  have hvm := (date_ok m).1
  have hvn := (date_ok n).1
  have hym := year_le (n := m) (by omega)
  have hyn := year_le (n := n) (by omega)
  have hml : ∀ y m, monthLength y m ≤ 31 := by
    intro y m; unfold monthLength; split <;> (try split) <;> omega
  simp only [fieldsOf, Fields.ext, hm', hn', List.append_assoc]
  simp only [Date.Valid] at hvm hvn
  have hnd := hml (dateOfDay n).y (dateOfDay n).m
  rcases Nat.lt_or_ge m n with hmn | hmn
  · rcases date_before m n hmn with h | ⟨h, h'⟩
    · exact lt_append_right _ _ _ _ (by simp [dec_length]) (dec_lt 4 _ _ (by omega) (by omega))
    · rw [h]
      apply lt_append_left; apply lt_append_left
      rcases h' with h' | ⟨h', h''⟩
      · exact lt_append_right _ _ _ _ (by simp [dec_length]) (dec_lt 2 _ _ (by omega) (by omega))
      · rw [h']
        exact lt_append_left _ _ _ (lt_append_left _ _ _
          (lt_append_right _ _ _ _ (by simp [dec_length]) (dec_lt 2 _ _ (by omega) (by omega))))
  · have hmn' : m = n := by omega
    subst hmn'
    apply lt_append_left; apply lt_append_left; apply lt_append_left; apply lt_append_left
    apply lt_append_left; apply lt_append_left
    generalize hx : (s % 86400).toNat = x at *
    generalize hy : (u % 86400).toNat = y at *
    have hxy : x < y := by omega
    have hy' : y < 86400 := by omega
    by_cases c1 : x / 3600 < y / 3600
    · exact lt_append_right _ _ _ _ (by simp [dec_length]) (dec_lt 2 _ _ (by omega) c1)
    · have e1 : x / 3600 = y / 3600 := by omega
      rw [e1]; apply lt_append_left; apply lt_append_left
      by_cases c2 : x / 60 % 60 < y / 60 % 60
      · exact lt_append_right _ _ _ _ (by simp [dec_length]) (dec_lt 2 _ _ (by omega) c2)
      · have e2 : x / 60 % 60 = y / 60 % 60 := by omega
        rw [e2]; apply lt_append_left; apply lt_append_left
        exact dec_lt 2 _ _ (by omega) (by omega)

/-- C91 (order). From 1970 to the end of year 9999 the extended UTC texts have 19 characters,
and comparing them as strings compares the seconds in which the instants lie. -/
theorem c91_order {t u : TB} (ht : Normalised t) (hu : Normalised u) (ht0 : 0 ≤ total t)
    (hu0 : 0 ≤ total u) (htm : total t < 253402300800 * 1000000000)
    (hum : total u < 253402300800 * 1000000000) :
    ∃ a b : List Char, formatExtUTC t = .ok a ∧ formatExtUTC u = .ok b ∧ a.length = 19 ∧ b.length = 19 ∧
      (a < b ↔ total t / 1000000000 < total u / 1000000000) ∧
      (a = b ↔ total t / 1000000000 = total u / 1000000000) := by
  refine ⟨_, _, c91_utc_partial ht ht0 htm, c91_utc_partial hu hu0 hum,
    by simp [Fields.ext, dec_length], by simp [Fields.ext, dec_length], ?_, ?_⟩
  all_goals
    generalize hx : total t / 1000000000 = x
    generalize hy : total u / 1000000000 = y
    rcases Int.lt_trichotomy x y with h | h | h
  · have := ext_lt (s := x) (u := y) (by omega) (by omega) h
    exact ⟨fun _ => h, fun _ => this⟩
  · subst h; simp
  · have := ext_lt (s := y) (u := x) (by omega) (by omega) h
    exact ⟨fun h' => absurd (List.lt_trans h' this) (List.lt_irrefl _), fun h' => by omega⟩
  · have := ext_lt (s := x) (u := y) (by omega) (by omega) h
    exact ⟨fun h' => by rw [h'] at this; exact absurd this (List.lt_irrefl _), fun h' => by omega⟩
  · subst h; simp
  · have := ext_lt (s := y) (u := x) (by omega) (by omega) h
    exact ⟨fun h' => by rw [h'] at this; exact absurd this (List.lt_irrefl _), fun h' => by omega⟩

example : ∃ a b, formatExtUTC ⟨1, 7⟩ = .ok a ∧ formatExtUTC ⟨4102444800, 0⟩ = .ok b ∧ a < b := by
  obtain ⟨a, b, h1, h2, _, _, h3, _⟩ := c91_order (t := ⟨1, 7⟩) (u := ⟨4102444800, 0⟩)
    (by decide) (by decide) (by decide) (by decide) (by decide) (by decide)
  exact ⟨a, b, h1, h2, h3.2 (by decide)⟩

/-- C91 (local texts cannot be ordered). When the clocks are put back, two instants one hour
apart have the same local text, and a later one can have a smaller one. -/
theorem c91_local_not_injective :
    let off : Int → Int := fun s => if s < 1478394000 then 7200 else 3600
    formatExtLocal off ⟨1478392200, 0⟩ = formatExtLocal off ⟨1478395800, 0⟩ ∧
    ∃ a b, formatExtLocal off ⟨1478393999, 0⟩ = .ok a ∧ formatExtLocal off ⟨1478394000, 0⟩ = .ok b ∧ b < a := by
  refine ⟨by simp [formatExtLocal], ?_⟩
  refine ⟨_, _, (c91_local _ (t := ⟨1478393999, 0⟩) (by decide) (by decide) (by decide) (by decide)).1,
    (c91_local _ (t := ⟨1478394000, 0⟩) (by decide) (by decide) (by decide) (by decide)).1, ?_⟩
  exact ext_lt (by decide) (by decide) (by decide)

/-- C91 (both UTC formats name the same date). From 1970 to 9999 the extended
and the basic text show the same date and time fields. -/
theorem c91_same_fields {t : TB} (h : Normalised t) (h0 : 0 ≤ total t)
    (hmax : total t < 253402300800 * 1000000000) :
    ∃ f : Fields, formatExtUTC t = .ok f.ext ∧
      formatIso t = .ok (f.basic ++ [','] ++ dec 9 (total t % 1000000000).toNat) := by
  refine ⟨_, c91_utc_partial h h0 hmax, ?_⟩
  rw [c09_format_instant h, strfTime_ok (by omega) (by omega)]
  rfl

theorem monthSum_le (y : Int) (k : Nat) (hk : k ≤ 12) : monthSum y k ≤ monthSum y 12 := by
  obtain ⟨j, hj⟩ : ∃ j, 12 = k + j := ⟨12 - k, by omega⟩
  rw [hj]
  clear hj hk
  induction j with
  | zero => simp
  | succ j ih => exact Nat.le_trans ih (by show _ ≤ monthSum y (k + j) + _; omega)

/-- A date up to the year 9999 is at most day number 2932896. -/
theorem dayNo_lt {x : Date} (hv : x.Valid) (hy : x.y ≤ 9999) : dayNo x < 2932897 := by
  have hm := yearLoop_mono (a := (x.y - 1970).toNat + 1) (b := 8030) (by have := hv.1; omega)
  rw [yearLoop_8030] at hm
  have hstep : yearLoop ((x.y - 1970).toNat + 1) = yearLoop (x.y - 1970).toNat + monthSum x.y 12 := by
    rw [yearLoop, monthSum_twelve]
    have e : (1970 : Int) + ((x.y - 1970).toNat : Int) = x.y := by have := hv.1; omega
    simp only [e, leap_eq]
  have hh := monthSum_le x.y x.m hv.2.2.1
  obtain ⟨q, hq⟩ : ∃ q, x.m = q + 1 := ⟨_, (Nat.sub_add_cancel hv.2.1).symm⟩
  simp only [Date.Valid] at hv
  simp only [dayNo]
  rw [hq] at hv hh ⊢
  simp only [Nat.add_sub_cancel]
  have : monthSum x.y (q + 1) = monthSum x.y q + monthLength x.y (q + 1) := rfl
  omega

/-- C91 (after year 9999). The text no longer fits the buffer and the result is undefined, for
every time stamp after the year 9999. -/
theorem c91_year_10000 {t : TB} (h : 253402300800 ≤ t.secs) : formatExtUTC t = .ub := by
  obtain ⟨n, hn⟩ : ∃ n : Nat, t.secs / 86400 = n := ⟨(t.secs / 86400).toNat, by omega⟩
  obtain ⟨hv, hd⟩ := date_ok n
  have : ¬ (dateOfDay n).y ≤ 9999 := fun hc => by have := dayNo_lt hv hc; omega
  simp only [formatExtUTC, strfTimeExt, hn, this, and_false, if_false]

end Verif.Time
