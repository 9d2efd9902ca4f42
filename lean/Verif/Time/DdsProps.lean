import Verif.Time.Dds
import Verif.Time.Props

/-!
# C105: conversions between time values and the records of other systems
-/
namespace Verif.Time

theorem wrapI64_U64 {x : Int} (h : I64 x) : wrapI64 (wrapU64 x) = x := by
  unfold I64 at h; unfold wrapI64 wrapU64; omega

theorem wrapI32_U32 {x : Int} (h : I32 x) : wrapI32 (wrapU32 x) = x := by
  unfold I32 at h; unfold wrapI32 wrapU32; omega

theorem norm_nsecs {t : TB} (h : Normalised t) : I32 t.nsecs := by
  obtain ⟨_, h1, h2, _, _⟩ := h
  unfold I32; omega

/-- C105. Every time stamp survives the library's own record, read back by construction or by assignment. -/
theorem c105_istamp_round_trip {t : TB} (h : Normalised t) :
    ofIStamp (toIStamp t) = .ok t ∧ assignIStamp (toIStamp t) = t := by
  have h1 := wrapI64_U64 h.1
  have h2 := wrapI32_U32 (norm_nsecs h)
  simp only [ofIStamp, assignIStamp, toIStamp, ctor, h1, h2]
  exact ⟨normalizeTime_fix h, trivial⟩

/-- C105. Every time span survives its record. -/
theorem c105_ispan_round_trip {t : TB} (h : Normalised t) :
    ofISpan (toISpan t) = .ok t ∧ assignISpan (toISpan t) = t := by
  simp only [ofISpan, assignISpan, toISpan, ctor]
  exact ⟨normalizeTime_fix h, trivial⟩

/-- C105. Every time survives the operating system's `timespec`. -/
theorem c105_timespec_round_trip {t : TB} (h : Normalised t) :
    ofTimespec (toTimespec t).sec (toTimespec t).nsec = .ok t := by
  have h2 : wrapI32 t.nsecs = t.nsecs := by have := norm_nsecs h; unfold I32 at this; unfold wrapI32; omega
  simp only [ofTimespec, toTimespec, h2]
  exact normalizeTime_fix h

/-- C105. A time stamp survives a DDS record if and only if its seconds fit into 32 bits (until 2038). -/
theorem c105_dds_round_trip_partial {t : TB} (h : Normalised t) :
    (ofDds (toDds t) = .ok t ↔ I32 t.secs) ∧ (assignDds (toDds t) = t ↔ I32 t.secs) := by
  have h2 := wrapI32_U32 (norm_nsecs h)
  have hw : ∀ x, I32 (wrapI32 x) := by intro x; unfold I32 wrapI32; omega
  have hI : I32 t.secs → wrapI32 t.secs = t.secs := by intro hi; unfold I32 at hi; unfold wrapI32; omega
  simp only [ofDds, assignDds, toDds, ctor, h2]
  constructor
  · constructor
    · intro hn
      have hs : I64 (wrapI32 t.secs) := by have := hw t.secs; unfold I32 at this; unfold I64; omega
      have hr : Representable (wrapI32 t.secs * 1000000000 + t.nsecs) := by
        apply rep_of_bounds
        have := hw t.secs; unfold I32 at this
        have := norm_nsecs h; unfold I32 at this
        omega
      obtain ⟨u, hu, _, ht⟩ := c06_normalize _ _ hs (norm_nsecs h) hr
      rw [hn] at hu
      injection hu with hu
      subst hu
      have hsec : t.secs = wrapI32 t.secs := by unfold total at ht; omega
      rw [hsec]; exact hw _
    · intro hi; rw [hI hi]; exact normalizeTime_fix h
  · constructor
    · intro hn
      have : wrapI32 t.secs = t.secs := congrArg TB.secs hn
      rw [← this]; exact hw _
    · intro hi; rw [hI hi]

/-- C105 (violation). 2038-01-19 03:14:08 UTC becomes 1901-12-13 in a DDS record, without any notice. -/
theorem c105_dds_2038 : toDds ⟨2147483648, 0⟩ = ⟨-2147483648, 0⟩ ∧ ofDds (toDds ⟨2147483648, 0⟩) = .ok ⟨-2147483648, 0⟩ :=
  ⟨by decide, normalizeTime_fix (by decide)⟩

/-- C105. What is constructed from a record is canonical and denotes the instant of the record, if its nanoseconds are less
than 2^31. -/
theorem c105_construct (r : Rec) (hs : I32 r.sec) (hn : 0 ≤ r.nsec ∧ r.nsec < 2147483648) :
    (∃ t, ofDds r = .ok t ∧ Normalised t ∧ total t = r.sec * 1000000000 + r.nsec) ∧
    (0 ≤ r.sec → ∃ t, ofIStamp r = .ok t ∧ Normalised t ∧ total t = r.sec * 1000000000 + r.nsec) := by
  unfold I32 at hs
  have h1 : wrapI32 r.nsec = r.nsec := by unfold wrapI32; omega
  have h2 : wrapI64 r.sec = r.sec := by unfold wrapI64; omega
  have hr : Representable (r.sec * 1000000000 + r.nsec) := rep_of_bounds (by omega)
  have h64 : I64 r.sec := by unfold I64; omega
  have h32 : I32 r.nsec := by unfold I32; omega
  simp only [ofDds, ofIStamp, ctor, h1, h2]
  exact ⟨c06_normalize _ _ h64 h32 hr, fun _ => c06_normalize _ _ h64 h32 hr⟩

/-- C105. The same for time spans and for time stamps with any number of seconds that is representable. -/
theorem c105_construct_wide (r : Rec) (hs : I64 r.sec) (hn : I32 r.nsec) (hr : Representable (r.sec * 1000000000 + r.nsec)) :
    (∃ t, ofISpan r = .ok t ∧ Normalised t ∧ total t = r.sec * 1000000000 + r.nsec) ∧
    (0 ≤ r.sec → 0 ≤ r.nsec → ∃ t, ofIStamp r = .ok t ∧ Normalised t ∧ total t = r.sec * 1000000000 + r.nsec) := by
  unfold I64 at hs
  unfold I32 at hn
  have h1 : wrapI32 r.nsec = r.nsec := by unfold wrapI32; omega
  have h2 : wrapI64 r.sec = r.sec := by unfold wrapI64; omega
  have h64 : I64 r.sec := by unfold I64; omega
  have h32 : I32 r.nsec := by unfold I32; omega
  simp only [ofISpan, ofIStamp, ctor, h1, h2]
  exact ⟨c06_normalize _ _ h64 h32 hr, fun _ _ => c06_normalize _ _ h64 h32 hr⟩

/-- C105 (violation). Nanoseconds of 2^31 or more in a record (they are unsigned there) are taken as negative: 3 s given as
nanoseconds become a time before the epoch. -/
theorem c105_large_nsec : ∃ t, ofIStamp ⟨0, 3000000000⟩ = .ok t ∧ total t = -1294967296 := by
  have e : wrapI32 3000000000 = -1294967296 := by decide
  have e2 : wrapI64 0 = 0 := by decide
  simp only [ofIStamp, ctor, e, e2]
  obtain ⟨t, h1, _, h3⟩ := c06_normalize 0 (-1294967296) (by decide) (by decide) (by decide)
  exact ⟨t, h1, by rw [h3]; decide⟩

/-- C105. Assigning a record gives the same value as constructing from it if and only if the record is canonical. -/
theorem c105_assign_canonical (r : Rec) (hs : I64 r.sec) (hn : I32 r.nsec) :
    ofISpan r = .ok (assignISpan r) ↔ Normalised ⟨r.sec, r.nsec⟩ := by
  simp only [ofISpan, assignISpan, ctor]
  constructor
  · intro h; exact c06_constructors_canonical _ _ _ hs hn h
  · intro h; exact normalizeTime_fix h

/-- C105 (violation). The assignment operators do not normalise: a DDS time of 1 s + 1.5e9 ns assigned to a time stamp is
neither equal to nor ordered correctly against the same instant constructed. -/
theorem c105_assign_not_canonical : ∃ t, ofDds ⟨1, 1500000000⟩ = .ok t ∧ total (assignDds ⟨1, 1500000000⟩) = total t ∧
    eq (assignDds ⟨1, 1500000000⟩) t = false ∧ lt (assignDds ⟨1, 1500000000⟩) t = true := by
  have e : wrapI32 1500000000 = 1500000000 := by decide
  refine ⟨⟨2, 500000000⟩, ?_, ?_, ?_, ?_⟩
  · simp only [ofDds, ctor, e]
    exact normalizeTime_to (by decide) (by decide) (by decide) (by decide)
  all_goals simp only [assignDds, e]; decide

/-- C105. Darwin's record holds the time if and only if the seconds fit into 32 bits and are not negative. -/
theorem c105_mach (t : TB) : (toMach t).sec = t.secs ∧ (toMach t).nsec = t.nsecs ↔ U32 t.secs := by
  unfold toMach wrapU32 U32
  constructor
  · intro h; have := h.1; simp only at this; omega
  · intro h; refine ⟨?_, rfl⟩; simp only; omega

-- a time stamp of today with nanoseconds, and a negative span
example : Normalised ⟨1700000000, 123456789⟩ ∧ I32 1700000000 ∧ toDds ⟨1700000000, 123456789⟩ = ⟨1700000000, 123456789⟩ := by decide
example : Normalised ⟨-5, -500⟩ ∧ toIStamp ⟨-5, -500⟩ = ⟨18446744073709551611, 4294966796⟩ := by decide
example : I64 7 ∧ I32 1500000000 ∧ Representable (7 * 1000000000 + 1500000000) ∧ ¬ Normalised ⟨7, 1500000000⟩ := by decide

end Verif.Time
