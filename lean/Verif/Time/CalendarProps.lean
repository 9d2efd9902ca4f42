import Verif.Time.DdsProps
import Verif.Time.Iso

/-!
# The calendar of the specification, before and after 1970 (C09); the ranges of the records (C105)
-/
namespace Verif.Time

/-- A date of the calendar, of any year. -/
def Date.Proper (x : Date) : Prop := 1 ≤ x.m ∧ x.m ≤ 12 ∧ 1 ≤ x.d ∧ x.d ≤ monthLength x.y x.m

theorem monthLength_pos (y : Int) (m : Nat) : 1 ≤ monthLength y m := by
  unfold monthLength; split <;> (try split) <;> omega

theorem monthLength_december (y : Int) : monthLength y 12 = 31 := rfl

theorem proper_prev {x : Date} (h : x.Proper) : (prevDay x).Proper := by
  obtain ⟨h1, h2, h3, h4⟩ := h
  unfold prevDay
  split
  · exact ⟨h1, h2, by dsimp only; omega, by dsimp only; omega⟩
  · split
    · exact ⟨by dsimp only; omega, by dsimp only; omega, monthLength_pos _ _, Nat.le_refl _⟩
    · exact ⟨Nat.le_add_left 1 11, Nat.le_refl 12, Nat.le_add_left 1 30, Nat.le_refl 31⟩

theorem next_prev {x : Date} (h : x.Proper) : nextDay (prevDay x) = x := by
  obtain ⟨y, m, d⟩ := x
  obtain ⟨h1, h2, h3, h4⟩ := h
  dsimp only at h1 h2 h3 h4
  unfold prevDay
  dsimp only
  split
  · unfold nextDay
    dsimp only
    rw [if_pos (by omega)]
    simp only [Date.mk.injEq, true_and]; omega
  · split
    · unfold nextDay
      dsimp only
      rw [if_neg (by omega), if_pos (by omega)]
      simp only [Date.mk.injEq, true_and]; omega
    · unfold nextDay
      simp only [monthLength_december, Nat.lt_irrefl, if_false, Date.mk.injEq]
      omega

theorem proper_times : ∀ n : Nat, (times prevDay n ⟨1970, 1, 1⟩).Proper
  | 0 => by unfold Date.Proper; decide
  | n + 1 => proper_prev (proper_times n)

/-- The date of day 0 is the first of January 1970, and the date of each day, before or after it, is followed by that of the next
day. -/
theorem c09_calendar : dateOfDay 0 = ⟨1970, 1, 1⟩ ∧ ∀ n : Int, dateOfDay (n + 1) = nextDay (dateOfDay n) := by
  refine ⟨rfl, fun n => ?_⟩
  by_cases h : 0 ≤ n
  · simp only [dateOfDay, h, if_true, show 0 ≤ n + 1 by omega]
    rw [show (n + 1).toNat = n.toNat + 1 by omega]; rfl
  · obtain ⟨k, rfl⟩ : ∃ k : Nat, n = -((k : Int) + 1) := ⟨(-n).toNat - 1, by omega⟩
    have e1 : dateOfDay (-((k : Int) + 1)) = times prevDay (k + 1) ⟨1970, 1, 1⟩ := by
      rw [dateOfDay, if_neg h]; congr 1
    rw [e1, times, next_prev (proper_times k)]
    rcases k with _ | k
    · rfl
    · rw [dateOfDay, if_neg (by omega)]; congr 1

/-- The fields of all records are in the ranges of their types (timespec, and so the DDS nanoseconds, below one second). -/
theorem c105_fields {t : TB} (h : Normalised t) :
    I32 (toDds t).sec ∧ U32 (toDds t).nsec ∧ U64 (toIStamp t).sec ∧ U32 (toIStamp t).nsec ∧ U32 (toMach t).sec ∧
    I64 (toTimespec t).sec := by
  have := norm_nsecs h
  have h1 := h.1
  simp only [toDds, toIStamp, toMach, toTimespec, wrapI32, wrapU32, wrapU64, I32, I64, U32, U64] at *
  omega

/-- A time stamp is stored with its own number of seconds exactly if that is in the range of the field. -/
theorem c105_in_range (t : TB) :
    ((toIStamp t).sec = t.secs ↔ U64 t.secs) ∧ ((toMach t).sec = t.secs ↔ U32 t.secs) ∧ ((toDds t).sec = t.secs ↔ I32 t.secs) := by
  simp only [toDds, toIStamp, toMach, wrapI32, wrapU32, wrapU64, I32, U32, U64]
  omega

example : dateOfDay (-1) = ⟨1969, 12, 31⟩ ∧ dateOfDay (-671) = ⟨1968, 3, 1⟩ ∧ dateOfDay (-672) = ⟨1968, 2, 29⟩ := by decide +kernel

example : Normalised ⟨-5, 0⟩ ∧ (toMach ⟨-5, 0⟩).sec ≠ -5 := by decide

end Verif.Time
