import Verif.Time.IsoLemmas

/-! # Shortened ISO 8601 texts (C09) -/
namespace Verif.Time

theorem cast00 : lexicalCast ['0', '0'] = .ok 0 := by decide
theorem cast01 : lexicalCast ['0', '1'] = .ok 1 := by decide

theorem cast000 : lexicalCast ['0', '0', '0', '0', '0', '0', '0', '0', '0'] = .ok 0 := by decide

/-- C09 (shortened texts). A text that ends after the year, the month, the day, the hour, the
minute or the second is read like the text completed with the first month, the first day,
midnight and so on: the result is the start of that year, month, day, hour, minute or second.
This holds for all texts of these lengths, also for malformed ones. -/
theorem c09_shortened (s : List Char) :
    (s.length = 4 → fromIso s = fromIso (s ++ "0101T000000".toList)) ∧
    (s.length = 6 → fromIso s = fromIso (s ++ "01T000000".toList)) ∧
    (s.length = 8 → fromIso s = fromIso (s ++ "T000000".toList)) ∧
    (s.length = 11 → fromIso s = fromIso (s ++ "0000".toList)) ∧
    (s.length = 13 → fromIso s = fromIso (s ++ "00".toList)) ∧
    (s.length = 15 → fromIso s = fromIso (s ++ ",000000000".toList)) := by
  have key : ∀ a b, isoFields a = isoFields b → fromIso a = fromIso b := by
    intro a b h; rw [fromIso, fromIso, h]
  refine ⟨?_, ?_, ?_, ?_, ?_, ?_⟩
  · intro h
    obtain ⟨c0, c1, c2, c3, rfl⟩ : ∃ c0 c1 c2 c3, s = [c0, c1, c2, c3] := by
      match s, h with
      | [c0, c1, c2, c3], _ => exact ⟨c0, c1, c2, c3, rfl⟩
    apply key
    simp [isoFields, substr, bind, Outcome.bind, cast00, cast01, cast000]
  · intro h
    obtain ⟨c0, c1, c2, c3, c4, c5, rfl⟩ : ∃ c0 c1 c2 c3 c4 c5, s = [c0, c1, c2, c3, c4, c5] := by
      match s, h with
      | [c0, c1, c2, c3, c4, c5], _ => exact ⟨c0, c1, c2, c3, c4, c5, rfl⟩
    apply key
    simp [isoFields, substr, bind, Outcome.bind, cast00, cast01, cast000]
  · intro h
    obtain ⟨c0, c1, c2, c3, c4, c5, c6, c7, rfl⟩ : ∃ c0 c1 c2 c3 c4 c5 c6 c7, s = [c0, c1, c2, c3, c4, c5, c6, c7] := by
      match s, h with
      | [c0, c1, c2, c3, c4, c5, c6, c7], _ => exact ⟨c0, c1, c2, c3, c4, c5, c6, c7, rfl⟩
    apply key
    simp [isoFields, substr, bind, Outcome.bind, cast00, cast01, cast000]
  · intro h
    obtain ⟨c0, c1, c2, c3, c4, c5, c6, c7, c8, c9, c10, rfl⟩ : ∃ c0 c1 c2 c3 c4 c5 c6 c7 c8 c9 c10, s = [c0, c1, c2, c3, c4, c5, c6, c7, c8, c9, c10] := by
      match s, h with
      | [c0, c1, c2, c3, c4, c5, c6, c7, c8, c9, c10], _ => exact ⟨c0, c1, c2, c3, c4, c5, c6, c7, c8, c9, c10, rfl⟩
    apply key
    simp [isoFields, substr, bind, Outcome.bind, cast00, cast01, cast000]
  · intro h
    obtain ⟨c0, c1, c2, c3, c4, c5, c6, c7, c8, c9, c10, c11, c12, rfl⟩ : ∃ c0 c1 c2 c3 c4 c5 c6 c7 c8 c9 c10 c11 c12, s = [c0, c1, c2, c3, c4, c5, c6, c7, c8, c9, c10, c11, c12] := by
      match s, h with
      | [c0, c1, c2, c3, c4, c5, c6, c7, c8, c9, c10, c11, c12], _ => exact ⟨c0, c1, c2, c3, c4, c5, c6, c7, c8, c9, c10, c11, c12, rfl⟩
    apply key
    simp [isoFields, substr, bind, Outcome.bind, cast00, cast01, cast000]
  · intro h
    obtain ⟨c0, c1, c2, c3, c4, c5, c6, c7, c8, c9, c10, c11, c12, c13, c14, rfl⟩ : ∃ c0 c1 c2 c3 c4 c5 c6 c7 c8 c9 c10 c11 c12 c13 c14, s = [c0, c1, c2, c3, c4, c5, c6, c7, c8, c9, c10, c11, c12, c13, c14] := by
      match s, h with
      | [c0, c1, c2, c3, c4, c5, c6, c7, c8, c9, c10, c11, c12, c13, c14], _ => exact ⟨c0, c1, c2, c3, c4, c5, c6, c7, c8, c9, c10, c11, c12, c13, c14, rfl⟩
    apply key
    simp [isoFields, substr, bind, Outcome.bind, cast00, cast01, cast000]

example : fromIso "19700301T01".toList = fromIso "19700301T010000".toList :=
  (c09_shortened "19700301T01".toList).2.2.2.1 (by decide)

end Verif.Time
