import Verif.Base

/-!
# `icl_core_logging/LogLevel.cpp` (C50)

A `LogLevel` is its number (the enumeration starts at 0; a cast may give any unsigned number).
-/
namespace Verif.Logging

/-- LogLevel.cpp:30-39 `log_level_descriptions` without the final NULL. -/
def descriptions : List String := ["Trace", "Debug", "Info", "Warning", "Error", "Mute"]

/-- LogLevel.h:49-57 `eLL_MUTE`. -/
def eMute : Nat := 5

/-- LogLevel.cpp:41-51 `logLevelDescription`. -/
def logLevelDescription (l : Nat) : String := if l > eMute then "" else descriptions.getD l ""

/-- LogLevel.cpp:55 the loop from `index` on; `n` iterations are left. -/
def searchLevel (t : String) (cur : Nat) : Nat → Nat → Bool × Nat
  | 0, _ => (false, cur)
  | n + 1, index => if t = descriptions.getD index "" then (true, index) else searchLevel t cur n (index + 1)

/-- LogLevel.cpp:53-65 `stringToLogLevel`: the returned flag and the value of `log_level`
afterwards, `cur` being the value before. -/
def stringToLogLevel (t : String) (cur : Nat) : Bool × Nat := searchLevel t cur (eMute + 1) 0

/-- The documented names, in ascending order of severity (LogLevel.h:36-57). -/
def specNames : List (String × Nat) :=
  [("Trace", 0), ("Debug", 1), ("Info", 2), ("Warning", 3), ("Error", 4), ("Mute", 5)]

/-- C50: names and levels correspond; every other text is rejected and leaves the output alone. -/
theorem c50_stringToLogLevel (t : String) (cur : Nat) :
    (∀ l, (t, l) ∈ specNames → stringToLogLevel t cur = (true, l)) ∧
    ((∀ l, (t, l) ∉ specNames) → stringToLogLevel t cur = (false, cur)) := by
  constructor
  · intro l h
    simp only [specNames, List.mem_cons, Prod.mk.injEq, List.not_mem_nil, or_false] at h
    rcases h with ⟨rfl, rfl⟩ | ⟨rfl, rfl⟩ | ⟨rfl, rfl⟩ | ⟨rfl, rfl⟩ | ⟨rfl, rfl⟩ | ⟨rfl, rfl⟩ <;> rfl
  · intro h
    have h0 : t ≠ "Trace" := fun e => h 0 (by simp [specNames, e])
    have h1 : t ≠ "Debug" := fun e => h 1 (by simp [specNames, e])
    have h2 : t ≠ "Info" := fun e => h 2 (by simp [specNames, e])
    have h3 : t ≠ "Warning" := fun e => h 3 (by simp [specNames, e])
    have h4 : t ≠ "Error" := fun e => h 4 (by simp [specNames, e])
    have h5 : t ≠ "Mute" := fun e => h 5 (by simp [specNames, e])
    simp [stringToLogLevel, eMute, searchLevel, descriptions, h0, h1, h2, h3, h4, h5]

/-- C50: reading back a description gives the level, and different levels have different
descriptions. -/
theorem c50_roundtrip (l cur : Nat) (h : l ≤ 5) : stringToLogLevel (logLevelDescription l) cur = (true, l) := by
  match l, h with
  | 0, _ => rfl
  | 1, _ => rfl
  | 2, _ => rfl
  | 3, _ => rfl
  | 4, _ => rfl
  | 5, _ => rfl

/-- C50: a level outside the enumeration has the empty description, which is not read back. -/
theorem c50_out_of_range (l cur : Nat) (h : 5 < l) :
    logLevelDescription l = "" ∧ stringToLogLevel (logLevelDescription l) cur = (false, cur) := by
  have : logLevelDescription l = "" := if_pos h
  rw [this]
  exact ⟨rfl, rfl⟩

example : stringToLogLevel "Warning" 1 = (true, 3) ∧ stringToLogLevel "warning" 1 = (false, 1) := by decide

end Verif.Logging
