import Verif.Conc.TimedWait

/-!
# C84: timed waiting gives up at its deadline
-/
namespace Verif.Conc.TimedWait
open Verif.Time

/-- C84 (POSIX, full): an absolute timeout is the moment the call gives up; a relative one of at least zero
gives up exactly that much later; a negative one after a year. -/
theorem c84_posix {now d t : TB} (hnow : Normalised now) (hd : Normalised d) :
    posixAbsolute t = .ok (.at (total t)) ∧
    (0 ≤ total d → Representable (total now + total d) →
      posixRelative now d = .ok (.at (total now + total d))) ∧
    (total d < 0 → Representable (total now + 31536000000000000) →
      posixRelative now d = .ok (.at (total now + 31536000000000000))) := by
  have h := c60_absolute hnow hd
  refine ⟨rfl, ?_, ?_⟩
  · intro h0 hr
    obtain ⟨t, e, _, v⟩ := h.1 h0 hr
    unfold posixRelative
    rw [e]
    show posixAbsolute t = _
    unfold posixAbsolute posixTimed
    rw [← v]; rfl
  · intro h0 hr
    obtain ⟨t, e, _, v⟩ := h.2 h0 hr
    unfold posixRelative
    rw [e]
    show posixAbsolute t = _
    unfold posixAbsolute posixTimed
    rw [← v]; rfl

example : Normalised ⟨1700000000, 5⟩ ∧ Normalised ⟨2, 1⟩ ∧ 0 ≤ total ⟨2, 1⟩ ∧
    Representable (total ⟨1700000000, 5⟩ + total ⟨2, 1⟩) := by decide

/-- C84 (Windows, exact for every relative timeout of less than 2^63 ms): the whole milliseconds (rounded
towards zero) modulo 2^32 are waited; forever if they are 2^32 - 1. -/
theorem c84_win32_relative_exact {now d : TB} (hd : Normalised d) (hm : I64 ((total d).tdiv 1000000)) :
    win32Relative now d = .ok (if (total d).tdiv 1000000 % 4294967296 = 4294967295 then .never
      else .at (total now + (total d).tdiv 1000000 % 4294967296 * 1000000)) := by
  have h := (c08_to hd).1 hm
  unfold win32Relative
  rw [h]
  rfl

/-- C84 (Windows, relative): from zero to 2^32 - 2 milliseconds the call gives up at the requested time or
less than a millisecond earlier.
Missing: negative and longer timeouts (`c84_win32_negative`, `c84_win32_long`). -/
theorem c84_win32_relative_partial {now d : TB} (hd : Normalised d) (h0 : 0 ≤ total d)
    (h1 : total d < 4294967295000000) :
    ∃ ns, win32Relative now d = .ok (.at ns) ∧ ns ≤ total now + total d ∧ total now + total d < ns + 1000000 := by
  have ht := tdm (total d) 1000000 (by decide)
  refine ⟨total now + (total d).tdiv 1000000 * 1000000, ?_, by omega, by omega⟩
  rw [c84_win32_relative_exact hd (by unfold I64; omega), if_neg (by omega)]
  congr 4
  omega

/-- C84 (Windows, absolute): a deadline in the past gives up at once; a deadline less than 49.7 days ahead
gives up less than a millisecond early, plus the time that passed between the two clock readings.
Missing: deadlines further ahead (`c84_win32_long`). -/
theorem c84_win32_absolute_partial {now now' t : TB} (hn : Normalised now)
    (ht : Normalised t) (h0 : 0 ≤ total now) (hl : total t - total now < 4294967295000000) :
    (total t ≤ total now → win32Absolute now now' t = .ok (.at (total now'))) ∧
    (total now < total t → ∃ ns, win32Absolute now now' t = .ok (.at ns) ∧
      ns ≤ total t + (total now' - total now) ∧ total t + (total now' - total now) < ns + 1000000) := by
  have b1 := rep_bounds (total_rep hn)
  have b2 := rep_bounds (total_rep ht)
  by_cases hlt : total t ≤ total now
  · refine ⟨fun _ => ?_, fun h => by omega⟩
    have : ∃ d, getRelativeTimeout now t = .ok d ∧ Normalised d ∧ total d = 0 := by
      by_cases heq : lt t now = true
      · exact ⟨zero, by simp [getRelativeTimeout, heq], by decide, by decide⟩
      · have hge : ¬ total t < total now := fun h => heq ((c07_compare ht hn).1.2 h)
        obtain ⟨d, e, n, v⟩ := c60_relative hn ht (rep_of_bounds (by omega)) (rep_of_bounds (by omega))
        exact ⟨d, e, n, by omega⟩
    obtain ⟨d, e, n, v⟩ := this
    unfold win32Absolute
    rw [e]
    show win32Relative now' d = _
    rw [c84_win32_relative_exact n (by rw [v]; decide), v]
    simp
  · refine ⟨fun h => by omega, fun h => ?_⟩
    obtain ⟨d, e, n, v⟩ := c60_relative hn ht (rep_of_bounds (by omega)) (rep_of_bounds (by omega))
    obtain ⟨ns, e2, h2, h3⟩ := c84_win32_relative_partial (now := now') n (by omega) (by omega)
    refine ⟨ns, ?_, by omega, by omega⟩
    unfold win32Absolute
    rw [e]
    exact e2

example : Normalised ⟨1700000000, 5⟩ ∧ Normalised ⟨1700000002, 0⟩ ∧ 0 ≤ total ⟨1700000000, 5⟩ ∧
    total ⟨1700000002, 0⟩ - total ⟨1700000000, 5⟩ < 4294967295000000 := by decide

/-- C84 violated (Windows): a negative timeout of one to 2^31 milliseconds waits for more than 24 days,
forever for -1 ms; on POSIX the same call waits for a year. -/
theorem c84_win32_negative {now d : TB} (hd : Normalised d) (h0 : total d ≤ -1000000)
    (h1 : -2147483648000000 ≤ total d) :
    win32Relative now d = .ok .never ∨
    ∃ ns, win32Relative now d = .ok (.at ns) ∧ total now + 2147483648000000 ≤ ns := by
  have ht := tdm (total d) 1000000 (by decide)
  rw [c84_win32_relative_exact hd (by unfold I64; omega)]
  split
  · exact Or.inl rfl
  · exact Or.inr ⟨_, rfl, by omega⟩

/-- C84 violated (Windows), the two extreme cases: -1 ms is forever, and so is 49 days 17 hours 2 minutes
47.295 seconds; one millisecond more gives up at once. -/
theorem c84_win32_long (now : TB) :
    win32Relative now ⟨0, -1000000⟩ = .ok .never ∧
    win32Relative now ⟨4294967, 295000000⟩ = .ok .never ∧
    win32Relative now ⟨4294967, 296000000⟩ = .ok (.at (total now)) := by
  refine ⟨?_, ?_, ?_⟩ <;>
    (rw [c84_win32_relative_exact (by decide) (by decide)]; simp [total])

/-- C84 (Darwin semaphores): exact for timeouts from zero to 2^32 seconds. -/
theorem c84_darwin_sem_partial {now d : TB} (hd : Normalised d) (h0 : 0 ≤ total d) (h1 : d.secs < 4294967296) :
    darwinSemRelative now d = .ok (.at (total now + total d)) := by
  have : 0 ≤ d.secs := by
    have := hd.2.2.2.2
    unfold total at h0
    have := hd.2.1
    omega
  unfold darwinSemRelative
  have e : wrapU32 d.secs = d.secs := by unfold wrapU32; omega
  rw [e]
  unfold total
  congr 2
  omega

/-- C84 (Darwin semaphores, absolute), full for deadlines less than 2^32 seconds ahead: a deadline that is
not ahead gives up at once, any other exactly at the deadline, plus the time that passed between the two
clock readings. Missing: deadlines further ahead (`c84_darwin_sem_far`). -/
theorem c84_darwin_sem_absolute_partial {now now' t : TB} (hn : Normalised now) (ht : Normalised t)
    (h0 : 0 ≤ total now) (hl : total t - total now < 4294967296000000000) :
    (total t ≤ total now → darwinSemAbsolute now now' t = .ok (.at (total now'))) ∧
    (total now < total t →
      darwinSemAbsolute now now' t = .ok (.at (total t + (total now' - total now)))) := by
  have b1 := rep_bounds (total_rep hn)
  have b2 := rep_bounds (total_rep ht)
  have key : ∀ d, Normalised d → 0 ≤ total d → total d < 4294967296000000000 →
      getRelativeTimeout now t = .ok d → darwinSemAbsolute now now' t = .ok (.at (total now' + total d)) := by
    intro d n h1 h2 e
    unfold darwinSemAbsolute
    rw [e]
    refine c84_darwin_sem_partial n h1 ?_
    have := n.2.1
    have := n.2.2.1
    unfold total at h1 h2
    have := n.2.2.2.1
    have := n.2.2.2.2
    omega
  by_cases hlt : total t ≤ total now
  · refine ⟨fun _ => ?_, fun h => by omega⟩
    have : ∃ d, getRelativeTimeout now t = .ok d ∧ Normalised d ∧ total d = 0 := by
      by_cases heq : lt t now = true
      · exact ⟨zero, by simp [getRelativeTimeout, heq], by decide, by decide⟩
      · have hge : ¬ total t < total now := fun h => heq ((c07_compare ht hn).1.2 h)
        obtain ⟨d, e, n, v⟩ := c60_relative hn ht (rep_of_bounds (by omega)) (rep_of_bounds (by omega))
        exact ⟨d, e, n, by omega⟩
    obtain ⟨d, e, n, v⟩ := this
    rw [key d n (by omega) (by omega) e, v]
    simp
  · refine ⟨fun h => by omega, fun h => ?_⟩
    obtain ⟨d, e, n, v⟩ := c60_relative hn ht (rep_of_bounds (by omega)) (rep_of_bounds (by omega))
    rw [key d n (by omega) (by omega) e]
    congr 2
    omega

example : Normalised ⟨1700000000, 5⟩ ∧ Normalised ⟨1700000002, 0⟩ ∧ 0 ≤ total ⟨1700000000, 5⟩ ∧
    total ⟨1700000002, 0⟩ - total ⟨1700000000, 5⟩ < 4294967296000000000 := by decide

/-- C84 violated (Darwin semaphores): a deadline exactly 2^32 seconds ahead gives up at once. -/
theorem c84_darwin_sem_far (now' : TB) :
    darwinSemAbsolute ⟨0, 0⟩ now' ⟨4294967296, 0⟩ = .ok (.at (total now')) := by
  have e : getRelativeTimeout ⟨0, 0⟩ ⟨4294967296, 0⟩ = .ok ⟨4294967296, 0⟩ := by decide +kernel
  unfold darwinSemAbsolute
  rw [e]
  show Outcome.ok (Limit.at _) = _
  congr 2
  simp [wrapU32]

/-- C84 violated (Darwin semaphores): a timeout of minus one second waits for 136 years. -/
theorem c84_darwin_sem_negative (now : TB) :
    darwinSemRelative now ⟨-1, 0⟩ = .ok (.at (total now + 4294967295000000000)) := by
  unfold darwinSemRelative
  congr 2
  simp [wrapU32]

/-- C84 (Darwin mutex and read-write lock, full): for every sequence of polls, the loop reports success at
the first successful attempt, provided no earlier attempt was after the deadline; it reports failure at the
first unsuccessful attempt at or after the deadline; and it goes on exactly as long as all attempts failed
before the deadline. -/
theorem c84_darwin_poll {t : TB} (ht : Normalised t) (ps : List Poll) (hp : ∀ p ∈ ps, Normalised p.now) :
    (darwinPoll t ps = none ↔ ∀ p ∈ ps, p.got = false ∧ total p.now < total t) ∧
    (darwinPoll t ps = some true ↔ ∃ a p b, ps = a ++ p :: b ∧ p.got = true ∧
      ∀ q ∈ a, q.got = false ∧ total q.now < total t) ∧
    (darwinPoll t ps = some false ↔ ∃ a p b, ps = a ++ p :: b ∧ p.got = false ∧ total t ≤ total p.now ∧
      ∀ q ∈ a, q.got = false ∧ total q.now < total t) := by
  induction ps with
  | nil => simp [darwinPoll]
  | cons p ps ih =>
    obtain ⟨i1, i2, i3⟩ := ih (fun q hq => hp q (by simp [hq]))
    have hc := (c07_compare ht (hp p (by simp))).2.2.1
    have split_head : ∀ {P : Poll → Prop} {Q : Poll → Prop},
        (∃ a q b, p :: ps = a ++ q :: b ∧ P q ∧ ∀ x ∈ a, Q x) ↔
        (P p ∨ (Q p ∧ ∃ a q b, ps = a ++ q :: b ∧ P q ∧ ∀ x ∈ a, Q x)) := by
      intro P Q
      constructor
      · rintro ⟨a, q, b, e, h1, h2⟩
        cases a with
        | nil => simp at e; rw [e.1]; exact Or.inl h1
        | cons x a =>
          simp at e
          refine Or.inr ⟨by rw [e.1]; exact h2 x (by simp), a, q, b, e.2, h1, fun y hy => h2 y (by simp [hy])⟩
      · rintro (h | ⟨h, a, q, b, e, h1, h2⟩)
        · exact ⟨[], p, ps, rfl, h, by simp⟩
        · refine ⟨p :: a, q, b, by rw [e]; rfl, h1, ?_⟩
          intro x hx
          rcases List.mem_cons.1 hx with rfl | hx
          · exact h
          · exact h2 x hx
    have s3 := split_head (P := fun p => p.got = false ∧ total t ≤ total p.now)
      (Q := fun q => q.got = false ∧ total q.now < total t)
    have s2 := split_head (P := fun p => p.got = true) (Q := fun q => q.got = false ∧ total q.now < total t)
    simp only [and_assoc] at s2 s3
    rw [s2, s3]
    unfold darwinPoll
    cases hg : p.got
    · by_cases hlt : total p.now < total t
      · have : gt t p.now = true := hc.2 (by omega)
        simp only [this, if_true, Bool.false_eq_true, if_false, List.forall_mem_cons, hg, hlt, true_and, false_or]
        refine ⟨i1, i2, ?_⟩
        rw [i3]
        constructor
        · exact Or.inr
        · rintro (h | h)
          · omega
          · exact h
      · have : gt t p.now = false := by
          cases h : gt t p.now
          · rfl
          · have := hc.1 h; omega
        have h2 : total t ≤ total p.now := by omega
        simp [this, hg, hlt, h2]
    · simp [hg]

/-- The loop gives up: once the clock has reached the deadline, at most one attempt follows. -/
example : darwinPoll ⟨5, 0⟩ [⟨false, ⟨4, 0⟩⟩, ⟨false, ⟨5, 0⟩⟩] = some false ∧
    darwinPoll ⟨5, 0⟩ [⟨false, ⟨4, 0⟩⟩, ⟨true, ⟨6, 0⟩⟩] = some true ∧
    darwinPoll ⟨5, 0⟩ [⟨false, ⟨4, 0⟩⟩, ⟨false, ⟨4, 999999999⟩⟩] = none := by decide

end Verif.Conc.TimedWait
