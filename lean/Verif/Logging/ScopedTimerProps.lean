import Verif.Logging.ScopedTimer

/-!
# C82: scoped timers
-/
namespace Verif.Logging.ScopedTimer
open Verif.Time

theorem rep_of_i64 {x : Int} (h : I64 x) : Representable x := by
  unfold Representable I64 at *
  have := tdm x 1000000000 (by decide)
  omega

/-- The number printed is the difference of the clock readings in nanoseconds. -/
theorem elapsed_ok {t : Timer} {now : TB} (hs : Normalised t.start) (h0 : 0 ≤ total t.start)
    (hc : ClockOk t.start now) : t.elapsedText now = .ok (decText (total now - total t.start)) := by
  obtain ⟨hn, hd⟩ := hc
  have hneg : Representable (-total t.start) := by
    have := rep_bounds (total_rep hs)
    exact rep_of_bounds (by omega)
  obtain ⟨d, _, _, _, e1, n1, v1⟩ := c07_sub hn hs hneg (rep_of_i64 hd)
  have e2 := (c08_to n1).2.2 (by rw [v1]; exact hd)
  have e3 := c65_integers .i64 (total d) (by rw [v1]; simp only [IntTy.Fits]; unfold I64 at hd; omega)
  unfold Timer.elapsedText
  show Outcome.bind _ _ = _
  rw [e1]; show Outcome.bind (toNSec d) _ = _
  rw [e2]; simp only [Outcome.bind, e3]; rw [v1]

/-- The message of a report. -/
def msg (t : Timer) (r : Report) : Msg :=
  match r.extra with
  | none => ⟨[[], t.desc, ": ".toList, decText (total r.now - total t.start), " ns".toList], .endl⟩
  | some x => ⟨[[], t.desc, " (".toList, x, "): ".toList, decText (total r.now - total t.start), " ns".toList], .endl⟩

theorem print_ok {t : Timer} {now : TB} (hs : Normalised t.start) (h0 : 0 ≤ total t.start)
    (hc : ClockOk t.start now) (on f : Bool) :
    t.print on now = .ok (if on then [msg t ⟨none, f, now, on⟩] else []) := by
  unfold Timer.print
  cases on
  · rfl
  · rw [if_pos rfl, elapsed_ok hs h0 hc]; rfl

theorem printExtra_ok {t : Timer} {now : TB} (hs : Normalised t.start) (h0 : 0 ≤ total t.start)
    (hc : ClockOk t.start now) (x : List Char) (on f : Bool) :
    t.printExtra x on now = .ok (if on then [msg t ⟨some x, f, now, on⟩] else []) := by
  unfold Timer.printExtra
  cases on
  · rfl
  · rw [if_pos rfl, elapsed_ok hs h0 hc]; rfl

theorem stop_active {t : Timer} {now : TB} (hs : Normalised t.start) (h0 : 0 ≤ total t.start)
    (hc : ClockOk t.start now) (ha : t.active = true) (on : Bool) :
    t.stop on now = .ok ({ t with active := false }, if on then [msg t ⟨none, true, now, on⟩] else []) := by
  unfold Timer.stop
  rw [if_pos ha, print_ok hs h0 hc on true]; rfl

theorem stop_stopped {t : Timer} (now : TB) (ha : t.active = false) (on : Bool) :
    t.stop on now = .ok (t, []) := by
  have ht : ({ t with active := false } : Timer) = t := by rw [← ha]
  unfold Timer.stop
  rw [if_neg (by simp [ha]), ht]; rfl

/-- The messages due. -/
def dueMsgs (t : Timer) (rs : List Report) : List Msg := (rs.filter (·.on)).map (msg t)

theorem dueMsgs_cons (t : Timer) (r : Report) (rs : List Report) :
    dueMsgs t (r :: rs) = (if r.on then [msg t r] else []) ++ dueMsgs t rs := by
  unfold dueMsgs
  cases h : r.on <;> simp [h]

theorem life_stopped {t : Timer} (hs : Normalised t.start) (h0 : 0 ≤ total t.start) (ha : t.active = false)
    (es : List Ev) (on : Bool) (now : TB) (hc : ∀ e ∈ es, ClockOk t.start e.now) :
    t.life es on now = .ok (dueMsgs t ((es.map Ev.report).filter (! ·.final))) := by
  induction es generalizing t with
  | nil => simp [Timer.life, Timer.destroy, ha, dueMsgs]
  | cons e es ih =>
    have h1 := hc e (by simp)
    have ih' := ih hs h0 ha (fun e' he' => hc e' (by simp [he']))
    obtain ⟨c, n, o⟩ := e
    cases c with
    | print =>
      have := print_ok hs h0 h1 o false
      simp only at this
      show Outcome.bind (Outcome.bind _ _) _ = _
      simp only [this, Outcome.bind]
      show Outcome.bind _ _ = _
      rw [ih']
      simp [Outcome.bind, Ev.report, dueMsgs_cons]
    | printExtra x =>
      have := printExtra_ok hs h0 h1 x o false
      simp only at this
      show Outcome.bind (Outcome.bind _ _) _ = _
      simp only [this, Outcome.bind]
      show Outcome.bind _ _ = _
      rw [ih']
      simp [Outcome.bind, Ev.report, dueMsgs_cons]
    | stop =>
      show Outcome.bind (Timer.stop t o n) _ = _
      rw [stop_stopped n ha]
      show Outcome.bind (Timer.life t es on now) _ = _
      rw [ih']
      simp [Outcome.bind, Ev.report]

theorem life_active {t : Timer} (hs : Normalised t.start) (h0 : 0 ≤ total t.start) (ha : t.active = true)
    (es : List Ev) (on : Bool) (now : TB) (hc : ∀ e ∈ es, ClockOk t.start e.now) (hn : ClockOk t.start now) :
    t.life es on now = .ok (dueMsgs t (due (moments es on now))) := by
  induction es with
  | nil =>
    simp only [Timer.life, Timer.destroy, ha, if_true, print_ok hs h0 hn on true]
    simp [moments, due, dueMsgs_cons]
    rfl
  | cons e es ih =>
    have h1 := hc e (by simp)
    have ih' := ih (fun e' he' => hc e' (by simp [he']))
    obtain ⟨c, n, o⟩ := e
    cases c with
    | print =>
      have := print_ok hs h0 h1 o false
      simp only at this
      show Outcome.bind (Outcome.bind _ _) _ = _
      simp only [this, Outcome.bind]
      show Outcome.bind _ _ = _
      rw [ih']
      simp [Outcome.bind, Ev.report, dueMsgs_cons, moments, due]
    | printExtra x =>
      have := printExtra_ok hs h0 h1 x o false
      simp only at this
      show Outcome.bind (Outcome.bind _ _) _ = _
      simp only [this, Outcome.bind]
      show Outcome.bind _ _ = _
      rw [ih']
      simp [Outcome.bind, Ev.report, dueMsgs_cons, moments, due]
    | stop =>
      have hl := life_stopped (t := { t with active := false }) hs h0 rfl es on now
        (fun e' he' => hc e' (by simp [he']))
      show Outcome.bind (Timer.stop t o n) _ = _
      rw [stop_active hs h0 h1 ha]
      show Outcome.bind (Timer.life _ es on now) _ = _
      rw [hl]
      have : ∀ rs, dueMsgs { t with active := false } rs = dueMsgs t rs := fun rs => rfl
      simp [Outcome.bind, Ev.report, this, dueMsgs_cons, moments, due]

theorem decText_noNul (z : Int) : '\x00' ∉ decText z := by
  have h : ∀ n, '\x00' ∉ Nat.toDigits 10 n := by
    intro n hm
    have := Nat.isDigit_of_mem_toDigits (b := 10) (by decide) (by decide) hm
    exact absurd this (by decide)
  unfold decText
  split
  · intro hm
    rcases List.mem_cons.1 hm with hm | hm
    · exact absurd hm (by decide)
    · exact h _ hm
  · exact h _

theorem msg_expected (t : Timer) (r : Report) (hd : '\x00' ∉ t.desc) (hx : ∀ x, r.extra = some x → '\x00' ∉ x) :
    (msg t r).expected = (text t.desc r.extra (total r.now - total t.start)).take 2046 ++ ['\n'] := by
  have hz := decText_noNul (total r.now - total t.start)
  cases hr : r.extra with
  | none =>
    have := (c44_newline (msg t r) (by simp [msg, hr]) (by
      intro p hp
      simp only [msg, hr, List.mem_cons, List.not_mem_nil, or_false] at hp
      rcases hp with rfl | rfl | rfl | rfl | rfl
      · simp
      · exact hd
      · decide
      · exact hz
      · decide)).1
    rw [this]
    simp [msg, hr, text]
  | some x =>
    have := (c44_newline (msg t r) (by simp [msg, hr]) (by
      intro p hp
      simp only [msg, hr, List.mem_cons, List.not_mem_nil, or_false] at hp
      have hx' := hx x hr
      rcases hp with rfl | rfl | rfl | rfl | rfl | rfl | rfl
      · simp
      · exact hd
      · decide
      · exact hx'
      · decide
      · exact hz
      · decide)).1
    rw [this]
    simp [msg, hr, text]

theorem decText_short {z : Int} (h : I64 z) : (decText z).length + 1 < 2 ^ 64 := by
  have := c65_integers .i64 z (by simp only [IntTy.Fits]; unfold I64 at h; omega)
  unfold localText at this
  split at this
  · next hl => simp only [IntTy.buf] at hl; omega
  · simp at this

/-- Texts a caller can pass: less than 2^64 - 1 characters, no NUL. -/
def TextOk (x : List Char) : Prop := x.length + 1 < 2 ^ 64 ∧ '\x00' ∉ x

/-- C82: whatever calls a timer gets during its life, the log contains exactly one line per `print`
and one line for the first of `stop()` and the end of the scope, each with the description and the
nanoseconds since the construction. -/
theorem c82_lines (desc : List Char) (start : TB) (es : List Ev) (on : Bool) (now : TB)
    (hs : Normalised start) (h0 : 0 ≤ total start) (hd : TextOk desc)
    (hx : ∀ e ∈ es, ∀ x, e.call = .printExtra x → TextOk x)
    (hc : ∀ e ∈ es, ClockOk start e.now) (hn : ClockOk start now) :
    ∃ ms s, (create desc start).life es on now = .ok ms ∧
      runOps TStream.new (ms.flatMap Msg.ops) = some s ∧
      s.out = expected desc start es on now := by
  have hl := life_active (t := create desc start) hs h0 rfl es on now hc hn
  have hdue : ∀ r ∈ due (moments es on now), r ∈ moments es on now := by
    intro r hr
    unfold due at hr
    generalize moments es on now = rs at *
    simp only [List.mem_append] at hr
    rcases hr with hr | hr | hr
    · exact (List.takeWhile_prefix _).subset hr
    · exact (List.dropWhile_suffix _).subset (List.mem_of_mem_take hr)
    · exact (List.dropWhile_suffix _).subset (List.mem_of_mem_drop (List.mem_filter.1 hr).1)
  have hm : ∀ r ∈ moments es on now, ClockOk start r.now ∧ ∀ x, r.extra = some x → TextOk x := by
    intro r hr
    unfold moments at hr
    rcases List.mem_append.1 hr with hr | hr
    · obtain ⟨e, he, rfl⟩ := List.mem_map.1 hr
      have := hx e he
      refine ⟨by have := hc e he; unfold Ev.report; split <;> exact this, ?_⟩
      intro x hx'
      unfold Ev.report at hx'
      split at hx' <;> simp at hx'
      subst hx'
      exact this _ (by assumption)
    · simp only [List.mem_singleton] at hr
      subst hr
      exact ⟨hn, by simp⟩
  obtain ⟨s, e1, e2⟩ := c44_messages (dueMsgs (create desc start) (due (moments es on now))) (by
    intro m hm' p hp
    unfold dueMsgs at hm'
    obtain ⟨r, hr, rfl⟩ := List.mem_map.1 hm'
    obtain ⟨⟨_, h64⟩, hxr⟩ := hm r (hdue r (List.mem_filter.1 hr).1)
    have hz := decText_short h64
    have hd1 := hd.1
    unfold msg at hp
    split at hp
    · simp only [List.mem_cons, List.not_mem_nil, or_false] at hp
      rcases hp with rfl | rfl | rfl | rfl | rfl
      · simp
      · exact hd1
      · decide
      · exact hz
      · decide
    · next x hxe =>
      simp only [List.mem_cons, List.not_mem_nil, or_false] at hp
      rcases hp with rfl | rfl | rfl | rfl | rfl | rfl | rfl
      · simp
      · exact hd1
      · decide
      · exact (hxr _ hxe).1
      · decide
      · exact hz
      · decide)
  refine ⟨_, s, hl, e1, ?_⟩
  rw [e2]
  unfold expected dueMsgs
  rw [List.map_map]
  apply List.map_congr_left
  intro r hr
  exact msg_expected (create desc start) r hd.2 (fun x hx' => ((hm r (hdue r (List.mem_filter.1 hr).1)).2 x hx').2)

theorem due_length (es : List Ev) (on : Bool) (now : TB) :
    (due (moments es on now)).length = (es.filter fun e => e.call ≠ .stop).length + 1 := by
  have hrep : ∀ e : Ev, (e.report).final = decide (e.call = .stop) := by
    intro e; unfold Ev.report; split <;> simp_all
  unfold moments due
  have key : ∀ es : List Ev, ((es.map Ev.report).filter (! ·.final)).length = (es.filter fun e => e.call ≠ .stop).length := by
    intro es
    induction es with
    | nil => rfl
    | cons e es ih => by_cases h : e.call = .stop <;> simp [hrep, h] at ih ⊢ <;> exact ih
  induction es with
  | nil => simp
  | cons e es ih =>
    by_cases h : e.call = .stop
    · have := key es
      simp [hrep, h] at this ⊢
      omega
    · simp [hrep, h] at ih ⊢
      omega

/-- C82: with the level enabled, a timer writes one line more than there were `print` calls: the final
time is reported exactly once, whether by `stop()` or by the destructor. -/
theorem c82_final_once (desc : List Char) (start : TB) (es : List Ev) (now : TB)
    (hon : ∀ e ∈ es, e.on = true) :
    (expected desc start es true now).length = (es.filter fun e => e.call ≠ .stop).length + 1 := by
  unfold expected
  rw [List.length_map, List.filter_eq_self.2, due_length]
  intro r hr
  have : r ∈ moments es true now := by
    unfold due at hr
    generalize moments es true now = rs at *
    simp only [List.mem_append] at hr
    rcases hr with hr | hr | hr
    · exact (List.takeWhile_prefix _).subset hr
    · exact (List.dropWhile_suffix _).subset (List.mem_of_mem_take hr)
    · exact (List.dropWhile_suffix _).subset (List.mem_of_mem_drop (List.mem_filter.1 hr).1)
  unfold moments at this
  rcases List.mem_append.1 this with h | h
  · obtain ⟨e, he, rfl⟩ := List.mem_map.1 h
    have := hon e he
    unfold Ev.report; split <;> exact this
  · simp only [List.mem_singleton] at h
    subst h; rfl

/-- The example of the documentation, with an intermediate report and two `stop()`s. -/
example : (create "Foo".toList ⟨1700000000, 999999990⟩).life
      [⟨.printExtra "x".toList, ⟨1700000000, 999999997⟩, true⟩, ⟨.stop, ⟨1700000001, 32⟩, true⟩,
        ⟨.stop, ⟨1700000002, 0⟩, true⟩] true ⟨1700000003, 0⟩ =
    .ok [⟨["".toList, "Foo".toList, " (".toList, "x".toList, "): ".toList, "7".toList, " ns".toList], .endl⟩,
      ⟨["".toList, "Foo".toList, ": ".toList, "42".toList, " ns".toList], .endl⟩] := by
  rw [life_active (by decide) (by decide) rfl _ _ _ (by decide) (by decide)]
  congr

/-- The hypotheses of `c82_lines` hold for it. -/
example : Normalised ⟨1700000000, 999999990⟩ ∧ 0 ≤ total ⟨1700000000, 999999990⟩ ∧
    ClockOk ⟨1700000000, 999999990⟩ ⟨1700000003, 0⟩ ∧ '\x00' ∉ "Foo".toList := by decide

/-- C82: the number is negative when the clock was set back during the scope. -/
theorem c82_clock_back :
    expected "Foo".toList ⟨1700000001, 0⟩ [] true ⟨1700000000, 0⟩ = ["Foo: -1000000000 ns\n".toList] := by
  decide +kernel

/-- C82: a timer that is copied (by value) reports its final time twice: the copy is active, too. -/
theorem c82_copy_reports_twice (t : Timer) (now now' : TB) (hs : Normalised t.start) (h0 : 0 ≤ total t.start)
    (ha : t.active = true) (hc : ClockOk t.start now) (hc' : ClockOk t.start now') :
    t.copy.destroy true now = .ok [msg t ⟨none, true, now, true⟩] ∧
    t.destroy true now' = .ok [msg t ⟨none, true, now', true⟩] := by
  constructor
  · simp only [Timer.destroy, Timer.copy, ha, if_true]
    exact print_ok (t := ⟨t.desc, t.start, true⟩) hs h0 hc true true
  · simp only [Timer.destroy, ha, if_true]
    exact print_ok hs h0 hc' true true

end Verif.Logging.ScopedTimer
