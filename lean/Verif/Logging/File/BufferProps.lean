import Verif.Logging.File.BufferLemmas

/-!
# C136: what a crash costs when the log file is not flushed after every line (`Flush = no`)
-/
namespace Verif.Logging.File.Buffer
open Verif.Logging.File Verif.Logging.File.Crash

/-- C136: at every moment, however often and wherever the program has died before, the archives in the order
of their days and the log file contain a text `L` that together with what is still in the buffer is `Kept`: everything
that was logged while the file was open, in order, except that each crash may have cost a last part of the text logged since the log file was
opened or closed last (`unsynced`). What is in the buffer is such a part, too; if the program is not running nothing is
left in the buffer. No other file is touched.
Opening the log file may fail at any time.
Partial: old files are not to be deleted, compressing succeeds, and the program does not
die while a file is compressed (see `c136_zip_crash_duplicates`). -/
theorem c136_kept_partial (c : Cfg) (flush : Bool) (fs0 : Dir) (h : List BOp) (hd : c.delete = none) (h0 : Clean c fs0)
    (hc : ClockB h) (hf : FineB c h) :
    ∃ ds L r, Intact c fs0 (run c flush fs0 h).fs ds L ∧ Kept c flush h (L.flatten ++ r) ∧ r <:+ unsynced c flush h ∧
      (runningB h = false → r = []) := by
  have hg := good_all (flush := flush) hd h0 h hc hf
  unfold Good at hg
  cases ho : (run c flush fs0 h).obj with
  | none =>
    rw [ho] at hg
    obtain ⟨L, ⟨ds, h1, _⟩, h2, h3⟩ := hg
    exact ⟨ds, L, [], ⟨h1.sorted, h1.exist, h1.lines, h1.others⟩, by simpa using h2, List.nil_suffix, fun _ => rfl⟩
  | some b =>
    rw [ho] at hg
    obtain ⟨L, ⟨ds, h1, _⟩, h2, h3, _, h5, _⟩ := hg
    exact ⟨ds, L, b.buf, ⟨h1.sorted, h1.exist, h1.lines, h1.others⟩, h2, h3, fun h => by rw [h5] at h; cases h⟩

private theorem durable_aux (c : Cfg) (flush : Bool) (X : S → Prop) (h : List BOp)
    (hb : ∀ y, Kept c flush h y → ∃ x t, X x ∧ y = x ++ t ∧ unsynced c flush h <:+ t) :
    ∀ (later : List BOp) (y : S), Kept c flush (later ++ h) y → ∃ x t, X x ∧ y = x ++ t ∧ unsynced c flush (later ++ h) <:+ t
  | [], y, hy => hb y hy
  | op :: later, y, hy => by
    have ih := durable_aux c flush X h hb later
    cases hy with
    | start hk =>
      obtain ⟨x, t, h1, h2, h3⟩ := ih _ hk
      refine ⟨x, t, h1, h2, ?_⟩
      simp only [List.cons_append, unsynced]
      split
      · exact h3
      · exact List.nil_suffix
    | @push e k s _ x0 hr hk =>
      obtain ⟨x, t, h1, h2, h3⟩ := ih _ hk
      refine ⟨x, t ++ s, h1, by rw [h2, List.append_assoc], ?_⟩
      simp only [List.cons_append, unsynced]
      split
      · exact List.nil_suffix
      · split
        · exact List.suffix_append _ _
        · obtain ⟨u, hu⟩ := h3; exact ⟨u, by rw [← hu, List.append_assoc]⟩
    | stop hk =>
      obtain ⟨x, t, h1, h2, h3⟩ := ih _ hk
      exact ⟨x, t, h1, h2, List.nil_suffix⟩
    | @die e s pt _ x0 _ z hr hk he hz =>
      obtain ⟨x, t, h1, h2, h3⟩ := ih _ hk
      have he : x0 ++ lineOf c e s (later ++ h) = y ++ z := he
      have hz : z <:+ unsynced c flush (later ++ h) ++ lineOf c e s (later ++ h) := hz
      have hz' : z <:+ t ++ lineOf c e s (later ++ h) := by
        obtain ⟨u, hu⟩ := h3
        exact hz.trans ⟨u, by rw [← List.append_assoc]; exact congrArg (· ++ lineOf c e s (later ++ h)) hu⟩
      obtain ⟨v, hv⟩ := hz'
      refine ⟨x, v, h1, ?_, List.nil_suffix⟩
      rw [h2, List.append_assoc, ← hv, ← List.append_assoc] at he
      exact (List.append_cancel_right he).symm
    | pushOff hr hk =>
      obtain ⟨x, t, h1, h2, h3⟩ := ih _ hk
      refine ⟨x, t, h1, h2, ?_⟩
      simp only [List.cons_append, unsynced]
      rw [if_pos (Or.inl (show openB c (.push _ _ _ :: (later ++ h)) = false from hr))]
      exact List.nil_suffix
    | dieOff hr hk =>
      obtain ⟨x, t, h1, h2, h3⟩ := ih _ hk
      exact ⟨x, t, h1, h2, List.nil_suffix⟩

/-- C136: what has been logged before the program was ended (or has died), or by a program that flushes, stays,
whatever happens later. -/
theorem c136_durable (c : Cfg) (flush : Bool) (later h : List BOp) (hs : runningB h = false ∨ flush = true) (y : S)
    (hy : Kept c flush (later ++ h) y) : ∃ x, Kept c flush h x ∧ x <+: y := by
  have hu : unsynced c flush h = [] := by
    rcases hs with hs | hs
    · cases h with
      | nil => rfl
      | cons op h =>
        cases op <;> simp_all [unsynced, runningB, openB]
    · induction h with
      | nil => rfl
      | cons op h ih =>
        have : ∀ h, unsynced c flush h = [] := by
          intro h
          induction h with
          | nil => rfl
          | cons op h ih => cases op <;> simp [unsynced, hs] <;> simp_all
        exact this _
  obtain ⟨x, t, h1, h2, _⟩ := durable_aux c flush (fun x => Kept c flush h x) h
    (fun y hy => ⟨y, [], hy, by simp, by rw [hu]; exact List.nil_suffix⟩) later y hy
  exact ⟨x, h1, t, h2.symm⟩

/-- C136: with rotation, the first line of a new day makes all lines before it durable. -/
theorem c136_new_day_durable (c : Cfg) (flush : Bool) (later h : List BOp) (e : Env) (k : Nat) (s : S) (hr : c.rotate = true)
    (hday : day e.t ≠ lastDay h) (y : S) (hy : Kept c flush (later ++ .push e k s :: h) y) :
    ∃ x, Kept c flush h x ∧ x <+: y := by
  obtain ⟨x, t, h1, h2, _⟩ := durable_aux c flush (fun x => Kept c flush h x) (.push e k s :: h) (fun y hy => by
    cases hy with
    | @push _ _ _ _ x0 _ hk =>
      refine ⟨x0, s, hk, rfl, ?_⟩
      simp only [unsynced]
      split
      · exact List.nil_suffix
      · rw [if_pos ⟨hr, hday⟩]; exact List.suffix_refl _
    | pushOff ho hk =>
      refine ⟨y, [], hk, by simp, ?_⟩
      simp only [unsynced]
      rw [if_pos (Or.inl ho)]
      exact List.nil_suffix) later y hy
  exact ⟨x, h1, t, h2.symm⟩

/-- All that was logged while the file was open. -/
def loggedText (c : Cfg) : List BOp → S
  | [] => []
  | .push e k s :: h => if openB c (.push e k s :: h) then loggedText c h ++ s else loggedText c h
  | _ :: h => loggedText c h

/-- C136: without a crash nothing is lost: what is kept is everything that was logged. -/
theorem c136_no_crash (c : Cfg) (flush : Bool) (h : List BOp) (hn : ∀ e s pt, .die e s pt ∉ h) (y : S) :
    Kept c flush h y ↔ y = loggedText c h := by
  induction h generalizing y with
  | nil =>
    refine ⟨fun h => by cases h; rfl, fun h => by rw [h]; exact .nil⟩
  | cons op h ih =>
    have ih := ih (fun e s pt hm => hn e s pt (List.mem_cons_of_mem _ hm))
    cases op with
    | start e => exact ⟨fun h => by cases h with | start hk => exact (ih _).1 hk, fun h => .start ((ih _).2 h)⟩
    | stop e => exact ⟨fun h => by cases h with | stop hk => exact (ih _).1 hk, fun h => .stop ((ih _).2 h)⟩
    | die e s pt => exact absurd List.mem_cons_self (hn e s pt)
    | push e k s =>
      simp only [loggedText]
      cases hr : openB c (.push e k s :: h) with
      | true =>
        simp only [if_true]
        constructor
        · intro hk
          cases hk with
          | push _ hk => rw [(ih _).1 hk]
          | pushOff h2 => rw [hr] at h2; cases h2
        · intro hk; rw [hk]; exact .push hr ((ih _).2 rfl)
      | false =>
        simp only [Bool.false_eq_true, if_false]
        constructor
        · intro hk
          cases hk with
          | push h2 => rw [hr] at h2; cases h2
          | pushOff _ hk => exact (ih _).1 hk
        · intro hk; exact .pushOff hr ((ih _).2 hk)

private theorem run_pushes (c : Cfg) (e : Env) (ho : e.openOk = true) (ss : List S) :
    ∃ last, (c.rotate = true → last = day e.t) ∧ run c false (fun _ => none) (ss.map (fun s => .push e 0 s) ++ [.start e]) =
      ⟨append (fun _ => none) c.name .opened e.w, some ⟨⟨true, last⟩, ss.reverse.flatten⟩⟩ := by
  induction ss with
  | nil => exact ⟨if c.rotate then day e.t else 0, fun hr => by simp [hr], by simp [run, step, create, openLogFile, ho]⟩
  | cons s ss ih =>
    obtain ⟨last, hl, ih⟩ := ih
    refine ⟨last, hl, ?_⟩
    have hd : ¬ Due c e ⟨true, last⟩ := fun h => h.2 (hl h.1)
    simp only [List.map_cons, List.cons_append, run, ih, step, pushB, rotateB, if_neg hd, openLogFile, if_true, Bool.false_eq_true,
      if_false, List.take_zero, List.drop_zero, write, List.reverse_cons, List.flatten_append, List.flatten_cons, List.flatten_nil,
      List.append_nil]

/-- C136, the bound is attained: without `Flush`, a program that has logged any lines `ss` on one day (with a large
buffer) and dies leaves none of them, although all calls had returned. -/
theorem c136_all_lost (c : Cfg) (e : Env) (ho : e.openOk = true) (ss : List S) :
    linesIn (run c false (fun _ => none) (.die e [] .nothing :: (ss.map (fun s => .push e 0 s) ++ [.start e]))).fs c.name = [] ∧
    unsynced c false (ss.map (fun s => .push e 0 s) ++ [.start e]) = ss.reverse.flatten := by
  constructor
  · obtain ⟨last, _, h⟩ := run_pushes c e ho ss
    simp [run, h, step, dieB, linesIn, append_name, linesOf]
  · have hrun : ∀ ss : List S, runningB (ss.map (fun s => BOp.push e 0 s) ++ [.start e]) = true := by
      intro ss; induction ss with
      | nil => rfl
      | cons s ss ih => exact ih
    have hday : ∀ ss : List S, lastDay (ss.map (fun s => BOp.push e 0 s) ++ [.start e]) = day e.t := by
      intro ss; cases ss with
      | nil => rfl
      | cons s ss => rfl
    induction ss with
    | nil => rfl
    | cons s ss ih =>
      simp only [List.map_cons, List.cons_append, unsynced, openB, hrun, hday, ih, ho]
      simp

/-- C136, every part can be what is left: a program that has logged the lines `ss` on one day (with a large buffer) and dies
on a later day while its file is closed for the rotation leaves exactly the first `n` bytes, for every `n`. -/
theorem c136_any_part_left (c : Cfg) (e e' : Env) (ho : e.openOk = true) (hr : c.rotate = true) (hday : day e.t ≠ day e'.t)
    (ss : List S) (s : S) (n : Nat) :
    (linesIn (run c false (fun _ => none) (.die e' s (.closing n) :: (ss.map (fun s => .push e 0 s) ++ [.start e]))).fs
      c.name).flatten = (ss.reverse.flatten).take n := by
  obtain ⟨last, hl, h⟩ := run_pushes c e ho ss
  have hd : Due c e' ⟨true, last⟩ := ⟨hr, by rw [hl hr]; exact hday⟩
  simp only [run, h, step, dieB, if_pos hd, write]
  split
  · rename_i h0; simp [linesIn, append_name, linesOf, h0]
  · simp [linesIn, append_name, linesOf]

/-- On the same day there is no rotation: the call cannot die while closing or compressing. -/
theorem c136_no_rotation_no_change (c : Cfg) (e e' : Env) (ho : e.openOk = true) (hday : day e.t = day e'.t)
    (ss : List S) (s : S) (n : Nat) (p : List Piece) (pt : Point) (hp : pt = .closing n ∨ pt = .zipping p ∨ pt = .moved) :
    (run c false (fun _ => none) (.die e' s pt :: (ss.map (fun s => .push e 0 s) ++ [.start e]))).fs =
      (run c false (fun _ => none) (ss.map (fun s => .push e 0 s) ++ [.start e])).fs := by
  obtain ⟨last, hl, h⟩ := run_pushes c e ho ss
  have hd : ¬ Due c e' ⟨true, last⟩ := fun hd => hd.2 (by rw [hl hd.1]; exact hday)
  rcases hp with rfl | rfl | rfl
  · simp only [run, h, step, dieB, if_neg hd]
  · simp only [run, h, step, dieB, if_neg (fun hx : Due c e' ⟨true, last⟩ ∧ _ => hd hx.1)]
  · simp only [run, h, step, dieB, if_neg hd]

/-- Hypotheses of the theorems, and the case that a crash costs the end of the text: the program logs `ab` and `cd`, of which three
characters reach the file, and dies; it is started again, logs `ef`, which is written when the file is closed for the rotation on
the next day, logs `gh` and is ended. -/
def exampleRun : List BOp :=
  [.stop ⟨90000, 90000, true, true⟩, .push ⟨87000, 87001, true, true⟩ 0 "gh".toList, .push ⟨400, 400, true, true⟩ 0 "ef".toList,
   .start ⟨300, 300, true, true⟩, .die ⟨250, 250, true, true⟩ [] .nothing, .push ⟨200, 200, true, true⟩ 3 "cd".toList,
   .push ⟨200, 200, true, true⟩ 0 "ab".toList, .start ⟨100, 100, true, true⟩]

example : let c : Cfg := { name := "log".toList }
    Clean c (fun _ => none) ∧ c.delete = none ∧ runningB exampleRun = false ∧
    (linesIn (run c false (fun _ => none) exampleRun).fs "log.1970-01-01".toList).flatten = "abcef".toList ∧
    (linesIn (run c false (fun _ => none) exampleRun).fs "log".toList).flatten = "gh".toList :=
  ⟨⟨rfl, fun _ => rfl⟩, rfl, by decide +kernel⟩

/-- The same with attempts to open the file that fail: at the start, and on the next day until the second call. -/
def failingRun : List BOp :=
  [.stop ⟨90000, 90000, true, true⟩, .push ⟨88000, 88001, true, true⟩ 0 "gh".toList, .push ⟨87000, 87001, true, false⟩ 0 "x".toList,
   .push ⟨400, 400, true, false⟩ 1 "ef".toList, .push ⟨300, 300, true, true⟩ 0 "cd".toList,
   .push ⟨200, 200, true, false⟩ 3 "x".toList, .start ⟨100, 100, true, false⟩]

example : let c : Cfg := { name := "log".toList }
    loggedText c failingRun = "cdefgh".toList ∧ unsynced c false (failingRun.drop 3) = "cdef".toList ∧
    (linesIn (run c false (fun _ => none) failingRun).fs "log.1970-01-01".toList).flatten = "cdef".toList ∧
    (linesIn (run c false (fun _ => none) failingRun).fs "log".toList).flatten = "gh".toList := by decide +kernel

example : let c : Cfg := { name := "log".toList }
    ClockB failingRun ∧ FineB c failingRun := by
  constructor
  · simp [ClockB, failingRun, BOp.env, nowB]
  · simp [FineB, failingRun, BOp.env]

example : let c : Cfg := { name := "log".toList }
    ClockB exampleRun ∧ FineB c exampleRun := by
  constructor
  · simp [ClockB, exampleRun, BOp.env, nowB]
  · simp [FineB, exampleRun, BOp.env]

/-- Finding: without `Flush` a program that logs `a` on the first day, is ended on the second day without logging any more, and
started again has the line `a` of yesterday in today's file: closing the file writes the buffer and so sets the time of
last write, from which the next start concludes that the file is of today. The line is archived under the wrong day. -/
theorem c136_wrong_day :
    let c : Cfg := { name := "log".toList }
    let s := run c false (fun _ => none) [.push ⟨173000, 173000, true, true⟩ 0 "c".toList, .push ⟨88001, 88001, true, true⟩ 0 "b".toList,
      .start ⟨88000, 88000, true, true⟩, .stop ⟨87000, 87000, true, true⟩, .push ⟨200, 200, true, true⟩ 0 "a".toList,
      .start ⟨100, 100, true, true⟩]
    s.fs "log.1970-01-01".toList = none ∧ (linesIn s.fs "log.1970-01-02".toList).flatten = "ab".toList := by
  decide +kernel

/-- With `Flush` the same history archives both lines under their days. -/
example :
    let c : Cfg := { name := "log".toList }
    let s := run c true (fun _ => none) [.push ⟨173000, 173000, true, true⟩ 0 "c".toList, .push ⟨88001, 88001, true, true⟩ 0 "b".toList,
      .start ⟨88000, 88000, true, true⟩, .stop ⟨87000, 87000, true, true⟩, .push ⟨200, 200, true, true⟩ 0 "a".toList,
      .start ⟨100, 100, true, true⟩]
    (linesIn s.fs "log.1970-01-01".toList).flatten = "a".toList ∧ (linesIn s.fs "log.1970-01-02".toList).flatten = "b".toList := by
  decide +kernel

/-- Finding: with compression and without `Flush`, dying while the file of yesterday is compressed duplicates lines for the same reason:
the restarted program takes the file for one of today, keeps it, and the archive of yesterday stays. -/
theorem c136_zip_crash_duplicates :
    let c : Cfg := { name := "log".toList, zip := true }
    let s := run c false (fun _ => none) [.push ⟨173000, 173000, true, true⟩ 1 "c".toList, .start ⟨88000, 88000, true, true⟩,
      .die ⟨87000, 87000, true, true⟩ "b".toList (.zipping [.opened, .line "a".toList]), .push ⟨200, 200, true, true⟩ 0 "a".toList,
      .start ⟨100, 100, true, true⟩]
    linesIn s.fs "log.1970-01-01.gz".toList = ["a".toList] ∧ linesIn s.fs "log.1970-01-02.gz".toList = ["a".toList] ∧
    linesIn s.fs "log".toList = ["c".toList] := by
  decide +kernel

end Verif.Logging.File.Buffer
