import Verif.Logging.File.CrashLemmas

/-!
# C134: the log files survive crashes of the program

Histories with the program dying at any point of the constructor or of a log call, and being started again.
The code has no recovery step; that nothing is lost depends on the order of the operations in
`rotateLogFile` (archive first, remove afterwards) and on the unfinished archive being written again.
-/
namespace Verif.Logging.File.Crash
open Verif.Logging.File

/-- The files of the days `ds` are archived, in this order they and the log file contain exactly the lines
`L`, and no other file differs from `fs0`. -/
structure Intact (c : Cfg) (fs0 fs : Dir) (ds : List Int) (L : List S) : Prop where
  sorted : ds.Pairwise (· < ·)
  exist : ∀ d, 0 ≤ d → d < 2932897 → (fs (archiveName c d) ≠ none ↔ d ∈ ds)
  lines : (ds.flatMap fun d => linesIn fs (archiveName c d)) ++ linesIn fs c.name = L
  others : ∀ x, x ≠ c.name → (∀ d, 0 ≤ d → d < 2932897 → x ≠ archiveName c d) → fs x = fs0 x

/-- C134: whenever the program is running, however often and wherever it has died before, the archived files
and the log file contain every recorded line once and in order, there is no other archive, and no other file
was touched. The same holds when it is then ended or killed between two calls.
Partial: old files are not to be deleted (see `c134_deletion_intact_partial`), and if old files are compressed, this succeeds,
and no midnight passes between reading the clock and writing (see `c134_midnight_duplicates`). Opening the log file
may fail at any time: the lines logged while it is not open are not recorded (see `c134_all_recorded`). -/
theorem c134_intact_after_restart_partial (c : Cfg) (fs0 : Dir) (h : List COp) (hd : c.delete = none) (h0 : Clean c fs0)
    (hc : ClockC c h) (he : AlwaysC (fun e => c.zip = true → e.moveOk = true) h) (ht : TornOk h)
    (hr : runningC h = true) :
    (∃ ds, Intact c fs0 (runC c fs0 h).fs ds (recorded c h)) ∧
    ∀ op ∈ [COp.op .stop, COp.die], ∃ ds, Intact c fs0 (runC c fs0 (op :: h)).fs ds (recorded c h) := by
  obtain ⟨hg, hs, _⟩ := good_all hd h0 h hc he ht
  rw [hr] at hs
  have key : ∃ ds, Intact c fs0 (runC c fs0 h).fs ds (recorded c h) := by
    unfold Good at hg
    cases ho : (runC c fs0 h).out with
    | none => rw [ho] at hs; cases hs
    | some o =>
      rw [ho] at hg
      obtain ⟨ds, h1, _⟩ := Up.clear hg
      exact ⟨ds, h1.sorted, h1.exist, h1.lines, h1.others⟩
  refine ⟨key, fun op hop => ?_⟩
  rcases List.mem_cons.1 hop with rfl | hop
  · exact key
  · rcases List.mem_cons.1 hop with rfl | hop
    · exact key
    · cases hop

/-- C134: at every moment, also right after a crash, nothing is lost: the archived files in the order of
their days and the log file contain every recorded line once, in order, except that there may be one more
archive, of a day after all others and before today, while the log file with the lines of that day is still there.
Partial: as above. -/
theorem c134_nothing_lost_partial (c : Cfg) (fs0 : Dir) (h : List COp) (hd : c.delete = none) (h0 : Clean c fs0)
    (hc : ClockC c h) (he : AlwaysC (fun e => c.zip = true → e.moveOk = true) h) (ht : TornOk h) :
    (∃ ds, Intact c fs0 (runC c fs0 h).fs ds (recorded c h)) ∨
    ∃ ds extra, c.zip = true ∧ (∀ d ∈ ds, d < extra) ∧ 86400 * (extra + 1) ≤ nowC h ∧ (runC c fs0 h).fs c.name ≠ none ∧
      Intact c fs0 ((runC c fs0 h).fs.set (archiveName c extra) none) ds (recorded c h) := by
  obtain ⟨hg, _, _⟩ := good_all hd h0 h hc he ht
  unfold Good at hg
  have hcl : ∀ fs, Clear c fs0 (recorded c h) (nowC h) fs → ∃ ds, Intact c fs0 fs ds (recorded c h) :=
    fun fs ⟨ds, h1, _⟩ => ⟨ds, h1.sorted, h1.exist, h1.lines, h1.others⟩
  cases ho : (runC c fs0 h).out with
  | some o => rw [ho] at hg; exact Or.inl (hcl _ (Up.clear hg))
  | none =>
    rw [ho] at hg
    rcases hg with hg | ⟨_, hz, fsV, f, g, ⟨ds, h1, _, h3⟩, hf, hday, hfs⟩
    · exact Or.inl (hcl _ hg)
    · right
      rcases h3 with ⟨h3, _⟩ | ⟨f', h3, h4, h5, h6⟩
      · rw [hf] at h3; cases h3
      · rw [hf] at h3
        cases h3
        have hp : 0 ≤ day f.mtime := day_nonneg h4
        have hm : day f.mtime < 2932897 := by
          have hlt := nowC_lt h hc
          simp only [day]; omega
        have hnone : fsV (archiveName c (day f.mtime)) = none := by
          refine Classical.byContradiction fun hn => ?_
          have := h6 _ ((h1.exist _ hp hm).1 hn)
          omega
        have hback : (runC c fs0 h).fs.set (archiveName c (day f.mtime)) none = fsV := by
          rw [hfs]
          funext x
          simp only [Dir.set]
          split
          · next hx => rw [hx, hnone]
          · rfl
        refine ⟨ds, day f.mtime, hz, h6, ?_, ?_, ?_⟩
        · simp only [day] at hday ⊢; omega
        · rw [hfs]; simp [Dir.set, Ne.symm (archiveName_ne (c := c) (d := day f.mtime)), hf]
        · rw [hback]; exact ⟨h1.sorted, h1.exist, h1.lines, h1.others⟩

/-- C134: the recorded lines are the lines of the completed calls and beginnings of lines of interrupted calls. -/
theorem c134_recorded_lines (c : Cfg) (h : List COp) (ht : TornOk h) (l : S) (hl : l ∈ recorded c h) :
    (∃ e, COp.op (.push e l) ∈ h) ∨ ∃ e s, COp.diePush e s (.torn l) ∈ h ∧ l <+: s := by
  have : (∃ e, COp.op (.push e l) ∈ h) ∨ ∃ e s, COp.diePush e s (.torn l) ∈ h := by
    clear ht
    induction h with
    | nil => cases hl
    | cons op h ih =>
      have up : ((∃ e, COp.op (.push e l) ∈ h) ∨ ∃ e s, COp.diePush e s (.torn l) ∈ h) →
          (∃ e, COp.op (.push e l) ∈ op :: h) ∨ ∃ e s, COp.diePush e s (.torn l) ∈ op :: h := by
        rintro (⟨e, h1⟩ | ⟨e, s, h1⟩)
        · exact Or.inl ⟨e, List.mem_cons_of_mem _ h1⟩
        · exact Or.inr ⟨e, s, List.mem_cons_of_mem _ h1⟩
      rcases recorded_cons c op h with h1 | ⟨e, s, rfl, h1⟩ | ⟨e, s, p, rfl, h1⟩ <;> rw [h1] at hl
      · exact up (ih hl)
      · rcases List.mem_append.1 hl with hl | hl
        · exact up (ih hl)
        · rw [List.mem_singleton] at hl; subst hl; exact Or.inl ⟨_, List.mem_cons_self ..⟩
      · rcases List.mem_append.1 hl with hl | hl
        · exact up (ih hl)
        · rw [List.mem_singleton] at hl; subst hl; exact Or.inr ⟨_, _, List.mem_cons_self ..⟩
  rcases this with h1 | ⟨e, s, h1⟩
  · exact Or.inl h1
  · exact Or.inr ⟨e, s, h1, ht.1 e s l h1⟩

/-- C134: once a log call has returned with the file open, its line stays recorded, after all lines recorded before it,
whatever happens later. -/
theorem c134_durable (c : Cfg) (later h : List COp) (e : Env) (s : S) (ho : isOpenC c (.op (.push e s) :: h) = true) :
    recorded c h ++ [s] <+: recorded c (later ++ COp.op (.push e s) :: h) := by
  induction later with
  | nil => simp [recorded, ho]
  | cons op later ih =>
    refine ih.trans ?_
    rw [List.cons_append]
    rcases recorded_cons c op (later ++ COp.op (.push e s) :: h) with h1 | ⟨_, _, _, h1⟩ | ⟨_, _, _, _, h1⟩ <;> rw [h1]
    · exact List.prefix_refl _
    · exact List.prefix_append ..
    · exact List.prefix_append ..

/-- C134: if every attempt to open the log file succeeds, exactly the lines logged by the running program are recorded. -/
theorem c134_all_recorded (c : Cfg) (h : List COp) (he : AlwaysC (fun e => e.openOk = true) h) :
    isOpenC c h = runningC h := isOpenC_of_openOk c h he

/-- C134: what `isOpenC` means: as soon as one attempt succeeds, the file is open, and stays open until the program ends or the
day changes with rotation; and as long as it is not open, every call tries again. -/
theorem c134_open_again (c : Cfg) (h : List COp) (e : Env) (s : S) (hr : runningC h = true) :
    (e.openOk = true → isOpenC c (.op (.push e s) :: h) = true) ∧
    (isOpenC c h = true → (c.rotate = true → day e.t = lastC h) → isOpenC c (.op (.push e s) :: h) = true) := by
  refine ⟨fun ho => by simp [isOpenC, hr, ho], fun ho hd => ?_⟩
  cases hro : c.rotate with
  | false => simp [isOpenC, hr, ho, hro]
  | true => simp [isOpenC, hr, ho, hd hro]

/-- Hypotheses of the theorems: the program logs `a`, is killed on the next day with the archive half
written, is started and killed again with the archive complete, is started and killed while writing `bc`, and started
again. -/
def exampleRun : List COp :=
  [.op (.push ⟨173000, 173000, true, true⟩ "d".toList), .op (.start ⟨100000, 100001, true, true⟩),
   .diePush ⟨95000, 95000, true, true⟩ "bc".toList (.torn "b".toList), .op (.start ⟨92000, 92000, true, true⟩),
   .dieStart ⟨91000, 91000, true, true⟩ (.zipping [.opened, .line "a".toList]),
   .diePush ⟨90000, 90000, true, true⟩ "x".toList (.zipping [.opened]),
   .op (.push ⟨200, 200, true, true⟩ "a".toList), .op (.start ⟨100, 100, true, true⟩)]

example : let c : Cfg := { name := "log".toList, zip := true }
    Clean c (fun _ => none) ∧ runningC exampleRun = true ∧ recorded c exampleRun = ["a".toList, "b".toList, "d".toList] ∧
    linesIn (runC c (fun _ => none) exampleRun).fs "log.1970-01-01.gz".toList = ["a".toList] ∧
    linesIn (runC c (fun _ => none) exampleRun).fs "log.1970-01-02.gz".toList = ["b".toList] ∧
    linesIn (runC c (fun _ => none) exampleRun).fs "log".toList = ["d".toList] :=
  ⟨⟨rfl, fun _ => rfl⟩, by decide +kernel⟩

example : let c : Cfg := { name := "log".toList, zip := true }
    ClockC c exampleRun ∧ AlwaysC (fun e => c.zip = true → e.moveOk = true) exampleRun ∧
    TornOk exampleRun := by
  refine ⟨?_, ?_, ?_, ?_⟩
  · simp [ClockC, exampleRun, COp.env, Op.env, nowC, sameDay_iff, day]
  · simp [AlwaysC, exampleRun, COp.env, Op.env]
  · simp [exampleRun]
    rintro e s p - rfl rfl; decide
  · simp [exampleRun]

/-- The same with attempts to open the file that fail: when the program is started, and on the second day, when the old file
has been archived and there is no new one. -/
def failingRun : List COp :=
  [.op (.push ⟨86700, 86700, true, true⟩ "d".toList), .op (.push ⟨86600, 86600, true, false⟩ "x".toList),
   .op (.push ⟨86500, 86500, true, false⟩ "x".toList), .op (.push ⟨400, 400, true, false⟩ "b".toList),
   .op (.push ⟨300, 300, true, true⟩ "a".toList), .op (.push ⟨200, 200, true, false⟩ "x".toList),
   .op (.start ⟨100, 100, true, false⟩)]

example : let c : Cfg := { name := "log".toList, zip := true }
    runningC failingRun = true ∧ recorded c failingRun = ["a".toList, "b".toList, "d".toList] ∧
    linesIn (runC c (fun _ => none) failingRun).fs "log.1970-01-01.gz".toList = ["a".toList, "b".toList] ∧
    linesIn (runC c (fun _ => none) failingRun).fs "log".toList = ["d".toList] := by decide +kernel

example : let c : Cfg := { name := "log".toList, zip := true }
    ClockC c failingRun ∧ AlwaysC (fun e => c.zip = true → e.moveOk = true) failingRun ∧ TornOk failingRun := by
  refine ⟨?_, ?_, ?_, ?_⟩
  · simp [ClockC, failingRun, COp.env, Op.env, nowC, sameDay_iff, day]
  · simp [AlwaysC, failingRun, COp.env, Op.env]
  · simp [failingRun]
  · simp [failingRun]

/-- The second case of `c134_nothing_lost_partial`: the archive of the first day is half written. -/
example : let c : Cfg := { name := "log".toList, zip := true }
    let s := runC c (fun _ => none) (exampleRun.drop 5)
    s.fs "log.1970-01-01.gz".toList = some ⟨[.opened], 90000⟩ ∧ linesIn s.fs "log".toList = ["a".toList] := by
  decide +kernel

/-- C134 is violated with compression when midnight passes between reading the clock and writing the line: the
line `a` is written to the file of the first day on the second; the program dies after compressing the
file and before removing it; the restarted program sees a file of today and does not rotate. Line `a` stays in
two files, and tomorrow there will be two archives with it. -/
theorem c134_midnight_duplicates :
    let c : Cfg := { name := "log".toList, zip := true }
    let h := [COp.op (.push ⟨173000, 173000, true, true⟩ "c".toList), .op (.start ⟨87000, 87000, true, true⟩),
      .diePush ⟨86500, 86500, true, true⟩ "b".toList (.zipping [.opened, .line "a".toList]),
      .op (.push ⟨86399, 86400, true, true⟩ "a".toList), .op (.start ⟨86300, 86300, true, true⟩)]
    let s := runC c (fun _ => none) h
    recorded c h = ["a".toList, "c".toList] ∧
    linesIn s.fs "log.1970-01-01.gz".toList = ["a".toList] ∧ linesIn s.fs "log.1970-01-02.gz".toList = ["a".toList] ∧
    linesIn s.fs "log".toList = ["c".toList] := by
  decide +kernel

end Verif.Logging.File.Crash
