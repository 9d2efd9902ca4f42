import Verif.Logging.File.DayLemmas
import Verif.Time.IsoOrder

/-!
# The log files (C70)

Reading the archived files in the order of their dates, and then the current log file, gives all
lines logged, over any number of program runs.
-/
namespace Verif.Logging.File
open Verif.Time

/-- C70: whatever the program runs and the days on which lines are logged, no line is lost or
duplicated, and all are in order: the archived files by date, then the log file.  Conditions: the
clock never goes back, the log file can be opened, and with compression, compressing works (without,
a failing `rename` does no harm); no deletion is configured. No other file is touched. -/
theorem c70_nothing_lost_partial (c : Cfg) (fs0 : Dir) (h : List Op) (hd : c.delete = none) (h0 : Clean c fs0)
    (hc : ClockOk h) (he : Always (fun e => e.openOk = true ∧ (c.zip = true → e.moveOk = true)) h) :
    ∃ ds : List Int, ds.Pairwise (· < ·) ∧ (∀ d ∈ ds, 0 ≤ d ∧ d < 2932897) ∧
      (∀ d, 0 ≤ d → d < 2932897 → ((run c fs0 h).fs (archiveName c d) ≠ none ↔ d ∈ ds)) ∧
      (ds.flatMap fun d => linesIn (run c fs0 h).fs (archiveName c d)) ++ linesIn (run c fs0 h).fs c.name =
        (logged h).map Prod.snd ∧
      (∀ x, x ≠ c.name → (∀ d, 0 ≤ d → d < 2932897 → x ≠ archiveName c d) → (run c fs0 h).fs x = fs0 x) := by
  obtain ⟨ds, hF, _⟩ := inv_A hd h0 h hc he
  exact ⟨ds, hF.sorted, hF.range, hF.exist, hF.lines, hF.others⟩

/-- C70: with rotation, every archived file holds exactly the lines of its day, the log file those
of one day, and all other days with lines are earlier and archived, unless the file is older
than the configured number of days.  (No midnight passes between reading the clock and writing,
the files can be moved and opened, and the clock never goes back.) -/
theorem c70_files_by_day_partial (c : Cfg) (fs0 : Dir) (h : List Op) (hr : c.rotate = true) (h0 : Clean c fs0)
    (hc : ClockOk h) (he : Always (fun e => e.openOk = true ∧ e.moveOk = true ∧ SameDay e.t e.w) h) :
    (∀ d, 0 ≤ d → d < 2932897 → ∀ f, (run c fs0 h).fs (archiveName c d) = some f →
      linesOf f.content = loggedOn d h) ∧
    (logged h ≠ [] → ∃ cur, linesIn (run c fs0 h).fs c.name = loggedOn cur h ∧ 86400 * cur ≤ now h ∧
      ∀ d, d ≠ cur → loggedOn d h ≠ [] → d < cur ∧
        ((∀ n : Nat, c.delete = some n → cur - n ≤ d) → (run c fs0 h).fs (archiveName c d) ≠ none)) := by
  obtain ⟨_, hI⟩ := inv_B hr h0 h hc
    fun op hop e heq => ⟨(he op hop e heq).1, (he op hop e heq).2.1, (sameDay_iff _ _).1 (he op hop e heq).2.2⟩
  rcases hI with ⟨_, h2, h3, h4⟩ | ⟨cur, f, h1, h2, _⟩
  · refine ⟨fun d _ _ f hf => ?_, fun hn => absurd h3 hn⟩
    rw [h4] at hf; cases hf
  · refine ⟨fun d d0 d1 f hf => (h1.arch d d0 d1 f hf).1, fun _ => ⟨cur, ?_, ?_, ?_⟩⟩
    · simp only [linesIn, h1.name, h1.lines]
    · have := h1.same; simp only [day] at this; omega
    · intro d hd hL
      exact (h1.past d hd hL).2

/-- Three program runs over four days. -/
def exampleRuns : List Op :=
  [.push ⟨259300, 259301, true, true⟩ "e".toList, .push ⟨172900, 172900, true, true⟩ "d".toList,
   .start ⟨172801, 172802, true, true⟩, .stop, .push ⟨86500, 86501, true, true⟩ "c".toList,
   .push ⟨300, 301, true, true⟩ "b".toList, .push ⟨200, 200, true, true⟩ "a".toList, .start ⟨100, 100, true, true⟩]

/-- The conditions are met, and the result is as stated. -/
example : let c : Cfg := { name := "log".toList }
    Clean c (fun _ => none) ∧ ClockOk exampleRuns ∧
    Always (fun e => e.openOk = true ∧ e.moveOk = true ∧ SameDay e.t e.w) exampleRuns ∧
    linesIn (run c (fun _ => none) exampleRuns).fs "log.1970-01-01".toList = ["a".toList, "b".toList] ∧
    linesIn (run c (fun _ => none) exampleRuns).fs "log.1970-01-02".toList = ["c".toList] ∧
    linesIn (run c (fun _ => none) exampleRuns).fs "log.1970-01-03".toList = ["d".toList] ∧
    linesIn (run c (fun _ => none) exampleRuns).fs "log".toList = ["e".toList] := by
  refine ⟨⟨rfl, fun _ => rfl⟩, ?_, ?_, by decide +kernel⟩
  · simp [ClockOk, exampleRuns, Op.env, now]
  · simp [Always, exampleRuns, Op.env, sameDay_iff, day]

/-- C70, what a step can remove: the log file itself (it is moved), or, if configured and the log
file name has a directory part, a file that has not been written for the configured number of days
and whose name begins with that of the log file. -/
theorem c70_deletion (c : Cfg) (s : Sys) (op : Op) (x : S) (f : File) (hx : s.fs x = some f)
    (hn : (step c s op).fs x = none) :
    x = c.name ∨ ∃ n : Nat, c.delete = some n ∧ c.hasDir = true ∧ c.name <+: x ∧
      ∃ e g today, op.env = some e ∧ OnDay today e.t ∧ g.mtime < (today - n) * 86400 ∧ (g = f ∨ (∃ d, x = archiveName c d) ∧ (s.fs c.name = some g ∨ g.mtime = e.w)) := by
  by_cases hxn : x = c.name
  · exact Or.inl hxn
  refine Or.inr ?_
  have hopen : ∀ (e : Env) (fs : Dir) (o : Out), (openLogFile c e fs o).1 x = fs x := by
    intro e fs o
    unfold openLogFile
    split
    · rfl
    · split
      · exact append_other hxn
      · rfl
  have hmove : ∀ (e : Env) (fs : Dir) (d : Int) (f : File), fs x = some f →
      ∃ g, moveFile c e fs d x = some g ∧ (g = f ∨ x = archiveName c d ∧ (fs c.name = some g ∨ g.mtime = e.w)) := by
    intro e fs d f hf
    unfold moveFile
    by_cases hz : c.zip = true
    · by_cases hm : e.moveOk = true
      · by_cases hd : x = archiveName c d
        · subst hd; simp [hz, hm, Dir.set, hxn]
        · simp [hz, hm, Dir.set, hxn, hd, hf]
      · simp [hz, hm, Dir.set, hxn, hf]
    · cases hfn : fs c.name with
      | none => simp [hz, hf]
      | some f' =>
        by_cases hm : e.moveOk = true
        · by_cases hd : x = archiveName c d
          · simp [hz, hm, Dir.set, hd, hfn]
          · simp [hz, hm, Dir.set, hxn, hd, hf]
        · simp [hz, hm, hf]
  have hrot : ∀ (e : Env) (fs : Dir) (o : Out), fs x = some f → (rotateLogFile c e fs o).1 x = none →
      ∃ n : Nat, c.delete = some n ∧ c.hasDir = true ∧ c.name <+: x ∧
      ∃ g, g.mtime < (day e.t - n) * 86400 ∧
        (g = f ∨ (∃ d, x = archiveName c d) ∧ (fs c.name = some g ∨ g.mtime = e.w)) := by
    intro e fs o hf
    unfold rotateLogFile
    split
    · simp only [hopen]
      obtain ⟨g, hg, hgf⟩ := hmove e fs o.last f hf
      cases hdel : c.delete with
      | none => rw [deleteOld_none hdel, hg]; intro h; cases h
      | some n =>
        rw [deleteOld_some hdel, hg]
        split
        · next hdir =>
          simp only
          split
          · next hcond =>
            intro _
            refine ⟨n, rfl, hdir, List.isPrefixOf_iff_prefix.mp hcond.2, g, by omega, ?_⟩
            rcases hgf with h | h
            · exact Or.inl h
            · exact Or.inr ⟨⟨_, h.1⟩, h.2⟩
          · intro h; cases h
        · intro h; cases h
    · intro h; have h : fs x = none := h; rw [hf] at h; cases h
  cases op with
  | stop => simp [step, hx] at hn
  | start e =>
    cases hso : s.out with
    | some o => simp [step, hso, hx] at hn
    | none =>
      simp only [step, hso, create] at hn
      cases hfn : s.fs c.name with
      | none => rw [hfn] at hn; simp only [hopen] at hn; rw [hx] at hn; cases hn
      | some f' =>
        rw [hfn] at hn
        simp only [hopen] at hn
        obtain ⟨n, h1, h2, h3, g, h4⟩ := hrot e s.fs _ hx hn
        rw [hfn] at h4
        exact ⟨n, h1, h2, h3, e, g, day e.t, rfl, (onDay_iff _ _).2 rfl, h4⟩
  | push e l =>
    cases hso : s.out with
    | none => simp [step, hso, hx] at hn
    | some o =>
      simp only [step, hso, pushImpl] at hn
      have : (rotateLogFile c e s.fs o).1 x = none := by
        split at hn
        · simp only at hn
          rw [append_other hxn, hopen] at hn
          exact hn
        · simpa only [hopen] using hn
      obtain ⟨n, h1, h2, h3, g, h4⟩ := hrot e s.fs _ hx this
      exact ⟨n, h1, h2, h3, e, g, day e.t, rfl, (onDay_iff _ _).2 rfl, h4⟩

/-- Hypotheses of `c70_deletion`: an archive of the first day is removed on the fifth. -/
example : let c : Cfg := { name := "log".toList, delete := some 2 }
    let s := run c (fun _ => none) [.push ⟨90000, 90000, true, true⟩ "b".toList, .start ⟨100, 100, true, true⟩]
    s.fs "log.1970-01-01".toList ≠ none ∧
    (step c s (.push ⟨400000, 400000, true, true⟩ "c".toList)).fs "log.1970-01-01".toList = none ∧
    (step c s (.push ⟨400000, 400000, true, true⟩ "c".toList)).fs "log.1970-01-02".toList = none := by
  decide +kernel

/-! ## Findings -/

/-- C70: the archived file of a day has the name of the log file followed by the date of that day, year,
month and day of month with four, two and two digits, and `.gz` if it is compressed. -/
theorem c70_archive_name (c : Cfg) (d : Int) (h0 : 0 ≤ d) (h1 : d < 2932897) :
    ∃ yyyy mm dd : S, archiveName c d = c.name ++ ".".toList ++ yyyy ++ "-".toList ++ mm ++ "-".toList ++ dd ++
        (if c.zip = true then ".gz".toList else []) ∧
      yyyy.length = 4 ∧ mm.length = 2 ∧ dd.length = 2 ∧
      ∃ y m k : Nat, digitsVal 0 yyyy = some y ∧ digitsVal 0 mm = some m ∧ digitsVal 0 dd = some k ∧
        times nextDay d.toNat ⟨1970, 1, 1⟩ = ⟨y, m, k⟩ := by
  obtain ⟨n, rfl⟩ : ∃ n : Nat, d = n := ⟨d.toNat, by omega⟩
  have hy := year_le (n := n) (by omega)
  have hv := (date_ok n).1
  have he : times nextDay n ⟨1970, 1, 1⟩ = dateOfDay n := by simp [dateOfDay]
  generalize hx : dateOfDay (n : Int) = x at *
  obtain ⟨y, m, k⟩ := x
  simp only [Date.Valid] at hv hy
  have hk : k < 100 := by
    have : ∀ y m, monthLength y m ≤ 31 := by intro y m; unfold monthLength; split <;> (try split) <;> omega
    have := this y m
    omega
  refine ⟨dec 4 y.toNat, dec 2 m, dec 2 k, ?_, dec_length _ _, dec_length _ _, dec_length _ _, y.toNat, m, k,
    digitsVal_dec _ _ (by omega), digitsVal_dec _ _ (by omega), digitsVal_dec _ _ (by omega), ?_⟩
  · simp only [archiveName, dateText, hx]
    simp
  · rw [Int.toNat_natCast, he]; congr 1; omega

/-- C70: sorted by name, the archived files are in the order of their days. -/
theorem c70_archives_sort (c : Cfg) (d d' : Int) (h0 : 0 ≤ d) (h1 : d < d') (h2 : d' < 2932897) :
    archiveName c d < archiveName c d' := by
  obtain ⟨n, rfl⟩ : ∃ n : Nat, d = n := ⟨d.toNat, by omega⟩
  obtain ⟨n', rfl⟩ : ∃ n : Nat, d' = n := ⟨d'.toNat, by omega⟩
  have hy := year_le (n := n) (by omega)
  have hy' := year_le (n := n') (by omega)
  have hv := (date_ok n).1
  have hv' := (date_ok n').1
  have hb := date_before n n' (by omega)
  simp only [archiveName, dateText, List.append_assoc]
  apply lt_append_left
  generalize dateOfDay (n : Int) = a at *
  generalize dateOfDay (n' : Int) = b at *
  simp only [Date.Valid] at hv hv'
  have hbd : b.d < 100 := by
    have : ∀ y m, monthLength y m ≤ 31 := by intro y m; unfold monthLength; split <;> (try split) <;> omega
    have := this b.y b.m
    omega
  simp only [List.cons_append, List.cons_lt_cons_iff, Char.lt_irrefl, false_or, true_and]
  rcases hb with h | ⟨h, h'⟩
  · exact lt_append_right _ _ _ _ (by simp [dec_length]) (dec_lt 4 _ _ (by omega) (by omega))
  · rw [h]
    apply lt_append_left
    simp only [List.cons_lt_cons_iff, Char.lt_irrefl, false_or, true_and]
    rcases h' with h' | ⟨h', h''⟩
    · exact lt_append_right _ _ _ _ (by simp [dec_length]) (dec_lt 2 _ _ (by omega) (by omega))
    · rw [h']
      apply lt_append_left
      simp only [List.cons_lt_cons_iff, Char.lt_irrefl, false_or, true_and]
      exact lt_append_right _ _ _ _ (by simp [dec_length]) (dec_lt 2 _ _ (by omega) (by omega))

/-- C70 is violated when the clock is set back over midnight: the archive of the later day is
overwritten, and line `b` is lost. -/
theorem c70_clock_set_back_loses_lines :
    let c : Cfg := { name := "log".toList }
    let s := run c (fun _ => none)
      [.push ⟨172900, 172900, true, true⟩ "e".toList, .push ⟨86700, 86700, true, true⟩ "d".toList,
       .push ⟨86300, 86300, true, true⟩ "c".toList, .push ⟨86500, 86500, true, true⟩ "b".toList,
       .start ⟨86400, 86400, true, true⟩]
    linesIn s.fs "log.1970-01-01".toList = ["c".toList] ∧
    linesIn s.fs "log.1970-01-02".toList = ["d".toList] ∧ linesIn s.fs "log".toList = ["e".toList] := by
  decide +kernel

/-- C70 is violated with compression: the log file is removed although compressing it has failed
(the result of `zipFile` is not checked), in every state. -/
theorem c70_failed_compression_loses_lines (c : Cfg) (e : Env) (fs : Dir) (o : Out) (hz : c.zip = true)
    (hr : c.rotate = true) (hne : o.last ≠ day e.t) (hd : c.delete = none) (hm : e.moveOk = false)
    (ho : e.openOk = true) :
    linesIn (rotateLogFile c e fs o).1 c.name = [] ∧
    ∀ x, x ≠ c.name → (rotateLogFile c e fs o).1 x = fs x := by
  have hmv : moveFile c e fs o.last = fs.set c.name none := by simp [moveFile, hz, hm]
  unfold rotateLogFile
  rw [if_pos ⟨hr, hne⟩]
  simp only [deleteOld_none hd, hmv, openLogFile_false (o := ⟨false, day e.t⟩) rfl ho]
  constructor
  · rw [linesIn_append]; simp [linesIn, Dir.set, linesOf]
  · intro x hx
    rw [append_other hx]; simp [Dir.set, hx]

/-- C70: deletion also hits files that merely begin with the name of the log file, here the log file
of another output. -/
theorem c70_deletes_other_files :
    let c : Cfg := { name := "log".toList, delete := some 1 }
    let fs0 : Dir := fun x => if x = "log_of_other_program".toList then some ⟨[.line "x".toList], 50⟩ else none
    (run c fs0 [.push ⟨400000, 400000, true, true⟩ "a".toList, .start ⟨100, 100, true, true⟩]).fs
      "log_of_other_program".toList = none := by
  decide +kernel

/-- C70: if the file name is given without a directory, no step ever deletes an old file, whatever is
configured. -/
theorem c70_no_directory_no_deletion (c : Cfg) (s : Sys) (op : Op) (x : S) (h : c.hasDir = false)
    (hx : x ≠ c.name) (hf : s.fs x ≠ none) : (step c s op).fs x ≠ none := by
  intro hn
  cases hfx : s.fs x with
  | none => exact hf hfx
  | some f =>
    rcases c70_deletion c s op x f hfx hn with h' | ⟨n, _, h', _⟩
    · exact hx h'
    · rw [h] at h'; cases h'

end Verif.Logging.File
