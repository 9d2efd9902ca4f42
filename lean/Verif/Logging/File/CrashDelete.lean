import Verif.Logging.File.CrashProps

/-!
# C134 with deletion of old files

The same history with and without `DeleteOlderThan`: the directories differ in old files only, so what C134 says
without deletion holds with deletion for all files that are not older than the configured number of days.
-/
namespace Verif.Logging.File.Crash
open Verif.Logging.File

/-- The directory `fs` is `gs` without some files, all of them last written more than the configured number of days before
the day of `now`, with names that begin with the name of the log file; the log file is not among them. -/
def OnlyOldMissing (c : Cfg) (now : Int) (fs gs : Dir) : Prop :=
  ∀ x, fs x = gs x ∨ (fs x = none ∧ x ≠ c.name ∧ c.name <+: x ∧
    ∃ n f, c.delete = some n ∧ gs x = some f ∧ f.mtime < 86400 * (now / 86400 - n))

/-- The configuration without deletion. -/
def keepAll (c : Cfg) : Cfg := { c with delete := none }

namespace OnlyOldMissing

variable {c : Cfg} {now now' : Int} {fs gs : Dir}

theorem refl (c : Cfg) (now : Int) (fs : Dir) : OnlyOldMissing c now fs fs := fun _ => .inl rfl

theorem mono (h : OnlyOldMissing c now fs gs) (hle : now ≤ now') : OnlyOldMissing c now' fs gs := by
  intro x
  rcases h x with h | ⟨h1, h2, h3, n, f, h4, h5, h6⟩
  · exact .inl h
  · exact .inr ⟨h1, h2, h3, n, f, h4, h5, by omega⟩

theorem name (h : OnlyOldMissing c now fs gs) : fs c.name = gs c.name := by
  rcases h c.name with h | ⟨_, h, _⟩
  · exact h
  · exact absurd rfl h

theorem set (h : OnlyOldMissing c now fs gs) (y : S) (v : Option File) : OnlyOldMissing c now (fs.set y v) (gs.set y v) := by
  intro x
  simp only [Dir.set]
  split
  · exact .inl rfl
  · exact h x

theorem append (h : OnlyOldMissing c now fs gs) (p : Piece) (w : Int) :
    OnlyOldMissing c now (File.append fs c.name p w) (File.append gs c.name p w) := by
  unfold File.append
  rw [h.name]
  split <;> exact h.set _ _

theorem move (h : OnlyOldMissing c now fs gs) (e : Env) (d : Int) :
    OnlyOldMissing c now (moveFile c e fs d) (moveFile (keepAll c) e gs d) := by
  have hn := h.name
  unfold moveFile
  simp only [keepAll]
  rw [hn]
  have ha : archiveName { c with delete := none } d = archiveName c d := rfl
  simp only [ha]
  split
  · split
    · exact (h.set _ _).set _ _
    · exact h.set _ _
  · cases gs c.name with
    | none => exact h
    | some f => simp only; split
                · exact (h.set _ _).set _ _
                · exact h

theorem delete_ (h : OnlyOldMissing c now fs gs) (k : Int) (hk : k ≤ now / 86400) (hn : fs c.name = none) :
    OnlyOldMissing c now (deleteOld c fs k) gs := by
  unfold deleteOld
  cases hd : c.delete with
  | none => exact h
  | some n =>
    simp only
    split
    · intro x
      cases hx : fs x with
      | none =>
        rcases h x with h' | h'
        · left; simp only [hx]; rw [← h', hx]
        · right; exact ⟨by simp only [hx], h'.2⟩
      | some f =>
        have hg : gs x = some f := by
          rcases h x with h' | h'
          · rw [← h', hx]
          · rw [h'.1] at hx; cases hx
        simp only [hx]
        split
        · next hc =>
          right
          refine ⟨by simp, ?_, by simpa using hc.2, n, f, hd, hg, by have := hc.1; omega⟩
          rintro rfl
          rw [hn] at hx; cases hx
        · left; exact hg.symm
    · exact h

end OnlyOldMissing

theorem moveFile_name (c : Cfg) (e : Env) (fs : Dir) (d : Int) (hm : e.moveOk = true) : moveFile c e fs d c.name = none := by
  unfold moveFile
  split
  · simp [Dir.set]
  · cases hf : fs c.name with
    | none => simpa using hf
    | some f => simp [Dir.set, archiveName_ne.symm]

variable {c : Cfg} {fs gs : Dir} {e : Env} {o : Out}

theorem old_open {now : Int} (h : OnlyOldMissing c now fs gs) :
    OnlyOldMissing c now (openLogFile c e fs o).1 (openLogFile (keepAll c) e gs o).1 ∧
    (openLogFile c e fs o).2 = (openLogFile (keepAll c) e gs o).2 := by
  unfold openLogFile
  split
  · exact ⟨h, rfl⟩
  · split
    · exact ⟨h.append _ _, rfl⟩
    · exact ⟨h, rfl⟩

theorem keepAll_delete (k : Int) : deleteOld (keepAll c) gs k = gs := rfl

theorem old_rotate {now : Int} (h : OnlyOldMissing c now fs gs) (hm : e.moveOk = true) (ht : e.t ≤ now) :
    OnlyOldMissing c now (rotateLogFile c e fs o).1 (rotateLogFile (keepAll c) e gs o).1 ∧
    (rotateLogFile c e fs o).2 = (rotateLogFile (keepAll c) e gs o).2 := by
  unfold rotateLogFile
  have hr : (keepAll c).rotate = c.rotate := rfl
  simp only [hr, keepAll_delete]
  split
  · exact old_open ((h.move e o.last).delete_ _ (by simp only [day]; omega) (moveFile_name c e fs o.last hm))
  · exact ⟨h, rfl⟩

theorem old_push {now : Int} (h : OnlyOldMissing c now fs gs) (hm : e.moveOk = true) (ht : e.t ≤ now) (s : S) :
    OnlyOldMissing c now (pushImpl c e fs o s).1 (pushImpl (keepAll c) e gs o s).1 ∧
    (pushImpl c e fs o s).2 = (pushImpl (keepAll c) e gs o s).2 := by
  obtain ⟨h1, h2⟩ := old_rotate (o := o) h hm ht
  obtain ⟨h3, h4⟩ := old_open (e := e) (o := (rotateLogFile c e fs o).2) h1
  unfold pushImpl
  simp only
  rw [← h2, ← h4]
  split
  · exact ⟨h3.append _ _, rfl⟩
  · exact ⟨h3, rfl⟩

theorem old_create {now : Int} (h : OnlyOldMissing c now fs gs) (hm : e.moveOk = true) (ht : e.t ≤ now) :
    OnlyOldMissing c now (create c e fs).1 (create (keepAll c) e gs).1 ∧
    (create c e fs).2 = (create (keepAll c) e gs).2 := by
  unfold create
  have hn : (keepAll c).name = c.name := rfl
  have hr : (keepAll c).rotate = c.rotate := rfl
  simp only [hn, hr, h.name]
  cases gs c.name with
  | none => exact old_open h
  | some f =>
    simp only
    obtain ⟨h1, h2⟩ := old_rotate (o := ⟨false, day f.mtime⟩) h hm ht
    rw [← h2]
    exact old_open h1

theorem old_die {now : Int} (h : OnlyOldMissing c now fs gs) (hm : e.moveOk = true) (ht : e.t ≤ now) (pt : Point) :
    OnlyOldMissing c now (dieIn c e fs o pt) (dieIn (keepAll c) e gs o pt) := by
  have hr : (keepAll c).rotate = c.rotate := rfl
  have hz : (keepAll c).zip = c.zip := rfl
  have ha : ∀ d, archiveName (keepAll c) d = archiveName c d := fun _ => rfl
  have hn : (keepAll c).name = c.name := rfl
  have hmv := h.move e o.last
  have hdel := hmv.delete_ (day e.t) (by simp only [day]; omega) (moveFile_name c e fs o.last hm)
  obtain ⟨h1, h2⟩ := old_rotate (o := o) h hm ht
  obtain ⟨h3, h4⟩ := old_open (e := e) (o := (rotateLogFile c e fs o).2) h1
  unfold dieIn
  simp only [hr, hz, ha, hn, keepAll_delete]
  by_cases hro : c.rotate = true ∧ o.last ≠ day e.t
  · simp only [if_pos hro]
    cases pt with
    | nothing => exact h
    | zipping p =>
      simp only [h.name]
      split
      · exact h.set _ _
      · exact h
    | moved => exact hmv
    | deleting sub =>
      intro x
      have hx := hdel x
      have hy := hmv x
      simp only [ite_self]
      by_cases hs : sub x = true
      · simp only [hs, if_true]; exact hx
      · simp only [hs]; exact hy
    | created =>
      simp only [hdel.name]
      split
      · exact hdel.set _ _
      · exact hdel
    | opened => simp only; rw [← h2]; exact h3
    | torn p =>
      simp only
      rw [← h2, ← h4]
      split
      · exact h3.append _ _
      · exact h3
  · simp only [if_neg hro]
    cases pt with
    | nothing => exact h
    | zipping p => simp only [hro, false_and, if_false]; exact h
    | moved => exact h
    | deleting sub => intro x; simp only [ite_self]; exact h x
    | created =>
      simp only [h.name]
      split
      · exact h.set _ _
      · exact h
    | opened => simp only; rw [← h2]; exact h3
    | torn p =>
      simp only
      rw [← h2, ← h4]
      split
      · exact h3.append _ _
      · exact h3

theorem old_startOut {now : Int} (h : OnlyOldMissing c now fs gs) : startOut c e fs = startOut (keepAll c) e gs := by
  unfold startOut
  have hn : (keepAll c).name = c.name := rfl
  have hr : (keepAll c).rotate = c.rotate := rfl
  rw [hn, hr, h.name]

/-- C134, deletion: with `DeleteOlderThan`, after every history with any crashes, the directory is the one that the
same history leaves without deletion, except that files are missing that were last written more than the configured number of
days ago; the log file itself is never missing, and the program is in the same state. -/
theorem c134_deletion_only_old (c : Cfg) (fs0 : Dir) (h : List COp) (hc : ClockC c h)
    (hm : AlwaysC (fun e => e.moveOk = true) h) :
    OnlyOldMissing c (nowC h) (runC c fs0 h).fs (runC (keepAll c) fs0 h).fs ∧
    (runC c fs0 h).out = (runC (keepAll c) fs0 h).out := by
  induction h with
  | nil => exact ⟨.refl _ _ _, rfl⟩
  | cons op h ih =>
    obtain ⟨h1, h2⟩ := ih hc.1 fun o ho => hm o (List.mem_cons_of_mem _ ho)
    have hmv := hm op List.mem_cons_self
    have hclk := hc.2
    simp only [runC]
    have up : ∀ e, op.env = some e → OnlyOldMissing c e.w (runC c fs0 h).fs (runC (keepAll c) fs0 h).fs ∧ e.t ≤ e.w ∧ e.moveOk = true :=
      fun e he => ⟨h1.mono (by have := hclk e he; omega), (hclk e he).2.1, hmv e he⟩
    cases op with
    | die => exact ⟨h1, rfl⟩
    | op op =>
      cases op with
      | stop => exact ⟨h1, rfl⟩
      | start e =>
        obtain ⟨u1, u2, u3⟩ := up e rfl
        simp only [stepC, step, nowC, COp.env, Op.env]
        rw [← h2]
        cases ho : (runC c fs0 h).out with
        | some o => simp only; exact ⟨u1, by rw [← h2, ho]⟩
        | none =>
          simp only
          obtain ⟨v1, v2⟩ := old_create u1 u3 u2
          exact ⟨v1, by rw [v2]⟩
      | push e l =>
        obtain ⟨u1, u2, u3⟩ := up e rfl
        simp only [stepC, step, nowC, COp.env, Op.env]
        rw [← h2]
        cases ho : (runC c fs0 h).out with
        | none => simp only; exact ⟨u1, by rw [← h2, ho]⟩
        | some o =>
          simp only
          obtain ⟨v1, v2⟩ := old_push (o := o) u1 u3 u2 l
          exact ⟨v1, by rw [v2]⟩
    | dieStart e pt =>
      obtain ⟨u1, u2, u3⟩ := up e rfl
      simp only [stepC, nowC, COp.env]
      rw [← h2]
      cases ho : (runC c fs0 h).out with
      | some o => simp only; exact ⟨u1, trivial⟩
      | none =>
        simp only
        rw [old_startOut (e := e) u1]
        exact ⟨old_die u1 u3 u2 pt, trivial⟩
    | diePush e l pt =>
      obtain ⟨u1, u2, u3⟩ := up e rfl
      simp only [stepC, nowC, COp.env]
      rw [← h2]
      cases ho : (runC c fs0 h).out with
      | none => simp only; exact ⟨u1, by rw [← h2, ho]⟩
      | some o => simp only; exact ⟨old_die u1 u3 u2 pt, trivial⟩

theorem clock_keepAll {h : List COp} (hc : ClockC c h) : ClockC (keepAll c) h := by
  induction h with
  | nil => trivial
  | cons op h ih => exact ⟨ih hc.1, hc.2⟩

theorem isOpen_keepAll : ∀ h : List COp, isOpenC (keepAll c) h = isOpenC c h
  | [] => rfl
  | op :: h => by
    have ih := isOpen_keepAll h
    rcases op with (e | ⟨e, s⟩ | _) | ⟨e, pt⟩ | ⟨e, s, pt⟩ | _
    · simp only [isOpenC, ih]
    · simp only [isOpenC, ih]; rfl
    all_goals rfl

theorem recorded_keepAll : ∀ h : List COp, recorded (keepAll c) h = recorded c h
  | [] => rfl
  | op :: h => by
    have ih := recorded_keepAll h
    rcases op with (e | ⟨e, s⟩ | _) | ⟨e, pt⟩ | ⟨e, s, pt⟩ | _
    · exact ih
    · simp only [recorded, ih, isOpen_keepAll]
    · exact ih
    · exact ih
    · cases pt with
      | torn p => simp only [recorded, ih, isOpen_keepAll]
      | _ => exact ih
    · exact ih

/-- C134, deletion: whenever the program is running, there are the files of `gs`, which contain every recorded line once and in
order, except old ones; the lines in the log file are the last recorded ones.
Partial: archiving the log file succeeds, and if old files are compressed no midnight passes between
reading the clock and writing. -/
theorem c134_deletion_intact_partial (c : Cfg) (fs0 : Dir) (h : List COp) (h0 : Clean c fs0) (hc : ClockC c h)
    (he : AlwaysC (fun e => e.moveOk = true) h) (ht : TornOk h) (hr : runningC h = true) :
    (∃ gs ds, Intact (keepAll c) fs0 gs ds (recorded c h) ∧ OnlyOldMissing c (nowC h) (runC c fs0 h).fs gs) ∧
    linesIn (runC c fs0 h).fs c.name <:+ recorded c h := by
  obtain ⟨h1, _⟩ := c134_deletion_only_old c fs0 h hc he
  have hck := clock_keepAll hc
  obtain ⟨⟨ds, h2⟩, _⟩ := c134_intact_after_restart_partial (keepAll c) fs0 h rfl h0 hck
    (fun op hop e h _ => he op hop e h) ht hr
  rw [recorded_keepAll] at h2
  refine ⟨⟨_, ds, h2, h1⟩, ?_⟩
  have : linesIn (runC c fs0 h).fs c.name = linesIn (runC (keepAll c) fs0 h).fs c.name := by
    simp only [linesIn, h1.name]
  rw [this, ← h2.lines]
  exact List.suffix_append ..

/-- Hypotheses of the theorems: the program logs `a` on the first day, `b` on the second, dies while deleting old files on
the fourth, and logs `d` on the sixth; only files not older than two days are kept. -/
def deletionRun : List COp :=
  [.op (.push ⟨432100, 432100, true, true⟩ "d".toList), .op (.start ⟨259300, 259300, true, true⟩),
   .diePush ⟨259200, 259200, true, true⟩ "x".toList (.deleting fun _ => true),
   .op (.push ⟨86500, 86500, true, true⟩ "b".toList),
   .op (.push ⟨200, 200, true, true⟩ "a".toList), .op (.start ⟨100, 100, true, true⟩)]

example : let c : Cfg := { name := "log".toList, delete := some 2 }
    let fs := (runC c (fun _ => none) deletionRun).fs
    let gs := (runC (keepAll c) (fun _ => none) deletionRun).fs
    Clean c (fun _ => none) ∧ runningC deletionRun = true ∧
    recorded c deletionRun = ["a".toList, "b".toList, "d".toList] ∧
    linesIn gs "log.1970-01-01".toList = ["a".toList] ∧ linesIn fs "log.1970-01-01".toList = [] ∧
    linesIn (runC c (fun _ => none) (deletionRun.drop 2)).fs "log.1970-01-01".toList = [] ∧
    linesIn (runC c (fun _ => none) (deletionRun.drop 2)).fs "log.1970-01-02".toList = ["b".toList] ∧
    linesIn fs "log".toList = ["d".toList] :=
  ⟨⟨rfl, fun _ => rfl⟩, by decide +kernel⟩

example : let c : Cfg := { name := "log".toList, delete := some 2 }
    ClockC c deletionRun ∧ AlwaysC (fun e => e.moveOk = true) deletionRun ∧ TornOk deletionRun := by
  refine ⟨?_, ?_, ?_, ?_⟩
  · simp [ClockC, deletionRun, COp.env, Op.env, nowC]
  · simp [AlwaysC, deletionRun, COp.env, Op.env]
  · simp [deletionRun]
  · simp [deletionRun]

end Verif.Logging.File.Crash
