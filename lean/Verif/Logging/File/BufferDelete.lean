import Verif.Logging.File.BufferProps
import Verif.Logging.File.CrashDelete

/-!
# C136 with deletion of old files

As `CrashDelete.lean` for C134: the directory differs from that of the same history without deletion in old files only.
-/
namespace Verif.Logging.File.Buffer
open Verif.Logging.File Verif.Logging.File.Crash

variable {c : Cfg} {flush : Bool} {fs gs : Dir} {e : Env} {b : Obj} {now : Int}

theorem old_write (h : OnlyOldMissing c now fs gs) (w : Int) (chunk : S) :
    OnlyOldMissing c now (write c w fs chunk) (write (keepAll c) w gs chunk) := by
  unfold write
  split
  · exact h
  · exact h.append _ _

theorem old_rotateB (h : OnlyOldMissing c now fs gs) (hm : e.moveOk = true) (ht : e.t ≤ now) :
    OnlyOldMissing c now (rotateB c e fs b).1 (rotateB (keepAll c) e gs b).1 ∧
    (rotateB c e fs b).2 = (rotateB (keepAll c) e gs b).2 := by
  have hd : Due (keepAll c) e b.out ↔ Due c e b.out := Iff.rfl
  unfold rotateB
  by_cases h1 : Due c e b.out
  · rw [if_pos h1, if_pos (hd.2 h1)]
    obtain ⟨h2, h3⟩ := old_rotate (o := b.out) (old_write h e.t b.buf) hm ht
    exact ⟨h2, by simp only [h3]⟩
  · rw [if_neg h1, if_neg (fun x => h1 (hd.1 x))]
    exact ⟨h, rfl⟩

theorem old_pushB (h : OnlyOldMissing c now fs gs) (hm : e.moveOk = true) (ht : e.t ≤ now) (k : Nat) (s : S) :
    OnlyOldMissing c now (pushB c flush e k fs b s).1 (pushB (keepAll c) flush e k gs b s).1 ∧
    (pushB c flush e k fs b s).2 = (pushB (keepAll c) flush e k gs b s).2 := by
  obtain ⟨h1, h2⟩ := old_rotateB (b := b) h hm ht
  obtain ⟨h3, h4⟩ := old_open (e := e) (o := (rotateB c e fs b).2.out) h1
  unfold pushB
  simp only
  rw [← h2, ← h4]
  split
  · exact ⟨old_write h3 _ _, rfl⟩
  · exact ⟨h3, rfl⟩

theorem old_dieB (h : OnlyOldMissing c now fs gs) (hm : e.moveOk = true) (ht : e.t ≤ now) (s : S) (pt : Point) :
    OnlyOldMissing c now (dieB c e fs b s pt) (dieB (keepAll c) e gs b s pt) := by
  have hd : Due (keepAll c) e b.out ↔ Due c e b.out := Iff.rfl
  have hcl := old_write h e.t b.buf
  have hmv := hcl.move e b.out.last
  have hdel := hmv.delete_ (day e.t) (by simp only [day]; omega) (moveFile_name c e _ b.out.last hm)
  obtain ⟨h1, h2⟩ := old_rotateB (b := b) h hm ht
  obtain ⟨h3, h4⟩ := old_open (e := e) (o := (rotateB c e fs b).2.out) h1
  unfold dieB
  simp only
  cases pt with
  | nothing => exact h
  | closing n =>
    simp only [hd]
    split
    · exact old_write h _ _
    · exact h
  | zipping p =>
    have hz : (keepAll c).zip = c.zip := rfl
    simp only [hd, hz]
    split
    · exact hcl.set _ _
    · exact h
  | moved =>
    simp only [hd]
    split
    · exact hmv
    · exact h
  | deleting sub =>
    simp only [hd, keepAll_delete, ite_self]
    split
    · intro x
      have hx := hdel x
      have hy := hmv x
      by_cases hs : sub x = true
      · simp only [hs, if_true]; exact hx
      · simp only [hs]; exact hy
    · exact h
  | opened => simp only; rw [← h2]; exact h3
  | writing n =>
    simp only
    rw [← h2, ← h4]
    split
    · exact old_write h3 _ _
    · exact h3

/-- C136, deletion: with `DeleteOlderThan`, after every history with any crashes, the directory is the one that the same
history leaves without deletion, except that files are missing that were last written more than the configured number of days
ago; the log file itself is never missing, and the program is in the same state. -/
theorem c136_deletion_only_old (c : Cfg) (flush : Bool) (fs0 : Dir) (h : List BOp) (hc : ClockB h)
    (hm : ∀ op ∈ h, op.env.moveOk = true) :
    OnlyOldMissing c (nowB h) (run c flush fs0 h).fs (run (keepAll c) flush fs0 h).fs ∧
    (run c flush fs0 h).obj = (run (keepAll c) flush fs0 h).obj := by
  induction h with
  | nil => exact ⟨.refl _ _ _, rfl⟩
  | cons op h ih =>
    obtain ⟨h1, h2⟩ := ih hc.1 fun o ho => hm o (List.mem_cons_of_mem _ ho)
    have u3 := hm op List.mem_cons_self
    obtain ⟨_, hle, hw, _⟩ := hc
    have u1 : OnlyOldMissing c op.env.w (run c flush fs0 h).fs (run (keepAll c) flush fs0 h).fs := h1.mono (by omega)
    simp only [run]
    cases op with
    | start e =>
      simp only [step, nowB, BOp.env] at *
      rw [← h2]
      cases ho : (run c flush fs0 h).obj with
      | some o => simp only; exact ⟨u1, by rw [← h2, ho]⟩
      | none =>
        simp only
        obtain ⟨v1, v2⟩ := old_create u1 u3 hw
        exact ⟨v1, by rw [v2]⟩
    | push e k l =>
      simp only [step, nowB, BOp.env] at *
      rw [← h2]
      cases ho : (run c flush fs0 h).obj with
      | none => simp only; exact ⟨u1, by rw [← h2, ho]⟩
      | some o =>
        simp only
        obtain ⟨v1, v2⟩ := old_pushB (flush := flush) (b := o) u1 u3 hw k l
        exact ⟨v1, by rw [v2]⟩
    | stop e =>
      simp only [step, nowB, BOp.env] at *
      rw [← h2]
      cases ho : (run c flush fs0 h).obj with
      | none => simp only; exact ⟨u1, by rw [← h2, ho]⟩
      | some o => exact ⟨old_write u1 _ _, rfl⟩
    | die e l pt =>
      simp only [step, nowB, BOp.env] at *
      rw [← h2]
      cases ho : (run c flush fs0 h).obj with
      | none => simp only; exact ⟨u1, by rw [← h2, ho]⟩
      | some o => exact ⟨old_dieB u1 u3 hw l pt, rfl⟩

/-- C136, deletion: what `c136_kept_partial` says holds of a directory `gs` of which only old files are missing.
Partial: the log file can be moved, and the program does not die while a file is compressed. -/
theorem c136_deletion_kept_partial (c : Cfg) (flush : Bool) (fs0 : Dir) (h : List BOp) (h0 : Clean c fs0) (hc : ClockB h)
    (hf : ∀ op ∈ h, op.env.moveOk = true ∧ ∀ e s p, op ≠ .die e s (.zipping p)) :
    ∃ gs ds L r, Intact (keepAll c) fs0 gs ds L ∧ OnlyOldMissing c (nowB h) (run c flush fs0 h).fs gs ∧
      Kept c flush h (L.flatten ++ r) ∧ r <:+ unsynced c flush h ∧ (runningB h = false → r = []) := by
  obtain ⟨h1, _⟩ := c136_deletion_only_old c flush fs0 h hc fun op hop => (hf op hop).1
  have hop : ∀ h, openB (keepAll c) h = openB c h := by
    intro h
    induction h with
    | nil => rfl
    | cons op h ih =>
      have hr : (keepAll c).rotate = c.rotate := rfl
      cases op <;> simp only [openB, ih, hr]
  have hun : ∀ h, unsynced (keepAll c) flush h = unsynced c flush h := by
    intro h
    induction h with
    | nil => rfl
    | cons op h ih =>
      have hr : (keepAll c).rotate = c.rotate := rfl
      cases op <;> simp only [unsynced, ih, hr, hop]
  have hk : ∀ h y, Kept (keepAll c) flush h y → Kept c flush h y := by
    intro h y hy
    induction hy with
    | nil => exact .nil
    | start _ ih => exact .start ih
    | push hr _ ih => exact .push (by rw [← hop]; exact hr) ih
    | stop _ ih => exact .stop ih
    | die hr _ he hz ih => exact .die hr ih (by simpa only [lineOf, hop] using he) (by rw [← hun]; simpa only [lineOf, hop] using hz)
    | pushOff hr _ ih => exact .pushOff (by rw [← hop]; exact hr) ih
    | dieOff hr _ ih => exact .dieOff hr ih
  obtain ⟨ds, L, r, g1, g2, g3, g4⟩ := c136_kept_partial (keepAll c) flush fs0 h rfl h0 hc
    (fun op hop => ⟨fun _ => (hf op hop).1, (hf op hop).2⟩)
  exact ⟨_, ds, L, r, g1, h1, hk _ _ g2, by rw [← hun]; exact g3, g4⟩

/-- Hypotheses of the theorems: the program logs `ab` on the first day, of which one character is written before the next line, on the
second day, logs on the second, and on the fifth dies after deleting the archive of the first day, but not that of the second. -/
def deletionRun : List BOp :=
  [.push ⟨345700, 345701, true, true⟩ 1 "e".toList, .start ⟨345650, 345650, true, true⟩,
   .die ⟨345601, 345601, true, true⟩ "x".toList (.deleting fun x => x = "log.1970-01-01".toList),
   .push ⟨86500, 86500, true, true⟩ 2 "cd".toList, .push ⟨200, 200, true, true⟩ 1 "ab".toList, .start ⟨100, 100, true, true⟩]

example : let c : Cfg := { name := "log".toList, delete := some 1 }
    let s := run c false (fun _ => none) deletionRun
    let t := run (keepAll c) false (fun _ => none) deletionRun
    Clean c (fun _ => none) ∧ runningB deletionRun = true ∧
    (linesIn t.fs "log.1970-01-01".toList).flatten = "ab".toList ∧ s.fs "log.1970-01-01".toList = none ∧
    (linesIn s.fs "log.1970-01-02".toList).flatten = "cd".toList ∧ (linesIn s.fs "log".toList).flatten = "e".toList :=
  ⟨⟨rfl, fun _ => rfl⟩, by decide +kernel⟩

example : ClockB deletionRun ∧
    ∀ op ∈ deletionRun, op.env.moveOk = true ∧ ∀ e s p, op ≠ .die e s (.zipping p) := by
  constructor
  · simp [ClockB, deletionRun, BOp.env, nowB]
  · simp [deletionRun, BOp.env]

end Verif.Logging.File.Buffer
