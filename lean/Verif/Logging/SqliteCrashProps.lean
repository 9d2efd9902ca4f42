import Verif.Logging.SqliteCrash

/-! # C135: the SQLite log survives crashes, and what it loses when opening fails -/
namespace Verif.Logging.Sqlite.Crash

variable {R : Type}

/-- The files. -/
structure FilesOk (f : FS R) (L : List R) (b : Int) : Prop where
  all : f.archives.flatMap Prod.snd ++ f.active.getD [] = L
  inc : (f.archives.map Prod.fst).Pairwise (· < ·)
  old : ∀ a ∈ f.archives, a.1 ≤ b

theorem FilesOk.mono {f : FS R} {L : List R} {b b' : Int} (h : FilesOk f L b) (hb : b ≤ b') : FilesOk f L b' :=
  ⟨h.all, h.inc, fun a ha => by have := h.old a ha; omega⟩

theorem FilesOk.openDb {f : FS R} {L : List R} {b : Int} (h : FilesOk f L b) (e : Env) : FilesOk (openDb e f) L b := by
  unfold Crash.openDb
  split
  · exact ⟨by simpa [FS.open] using h.all, h.inc, h.old⟩
  · exact h

theorem FilesOk.renameDb {f : FS R} {L : List R} {b : Int} (h : FilesOk f L b) {e : Env} (hb : b < e.d') :
    FilesOk (renameDb e f) L e.d' := by
  unfold Crash.renameDb
  split
  · unfold FS.rename
    cases ha : f.active with
    | none => exact h.mono (by omega)
    | some rows =>
      have hf : f.archives.filter (fun a => a.1 ≠ e.d') = f.archives := by
        rw [List.filter_eq_self]
        intro a ha
        have := h.old a ha
        simp; omega
      simp only [hf]
      refine ⟨?_, ?_, ?_⟩
      · have := h.all; rw [ha] at this; simpa using this
      · rw [List.map_append, List.pairwise_append]
        refine ⟨h.inc, by simp, ?_⟩
        intro x hx y hy
        simp only [List.map_cons, List.map_nil, List.mem_singleton] at hy
        obtain ⟨a, ha', rfl⟩ := List.mem_map.1 hx
        have := h.old a ha'
        omega
      · intro a ha'
        rcases List.mem_append.1 ha' with ha' | ha'
        · have := h.old a ha'; omega
        · simp only [List.mem_singleton] at ha'; subst ha'; exact Int.le_refl _
  · exact h.mono (by omega)

theorem FilesOk.insert {f : FS R} {L : List R} {b : Int} (h : FilesOk f L b) (ha : f.active.isSome = true) (r : R) :
    FilesOk (f.insert r) (L ++ [r]) b := by
  refine ⟨?_, h.inc, h.old⟩
  have := h.all
  cases hf : f.active with
  | none => rw [hf] at ha; cases ha
  | some rows => rw [hf] at this; simp [FS.insert, hf, ← this]

theorem open_active {e : Env} {f : FS R} (h : e.openOk = true) : (openDb e f).active.isSome = true := by
  simp [openDb, h, FS.open]

/-- The running program. -/
structure ProcOk (rot : Bool) (h : List (Op R)) (f : FS R) (p : Proc) : Prop where
  last : rot = true → p.last = today h
  con : p.isOpen = connected rot h
  act : p.isOpen = true → f.active.isSome = true
  le : rot = true → (∀ a ∈ f.archives, a.1 ≤ p.last) ∧ p.last ≤ now h

/-- The invariant. -/
structure Inv (rot : Bool) (h : List (Op R)) (s : Sys R) : Prop where
  run : s.proc.isSome = running h
  files : FilesOk s.fs (expected rot h) (now h)
  arch : rot = false → s.fs.archives = []
  proc : ∀ p, s.proc = some p → ProcOk rot h s.fs p

theorem openDb_archives {e : Env} {f : FS R} : (openDb e f).archives = f.archives := by
  unfold openDb; split <;> rfl

theorem insert_archives {f : FS R} {r : R} : (f.insert r).archives = f.archives := rfl

theorem insert_active {f : FS R} {r : R} : (f.insert r).active.isSome = f.active.isSome := by
  simp [FS.insert]

/-- The rotation and the opening in `writeLogLine`. -/
theorem rotated {rot : Bool} {h : List (Op R)} {s : Sys R} (hi : Inv rot h s) {p : Proc} (hp : s.proc = some p) {e : Env}
    (hle : now h ≤ e.d) (he : e.d = e.d') :
    (Due rot e p → FilesOk (renameDb e s.fs) (expected rot h) e.d' ∧ FilesOk (openDb e (renameDb e s.fs)) (expected rot h) e.d') ∧
    (Due rot e p ↔ (running h && rot && today h != e.d) = true) := by
  have hr : running h = true := by rw [← hi.run, hp]; rfl
  have hP := hi.proc p hp
  constructor
  · intro hd
    obtain ⟨h1, h2⟩ := hP.le hd.1
    have hlt : p.last < e.d' := by have := hd.2; omega
    have hf : FilesOk s.fs (expected rot h) p.last := ⟨hi.files.all, hi.files.inc, h1⟩
    have := hf.renameDb hlt
    exact ⟨this, this.openDb e⟩
  · simp only [Due, hr, Bool.true_and, Bool.and_eq_true, bne_iff_ne, ne_eq]
    constructor
    · rintro ⟨h1, h2⟩; exact ⟨h1, by rw [← hP.last h1]; exact h2⟩
    · rintro ⟨h1, h2⟩; exact ⟨h1, by rw [hP.last h1]; exact h2⟩

/-- `writeLogLine` is correct. -/
theorem written {rot : Bool} {h : List (Op R)} {s : Sys R} (hi : Inv rot h s) {p : Proc} (hp : s.proc = some p) {e : Env}
    (hle : now h ≤ e.d) (he : e.d = e.d') (r : R) :
    FilesOk (writeLogLine rot e s.fs p r).1 (expected rot (.write e r :: h)) e.d' ∧
    (rot = false → (writeLogLine rot e s.fs p r).1.archives = []) ∧
    ProcOk rot (.write e r :: h) (writeLogLine rot e s.fs p r).1 (writeLogLine rot e s.fs p r).2 := by
  have hr : running h = true := by rw [← hi.run, hp]; rfl
  have hP := hi.proc p hp
  obtain ⟨hrot, hdue⟩ := rotated hi hp hle he
  have key : ∀ (f : FS R) (q : Proc), (q.isOpen = connected rot (.write e r :: h)) → (q.isOpen = true → f.active.isSome = true) →
      FilesOk f (expected rot h) e.d' → (rot = false → f.archives = []) → (rot = true → q.last = e.d) →
      FilesOk (if q.isOpen && e.insertOk then f.insert r else f) (expected rot (.write e r :: h)) e.d' ∧
      (rot = false → (if q.isOpen && e.insertOk then f.insert r else f).archives = []) ∧
      ProcOk rot (.write e r :: h) (if q.isOpen && e.insertOk then f.insert r else f) q := by
    intro f q h1 h2 h3 h4 h5
    have hx : expected rot (.write e r :: h) = if q.isOpen && e.insertOk then expected rot h ++ [r] else expected rot h := by
      simp only [expected, hr, Bool.true_and, h1]
    have ho : ∀ a ∈ f.archives, a.1 ≤ e.d' := h3.old
    have ht : today (.write e r :: h) = e.d := by simp [today, hr]
    have hn : now (.write e r :: h) = e.d' := rfl
    rw [hx]
    split
    · next hc =>
      have hq : q.isOpen = true := by
        rw [Bool.and_eq_true] at hc; exact hc.1
      refine ⟨h3.insert (h2 hq) r, h4, fun hr => by rw [h5 hr, ht], h1, fun hq => by rw [insert_active]; exact h2 hq, fun hr => ?_⟩
      rw [h5 hr, hn]
      exact ⟨fun a ha => by have := ho a ha; omega, by omega⟩
    · refine ⟨h3, h4, fun hr => by rw [h5 hr, ht], h1, h2, fun hr => ?_⟩
      rw [h5 hr, hn]
      exact ⟨fun a ha => by have := ho a ha; omega, by omega⟩
  unfold writeLogLine
  by_cases hd : Due rot e p
  · simp only [if_pos hd]
    have hc : connected rot (.write e r :: h) = e.openOk := by simp only [connected]; rw [if_pos (hdue.1 hd)]
    refine key _ ⟨e.d, e.openOk⟩ hc.symm (fun ho => open_active ho) (hrot hd).2 (fun hr => ?_) (fun _ => rfl)
    rw [hd.1] at hr; cases hr
  · simp only [if_neg hd]
    have hc : connected rot (.write e r :: h) = connected rot h := by
      simp only [connected]; rw [if_neg (fun hx => hd (hdue.2 hx))]
    refine key s.fs p (by rw [hc]; exact hP.con) hP.act (hi.files.mono (by omega)) hi.arch (fun hr => ?_)
    exact Classical.byContradiction fun hne => hd ⟨hr, hne⟩

theorem inv (rot : Bool) : ∀ h : List (Op R), Clock h → Inv rot h (run rot h)
  | [], _ => ⟨rfl, ⟨rfl, by simp [run], by simp [run]⟩, fun _ => rfl, fun p hp => by cases hp⟩
  | op :: h, hc => by
    have ih := inv rot h hc.1
    simp only [run]
    generalize run rot h = s at ih
    obtain ⟨fs, proc⟩ := s
    have idle : ∀ (e : Env), op.env = some e → now h ≤ now (op :: h) := by
      intro e he
      have := hc.2 e he
      simp only [now, he]; omega
    cases op with
    | start e =>
      have hcl := hc.2 e rfl
      have hn : now (.start e :: h) = e.d' := rfl
      cases proc with
      | some p =>
        have hr : running h = true := by rw [← ih.run]; rfl
        refine ⟨by simp [step, running], ?_, ih.arch, fun q hq => ?_⟩
        · exact ih.files.mono (idle e rfl)
        · have := ih.proc q hq
          refine ⟨fun hx => by rw [this.last hx]; simp [today, hr], by rw [this.con]; simp [connected, hr], this.act, fun hx => ?_⟩
          obtain ⟨h1, h2⟩ := this.le hx
          exact ⟨h1, by have := idle e rfl; omega⟩
      | none =>
        have hr : running h = false := by rw [← ih.run]; rfl
        refine ⟨by simp [step, running], ?_, fun hx => ?_, fun q hq => ?_⟩
        · exact (ih.files.mono (idle e rfl)).openDb e
        · simp only [step, openDb_archives]; exact ih.arch hx
        · simp only [step, Option.some.injEq] at hq
          subst hq
          refine ⟨fun _ => by simp [today, hr], by simp [connected, hr], fun ho => open_active ho, fun hx => ?_⟩
          simp only [step, openDb_archives, hn]
          exact ⟨fun a ha => by have := ih.files.old a ha; omega, by omega⟩
    | write e r =>
      have hcl := hc.2 e rfl
      cases proc with
      | some p =>
        have hr : running h = true := by rw [← ih.run]; rfl
        obtain ⟨h1, h2, h3⟩ := written ih rfl hcl.1 hcl.2 r
        refine ⟨by simp [step, running, hr], h1, h2, fun q hq => ?_⟩
        simp only [step, Option.some.injEq] at hq
        subst hq
        exact h3
      | none =>
        have hr : running h = false := by rw [← ih.run]; rfl
        refine ⟨by simp [step, running, hr], ?_, ih.arch, fun q hq => by cases hq⟩
        have : expected rot (.write e r :: h) = expected rot h := by simp [expected, hr]
        rw [this]
        exact ih.files.mono (idle e rfl)
    | stop => exact ⟨rfl, ih.files, ih.arch, fun q hq => by cases hq⟩
    | dieStart e o =>
      cases proc with
      | some p =>
        have hr : running h = true := by rw [← ih.run]; rfl
        refine ⟨by simp [step, running, hr], ih.files.mono (idle e rfl), ih.arch, fun q hq => ?_⟩
        have := ih.proc q hq
        refine ⟨this.last, this.con, this.act, fun hx => ?_⟩
        obtain ⟨h1, h2⟩ := this.le hx
        exact ⟨h1, by have := idle e rfl; omega⟩
      | none =>
        have hr : running h = false := by rw [← ih.run]; rfl
        refine ⟨by simp [step, running, hr], ?_, fun hx => ?_, fun q hq => by cases hq⟩
        · simp only [step]
          split
          · exact (ih.files.mono (idle e rfl)).openDb e
          · exact ih.files.mono (idle e rfl)
        · simp only [step]
          split
          · rw [openDb_archives]; exact ih.arch hx
          · exact ih.arch hx
    | dieWrite e r pt =>
      have hcl := hc.2 e rfl
      cases proc with
      | none =>
        have hr : running h = false := by rw [← ih.run]; rfl
        refine ⟨rfl, ?_, ih.arch, fun q hq => by cases hq⟩
        have : expected rot (.dieWrite e r pt :: h) = expected rot h := by cases pt <;> simp [expected, hr]
        rw [this]
        exact ih.files.mono (idle e rfl)
      | some p =>
        have hmono := ih.files.mono (idle e rfl)
        obtain ⟨hrot, hdue⟩ := rotated ih rfl hcl.1 hcl.2
        refine ⟨rfl, ?_, ?_, fun q hq => by cases hq⟩
        · cases pt with
          | nothing => exact hmono
          | renamed =>
            simp only [step, dieIn]
            split
            · next hd => exact (hrot hd).1
            · exact hmono
          | opened =>
            simp only [step, dieIn]
            split
            · next hd => exact (hrot hd).2
            · exact hmono
          | inserted => exact (written ih rfl hcl.1 hcl.2 r).1
        · intro hx
          cases pt with
          | nothing => exact ih.arch hx
          | renamed =>
            simp only [step, dieIn]
            split
            · next hd => rw [hd.1] at hx; cases hx
            · exact ih.arch hx
          | opened =>
            simp only [step, dieIn]
            split
            · next hd => rw [hd.1] at hx; cases hx
            · exact ih.arch hx
          | inserted => exact (written ih rfl hcl.1 hcl.2 r).2.1 hx

/-- C135: at every moment, wherever and however often the program has died and whatever has failed, the
archives in the order of their days and the database contain exactly the rows that were written while the
database was open and whose insertion was successful and not interrupted, once each and in order.
Partial: the clock is not set back and no midnight passes between the two readings of the clock (C77 shows the
loss otherwise). -/
theorem c135_stored_exact_partial (rot : Bool) (h : List (Op R)) (hc : Clock h) :
    stored (run rot h) = expected rot h ∧ ((run rot h).fs.archives.map Prod.fst).Pairwise (· < ·) :=
  ⟨(inv rot h hc).files.all, (inv rot h hc).files.inc⟩

/-- The rows of all completed calls, and of calls interrupted after the insertion. -/
def rows : List (Op R) → List R
  | [] => []
  | .write _ r :: h => if running h then rows h ++ [r] else rows h
  | .dieWrite _ r .inserted :: h => if running h then rows h ++ [r] else rows h
  | _ :: h => rows h

/-- C135: if no operation fails, no row is lost by crashes, wherever and however often the program dies.
Partial: as above. -/
theorem c135_no_failure_no_loss_partial (rot : Bool) (h : List (Op R)) (hc : Clock h)
    (he : ∀ op ∈ h, ∀ e, op.env = some e → e.openOk = true ∧ e.insertOk = true) :
    stored (run rot h) = rows h := by
  rw [(c135_stored_exact_partial rot h hc).1]
  have con : ∀ h : List (Op R), (∀ op ∈ h, ∀ e, op.env = some e → e.openOk = true ∧ e.insertOk = true) →
      running h = true → connected rot h = true := by
    intro h he hr
    induction h with
    | nil => cases hr
    | cons op h ih =>
      have ih := ih (fun o ho => he o (List.mem_cons_of_mem _ ho))
      have h0 := he op (List.mem_cons_self ..)
      cases op with
      | start e =>
        simp only [connected]
        split
        · next hx => exact ih hx
        · exact (h0 e rfl).1
      | write e r =>
        simp only [connected]
        split
        · exact (h0 e rfl).1
        · exact ih hr
      | dieStart e o => exact ih hr
      | stop => cases hr
      | dieWrite e r pt => cases hr
  clear hc
  induction h with
  | nil => rfl
  | cons op h ih =>
    have he' : ∀ op ∈ h, ∀ e, op.env = some e → e.openOk = true ∧ e.insertOk = true :=
      fun o ho => he o (List.mem_cons_of_mem _ ho)
    have ih := ih he'
    have h0 := he op (List.mem_cons_self ..)
    have hw : ∀ e r, op.env = some e → running h = true → connected rot (.write e r :: h) = true := by
      intro e r heq hr
      simp only [connected]
      split
      · exact (h0 e heq).1
      · exact con h he' hr
    cases op with
    | write e r =>
      have hins := (h0 e rfl).2
      simp only [expected, rows, ih, hins]
      by_cases hr : running h = true
      · simp [hr, hw e r rfl hr]
      · simp [hr]
    | dieWrite e r pt =>
      have hins := (h0 e rfl).2
      cases pt with
      | inserted =>
        simp only [expected, rows, ih, hins]
        by_cases hr : running h = true
        · simp [hr, hw e r rfl hr]
        · simp [hr]
      | _ => exact ih
    | _ => exact ih

/-- C135: with any failures and crashes the log never contains a row that was not written, a row twice, or rows out
of order. Partial: as above. -/
theorem c135_at_most_once_partial (rot : Bool) (h : List (Op R)) (hc : Clock h) :
    (stored (run rot h)).Sublist (rows h) := by
  rw [(c135_stored_exact_partial rot h hc).1]
  clear hc
  induction h with
  | nil => exact List.Sublist.refl _
  | cons op h ih =>
    have app : ∀ (b : Bool) (r : R), (if running h && b then expected rot h ++ [r] else expected rot h).Sublist
        (if running h then rows h ++ [r] else rows h) := by
      intro b r
      cases running h
      · exact ih
      · cases b
        · exact ih.trans (List.sublist_append_left ..)
        · exact ih.append (List.Sublist.refl _)
    cases op with
    | write e r => simp only [expected, rows, Bool.and_assoc]; exact app _ r
    | dieWrite e r pt =>
      cases pt with
      | inserted => simp only [expected, rows, Bool.and_assoc]; exact app _ r
      | _ => exact ih
    | _ => exact ih

/-- C135, a consequence of opening only at the start and when rotating: if the database cannot be opened then, all
rows up to the next day or restart are lost, although it could be opened again. -/
theorem c135_failed_open_loses_the_day (rot : Bool) (h : List (Op R)) (e : Env) (r : R) (hr : running h = true)
    (hrot : rot = true) (hd : today h ≠ e.d) (ho : e.openOk = false) (more : List (Env × R))
    (hsame : ∀ x ∈ more, x.1.d = e.d) :
    expected rot ((more.map fun x => Op.write x.1 x.2) ++ .write e r :: h) = expected rot h := by
  subst hrot
  have : ∀ more : List (Env × R), (∀ x ∈ more, x.1.d = e.d) →
      let g := (more.map fun x => Op.write x.1 x.2) ++ .write e r :: h
      expected true g = expected true h ∧ connected true g = false ∧ running g = true ∧ today g = e.d := by
    intro more hs
    induction more with
    | nil =>
      have hc : connected true (.write e r :: h) = false := by simp [connected, hr, hd, ho]
      refine ⟨by simp [expected, hc], hc, hr, by simp [today, hr]⟩
    | cons x more ih =>
      obtain ⟨h1, h2, h3, h4⟩ := ih (fun y hy => hs y (List.mem_cons_of_mem _ hy))
      have hx := hs x (List.mem_cons_self ..)
      simp only [List.map_cons, List.cons_append]
      generalize (more.map fun x => Op.write x.1 x.2) ++ .write e r :: h = g at *
      have hc : connected true (.write x.1 x.2 :: g) = false := by simp [connected, h3, h4, hx, h2]
      refine ⟨by simp [expected, hc, h1], hc, h3, by simp [today, h3, hx]⟩
  exact (this more hsame).1

/-- Hypotheses of the theorems: the program dies between renaming and opening on day 2, is restarted on the
same day, and dies after the insertion on day 3; then the database cannot be opened on day 4. -/
def exampleRun : List (Op Nat) :=
  [.write ⟨5, 5, true, true, true⟩ 17, .write ⟨4, 4, true, true, true⟩ 16, .write ⟨4, 4, true, false, true⟩ 15,
   .start ⟨3, 3, true, true, true⟩, .dieWrite ⟨3, 3, true, true, true⟩ 14 .inserted, .write ⟨2, 2, true, true, true⟩ 13,
   .start ⟨2, 2, true, true, true⟩, .dieStart ⟨2, 2, true, true, true⟩ true, .dieWrite ⟨2, 2, true, true, true⟩ 12 .renamed,
   .write ⟨1, 1, true, true, true⟩ 11, .start ⟨1, 1, true, true, true⟩]

example : Clock exampleRun ∧ stored (run true exampleRun) = [11, 13, 14, 17] ∧
    (run true exampleRun).fs.archives = [(2, [11]), (3, [13]), (4, [14])] := by
  refine ⟨?_, by decide, by decide⟩
  simp [Clock, exampleRun, Op.env, now]

/-- Hypotheses of `c135_failed_open_loses_the_day`. -/
example : running (exampleRun.drop 3) = true ∧ today (exampleRun.drop 3) ≠ 4 := by decide

/-- Hypotheses of `c135_no_failure_no_loss_partial`. -/
example : ∀ op ∈ exampleRun.drop 3, ∀ e, op.env = some e → e.openOk = true ∧ e.insertOk = true := by
  simp [exampleRun, Op.env]

end Verif.Logging.Sqlite.Crash
