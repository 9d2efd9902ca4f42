import Verif.Logging.Sqlite
import Mathlib.Data.List.Induction
import Mathlib.Tactic.Linarith

/-! # C77: the SQLite log loses no rows when it is rotated -/
namespace Verif.Logging.Sqlite

variable {R : Type}

/-- Whether a program is running. -/
def running (b : Bool) : List (Op R) → Bool
  | [] => b
  | .start _ :: ops => running true ops
  | .write _ _ _ :: ops => running b ops
  | .stop :: ops => running false ops

theorem running_append (b : Bool) (l l' : List (Op R)) : running b (l ++ l') = running (running b l) l' := by
  induction l generalizing b with
  | nil => rfl
  | cons o l ih => cases o <;> exact ih _

theorem written_append (b : Bool) (l l' : List (Op R)) : written b (l ++ l') = written b l ++ written (running b l) l' := by
  induction l generalizing b with
  | nil => rfl
  | cons o l ih => cases o <;> simp [written, running, ih]

theorem run_snoc (ops : List (Op R)) (o : Op R) : run (ops ++ [o]) = step (run ops) o := by simp [run]

/-- The last reading of the clock is an upper bound of the readings before. -/
def Bound (ops : List (Op R)) (d : Int) : Prop := ∀ x ∈ ops.flatMap Op.days, x ≤ d

/-- The invariant. -/
structure Inv (ops : List (Op R)) (s : State R) : Prop where
  proc : s.proc.isSome = running false ops
  act : s.proc.isSome → s.fs.active.isSome
  all : stored s = (written false ops).map Prod.snd
  inc : (s.fs.archives.map Prod.fst).Pairwise (· < ·)
  old : ∀ a ∈ s.fs.archives, ∀ d, Bound ops d → a.1 ≤ d
  last : ∀ l, s.proc = some l → (∀ a ∈ s.fs.archives, a.1 ≤ l) ∧ ∀ d, Bound ops d → l ≤ d

theorem filter_fresh {L : List (Int × List R)} {d : Int} (h : ∀ a ∈ L, a.1 ≠ d) : L.filter (fun a => a.1 ≠ d) = L := by
  rw [List.filter_eq_self]
  intro a ha
  simpa using h a ha

theorem bound_append {ops : List (Op R)} {o : Op R} {d : Int} :
    Bound (ops ++ [o]) d ↔ Bound ops d ∧ ∀ x ∈ o.days, x ≤ d := by
  unfold Bound
  simp only [List.flatMap_append, List.mem_append, List.flatMap_singleton]
  constructor
  · intro h
    exact ⟨fun x hx => h x (Or.inl hx), fun x hx => h x (Or.inr hx)⟩
  · rintro ⟨h1, h2⟩ x (hx | hx)
    · exact h1 x hx
    · exact h2 x hx

theorem mono_last {ops : List (Op R)} {o : Op R} (h : Monotone (ops ++ [o])) : ∀ d ∈ o.days, Bound ops d := by
  unfold Monotone at h
  rw [List.flatMap_append, List.pairwise_append] at h
  intro d hd x hx
  exact h.2.2 x hx d (by simpa using hd)

theorem inv_run (ops : List (Op R)) (hm : Monotone ops) (hn : NoMidnight ops) : Inv ops (run ops) := by
  induction ops using List.reverseRecOn with
  | nil =>
    refine ⟨rfl, by simp [run, State.init], rfl, by simp [run, State.init], by simp [run, State.init], by simp [run, State.init]⟩
  | append_singleton ops o ih =>
    have hm' : Monotone ops := by
      unfold Monotone at hm
      rw [List.flatMap_append, List.pairwise_append] at hm
      exact hm.1
    have hn' : NoMidnight ops := fun d d' r h => hn d d' r (by simp [h])
    have hI := ih hm' hn'
    have hb := mono_last hm
    rw [run_snoc]
    generalize run ops = s at hI
    obtain ⟨i1, i2, i3, i4, i5, i6⟩ := hI
    cases o with
    | start d =>
      have hd := hb d (by simp [Op.days])
      refine ⟨?_, ?_, ?_, i4, ?_, ?_⟩
      · simp [step, running_append, running]
      · simp [step, FS.open]
      · rw [written_append]
        simp only [written, List.append_nil]
        rw [← i3]
        simp [stored, step, FS.open]
      · intro a ha e he
        exact i5 a ha e (bound_append.1 he).1
      · intro l hl
        simp only [step, Option.some.injEq] at hl
        subst hl
        refine ⟨fun a ha => i5 a ha _ hd, fun e he => ?_⟩
        exact (bound_append.1 he).2 d (by simp [Op.days])
    | stop =>
      refine ⟨?_, by simp [step], ?_, i4, ?_, ?_⟩
      · simp [step, running_append, running]
      · rw [written_append]
        simp only [written, List.append_nil]
        rw [← i3]
        rfl
      · intro a ha e he
        exact i5 a ha e (bound_append.1 he).1
      · intro l hl
        simp [step] at hl
    | write d d' r =>
      have hd := hb d (by simp [Op.days])
      have : d = d' := hn d d' r (by simp)
      subst this
      cases hp : s.proc with
      | none =>
        have hr : running false ops = false := by rw [← i1, hp]; rfl
        have hs : step s (.write d d r) = s := by simp [step, hp]
        rw [hs]
        refine ⟨?_, i2, ?_, i4, ?_, ?_⟩
        · simp only [running_append, running]; exact i1
        · rw [written_append, hr]
          simp only [written, List.append_nil, Bool.false_eq_true, if_false]
          exact i3
        · intro a ha e he
          exact i5 a ha e (bound_append.1 he).1
        · intro l hl
          rw [hp] at hl
          cases hl
      | some last =>
        obtain ⟨j1, j2⟩ := i6 last hp
        have hr : running false ops = true := by rw [← i1, hp]; rfl
        have hact := i2 (by simp [hp])
        obtain ⟨rows, hrows⟩ := Option.isSome_iff_exists.1 hact
        have hle : last ≤ d := j2 d hd
        by_cases hld : last = d
        · have hs : step s (.write d d r) = { fs := s.fs.insert r, proc := some last } := by
            simp only [step, hp, rotate]
            rw [if_neg (not_not.2 hld)]
          rw [hs]
          refine ⟨?_, ?_, ?_, i4, ?_, ?_⟩
          · simp [running_append, running, hr]
          · simp [FS.insert, hrows]
          · rw [written_append, hr]
            simp only [written, List.append_nil, if_true, List.map_append, List.map_cons, List.map_nil]
            rw [← i3]
            simp [stored, FS.insert, hrows]
          · intro a ha e he
            exact i5 a ha e (bound_append.1 he).1
          · intro l hl
            simp only [Option.some.injEq] at hl
            subst hl
            exact ⟨j1, fun e he => j2 e (bound_append.1 he).1⟩
        · have hlt : last < d := lt_of_le_of_ne hle hld
          have hfr : s.fs.archives.filter (fun a => a.1 ≠ d) = s.fs.archives :=
            filter_fresh fun a ha h => by
              have := j1 a ha
              omega
          have hs : step s (.write d d r) =
              { fs := { active := some [r], archives := s.fs.archives ++ [(d, rows)] }, proc := some d } := by
            simp only [step, hp, rotate]
            rw [if_pos hld]
            simp only [FS.rename, hrows, FS.open, FS.insert, Option.getD_none, Option.map_some, List.nil_append]
            rw [hfr]
          rw [hs]
          refine ⟨?_, by simp, ?_, ?_, ?_, ?_⟩
          · simp [running_append, running, hr]
          · rw [written_append, hr]
            simp only [written, List.append_nil, if_true, List.map_append, List.map_cons, List.map_nil]
            rw [← i3]
            simp [stored, hrows]
          · simp only [List.map_append, List.map_cons, List.map_nil]
            rw [List.pairwise_append]
            refine ⟨i4, by simp, fun x hx y hy => ?_⟩
            obtain ⟨a, ha, rfl⟩ := List.mem_map.1 hx
            simp only [List.mem_singleton] at hy
            subst hy
            have := j1 a ha
            omega
          · intro a ha e he
            rw [List.mem_append, List.mem_singleton] at ha
            rcases ha with ha | rfl
            · exact i5 a ha e (bound_append.1 he).1
            · exact (bound_append.1 he).2 d (by simp [Op.days])
          · intro l hl
            simp only [Option.some.injEq] at hl
            subst hl
            refine ⟨fun a ha => ?_, fun e he => (bound_append.1 he).2 d (by simp [Op.days])⟩
            rw [List.mem_append, List.mem_singleton] at ha
            rcases ha with ha | rfl
            · have := j1 a ha
              omega
            · exact le_refl _

/-- What is known about the days of the rows, each of which carries the day on which it was written. -/
structure DInv (ops : List (Op (Int × R))) (s : State (Int × R)) : Prop where
  arch : ∀ a ∈ s.fs.archives, ∀ x ∈ a.2, x.1 < a.1
  act : ∀ a ∈ s.fs.archives, ∀ x ∈ s.fs.active.getD [], a.1 ≤ x.1
  seg : s.fs.archives.Pairwise fun a b => ∀ x ∈ b.2, a.1 ≤ x.1
  now : ∀ x ∈ s.fs.active.getD [], ∀ d, Bound ops d → x.1 ≤ d
  run : ∀ l, s.proc = some l → ∀ x ∈ s.fs.active.getD [], x.1 ≤ l

theorem dinv_run (ops : List (Op (Int × R))) (hm : Monotone ops) (hn : NoMidnight ops)
    (ht : ∀ d d' r, .write d d' r ∈ ops → r.1 = d) : DInv ops (run ops) := by
  induction ops using List.reverseRecOn with
  | nil => constructor <;> simp [run, State.init]
  | append_singleton ops o ih =>
    have hm' : Monotone ops := by
      unfold Monotone at hm
      rw [List.flatMap_append, List.pairwise_append] at hm
      exact hm.1
    have hn' : NoMidnight ops := fun d d' r h => hn d d' r (by simp [h])
    have hI := inv_run ops hm' hn'
    have hD := ih hm' hn' fun d d' r h => ht d d' r (by simp [h])
    have hb := mono_last hm
    rw [run_snoc]
    generalize run ops = s at hI hD
    obtain ⟨i1, i2, i3, i4, i5, i6⟩ := hI
    obtain ⟨k1, k2, k3, k4, k5⟩ := hD
    cases o with
    | start d =>
      have hd := hb d (by simp [Op.days])
      have ho : (step s (.start d)).fs.active.getD [] = s.fs.active.getD [] := by simp [step, FS.open]
      refine ⟨k1, ?_, k3, ?_, ?_⟩
      · intro a ha x hx
        rw [ho] at hx
        exact k2 a ha x hx
      · intro x hx e he
        rw [ho] at hx
        exact k4 x hx e (bound_append.1 he).1
      · intro l hl x hx
        simp only [step, Option.some.injEq] at hl
        subst hl
        rw [ho] at hx
        exact k4 x hx _ hd
    | stop =>
      refine ⟨k1, k2, k3, ?_, ?_⟩
      · intro x hx e he
        exact k4 x hx e (bound_append.1 he).1
      · intro l hl
        simp [step] at hl
    | write d d' r =>
      have hd := hb d (by simp [Op.days])
      have : d = d' := hn d d' r (by simp)
      subst this
      have hrd : r.1 = d := ht d d r (by simp)
      cases hp : s.proc with
      | none =>
        have hs : step s (.write d d r) = s := by simp [step, hp]
        rw [hs]
        refine ⟨k1, k2, k3, fun x hx e he => k4 x hx e (bound_append.1 he).1, k5⟩
      | some last =>
        obtain ⟨j1, j2⟩ := i6 last hp
        have hact := i2 (by simp [hp])
        obtain ⟨rows, hrows⟩ := Option.isSome_iff_exists.1 hact
        have hle : last ≤ d := j2 d hd
        have kr := k5 last hp
        rw [hrows] at k2 k4 kr
        simp only [Option.getD_some] at k2 k4 kr
        by_cases hld : last = d
        · have hs : step s (.write d d r) = { fs := s.fs.insert r, proc := some last } := by
            simp only [step, hp, rotate]
            rw [if_neg (not_not.2 hld)]
          have ha' : (s.fs.insert r).active.getD [] = rows ++ [r] := by simp [FS.insert, hrows]
          rw [hs]
          refine ⟨k1, ?_, k3, ?_, ?_⟩
          · intro a ha x hx
            rw [ha', List.mem_append, List.mem_singleton] at hx
            rcases hx with hx | rfl
            · exact k2 a ha x hx
            · have := j1 a ha
              omega
          · intro x hx e he
            rw [ha', List.mem_append, List.mem_singleton] at hx
            rcases hx with hx | rfl
            · exact k4 x hx e (bound_append.1 he).1
            · rw [hrd]
              exact (bound_append.1 he).2 d (by simp [Op.days])
          · intro l hl x hx
            simp only [Option.some.injEq] at hl
            subst hl
            rw [ha', List.mem_append, List.mem_singleton] at hx
            rcases hx with hx | rfl
            · exact kr x hx
            · omega
        · have hlt : last < d := lt_of_le_of_ne hle hld
          have hfr : s.fs.archives.filter (fun a => a.1 ≠ d) = s.fs.archives :=
            filter_fresh fun a ha h => by
              have := j1 a ha
              omega
          have hs : step s (.write d d r) =
              { fs := { active := some [r], archives := s.fs.archives ++ [(d, rows)] }, proc := some d } := by
            simp only [step, hp, rotate]
            rw [if_pos hld]
            simp only [FS.rename, hrows, FS.open, FS.insert, Option.getD_none, Option.map_some, List.nil_append]
            rw [hfr]
          rw [hs]
          refine ⟨?_, ?_, ?_, ?_, ?_⟩
          · intro a ha x hx
            rw [List.mem_append, List.mem_singleton] at ha
            rcases ha with ha | rfl
            · exact k1 a ha x hx
            · have := kr x hx
              simp only
              omega
          · intro a ha x hx
            simp only [Option.getD_some, List.mem_singleton] at hx
            subst hx
            rw [List.mem_append, List.mem_singleton] at ha
            rcases ha with ha | rfl
            · have := j1 a ha
              omega
            · simp only; omega
          · rw [List.pairwise_append]
            refine ⟨k3, by simp, fun a ha b hbm x hx => ?_⟩
            rw [List.mem_singleton] at hbm
            subst hbm
            exact k2 a ha x hx
          · intro x hx e he
            simp only [Option.getD_some, List.mem_singleton] at hx
            subst hx
            rw [hrd]
            exact (bound_append.1 he).2 d (by simp [Op.days])
          · intro l hl x hx
            simp only [Option.some.injEq] at hl
            simp only [Option.getD_some, List.mem_singleton] at hx
            subst hx hl
            omega

/-! ## The property -/

/-- C77, partial: over any number of runs and days, the archived databases by date and then the
database hold all rows that were written, each once and in order, as long as the clock is not set back and midnight is never
between the two readings of the clock.  (Missing: midnight between the readings, see
`c77_midnight_loses`, and a clock that is set back, see `c77_clock_back_loses`.) -/
theorem c77_nothing_lost_partial (ops : List (Op R)) (hm : Monotone ops) (hn : NoMidnight ops) :
    stored (run ops) = (written false ops).map Prod.snd := (inv_run ops hm hn).all

/-- C77, partial: the archives have different dates, in ascending order of creation; an archive holds only rows of the days
before its date, and from the date of the archive before it on.  Same gaps as above. -/
theorem c77_archive_days_partial (ops : List (Op (Int × R))) (hm : Monotone ops) (hn : NoMidnight ops)
    (ht : ∀ d d' r, .write d d' r ∈ ops → r.1 = d) :
    ((run ops).fs.archives.map Prod.fst).Pairwise (· < ·) ∧
    (∀ a ∈ (run ops).fs.archives, ∀ x ∈ a.2, x.1 < a.1) ∧
    ((run ops).fs.archives.Pairwise fun a b => ∀ x ∈ b.2, a.1 ≤ x.1) ∧
    ∀ a ∈ (run ops).fs.archives, ∀ x ∈ (run ops).fs.active.getD [], a.1 ≤ x.1 :=
  ⟨(inv_run ops hm hn).inc, (dinv_run ops hm hn ht).arch, (dinv_run ops hm hn ht).seg, (dinv_run ops hm hn ht).act⟩

/-- C77: in a single run that starts without a database, every file holds rows of one day only, even if the clock is set back. -/
theorem c77_one_run_one_day (d0 : Int) (ws : List (Int × Int × R)) :
    let s := run (.start d0 :: ws.map fun w => .write w.1 w.2.1 (w.1, w.2.2))
    (∀ a ∈ s.fs.archives, ∀ x ∈ a.2, ∀ y ∈ a.2, x.1 = y.1) ∧
    ∀ x ∈ s.fs.active.getD [], ∀ y ∈ s.fs.active.getD [], x.1 = y.1 := by
  have key : ∀ ws : List (Int × Int × R), ∃ l rows, (run (.start d0 :: ws.map fun w => .write w.1 w.2.1 (w.1, w.2.2))).proc = some l ∧
      (run (.start d0 :: ws.map fun w => .write w.1 w.2.1 (w.1, w.2.2))).fs.active = some rows ∧ (∀ x ∈ rows, x.1 = l) ∧
      ∀ a ∈ (run (.start d0 :: ws.map fun w => .write w.1 w.2.1 (w.1, w.2.2))).fs.archives, ∀ x ∈ a.2, ∀ y ∈ a.2, x.1 = y.1 := by
    intro ws
    induction ws using List.reverseRecOn with
    | nil => exact ⟨d0, [], rfl, rfl, by simp, by simp [run, step, State.init, FS.open]⟩
    | append_singleton ws w ih =>
      obtain ⟨l, rows, h1, h2, h3, h4⟩ := ih
      rw [List.map_append, ← List.cons_append, List.map_cons, List.map_nil, run_snoc]
      generalize run (.start d0 :: ws.map fun w => .write w.1 w.2.1 (w.1, w.2.2)) = s at *
      obtain ⟨d, d', r⟩ := w
      by_cases hld : l = d
      · refine ⟨l, rows ++ [(d, r)], ?_, ?_, ?_, ?_⟩
        · simp only [step, h1, rotate]; rw [if_neg (not_not.2 hld)]
        · simp only [step, h1, rotate]; rw [if_neg (not_not.2 hld)]; simp [FS.insert, h2]
        · intro x hx
          rw [List.mem_append, List.mem_singleton] at hx
          rcases hx with hx | rfl
          · exact h3 x hx
          · exact hld.symm
        · simp only [step, h1, rotate]; rw [if_neg (not_not.2 hld)]; exact h4
      · refine ⟨d, [(d, r)], ?_, ?_, by simp, ?_⟩
        · simp only [step, h1, rotate]; rw [if_pos hld]
        · simp only [step, h1, rotate]; rw [if_pos hld]; simp [FS.rename, h2, FS.open, FS.insert]
        · simp only [step, h1, rotate]; rw [if_pos hld]
          simp only [FS.rename, h2, FS.open, FS.insert]
          intro a ha x hx y hy
          rw [List.mem_append, List.mem_singleton] at ha
          rcases ha with ha | rfl
          · exact h4 a (List.mem_of_mem_filter ha) x hx y hy
          · rw [h3 x hx, h3 y hy]
  obtain ⟨l, rows, -, h2, h3, h4⟩ := key ws
  refine ⟨h4, fun x hx y hy => ?_⟩
  rw [h2, Option.getD_some] at hx hy
  rw [h3 x hx, h3 y hy]

/-- One run on days 1 and 2, another on days 4 and 5. -/
def exOps : List (Op (Int × Nat)) :=
  [.start 1, .write 1 1 (1, 10), .write 2 2 (2, 11), .write 2 2 (2, 12), .stop,
    .start 4, .write 4 4 (4, 13), .write 5 5 (5, 14), .stop]

example : Monotone exOps ∧ NoMidnight exOps ∧ (∀ d d' r, .write d d' r ∈ exOps → r.1 = d) := by
  refine ⟨by unfold Monotone; decide, fun d d' r h => ?_, fun d d' r h => ?_⟩
  all_goals
    simp only [exOps, List.mem_cons, reduceCtorEq, false_or, Op.write.injEq, List.not_mem_nil, or_false] at h
    rcases h with h | h | h | h | h <;> obtain ⟨rfl, rfl, rfl⟩ := h <;> rfl

example : (run exOps).fs = ⟨some [(5, 14)], [(2, [(1, 10)]), (5, [(2, 11), (2, 12), (4, 13)])]⟩ := by decide

/-- C77, a violation: the archive is named by the day of its rotation, on which none of its rows was
written. -/
theorem c77_archive_name (ops : List (Op (Int × R))) (hm : Monotone ops) (hn : NoMidnight ops)
    (ht : ∀ d d' r, .write d d' r ∈ ops → r.1 = d) (a : Int × List (Int × R)) (ha : a ∈ (run ops).fs.archives) :
    ∀ x ∈ a.2, x.1 ≠ a.1 := fun x hx h => by
  have := (dinv_run ops hm hn ht).arch a ha x hx
  omega

/-- C77, a violation: a database that is older than the program is not rotated at the start, so that
one file holds rows of several days. -/
theorem c77_restart_mixes_days :
    (run exOps).fs.archives[1]? = some (5, [(2, 11), (2, 12), (4, 13)]) := by decide

/-- C77, the missing part: if midnight is between the two readings of the clock, the archive gets the
date of the next day, and is replaced by the archive of the next rotation: the row of day 1 is lost. -/
theorem c77_midnight_loses :
    Monotone [.start 1, .write 1 1 (1, 10), .write 2 3 (2, 11), .write 3 3 (3, 12)] ∧
    stored (run [.start 1, .write 1 1 (1, 10), .write 2 3 (2, 11), .write 3 3 (3, 12)]) = [(2, 11), (3, 12)] := by
  unfold Monotone
  decide

/-- C77, the missing part: after the clock has been set back a rotation replaces an older archive. -/
theorem c77_clock_back_loses :
    stored (run [.start 1, .write 1 1 (1, 10), .write 2 2 (2, 11), .write 3 3 (3, 12), .write 2 2 (2, 13)]) =
      [(2, 11), (3, 12), (2, 13)] := by decide

end Verif.Logging.Sqlite
