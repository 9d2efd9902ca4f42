import Verif.Logging.File.Online

/-!
# C145: a log file that is compressed while it is written
-/
namespace Verif.Logging.File.Online

/-! ## What the code does -/

/-- The file was there at the beginning, under this name or as the log file. -/
def Old (c : Cfg) (fs0 : Dir) (x : S) (f : File) : Prop :=
  fs0 x = some f ∨ (fs0 c.name = some f ∧ ∃ d, x = archiveName (plain c) d)

/-- All files are old ones. -/
def Inv (c : Cfg) (fs0 fs : Dir) : Prop := (∀ f, fs c.name = some f → fs0 c.name = some f) ∧ ∀ x f, fs x = some f → Old c fs0 x f

theorem closed_code (e : Env) : gzopen codeMode e.openOk = false := by
  cases e.openOk <;> decide

theorem open_code (c : Cfg) (e : Env) (fs : Dir) (o : Out) : openLogFile codeMode c e fs o = (fs, { o with isOpen := false }) := by
  rw [openLogFile, closed_code]; rfl

theorem name_ne (c : Cfg) (d : Int) : c.name ≠ archiveName (plain c) d := by
  intro h
  have := congrArg List.length h
  simp [archiveName, plain, dateText] at this

theorem inv_move {c : Cfg} {fs0 fs : Dir} (e : Env) (d : Int) (h : Inv c fs0 fs) : Inv c fs0 (moveFile (plain c) e fs d) := by
  simp only [moveFile, plain, Bool.false_eq_true, if_false]
  cases hf : fs c.name with
  | none => exact h
  | some f =>
    dsimp only
    split
    · constructor
      · intro g hg
        have := name_ne c d
        simp only [plain] at this
        simp [Dir.set, this] at hg
      · intro x g hg
        simp only [Dir.set] at hg
        split at hg
        · next hx =>
          cases hg
          exact .inr ⟨h.1 f hf, d, hx⟩
        · split at hg
          · cases hg
          · exact h.2 x g hg
    · exact h

theorem inv_delete {c : Cfg} {fs0 fs : Dir} (d : Int) (h : Inv c fs0 fs) : Inv c fs0 (deleteOld c fs d) := by
  have hs : ∀ x f, deleteOld c fs d x = some f → fs x = some f := by
    intro x f hx
    cases hd : c.delete with
    | none => simpa only [deleteOld, hd] using hx
    | some n =>
      by_cases hh : c.hasDir = true
      · cases hf : fs x with
        | none => simp only [deleteOld, hd, hh, if_true, hf] at hx; cases hx
        | some g =>
          simp only [deleteOld, hd, hh, if_true, hf] at hx
          split at hx
          · cases hx
          · exact hx
      · simp only [Bool.not_eq_true] at hh
        simpa only [deleteOld, hd, hh, Bool.false_eq_true, if_false] using hx
  exact ⟨fun f hf => h.1 f (hs _ _ hf), fun x f hf => h.2 x f (hs _ _ hf)⟩

theorem inv_rotate {c : Cfg} {fs0 fs : Dir} (e : Env) (o : Out) (h : Inv c fs0 fs) :
    Inv c fs0 (rotateLogFile codeMode c e fs o).1 ∧ (o.isOpen = false → (rotateLogFile codeMode c e fs o).2.isOpen = false) := by
  unfold rotateLogFile
  split
  · rw [open_code]
    exact ⟨inv_delete _ (inv_move _ _ h), fun _ => rfl⟩
  · exact ⟨h, id⟩

theorem inv_step {c : Cfg} {fs0 : Dir} {s : Sys} (op : Op) (h : Inv c fs0 s.fs) (ho : ∀ o, s.out = some o → o.isOpen = false) :
    Inv c fs0 (step codeMode c s op).fs ∧ ∀ o, (step codeMode c s op).out = some o → o.isOpen = false := by
  cases op with
  | stop => exact ⟨h, fun o h => by cases h⟩
  | start e =>
    unfold step
    dsimp only
    cases hs : s.out with
    | some o => simp only [hs]; exact ⟨h, fun o' h' => ho o' (hs.trans h')⟩
    | none =>
      dsimp only
      unfold create
      dsimp only
      split
      · simp only [open_code]
        exact ⟨(inv_rotate e _ h).1, fun o h => by cases h; rfl⟩
      · simp only [open_code]
        exact ⟨h, fun o h => by cases h; rfl⟩
  | push e l =>
    unfold step
    dsimp only
    cases hs : s.out with
    | none => simp only [hs]; exact ⟨h, fun o' h' => ho o' (hs.trans h')⟩
    | some o =>
      obtain ⟨h1, h2⟩ := inv_rotate e o h
      have h3 := h2 (ho o hs)
      simp only [pushImpl, h3, open_code, Bool.false_eq_true, if_false]
      exact ⟨h1, fun o h => by cases h; rfl⟩

theorem inv_run (c : Cfg) (fs0 : Dir) : ∀ h : List Op,
    Inv c fs0 (run c fs0 h).fs ∧ ∀ o, (run c fs0 h).out = some o → o.isOpen = false
  | [] => ⟨⟨fun _ h => h, fun _ _ h => .inl h⟩, fun _ h => by cases h⟩
  | op :: h => inv_step op (inv_run c fs0 h).1 (inv_run c fs0 h).2

/-- With `/Zip`, whatever is logged, when, and whatever the file system does: the log file is never open, and every file is, with
its contents and its time, one that was there before the program was first started, under the same name, or the old log
file under the name of an archive. So no line is ever written. -/
theorem c145_zip_never_logs (c : Cfg) (fs0 : Dir) (h : List Op) :
    (∀ o, (run c fs0 h).out = some o → o.isOpen = false) ∧
    (∀ f, (run c fs0 h).fs c.name = some f → fs0 c.name = some f) ∧
    ∀ x f, (run c fs0 h).fs x = some f → fs0 x = some f ∨
      (fs0 c.name = some f ∧ ∃ d, x = archiveName { c with zip := false } d) :=
  ⟨(inv_run c fs0 h).2, (inv_run c fs0 h).1.1, (inv_run c fs0 h).1.2⟩

/-- If there was no log file, there never is one, and no other file comes into being either. -/
theorem c145_zip_no_file (c : Cfg) (fs0 : Dir) (h : List Op) (h0 : fs0 c.name = none) (x : S) (hx : fs0 x = none) :
    (run c fs0 h).fs x = none := by
  cases hf : (run c fs0 h).fs x with
  | none => rfl
  | some f =>
    rcases (c145_zip_never_logs c fs0 h).2.2 x f hf with h1 | ⟨h1, -⟩
    · rw [hx] at h1; cases h1
    · rw [h0] at h1; cases h1

/-- One line is logged with `/Zip`, nothing fails, and there is no file; without `/Zip` it is in the log file. -/
theorem c145_line_lost :
    let c : Cfg := { name := "log".toList }
    let h : List Op := [.push ⟨86405, 86405, true, true⟩ "a".toList, .start ⟨86400, 86400, true, true⟩]
    logged h = [(86405, "a".toList)] ∧ (run c (fun _ => none) h).fs "log".toList = none ∧
    linesIn (File.run c (fun _ => none) h).fs "log".toList = ["a".toList] := by
  decide +kernel

/-! ## With a mode that zlib takes -/

/-- A directory without the separators. -/
def bare (fs : Dir) : Dir := fun x => (fs x).map fun f => ⟨f.content.filter (· ≠ .opened), f.mtime⟩

theorem bare_set (fs : Dir) (x : S) (f : Option File) :
    bare (fs.set x f) = (bare fs).set x (f.map fun f => ⟨f.content.filter (· ≠ .opened), f.mtime⟩) := by
  funext y
  simp only [bare, Dir.set]
  split <;> rfl

theorem bare_eq {fs fs' : Dir} (h : bare fs = bare fs') (x : S) :
    (fs x = none ∧ fs' x = none) ∨ ∃ f f', fs x = some f ∧ fs' x = some f' ∧ f.mtime = f'.mtime ∧
      f.content.filter (· ≠ .opened) = f'.content.filter (· ≠ .opened) := by
  have := congrFun h x
  simp only [bare] at this
  cases h1 : fs x with
  | none =>
    cases h2 : fs' x with
    | none => exact .inl ⟨rfl, rfl⟩
    | some f' => rw [h1, h2] at this; cases this
  | some f =>
    cases h2 : fs' x with
    | none => rw [h1, h2] at this; cases this
    | some f' =>
      rw [h1, h2] at this
      simp only [Option.map_some, Option.some.injEq, File.mk.injEq] at this
      exact .inr ⟨f, f', rfl, rfl, this.2, this.1⟩

theorem bare_append {fs fs' : Dir} (h : bare fs = bare fs') (x : S) (p : Piece) (w : Int) :
    bare (append fs x p w) = bare (append fs' x p w) := by
  unfold append
  rcases bare_eq h x with ⟨h1, h2⟩ | ⟨f, f', h1, h2, -, h3⟩
  · simp only [h1, h2, bare_set, h]
  · simp only [h1, h2, bare_set, h, Option.map_some, List.filter_append, h3]

theorem bare_opened {fs : Dir} {x : S} {w : Int} :
    bare (append (append fs x .opened w) x .opened w) = bare (append fs x .opened w) := by
  unfold append
  cases h : fs x <;> simp [Dir.set, bare_set] <;> funext y <;> simp only [Dir.set] <;> split <;> simp_all

theorem bare_move {c : Cfg} {fs fs' : Dir} (e : Env) (d : Int) (h : bare fs = bare fs') :
    bare (moveFile (plain c) e fs d) = bare (moveFile (plain c) e fs' d) := by
  simp only [moveFile, plain, Bool.false_eq_true, if_false]
  rcases bare_eq h c.name with ⟨h1, h2⟩ | ⟨f, f', h1, h2, h3, h4⟩
  · simp only [h1, h2, h]
  · simp only [h1, h2]
    split
    · simp only [bare_set, h, Option.map_some, Option.map_none, h3, h4]
    · exact h

theorem bare_delete {c : Cfg} {fs fs' : Dir} (d : Int) (h : bare fs = bare fs') :
    bare (deleteOld c fs d) = bare (deleteOld c fs' d) := by
  unfold deleteOld
  split
  · split
    · funext x
      simp only [bare]
      rcases bare_eq h x with ⟨h1, h2⟩ | ⟨f, f', h1, h2, h3, h4⟩
      · simp only [h1, h2]
      · simp only [h1, h2, h3]
        split
        · rfl
        · simp only [Option.map_some, h3, h4]
    · exact h
  · exact h

/-- The mode without `+`. -/
def goodMode : S := ['a', 'b']

theorem open_good (c : Cfg) {e : Env} (he : e.openOk = true) (fs : Dir) (o : Out) :
    openLogFile goodMode c e fs o = (append fs c.name .opened e.w, { o with isOpen := true }) := by
  rw [openLogFile, he]; rfl

theorem sim_rotate {c : Cfg} {e : Env} (he : e.openOk = true) {fs fs' : Dir} (o : Out) (h : bare fs = bare fs') :
    bare (rotateLogFile goodMode c e fs o).1 = bare (File.rotateLogFile (plain c) e fs' o).1 ∧
    (rotateLogFile goodMode c e fs o).2 = (File.rotateLogFile (plain c) e fs' o).2 ∧
    ((rotateLogFile goodMode c e fs o).2 = { isOpen := true, last := day e.t } ∧
      bare (append (rotateLogFile goodMode c e fs o).1 c.name .opened e.w) = bare (rotateLogFile goodMode c e fs o).1 ∨
      rotateLogFile goodMode c e fs o = (fs, o)) := by
  have h1 := bare_append (bare_delete (c := c) (day e.t) (bare_move (c := c) e o.last h)) c.name .opened e.w
  by_cases hr : c.rotate ∧ o.last ≠ day e.t
  · have e1 : rotateLogFile goodMode c e fs o = (append (deleteOld c (moveFile (plain c) e fs o.last) (day e.t)) c.name .opened e.w,
        { isOpen := true, last := day e.t }) := by
      rw [rotateLogFile, if_pos hr, open_good c he]
    have e2 : File.rotateLogFile (plain c) e fs' o =
        (append (deleteOld c (moveFile (plain c) e fs' o.last) (day e.t)) c.name .opened e.w,
        { isOpen := true, last := day e.t }) := by
      rw [File.rotateLogFile]
      refine (if_pos hr).trans ?_
      simp only [File.openLogFile, he, if_true, Bool.false_eq_true, if_false]
      rfl
    rw [e1, e2]
    exact ⟨h1, rfl, .inl ⟨rfl, bare_opened⟩⟩
  · have e1 : rotateLogFile goodMode c e fs o = (fs, o) := if_neg hr
    have e2 : File.rotateLogFile (plain c) e fs' o = (fs', o) := if_neg hr
    rw [e1, e2]
    exact ⟨h, rfl, .inr rfl⟩

theorem sim_run (c : Cfg) (fs0 : Dir) : ∀ h : List Op, Always (fun e => e.openOk = true) h →
    bare (runWith goodMode c fs0 h).fs = bare (File.run (plain c) fs0 h).fs ∧
    (runWith goodMode c fs0 h).out = (File.run (plain c) fs0 h).out ∧
    ∀ o, (runWith goodMode c fs0 h).out = some o → o.isOpen = true
  | [], _ => ⟨rfl, rfl, fun o h => by cases h⟩
  | op :: h, hA => by
    obtain ⟨h1, h2, h3⟩ := sim_run c fs0 h fun op' h' => hA op' (List.mem_cons_of_mem _ h')
    have hop := hA op List.mem_cons_self
    simp only [runWith, File.run]
    generalize runWith goodMode c fs0 h = s at h1 h2 h3
    generalize File.run (plain c) fs0 h = s' at h1 h2
    obtain ⟨fs, out⟩ := s
    obtain ⟨fs', out'⟩ := s'
    simp only at h1 h2 h3
    subst h2
    cases op with
    | stop => exact ⟨h1, rfl, fun o h => by cases h⟩
    | start e =>
      have he : e.openOk = true := hop e rfl
      cases out with
      | some o => exact ⟨h1, rfl, h3⟩
      | none =>
        simp only [step, File.step, create, File.create]
        have hn : (plain c).name = c.name := rfl
        have hro : (plain c).rotate = c.rotate := rfl
        rcases bare_eq h1 c.name with ⟨g1, g2⟩ | ⟨f, f', g1, g2, g3, -⟩
        · simp only [hn, g1, g2, open_good c he, File.openLogFile, he, if_true, Bool.false_eq_true, if_false]
          exact ⟨bare_append h1 _ _ _, rfl, fun o h => by cases h; rfl⟩
        · simp only [hn, g1, g2, open_good c he]
          obtain ⟨k1, k2, k3⟩ := sim_rotate (c := c) he ⟨false, day f.mtime⟩ h1
          rw [← g3]
          simp only [File.openLogFile]
          rcases k3 with ⟨k3, k4⟩ | k3
          · rw [← k2]
            simp only [k3, if_true]
            exact ⟨k4.trans k1, trivial, fun o h => by cases h; rfl⟩
          · rw [← k2]
            simp only [k3, Bool.false_eq_true, if_false, he, if_true]
            rw [k3] at k1
            exact ⟨bare_append k1 _ _ _, trivial, fun o h => by cases h; rfl⟩
    | push e l =>
      have he : e.openOk = true := hop e rfl
      cases out with
      | none => exact ⟨h1, rfl, h3⟩
      | some o =>
        obtain ⟨k1, k2, k3⟩ := sim_rotate (c := c) he o h1
        have k5 : (rotateLogFile goodMode c e fs o).2.isOpen = true := by
          rcases k3 with ⟨k3, -⟩ | k3
          · rw [k3]
          · rw [k3]; exact h3 o rfl
        simp only [step, File.step, pushImpl, File.pushImpl, File.openLogFile, ← k2, k5, if_true]
        exact ⟨bare_append k1 _ _ _, trivial, fun o h => by cases h; exact k5⟩

theorem lines_bare : ∀ l : List Piece, linesOf (l.filter (· ≠ .opened)) = linesOf l
  | [] => rfl
  | .opened :: l => by
    rw [List.filter_cons_of_neg (by decide)]; exact lines_bare l
  | .line s :: l => by
    rw [List.filter_cons_of_pos (by simp)]; exact congrArg (s :: ·) (lines_bare l)

/-- If the log file were opened with mode `ab` instead, then, as long as it can be opened, `/Zip` would change nothing: all files
exist, with the same lines, as without `/Zip` (and without a compression at the end of the day), so that C70 holds. -/
theorem c145_append_mode_partial (c : Cfg) (fs0 : Dir) (h : List Op) (he : Always (fun e => e.openOk = true) h) (x : S) :
    linesIn (runWith "ab".toList c fs0 h).fs x = linesIn (File.run { c with zip := false } fs0 h).fs x ∧
    ((runWith "ab".toList c fs0 h).fs x = none ↔ (File.run { c with zip := false } fs0 h).fs x = none) := by
  have h1 := (sim_run c fs0 h he).1
  change linesIn (runWith goodMode c fs0 h).fs x = linesIn (File.run (plain c) fs0 h).fs x ∧
    ((runWith goodMode c fs0 h).fs x = none ↔ (File.run (plain c) fs0 h).fs x = none)
  rcases bare_eq h1 x with ⟨g1, g2⟩ | ⟨f, f', g1, g2, -, g4⟩
  · simp [linesIn, g1, g2]
  · have : linesOf f.content = linesOf f'.content := by rw [← lines_bare f.content, g4, lines_bare]
    simp [linesIn, g1, g2, this]

/-! ## Examples -/

example : let c : Cfg := { name := "log".toList }
    let h : List Op := [.push ⟨86400 * 2, 86400 * 2, true, true⟩ "b".toList, .push ⟨86405, 86405, true, true⟩ "a".toList,
      .start ⟨86400, 86400, true, true⟩]
    linesIn (runWith "ab".toList c (fun _ => none) h).fs "log".toList = ["b".toList] ∧
    linesIn (runWith "ab".toList c (fun _ => none) h).fs "log.1970-01-02".toList = ["a".toList] := by
  decide +kernel

example : Always (fun e => e.openOk = true) [.push ⟨86405, 86405, true, true⟩ "a".toList, .start ⟨86400, 86400, true, true⟩] := by
  intro op hop e he
  simp only [List.mem_cons, List.not_mem_nil, or_false] at hop
  rcases hop with rfl | rfl <;> (simp only [Op.env, Option.some.injEq] at he; subst he; rfl)

/-- The old log file is moved, and nothing is written. -/
example : let c : Cfg := { name := "log".toList }
    let fs0 : Dir := fun x => if x = "log".toList then some ⟨[.line "x".toList], 50⟩ else none
    let s := run c fs0 [.push ⟨86405, 86405, true, true⟩ "a".toList, .start ⟨86400, 86400, true, true⟩]
    linesIn s.fs "log.1970-01-01".toList = ["x".toList] ∧ s.fs "log".toList = none := by
  decide +kernel

end Verif.Logging.File.Online
