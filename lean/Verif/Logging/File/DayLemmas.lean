import Verif.Logging.File.Lemmas

/-! # Auxiliary lemmas: the lines of each day (C70) -/
namespace Verif.Logging.File
open Verif.Time

/-- The archived files and the current file hold the lines `Lg d` of their days. -/
structure Days (c : Cfg) (Lg : Int → List S) (fs : Dir) (cur : Int) (f : File) : Prop where
  arch : ∀ d, 0 ≤ d → d < 2932897 → ∀ g, fs (archiveName c d) = some g →
    linesOf g.content = Lg d ∧ d * 86400 ≤ g.mtime ∧ d < cur
  past : ∀ d, d ≠ cur → Lg d ≠ [] → 0 ≤ d ∧ d < cur ∧
    ((∀ n : Nat, c.delete = some n → cur - n ≤ d) → fs (archiveName c d) ≠ none)
  name : fs c.name = some f
  lines : linesOf f.content = Lg cur
  same : day f.mtime = cur
  range : 0 ≤ cur ∧ cur < 2932897

theorem Days.append {c : Cfg} {Lg Lg' : Int → List S} {fs : Dir} {cur : Int} {f : File} (h : Days c Lg fs cur f)
    (p : Piece) (w : Int) (hw : day w = cur) (h1 : ∀ d, d ≠ cur → Lg' d = Lg d) (h2 : Lg' cur = Lg cur ++ linesOf [p]) :
    Days c Lg' (append fs c.name p w) cur ⟨f.content ++ [p], w⟩ := by
  have hname : File.append fs c.name p w c.name = some ⟨f.content ++ [p], w⟩ := by
    rw [append_name, h.name]; rfl
  refine ⟨?_, ?_, hname, ?_, hw, h.range⟩
  · intro d d0 d1 g hg
    rw [append_other archiveName_ne] at hg
    obtain ⟨a, b, e⟩ := h.arch d d0 d1 g hg
    exact ⟨by rw [a, h1 d (by omega)], b, e⟩
  · intro d hd hL
    rw [append_other archiveName_ne]
    exact h.past d hd (by rwa [h1 d hd] at hL)
  · rw [h2, linesOf_append, h.lines]

theorem deleteOld_some {c : Cfg} {n : Nat} (hn : c.delete = some n) (fs : Dir) (k : Int) (x : S) :
    deleteOld c fs k x = if c.hasDir = true then (match fs x with
      | some f => if f.mtime < 24 * 3600 * (k - n) ∧ c.name.isPrefixOf x then none else some f
      | none => none) else fs x := by
  unfold deleteOld
  rw [hn]
  cases c.hasDir <;> rfl

theorem deleteOld_none {c : Cfg} (hn : c.delete = none) (fs : Dir) (k : Int) : deleteOld c fs k = fs := by
  unfold deleteOld
  rw [hn]

theorem deleteOld_cases (c : Cfg) (fs : Dir) (k : Int) (x : S) : deleteOld c fs k x = fs x ∨
    (deleteOld c fs k x = none ∧ ∃ n : Nat, c.delete = some n ∧ ∃ y, fs x = some y ∧ y.mtime < 86400 * (k - n)) := by
  cases hn : c.delete with
  | none => rw [deleteOld_none hn]; exact Or.inl rfl
  | some n =>
    rw [deleteOld_some hn]
    split
    · cases hx : fs x with
      | none => exact Or.inl rfl
      | some y =>
        simp only
        split
        · next hc => exact Or.inr ⟨rfl, n, rfl, y, rfl, by omega⟩
        · exact Or.inl rfl
    · exact Or.inl rfl

/-- A rotation. -/
theorem Days.rotate {c : Cfg} {Lg : Int → List S} {fs : Dir} {cur : Int} {f : File} (h : Days c Lg fs cur f)
    {e : Env} {o : Out} (ho : o.last = cur) (hr : c.rotate = true) (hm : e.moveOk = true) (hop : e.openOk = true)
    (hne : o.last ≠ day e.t) (hlt : f.mtime ≤ e.t) (htw : e.t ≤ e.w) (hsame : day e.t = day e.w)
    (hmax : e.w < 2932897 * 86400) :
    rotateLogFile c e fs o = ((rotateLogFile c e fs o).1, ⟨true, day e.t⟩) ∧
      Days c Lg (rotateLogFile c e fs o).1 (day e.t) ⟨[.opened], e.w⟩ := by
  obtain ⟨r0, r1⟩ := h.range
  have hcur : cur < day e.t := by have := day_le hlt; have := h.same; omega
  have ht : day e.t < 2932897 := by simp only [day] at *; omega
  -- the directory after the move
  have key : ∃ g : File, g.content = f.content ∧ cur * 86400 ≤ g.mtime ∧ moveFile c e fs o.last =
      (fs.set (archiveName c cur) (some g)).set c.name none := by
    rw [ho]
    have hmt : cur * 86400 ≤ f.mtime := by have := h.same; simp only [day] at this; omega
    unfold moveFile
    by_cases hz : c.zip = true
    · rw [h.name]; simp only [hz, hm, if_true]
      exact ⟨⟨f.content, e.w⟩, rfl, by show cur * 86400 ≤ e.w; omega, rfl⟩
    · rw [h.name]; simp only [hz, hm, if_true]
      refine ⟨f, rfl, hmt, ?_⟩
      funext x
      simp only [Dir.set, Bool.false_eq_true, if_false]
      by_cases hx : x = c.name
      · subst hx; simp [archiveName_ne.symm]
      · by_cases hy : x = archiveName c cur <;> simp [hx, hy, archiveName_ne]
  obtain ⟨g, g1, g2, g3⟩ := key
  generalize hfs1 : moveFile c e fs o.last = fs1 at g3
  have hn1 : fs1 c.name = none := by rw [g3]; simp [Dir.set]
  have ha1 : ∀ d, 0 ≤ d → d < 2932897 → fs1 (archiveName c d) = if d = cur then some g else fs (archiveName c d) := by
    intro d h2 h3
    rw [g3]
    simp only [Dir.set, archiveName_ne, if_false]
    by_cases hd : d = cur
    · subst hd; simp
    · have : archiveName c d ≠ archiveName c cur := fun h => hd (archiveName_inj h2 h3 r0 r1 h)
      simp [hd, this]
  generalize hfs2 : deleteOld c fs1 (day e.t) = fs2
  have hdel : ∀ x, fs2 x = fs1 x ∨ (fs2 x = none ∧ ∃ n : Nat, c.delete = some n ∧ ∃ y, fs1 x = some y ∧
      y.mtime < 86400 * (day e.t - n)) := by
    intro x
    rw [← hfs2]
    exact deleteOld_cases c fs1 (day e.t) x
  have hn2 : fs2 c.name = none := by rcases hdel c.name with h | h <;> simp [h, hn1]
  have hrot : rotateLogFile c e fs o = (File.append fs2 c.name .opened e.w, ⟨true, day e.t⟩) := by
    unfold rotateLogFile
    rw [if_pos ⟨hr, hne⟩]
    simp only [hfs1, hfs2]
    rw [openLogFile_false rfl hop]
  rw [hrot]
  refine ⟨rfl, ?_⟩
  have hname : File.append fs2 c.name .opened e.w c.name = some ⟨[.opened], e.w⟩ := by
    rw [append_name, hn2]; rfl
  have hnil : Lg (day e.t) = [] := by
    by_cases hL : Lg (day e.t) = []
    · exact hL
    · have := h.past (day e.t) (by omega) hL
      omega
  refine ⟨?_, ?_, hname, by rw [hnil]; rfl, hsame.symm, by omega, ht⟩
  · intro d d0 d1 y hy
    simp only at hy
    rw [append_other archiveName_ne] at hy
    have hy1 : fs1 (archiveName c d) = some y := by
      rcases hdel (archiveName c d) with hx | ⟨hx, _⟩
      · rw [← hx]; exact hy
      · rw [hx] at hy; cases hy
    rw [ha1 d d0 d1] at hy1
    by_cases hd : d = cur
    · subst hd
      simp only [if_true, Option.some.injEq] at hy1
      subst hy1
      exact ⟨by rw [g1, h.lines], g2, hcur⟩
    · simp only [hd, if_false] at hy1
      obtain ⟨a, b, e'⟩ := h.arch d d0 d1 y hy1
      exact ⟨a, b, by omega⟩
  · intro d hd hL
    have hd0 : 0 ≤ d ∧ d ≤ cur := by
      by_cases hdc : d = cur
      · omega
      · have := h.past d hdc hL
        omega
    refine ⟨hd0.1, by omega, ?_⟩
    intro hk
    simp only
    rw [append_other archiveName_ne]
    have hex1 : ∃ y, fs1 (archiveName c d) = some y ∧ d * 86400 ≤ y.mtime := by
      rw [ha1 d hd0.1 (by omega)]
      by_cases hdc : d = cur
      · subst hdc; exact ⟨g, by simp, g2⟩
      · have := (h.past d hdc hL).2.2 (fun n hn => by have := hk n hn; omega)
        cases hfd : fs (archiveName c d) with
        | none => exact absurd hfd this
        | some y =>
          exact ⟨y, by simp [hdc], (h.arch d hd0.1 (by omega) y hfd).2.1⟩
    obtain ⟨y, hy, hym⟩ := hex1
    rcases hdel (archiveName c d) with hx | ⟨_, n, hn, z, hz, hzm⟩
    · rw [hx, hy]; simp
    · exfalso
      rw [hy] at hz
      cases hz
      have := hk n hn
      omega

/-- The state between two steps. -/
def InvB (c : Cfg) (h : List Op) (s : Sys) : Prop :=
  running h = s.out.isSome ∧
  ((s.out = none ∧ s.fs c.name = none ∧ logged h = [] ∧ ∀ d, s.fs (archiveName c d) = none) ∨
   ∃ cur f, Days c (fun d => loggedOn d h) s.fs cur f ∧ f.mtime ≤ now h ∧
     ∀ o, s.out = some o → o.isOpen = true ∧ o.last = cur)

theorem onDay_iff (d t : Int) : OnDay d t ↔ day t = d := by simp only [OnDay, day]; omega

theorem sameDay_iff (t t' : Int) : SameDay t t' ↔ day t = day t' := by
  simp only [SameDay, onDay_iff]
  exact ⟨fun ⟨d, h, h'⟩ => h.trans h'.symm, fun h => ⟨_, h, rfl⟩⟩

theorem loggedOn_push {e : Env} {l : S} {h : List Op} (hr : running h = true) (d : Int) :
    loggedOn d (.push e l :: h) = loggedOn d h ++ (if day e.t = d then [l] else []) := by
  simp only [loggedOn, logged, hr, if_true, List.filter_append, List.map_append]
  by_cases hd : day e.t = d <;> simp [onDay_iff, hd]

/-- After `rotateLogFile`, whether it rotated or not. -/
theorem rotate_B {c : Cfg} {Lg : Int → List S} {fs : Dir} {cur : Int} {f : File} (h : Days c Lg fs cur f)
    {e : Env} {o : Out} (ho : o.last = cur) (hr : c.rotate = true) (hm : e.moveOk = true) (hop : e.openOk = true)
    (hlt : f.mtime ≤ e.t) (htw : e.t ≤ e.w) (hsame : day e.t = day e.w) (hmax : e.w < 2932897 * 86400) :
    ∃ f', Days c Lg (rotateLogFile c e fs o).1 (day e.t) f' ∧ (rotateLogFile c e fs o).2.last = day e.t ∧
      f'.mtime ≤ e.w ∧ (o.isOpen = true → (rotateLogFile c e fs o).2.isOpen = true) := by
  by_cases hne : o.last ≠ day e.t
  · obtain ⟨h1, h2⟩ := h.rotate ho hr hm hop hne hlt htw hsame hmax
    refine ⟨_, h2, by rw [h1], Int.le_refl _, by rw [h1]; simp⟩
  · have heq : o.last = day e.t := by omega
    have : rotateLogFile c e fs o = (fs, o) := by simp [rotateLogFile, heq]
    rw [this]
    refine ⟨f, ?_, heq, by omega, fun h => h⟩
    rw [← heq, ho]; exact h

theorem inv_B {c : Cfg} {fs0 : Dir} (hr : c.rotate = true) (h0 : Clean c fs0) (h : List Op) (hc : ClockOk h)
    (he : Always (fun e => e.openOk = true ∧ e.moveOk = true ∧ day e.t = day e.w) h) :
    InvB c h (run c fs0 h) := by
  induction h with
  | nil => exact ⟨rfl, Or.inl ⟨rfl, h0.1, rfl, h0.2⟩⟩
  | cons op h ih =>
    obtain ⟨hrun, hst⟩ := ih hc.1 (fun op' ho => he op' (by simp [ho]))
    have hn0 := now_nonneg h hc.1
    simp only [run]
    generalize run c fs0 h = s at *
    cases op with
    | stop =>
      refine ⟨rfl, ?_⟩
      rcases hst with ⟨h1, h2, h3, h4⟩ | ⟨cur, f, h1, h2, h3⟩
      · exact Or.inl ⟨rfl, h2, h3, h4⟩
      · exact Or.inr ⟨cur, f, h1, h2, by simp [step]⟩
    | start e =>
      obtain ⟨hE1, hE2, hE3⟩ := he (.start e) (by simp) e rfl
      obtain ⟨ht1, ht2, ht3⟩ := hc.2 e rfl
      cases hso : s.out with
      | some o =>
        simp only [step, hso]
        refine ⟨by simp [running, hso], ?_⟩
        rcases hst with ⟨h1, _⟩ | ⟨cur, f, h1, h2, h3⟩
        · rw [hso] at h1; cases h1
        · exact Or.inr ⟨cur, f, h1, by simp only [now]; omega, h3⟩
      | none =>
        simp only [step, hso, create]
        refine ⟨rfl, Or.inr ?_⟩
        rcases hst with ⟨_, h2, h3, h4⟩ | ⟨cur, f, h1, h2, h3⟩
        · rw [h2]
          simp only [hr, if_true, openLogFile_false (o := ⟨false, day e.t⟩) rfl hE1]
          refine ⟨day e.t, ⟨[.opened], e.w⟩, ⟨?_, ?_, ?_, ?_, hE3.symm, ?_⟩, Int.le_refl _, ?_⟩
          · intro d _ _ g hg
            rw [append_other archiveName_ne, h4] at hg; cases hg
          · intro d _ hL
            simp [loggedOn, logged, h3] at hL
          · rw [append_name, h2]; rfl
          · simp [loggedOn, logged, h3, linesOf]
          · simp only [day]; omega
          · intro o ho
            cases ho
            exact ⟨rfl, rfl⟩
        · rw [h1.name]
          obtain ⟨f', g1, g2, g3, g4⟩ := rotate_B (o := ⟨false, day f.mtime⟩) h1 h1.same hr hE2 hE1 (by omega) ht2 hE3 ht3
          simp only
          generalize rotateLogFile c e s.fs ⟨false, day f.mtime⟩ = r at *
          cases hro : r.2.isOpen with
          | true =>
            simp only [openLogFile_true hro]
            exact ⟨day e.t, f', g1, g3, fun o ho => by cases ho; exact ⟨hro, g2⟩⟩
          | false =>
            simp only [openLogFile_false hro hE1]
            exact ⟨day e.t, _, g1.append .opened e.w hE3.symm (fun _ _ => rfl) (by simp [linesOf, loggedOn, logged]),
              Int.le_refl _, fun o ho => by cases ho; exact ⟨rfl, g2⟩⟩
    | push e l =>
      obtain ⟨hE1, hE2, hE3⟩ := he (.push e l) (by simp) e rfl
      obtain ⟨ht1, ht2, ht3⟩ := hc.2 e rfl
      cases hso : s.out with
      | none =>
        rw [hso] at hrun
        have hrun' : running h = false := by simpa using hrun
        simp only [step, hso]
        refine ⟨by simpa [running, hso] using hrun, ?_⟩
        rcases hst with ⟨h1, h2, h3, h4⟩ | ⟨cur, f, h1, h2, h3⟩
        · exact Or.inl ⟨h1, h2, by simpa [logged, hrun'] using h3, h4⟩
        · refine Or.inr ⟨cur, f, ?_, by simp only [now]; omega, h3⟩
          have : (fun d => loggedOn d (Op.push e l :: h)) = fun d => loggedOn d h := by
            funext d; simp [loggedOn, logged, hrun']
          rw [this]; exact h1
      | some o =>
        rw [hso] at hrun
        have hrun' : running h = true := by simpa using hrun
        rcases hst with ⟨h1, _⟩ | ⟨cur, f, h1, h2, h3⟩
        · rw [hso] at h1; cases h1
        obtain ⟨ho, hol⟩ := h3 o hso
        obtain ⟨f', g1, g2, g3, g4⟩ := rotate_B (o := o) (e := e) h1 hol hr hE2 hE1 (by omega) ht2 hE3 ht3
        simp only [step, hso, pushImpl]
        generalize rotateLogFile c e s.fs o = r at *
        have hro := g4 ho
        simp only [openLogFile_true hro, hro, if_true]
        refine ⟨by simpa [running] using hrun', Or.inr ⟨day e.t, _, g1.append (.line l) e.w hE3.symm ?_ ?_, Int.le_refl _, ?_⟩⟩
        · intro d hd
          rw [loggedOn_push hrun', if_neg (fun h => hd h.symm), List.append_nil]
        · rw [loggedOn_push hrun', if_pos rfl]; rfl
        · intro o' ho'
          cases ho'
          exact ⟨hro, g2⟩

end Verif.Logging.File
