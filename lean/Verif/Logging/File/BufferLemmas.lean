import Verif.Logging.File.Buffer

/-! # Auxiliary lemmas for the buffered file log output (C136) -/
namespace Verif.Logging.File.Buffer
open Verif.Logging.File Verif.Logging.File.Crash

/-- The relation between the day of the last rotation and the archives. -/
def LastB (c : Cfg) (ds : List Int) (last now : Int) : Prop :=
  c.rotate = true → 0 ≤ last ∧ (∀ d ∈ ds, d < last) ∧ last ≤ day now

/-- The files while the program is running. -/
def UpB (c : Cfg) (fs0 : Dir) (L : List S) (now : Int) (fs : Dir) (o : Out) : Prop :=
  ∃ ds, Files c fs0 fs ds L ∧ (c.rotate = false → ds = []) ∧ FileOk c ds fs now o.isOpen ∧ LastB c ds o.last now

structure EnvB (c : Cfg) (e : Env) : Prop where
  mv : c.zip = true → e.moveOk = true
  pos : 0 ≤ e.t
  le : e.t ≤ e.w
  max : e.w < 2932897 * 86400

theorem LastB.mono {c : Cfg} {ds : List Int} {last now now' : Int} (h : LastB c ds last now) (hle : now ≤ now') : LastB c ds last now' := by
  intro hr
  obtain ⟨a, b, d⟩ := h hr
  exact ⟨a, b, by have := day_le hle; omega⟩

theorem LastB.lt {c : Cfg} {ds : List Int} {last now : Int} (h : LastB c ds last now) (h2 : c.rotate = false → ds = []) :
    ∀ d ∈ ds, d < day now := by
  intro d hd
  cases hr : c.rotate with
  | false => rw [h2 hr] at hd; cases hd
  | true => obtain ⟨_, a, b⟩ := h hr; have := a d hd; omega

theorem UpB.clear {c : Cfg} {fs0 fs : Dir} {L : List S} {now : Int} {o : Out} (h : UpB c fs0 L now fs o) : Clear c fs0 L now fs := by
  obtain ⟨ds, h1, h2, h3, h4⟩ := h
  refine ⟨ds, h1, h2, ?_⟩
  rcases h3 with ⟨h3, _⟩ | h3
  · exact Or.inl ⟨h3, h4.lt h2⟩
  · exact Or.inr h3

theorem UpB.mono {c : Cfg} {fs0 fs : Dir} {L : List S} {now now' : Int} {o : Out} (h : UpB c fs0 L now fs o) (hle : now ≤ now') :
    UpB c fs0 L now' fs o := by
  obtain ⟨ds, h1, h2, h3, h4⟩ := h
  exact ⟨ds, h1, h2, h3.mono hle, h4.mono hle⟩

/-- Writing a part of the buffer. -/
theorem UpB.write {c : Cfg} {fs0 fs : Dir} {L : List S} {now w : Int} {o : Out} (h : UpB c fs0 L now fs o) (hle : now ≤ w) (hn : 0 ≤ now)
    (chunk : S) (ho : o.isOpen = false → chunk = []) :
    ∃ L', UpB c fs0 L' w (write c w fs chunk) o ∧ L'.flatten = L.flatten ++ chunk := by
  unfold Buffer.write
  have _ := ho
  by_cases hc : chunk = []
  · rw [if_pos hc]; exact ⟨L, h.mono hle, by simp [hc]⟩
  · rw [if_neg hc]
    obtain ⟨ds, h1, h2, h3, h4⟩ := h
    have h4' := h4.mono hle
    refine ⟨L ++ [chunk], ⟨ds, by simpa [linesOf] using h1.append (.line chunk) w, h2, Or.inr ⟨_, append_name, ?_, Int.le_refl _, ?_⟩,
      h4'⟩, by simp⟩
    · show 0 ≤ w; omega
    · exact h4'.lt h2

/-- `openLogFile`. -/
theorem open_upB {c : Cfg} {fs0 fs : Dir} {L : List S} {e : Env} {o : Out} (h : UpB c fs0 L e.w fs o) (he : EnvB c e) :
    UpB c fs0 L e.w (openLogFile c e fs o).1 (openLogFile c e fs o).2 ∧ (openLogFile c e fs o).2.last = o.last ∧
      (openLogFile c e fs o).2.isOpen = (o.isOpen || e.openOk) := by
  cases ho : o.isOpen with
  | true => rw [openLogFile_true ho]; exact ⟨h, rfl, by simp [ho]⟩
  | false =>
    cases hop : e.openOk with
    | false => rw [openLogFile_fails ho hop]; exact ⟨h, rfl, by simp [ho]⟩
    | true =>
      rw [openLogFile_false ho hop]
      obtain ⟨ds, h1, h2, h3, h4⟩ := h
      refine ⟨⟨ds, by simpa [linesOf] using h1.append .opened e.w, h2, Or.inr ⟨_, append_name, ?_, Int.le_refl _, h4.lt h2⟩, h4⟩, rfl, rfl⟩
      have := he.pos; have := he.le; show 0 ≤ e.w; omega

/-- Moving the file of a former day. -/
theorem moved {c : Cfg} {fs0 fs : Dir} {L : List S} {e : Env} {o : Out} (h : UpB c fs0 L e.t fs o) (he : EnvB c e)
    (hd : Due c e o) :
    ∃ ds', Files c fs0 (moveFile c e fs o.last) ds' L ∧ (∀ d ∈ ds', d < day e.t) ∧
      (moveFile c e fs o.last c.name = none ∨
        ∃ f, moveFile c e fs o.last c.name = some f ∧ 0 ≤ f.mtime ∧ f.mtime ≤ e.t ∧ ∀ d ∈ ds', d < day f.mtime) := by
  obtain ⟨ds, h1, h2, h3, h4⟩ := h
  have hlt' := h4.lt h2
  obtain ⟨hl0, hl1, hl2⟩ := h4 hd.1
  have hlt : o.last < day e.t := by have := hd.2; omega
  have hmax : day e.t < 2932897 := by have := he.max; have := he.le; simp only [day]; omega
  rcases h3 with ⟨hf, _⟩ | ⟨f, hf, hp, hle, hm⟩
  · by_cases hz : c.zip = true
    · have hk : moveFile c e fs o.last = fs.set (archiveName c o.last) (some ⟨[], e.w⟩) := by
        simp only [moveFile, hz, he.mv hz, if_true, hf]
        funext x
        simp only [Dir.set]
        split
        · next hx => subst hx; simp [Ne.symm (archiveName_ne (c := c) (d := o.last)), hf]
        · rfl
      rw [hk]
      refine ⟨ds ++ [o.last], files_empty h1 hl0 (by omega) hl1 _, ?_, Or.inl ?_⟩
      · intro d hd
        simp only [List.mem_append, List.mem_singleton] at hd
        rcases hd with hd | hd
        · have := hl1 d hd; omega
        · omega
      · simp [Dir.set, Ne.symm (archiveName_ne (c := c) (d := o.last)), hf]
    · have hk : moveFile c e fs o.last = fs := by simp [moveFile, hz, hf]
      rw [hk]
      exact ⟨ds, h1, hlt', Or.inl hf⟩
  · by_cases hm' : e.moveOk = true
    · obtain ⟨ds', g1, g2⟩ := h1.move hf (last := o.last) hl0 (by omega) hl1 he.mv
      refine ⟨ds', g1, fun d hd => by have := g2 d hd; omega, Or.inl ?_⟩
      unfold moveFile
      by_cases hz : c.zip = true
      · simp [hz, hm', Dir.set]
      · simp [hz, hm', hf, Dir.set, Ne.symm (archiveName_ne (c := c) (d := o.last))]
    · have hz : c.zip = false := by
        cases hz : c.zip
        · rfl
        · exact absurd (he.mv hz) hm'
      have : moveFile c e fs o.last = fs := by simp [moveFile, hz, hf, hm']
      rw [this]
      exact ⟨ds, h1, hlt', Or.inr ⟨f, hf, hp, hle, hm⟩⟩

/-- `rotateLogFile` when it is due. -/
theorem rotate_due {c : Cfg} {fs0 fs : Dir} {L : List S} {e : Env} {o : Out} (hdel : c.delete = none)
    (h : UpB c fs0 L e.t fs o) (he : EnvB c e) (hd : Due c e o) :
    UpB c fs0 L e.w (rotateLogFile c e fs o).1 (rotateLogFile c e fs o).2 ∧ (rotateLogFile c e fs o).2.last = day e.t ∧
      (rotateLogFile c e fs o).2.isOpen = e.openOk := by
  obtain ⟨ds', g1, g2, g3⟩ := moved h he hd
  have hdl : deleteOld c (moveFile c e fs o.last) (day e.t) = moveFile c e fs o.last := by simp [deleteOld, hdel]
  have hr : rotateLogFile c e fs o = openLogFile c e (moveFile c e fs o.last) ⟨false, day e.t⟩ := by
    simp only [rotateLogFile]
    rw [if_pos (show c.rotate = true ∧ o.last ≠ day e.t from hd), hdl]
  have hew := he.le
  have hup : UpB c fs0 L e.w (moveFile c e fs o.last) ⟨false, day e.t⟩ := by
    refine ⟨ds', g1, (fun h => by rw [hd.1] at h; cases h), ?_, fun _ => ⟨day_nonneg he.pos, g2, day_le hew⟩⟩
    rcases g3 with g3 | ⟨f, g3, g4, g5, g6⟩
    · exact Or.inl ⟨g3, rfl⟩
    · exact Or.inr ⟨f, g3, g4, by omega, g6⟩
  rw [hr]
  obtain ⟨a, b, d⟩ := open_upB hup he
  exact ⟨a, b, by simpa using d⟩

/-- The constructor. -/
theorem create_up {c : Cfg} {fs0 fs : Dir} {L : List S} {now : Int} {e : Env} (hdel : c.delete = none) (h : Clear c fs0 L now fs)
    (hle : now ≤ e.t) (he : EnvB c e) :
    UpB c fs0 L e.w (create c e fs).1 (create c e fs).2 ∧ (c.rotate = true → (create c e fs).2.last = day e.t) ∧
      (create c e fs).2.isOpen = e.openOk := by
  have hew := he.le
  obtain ⟨ds, h1, h2, h3⟩ := h
  rcases h3 with ⟨h3, h4⟩ | ⟨f, h3, h4, h5, h6⟩
  · have hcr : create c e fs = openLogFile c e fs ⟨false, if c.rotate then day e.t else 0⟩ := by simp only [create, h3]
    have hup : UpB c fs0 L e.w fs ⟨false, if c.rotate then day e.t else 0⟩ := by
      refine ⟨ds, h1, h2, Or.inl ⟨h3, rfl⟩, fun hr => ?_⟩
      simp only [hr, if_true]
      exact ⟨day_nonneg he.pos, fun d hd => by have := h4 d hd; have := day_le hle; omega, day_le hew⟩
    obtain ⟨a, b, d⟩ := open_upB hup he
    rw [hcr]
    exact ⟨a, fun hr => by rw [b]; simp [hr], by simpa using d⟩
  · have hcr : create c e fs = openLogFile c e (rotateLogFile c e fs ⟨false, day f.mtime⟩).1 (rotateLogFile c e fs ⟨false, day f.mtime⟩).2 := by
      simp only [create, h3]
    rw [hcr]
    have hup : UpB c fs0 L e.t fs ⟨false, day f.mtime⟩ :=
      ⟨ds, h1, h2, Or.inr ⟨f, h3, h4, by omega, h6⟩, fun _ => ⟨day_nonneg h4, h6, day_le (by omega)⟩⟩
    by_cases hd : Due c e ⟨false, day f.mtime⟩
    · obtain ⟨g1, g2, g3⟩ := rotate_due hdel hup he hd
      obtain ⟨a, b, d⟩ := open_upB g1 he
      exact ⟨a, fun _ => by rw [b, g2], by rw [d, g3, Bool.or_self]⟩
    · have hr : rotateLogFile c e fs ⟨false, day f.mtime⟩ = (fs, ⟨false, day f.mtime⟩) := by
        simp only [rotateLogFile]; exact if_neg hd
      have hl : c.rotate = true → day f.mtime = day e.t := fun hr => Classical.byContradiction fun hne => hd ⟨hr, hne⟩
      rw [hr]
      obtain ⟨a, b, d⟩ := open_upB (hup.mono hew) he
      exact ⟨a, fun hr => by rw [b]; exact hl hr, by simpa using d⟩

/-- `rotateLogFile` with the buffer, then `openLogFile`. -/
theorem rotateB_up {c : Cfg} {fs0 fs : Dir} {L : List S} {now : Int} {e : Env} {b : Obj} (hdel : c.delete = none)
    (h : UpB c fs0 L now fs b.out) (hle : now ≤ e.t) (hn : 0 ≤ now) (he : EnvB c e) (hb : b.out.isOpen = false → b.buf = []) :
    ∃ L', UpB c fs0 L' e.w (openLogFile c e (rotateB c e fs b).1 (rotateB c e fs b).2.out).1
        (openLogFile c e (rotateB c e fs b).1 (rotateB c e fs b).2.out).2 ∧
      L'.flatten ++ (rotateB c e fs b).2.buf = L.flatten ++ b.buf ∧
      (rotateB c e fs b).2.buf = (if Due c e b.out then [] else b.buf) ∧
      (c.rotate = true → (openLogFile c e (rotateB c e fs b).1 (rotateB c e fs b).2.out).2.last = day e.t) ∧
      (openLogFile c e (rotateB c e fs b).1 (rotateB c e fs b).2.out).2.isOpen = opens c e b.out := by
  unfold rotateB
  by_cases hd : Due c e b.out
  · rw [if_pos hd, if_pos hd]
    obtain ⟨L', hw, hL⟩ := h.write hle hn b.buf hb
    obtain ⟨g1, g2, g3⟩ := rotate_due hdel hw he hd
    obtain ⟨a, b', d⟩ := open_upB g1 he
    have ho : opens c e b.out = e.openOk := by simp [opens, hd.1, hd.2]
    exact ⟨L', a, by simp [hL], rfl, fun _ => by rw [b', g2], by rw [d, g3, Bool.or_self, ho]⟩
  · rw [if_neg hd, if_neg hd]
    have hl : c.rotate = true → b.out.last = day e.t := fun hr => Classical.byContradiction fun hne => hd ⟨hr, hne⟩
    have hdue : (c.rotate && decide (b.out.last ≠ day e.t)) = false := by
      cases hro : c.rotate with
      | false => rfl
      | true => simp [hl hro]
    obtain ⟨a, b', d⟩ := open_upB (h.mono (by have := he.le; omega)) he
    refine ⟨L, a, rfl, rfl, fun hr => by rw [b', hl hr], ?_⟩
    rw [d]
    simp only [opens, hdue]
    cases b.out.isOpen <;> rfl

theorem nowB_nonneg : ∀ (h : List BOp), ClockB h → 0 ≤ nowB h
  | [], _ => Int.le_refl _
  | op :: h, hc => by have := nowB_nonneg h hc.1; have := hc.2; show 0 ≤ op.env.w; omega

/-- The invariant. -/
def Good (c : Cfg) (flush : Bool) (fs0 : Dir) (h : List BOp) (s : Sys) : Prop :=
  match s.obj with
  | some b => ∃ L, UpB c fs0 L (nowB h) s.fs b.out ∧ Kept c flush h (L.flatten ++ b.buf) ∧ b.buf <:+ unsynced c flush h ∧
      (c.rotate = true → b.out.last = lastDay h) ∧ runningB h = true ∧ b.out.isOpen = openB c h ∧ (b.out.isOpen = false → b.buf = [])
  | none => ∃ L, Clear c fs0 L (nowB h) s.fs ∧ Kept c flush h L.flatten ∧ runningB h = false

theorem openB_push {c : Cfg} {h : List BOp} {o : Out} (hr : runningB h = true) (h1 : o.isOpen = openB c h)
    (h2 : c.rotate = true → o.last = lastDay h) (e : Env) (k : Nat) (s : S) : openB c (.push e k s :: h) = opens c e o := by
  simp only [openB, hr, Bool.true_and, opens, h1]
  cases hro : c.rotate with
  | false => simp
  | true => rw [h2 hro]; simp only [ne_eq, eq_comm (a := day e.t)]

/-- A crash inside a call. -/
theorem die_good {c : Cfg} {fs0 fs : Dir} {L : List S} {now : Int} {e : Env} {b : Obj} (hdel : c.delete = none)
    (h : UpB c fs0 L now fs b.out) (hle : now ≤ e.t) (hn : 0 ≤ now) (he : EnvB c e) (hb : b.out.isOpen = false → b.buf = [])
    (s : S) (pt : Point) (hz : ∀ p, pt ≠ .zipping p) (s' : S) (hs' : s' = if opens c e b.out then s else []) :
    ∃ L' z, Clear c fs0 L' e.w (dieB c e fs b s pt) ∧ L.flatten ++ b.buf ++ s' = L'.flatten ++ z ∧ z <:+ b.buf ++ s' := by
  have hew := he.le
  obtain ⟨L1, r1, r2, r3, r4, r5⟩ := rotateB_up hdel h hle hn he hb
  have hsame : ∃ L' z, Clear c fs0 L' e.w fs ∧ L.flatten ++ b.buf ++ s' = L'.flatten ++ z ∧ z <:+ b.buf ++ s' :=
    ⟨L, b.buf ++ s', h.clear.mono (by omega), by simp, List.suffix_refl _⟩
  cases pt with
  | nothing => exact hsame
  | zipping p => exact absurd rfl (hz p)
  | closing n =>
    simp only [dieB]
    split
    · obtain ⟨L', g, hL⟩ := h.write hle hn (b.buf.take n) (fun ho => by rw [hb ho]; simp)
      refine ⟨L', b.buf.drop n ++ s', (g.mono hew).clear, ?_, ?_⟩
      · rw [hL]; simp [List.append_assoc]; rw [← List.append_assoc, List.take_append_drop]
      · exact ⟨b.buf.take n, by rw [← List.append_assoc, List.take_append_drop]⟩
    · exact hsame
  | moved =>
    simp only [dieB]
    split
    case isFalse => exact hsame
    case isTrue hd =>
      obtain ⟨L', hw, hL⟩ := h.write hle hn b.buf hb
      obtain ⟨ds', g1, g2, g3⟩ := moved hw he hd
      refine ⟨L', s', ⟨ds', g1, (fun hr => by rw [hd.1] at hr; cases hr), ?_⟩, by rw [hL], List.suffix_append _ _⟩
      rcases g3 with g3 | ⟨f', g3, g4, g5, g6⟩
      · exact Or.inl ⟨g3, fun d hd' => by have := g2 d hd'; have := day_le hew; omega⟩
      · exact Or.inr ⟨f', g3, g4, by omega, g6⟩
  | deleting sub =>
    have hdl : ∀ fs k, deleteOld c fs k = fs := fun _ _ => by simp [deleteOld, hdel]
    simp only [dieB, hdl, ite_self]
    split
    case isFalse => exact hsame
    case isTrue hd =>
      obtain ⟨L', hw, hL⟩ := h.write hle hn b.buf hb
      obtain ⟨ds', g1, g2, g3⟩ := moved hw he hd
      refine ⟨L', s', ⟨ds', g1, (fun hr => by rw [hd.1] at hr; cases hr), ?_⟩, by rw [hL], List.suffix_append _ _⟩
      rcases g3 with g3 | ⟨f', g3, g4, g5, g6⟩
      · exact Or.inl ⟨g3, fun d hd' => by have := g2 d hd'; have := day_le hew; omega⟩
      · exact Or.inr ⟨f', g3, g4, by omega, g6⟩
  | opened =>
    simp only [dieB]
    refine ⟨L1, (rotateB c e fs b).2.buf ++ s', r1.clear, by rw [← r2]; simp, ?_⟩
    rw [r3]; split
    · exact List.suffix_append _ _
    · exact List.suffix_refl _
  | writing n =>
    simp only [dieB, r5]
    cases ho : opens c e b.out with
    | false =>
      rw [ho] at hs'
      simp only [Bool.false_eq_true, if_false] at hs' ⊢
      refine ⟨L1, (rotateB c e fs b).2.buf, r1.clear, by rw [r2, hs']; simp, ?_⟩
      rw [r3, hs']; split
      · exact List.nil_suffix
      · simp
    | true =>
      rw [ho] at hs'
      simp only [if_true] at hs' ⊢
      subst hs'
      have hpos : 0 ≤ e.w := by have := he.pos; omega
      obtain ⟨L', g, hL⟩ := r1.write (Int.le_refl _) hpos (((rotateB c e fs b).2.buf ++ s').take n) (fun hx => by rw [r5, ho] at hx; cases hx)
      refine ⟨L', ((rotateB c e fs b).2.buf ++ s').drop n, g.clear, ?_, ?_⟩
      · rw [hL, List.append_assoc L1.flatten, List.take_append_drop, ← r2]; simp
      · refine List.IsSuffix.trans (List.drop_suffix _ _) ?_
        rw [r3]; split
        · exact List.suffix_append _ _
        · exact List.suffix_refl _

theorem good_all {c : Cfg} {flush : Bool} {fs0 : Dir} (hdel : c.delete = none) (h0 : Clean c fs0) :
    ∀ (h : List BOp), ClockB h → FineB c h → Good c flush fs0 h (run c flush fs0 h)
  | [], _, _ => by
    refine ⟨[], ⟨[], ⟨List.Pairwise.nil, by simp, ?_, ?_, fun _ _ _ => rfl⟩, fun _ => rfl, Or.inl ⟨h0.1, by simp⟩⟩, .nil, rfl⟩
    · intro d _ _; simp [run, h0.2 d]
    · simp [linesIn, run, h0.1]
  | op :: h, hc, hf => by
    have ih := good_all (flush := flush) hdel h0 h hc.1 (fun o ho => hf o (List.mem_cons_of_mem _ ho))
    have hnn := nowB_nonneg h hc.1
    obtain ⟨f2, f3⟩ := hf op List.mem_cons_self
    obtain ⟨_, c1, c2, c3⟩ := hc
    have he : EnvB c op.env := ⟨f2, by omega, c2, c3⟩
    show Good c flush fs0 (op :: h) (step c flush (run c flush fs0 h) op)
    cases hs : run c flush fs0 h with
    | mk fs obj =>
    rw [hs] at ih
    cases obj with
    | none =>
      obtain ⟨L, i1, i2, i3⟩ := ih
      have hmono : Clear c fs0 L op.env.w fs := i1.mono (by show nowB h ≤ op.env.w; omega)
      cases op with
      | start e =>
        obtain ⟨g1, g2, g3⟩ := create_up hdel i1 c1 he
        exact ⟨L, g1, by simpa using Kept.start i2, by simp, fun hr => by simpa [lastDay, i3, BOp.env] using g2 hr, rfl,
          by simpa [openB, i3, BOp.env] using g3, fun _ => rfl⟩
      | push e k s => exact ⟨L, hmono, .pushOff (by simp [openB, i3]) i2, i3⟩
      | stop e => exact ⟨L, hmono, .stop i2, rfl⟩
      | die e s pt => exact ⟨L, hmono, .dieOff i3 i2, rfl⟩
    | some b =>
      obtain ⟨L, i1, i2, i3, i4, i5, i6, i7⟩ := ih
      cases op with
      | start e =>
        have := i1.mono (show nowB h ≤ nowB (.start e :: h) by show nowB h ≤ e.w; exact Int.le_trans c1 c2)
        exact ⟨L, this, .start i2, by simpa [unsynced, i5] using i3, fun hr => by simpa [lastDay, i5] using i4 hr, rfl,
          by simpa [openB, i5] using i6, i7⟩
      | push e k s =>
        have hopen := openB_push i5 i6 i4 e k s
        obtain ⟨L1, r1, r2, r3, r4, r5⟩ := rotateB_up (e := e) hdel i1 c1 hnn he i7
        simp only [step, pushB, BOp.env] at r1 r2 r3 r4 r5 ⊢
        rw [r5]
        cases ho : opens c e b.out with
        | false =>
          rw [ho] at hopen r5
          simp only [Bool.false_eq_true, if_false]
          have hbuf : (rotateB c e fs b).2.buf = [] := by
            rw [r3]
            split
            · rfl
            · next hd =>
              refine i7 ?_
              have hdue : (c.rotate && decide (b.out.last ≠ day e.t)) = false := by
                cases hro : c.rotate with
                | false => rfl
                | true =>
                  have : b.out.last = day e.t := Classical.byContradiction fun hne => hd ⟨hro, hne⟩
                  simp [this]
              cases hio : b.out.isOpen with
              | false => rfl
              | true =>
                have : opens c e b.out = true := by simp only [opens, hio, hdue]; rfl
                rw [this] at ho; cases ho
          refine ⟨L1, r1, ?_, ?_, r4, i5, by rw [r5, hopen], fun _ => hbuf⟩
          · have := Kept.pushOff (e := e) (k := k) (s := s) hopen i2
            rw [r2]; exact this
          · rw [hbuf]; exact List.nil_suffix
        | true =>
          rw [ho] at hopen r5
          simp only [if_true]
          generalize hn : (if flush = true then ((rotateB c e fs b).2.buf ++ s).length else k) = n
          have hpos : 0 ≤ e.w := by have := he.pos; have := he.le; simp only [BOp.env] at *; omega
          obtain ⟨L', g, hL⟩ := r1.write (Int.le_refl _) hpos (((rotateB c e fs b).2.buf ++ s).take n) (fun hx => by rw [r5] at hx; cases hx)
          refine ⟨L', g, ?_, ?_, r4, i5, by rw [r5, hopen], fun hx => by rw [r5] at hx; cases hx⟩
          · have := Kept.push (e := e) (k := k) (s := s) hopen i2
            rw [hL, List.append_assoc, List.take_append_drop, ← List.append_assoc, r2]
            exact this
          · show ((rotateB c e fs b).2.buf ++ s).drop n <:+ unsynced c flush (.push e k s :: h)
            unfold unsynced
            cases hfl : flush with
            | true =>
              rw [hfl] at hn
              simp at hn
              simp [← hn]
            | false =>
              simp only [hopen, Bool.false_eq_true, or_false, if_false, Bool.true_eq_false]
              refine List.IsSuffix.trans (List.drop_suffix _ _) ?_
              rw [r3]
              by_cases hd : Due c e b.out
              · rw [if_pos hd, if_pos ⟨hd.1, by rw [← i4 hd.1]; exact fun h => hd.2 h.symm⟩]
                exact List.suffix_refl _
              · have hd' : ¬ (c.rotate = true ∧ day e.t ≠ lastDay h) := by
                  rintro ⟨a, a'⟩
                  exact hd ⟨a, by rw [i4 a]; exact fun h => a' h.symm⟩
                rw [if_neg hd, if_neg hd']
                obtain ⟨y, hy⟩ := i3
                rw [hfl] at hy
                exact ⟨y, by rw [← hy, List.append_assoc]⟩
      | stop e =>
        obtain ⟨L', g, hL⟩ := i1.write (show nowB h ≤ e.w from Int.le_trans c1 c2) hnn b.buf i7
        exact ⟨L', g.clear, by rw [hL]; exact .stop i2, rfl⟩
      | die e s pt =>
        obtain ⟨L', z, g1, g2, g3⟩ := die_good hdel i1 c1 hnn he i7 s pt (fun p hp => f3 e s p (by rw [hp])) (lineOf c e s h)
          (by unfold lineOf; rw [openB_push i5 i6 i4 e 0 s]; rfl)
        refine ⟨L', g1, .die i5 i2 g2 (g3.trans ?_), rfl⟩
        obtain ⟨y, hy⟩ := i3
        exact ⟨y, by rw [← hy, List.append_assoc]⟩

end Verif.Logging.File.Buffer
