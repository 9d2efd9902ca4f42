import Verif.Logging.File.Crash
import Verif.Logging.File.DayLemmas

/-! # Auxiliary lemmas for crashes (C134) -/
namespace Verif.Logging.File.Crash
open Verif.Logging.File

/-- Days archived and the state of the log file, without an unfinished archive. -/
def Clear (c : Cfg) (fs0 : Dir) (L : List S) (now : Int) (fs : Dir) : Prop :=
  ∃ ds, Files c fs0 fs ds L ∧ (c.rotate = false → ds = []) ∧
    ((fs c.name = none ∧ ∀ d ∈ ds, d < day now) ∨
     ∃ f, fs c.name = some f ∧ 0 ≤ f.mtime ∧ f.mtime ≤ now ∧ ∀ d ∈ ds, d < day f.mtime)

/-- An unfinished archive of a file that is still there. -/
def Stray (c : Cfg) (fs0 : Dir) (L : List S) (now : Int) (fs : Dir) : Prop :=
  c.rotate = true ∧ c.zip = true ∧ ∃ fsV f g, Clear c fs0 L now fsV ∧ fsV c.name = some f ∧
    day f.mtime < day now ∧ fs = fsV.set (archiveName c (day f.mtime)) (some g)

/-- The program is not running. -/
def Down (c : Cfg) (fs0 : Dir) (L : List S) (now : Int) (fs : Dir) : Prop :=
  Clear c fs0 L now fs ∨ Stray c fs0 L now fs

/-- The relation between the day of the last rotation, the archives and the log file. -/
def LastOk (c : Cfg) (ds : List Int) (fs : Dir) (last now : Int) : Prop :=
  c.rotate = true → 0 ≤ last ∧ (∀ d ∈ ds, d < last) ∧ last ≤ day now ∧
    ∀ f, fs c.name = some f → c.zip = true → last = day f.mtime

/-- What is there of the log file. -/
def FileOk (c : Cfg) (ds : List Int) (fs : Dir) (now : Int) (isOpen : Bool) : Prop :=
  (fs c.name = none ∧ isOpen = false) ∨
    ∃ f, fs c.name = some f ∧ 0 ≤ f.mtime ∧ f.mtime ≤ now ∧ ∀ d ∈ ds, d < day f.mtime

/-- The program is running. -/
def Up (c : Cfg) (fs0 : Dir) (L : List S) (now : Int) (fs : Dir) (o : Out) : Prop :=
  ∃ ds, Files c fs0 fs ds L ∧ (c.rotate = false → ds = []) ∧ FileOk c ds fs now o.isOpen ∧ LastOk c ds fs o.last now

/-- `rotateLogFile` is about to be called at the time `e.t`. -/
def Ready (c : Cfg) (fs0 : Dir) (L : List S) (e : Env) (fs : Dir) (o : Out) : Prop :=
  ∃ ds, Files c fs0 fs ds L ∧ (c.rotate = false → ds = []) ∧ (∀ d ∈ ds, d < day e.t) ∧ FileOk c ds fs e.t o.isOpen ∧
    LastOk c ds fs o.last e.t

/-- The environment of a step at which compressing does not fail. -/
structure EnvOk (c : Cfg) (e : Env) : Prop where
  mv : c.zip = true → e.moveOk = true
  pos : 0 ≤ e.t
  le : e.t ≤ e.w
  max : e.w < 2932897 * 86400
  same : c.zip = true → day e.t = day e.w

theorem Up.lt {c : Cfg} {fs0 fs : Dir} {ds : List Int} {now : Int} {o : Out} (h2 : c.rotate = false → ds = [])
    (h3 : FileOk c ds fs now o.isOpen) (h4 : LastOk c ds fs o.last now) : ∀ d ∈ ds, d < day now := by
  have _ := fs0
  intro d hd
  cases hr : c.rotate with
  | false => rw [h2 hr] at hd; cases hd
  | true => obtain ⟨_, h, h', _⟩ := h4 hr; have := h d hd; omega

theorem Up.clear {c : Cfg} {fs0 fs : Dir} {L : List S} {now : Int} {o : Out} (h : Up c fs0 L now fs o) :
    Clear c fs0 L now fs := by
  obtain ⟨ds, h1, h2, h3, h4⟩ := h
  have hlt := Up.lt (fs0 := fs0) h2 h3 h4
  rcases h3 with ⟨h3, _⟩ | h3
  · exact ⟨ds, h1, h2, Or.inl ⟨h3, hlt⟩⟩
  · exact ⟨ds, h1, h2, Or.inr h3⟩

theorem Clear.mono {c : Cfg} {fs0 fs : Dir} {L : List S} {now now' : Int} (h : Clear c fs0 L now fs) (hle : now ≤ now') :
    Clear c fs0 L now' fs := by
  obtain ⟨ds, h1, h2, h3⟩ := h
  refine ⟨ds, h1, h2, ?_⟩
  rcases h3 with ⟨h3, h4⟩ | ⟨f, h3, h4, h5, h6⟩
  · exact Or.inl ⟨h3, fun d hd => by have := h4 d hd; have := day_le hle; omega⟩
  · exact Or.inr ⟨f, h3, h4, by omega, h6⟩

theorem Stray.mono {c : Cfg} {fs0 fs : Dir} {L : List S} {now now' : Int} (h : Stray c fs0 L now fs) (hle : now ≤ now') :
    Stray c fs0 L now' fs := by
  obtain ⟨h1, h2, fsV, f, g, h3, h4, h5, h6⟩ := h
  exact ⟨h1, h2, fsV, f, g, h3.mono hle, h4, by have := day_le hle; omega, h6⟩

theorem Down.mono {c : Cfg} {fs0 fs : Dir} {L : List S} {now now' : Int} (h : Down c fs0 L now fs) (hle : now ≤ now') :
    Down c fs0 L now' fs := h.imp (·.mono hle) (·.mono hle)

theorem FileOk.mono {c : Cfg} {fs : Dir} {ds : List Int} {now now' : Int} {b : Bool} (h : FileOk c ds fs now b) (hle : now ≤ now') :
    FileOk c ds fs now' b := by
  rcases h with h | ⟨f, h3, h4, h5, h6⟩
  · exact Or.inl h
  · exact Or.inr ⟨f, h3, h4, by omega, h6⟩

theorem LastOk.mono {c : Cfg} {fs : Dir} {ds : List Int} {now now' last : Int} (h : LastOk c ds fs last now) (hle : now ≤ now') :
    LastOk c ds fs last now' := by
  intro hr
  obtain ⟨h1, h2, h3, h4⟩ := h hr
  exact ⟨h1, h2, by have := day_le hle; omega, h4⟩

theorem Up.mono {c : Cfg} {fs0 fs : Dir} {L : List S} {now now' : Int} {o : Out} (h : Up c fs0 L now fs o) (hle : now ≤ now') :
    Up c fs0 L now' fs o := by
  obtain ⟨ds, h1, h2, h3, h4⟩ := h
  exact ⟨ds, h1, h2, h3.mono hle, h4.mono hle⟩

theorem Up.ready {c : Cfg} {fs0 fs : Dir} {L : List S} {now : Int} {o : Out} (h : Up c fs0 L now fs o) {e : Env}
    (hle : now ≤ e.t) : Ready c fs0 L e fs o := by
  obtain ⟨ds, h1, h2, h3, h4⟩ := h.mono hle
  exact ⟨ds, h1, h2, Up.lt (fs0 := fs0) h2 h3 h4, h3, h4⟩

theorem Clear.ready {c : Cfg} {fs0 fs : Dir} {L : List S} {now : Int} (h : Clear c fs0 L now fs) {e : Env}
    (hle : now ≤ e.t) (hp : 0 ≤ e.t) : Ready c fs0 L e fs (startOut c e fs) := by
  obtain ⟨ds, h1, h2, h3⟩ := h
  rcases h3 with ⟨h3, h4⟩ | ⟨f, h3, h4, h5, h6⟩
  · have hlt : ∀ d ∈ ds, d < day e.t := fun d hd => by have := h4 d hd; have := day_le hle; omega
    refine ⟨ds, h1, h2, hlt, Or.inl ⟨h3, by simp [startOut, h3]⟩, fun hr => ?_⟩
    have hl : (startOut c e fs).last = day e.t := by simp [startOut, h3, hr]
    rw [hl]
    exact ⟨day_nonneg hp, hlt, Int.le_refl _, fun f hf => by rw [h3] at hf; cases hf⟩
  · have hl : (startOut c e fs).last = day f.mtime := by simp [startOut, h3]
    have hle' : day f.mtime ≤ day e.t := day_le (by omega)
    refine ⟨ds, h1, h2, fun d hd => by have := h6 d hd; omega, Or.inr ⟨f, h3, h4, by omega, h6⟩, fun hr => ?_⟩
    rw [hl]
    exact ⟨day_nonneg h4, h6, hle', fun g hg _ => by rw [h3] at hg; cases hg; rfl⟩

theorem files_create {c : Cfg} {fs0 fs : Dir} {ds : List Int} {L : List S} (h : Files c fs0 fs ds L) (hn : fs c.name = none)
    (w : Int) : Files c fs0 (fs.set c.name (some ⟨[], w⟩)) ds L := by
  have ho : ∀ x, x ≠ c.name → (fs.set c.name (some ⟨[], w⟩)) x = fs x := fun x hx => by simp [Dir.set, hx]
  refine ⟨h.sorted, h.range, fun d h1 h2 => ?_, ?_, fun x h1 h2 => ?_⟩
  · rw [ho _ archiveName_ne]; exact h.exist d h1 h2
  · have e1 : (ds.flatMap fun d => linesIn (fs.set c.name (some ⟨[], w⟩)) (archiveName c d)) =
        ds.flatMap fun d => linesIn fs (archiveName c d) := by
      congr 1; funext d; exact linesIn_congr (ho _ archiveName_ne)
    rw [e1, ← h.lines]
    simp [linesIn, hn, Dir.set, linesOf]
  · rw [ho x h1]; exact h.others x h1 h2

/-- An empty archive. -/
theorem files_empty {c : Cfg} {fs0 fs : Dir} {ds : List Int} {L : List S} (h : Files c fs0 fs ds L) {last : Int} (h0 : 0 ≤ last)
    (h1 : last < 2932897) (hl : ∀ d ∈ ds, d < last) (w : Int) :
    Files c fs0 (fs.set (archiveName c last) (some ⟨[], w⟩)) (ds ++ [last]) L := by
  have ha : ∀ d, 0 ≤ d → d < 2932897 → (fs.set (archiveName c last) (some ⟨[], w⟩)) (archiveName c d) =
      if d = last then some ⟨[], w⟩ else fs (archiveName c d) := by
    intro d h2 h3
    simp only [Dir.set]
    by_cases hd : d = last
    · subst hd; simp
    · have : archiveName c d ≠ archiveName c last := fun h => hd (archiveName_inj h2 h3 h0 h1 h)
      simp [hd, this]
  have hn : (fs.set (archiveName c last) (some ⟨[], w⟩)) c.name = fs c.name := by
    simp [Dir.set, Ne.symm (archiveName_ne (c := c) (d := last))]
  refine ⟨?_, ?_, ?_, ?_, ?_⟩
  · rw [List.pairwise_append]
    exact ⟨h.sorted, by simp, by intro a ha' b hb; simp at hb; subst hb; exact hl a ha'⟩
  · intro d hd
    simp only [List.mem_append, List.mem_singleton] at hd
    rcases hd with hd | hd
    · exact h.range d hd
    · subst hd; exact ⟨h0, h1⟩
  · intro d h2 h3
    rw [ha d h2 h3]
    by_cases hd : d = last
    · simp [hd]
    · simp only [hd, if_false, List.mem_append, List.mem_singleton, or_false]
      exact h.exist d h2 h3
  · simp only [List.flatMap_append, List.flatMap_cons, List.flatMap_nil, List.append_nil]
    have e1 : (ds.flatMap fun d => linesIn (fs.set (archiveName c last) (some ⟨[], w⟩)) (archiveName c d)) =
        ds.flatMap fun d => linesIn fs (archiveName c d) := by
      apply flatMap_congr'
      intro d hd
      apply linesIn_congr
      rw [ha d (h.range d hd).1 (h.range d hd).2, if_neg]
      have := hl d hd
      omega
    rw [e1, ← h.lines]
    simp only [linesIn, hn, ha last h0 h1, if_true, linesOf, List.append_nil]
  · intro x h2 h3
    simp only [Dir.set, h3 last h0 h1, if_false]
    exact h.others x h2 h3

/-- After the move. -/
theorem ready_moved {c : Cfg} {fs0 fs : Dir} {L : List S} {e : Env} {o : Out} (h : Ready c fs0 L e fs o) (he : EnvOk c e)
    (hrot : c.rotate = true ∧ o.last ≠ day e.t) :
    ∃ ds', Files c fs0 (moveFile c e fs o.last) ds' L ∧ (∀ d ∈ ds', d < day e.t) ∧
      (moveFile c e fs o.last c.name = none ∨
        c.zip = false ∧ ∃ f, moveFile c e fs o.last c.name = some f ∧ 0 ≤ f.mtime ∧ f.mtime ≤ e.t ∧ ∀ d ∈ ds', d < day f.mtime) := by
  obtain ⟨ds, h1, h2, hd, h3, hl⟩ := h
  obtain ⟨hl0, hl1, hl2, hl3⟩ := hl hrot.1
  have hlt : o.last < day e.t := by have := hrot.2; omega
  have hmax : day e.t < 2932897 := by have := he.max; have := he.le; simp only [day]; omega
  rcases h3 with ⟨hf, _⟩ | ⟨f, hf, hp, hle, hm⟩
  · by_cases hz : c.zip = true
    · have hk : moveFile c e fs o.last = fs.set (archiveName c o.last) (some ⟨[], e.w⟩) := by
        simp only [moveFile, hz, he.mv hz, if_true, hf]
        funext x
        simp only [Dir.set]
        split
        · next hx => subst hx; simp [Ne.symm (archiveName_ne (c := c) (d := o.last)), hf]
        · rfl
      rw [hk]
      refine ⟨ds ++ [o.last], files_empty h1 hl0 (by omega) hl1 _, ?_, Or.inl ?_⟩
      · intro d hd
        simp only [List.mem_append, List.mem_singleton] at hd
        rcases hd with hd | hd
        · have := hl1 d hd; omega
        · omega
      · simp [Dir.set, Ne.symm (archiveName_ne (c := c) (d := o.last)), hf]
    · have hk : moveFile c e fs o.last = fs := by simp [moveFile, hz, hf]
      rw [hk]
      exact ⟨ds, h1, hd, Or.inl hf⟩
  · by_cases hm' : e.moveOk = true
    · obtain ⟨ds', g1, g2⟩ := h1.move hf (last := o.last) hl0 (by omega) hl1 he.mv
      refine ⟨ds', g1, fun d hd => by have := g2 d hd; omega, Or.inl ?_⟩
      unfold moveFile
      by_cases hz : c.zip = true
      · simp [hz, hm', Dir.set]
      · simp [hz, hm', hf, Dir.set, Ne.symm (archiveName_ne (c := c) (d := o.last))]
    · have hz : c.zip = false := by
        cases hz : c.zip
        · rfl
        · exact absurd (he.mv hz) hm'
      have : moveFile c e fs o.last = fs := by simp [moveFile, hz, hf, hm']
      rw [this]
      exact ⟨ds, h1, hd, Or.inr ⟨hz, f, hf, hp, hle, hm⟩⟩

/-- `openLogFile` with a closed file. -/
theorem open_up {c : Cfg} {fs0 fs : Dir} {ds : List Int} {L : List S} {e : Env} (h : Files c fs0 fs ds L) (he : EnvOk c e)
    (hnr : c.rotate = false → ds = []) (hd : ∀ d ∈ ds, d < day e.t) {last : Int} (hl : c.rotate = true → last = day e.t) :
    Up c fs0 L e.w (append fs c.name .opened e.w) ⟨true, last⟩ := by
  refine ⟨ds, by simpa [linesOf] using h.append .opened e.w, hnr, Or.inr ⟨_, append_name, ?_, Int.le_refl _, ?_⟩, ?_⟩
  · have := he.pos; have := he.le; show 0 ≤ e.w; omega
  · intro d hd'; have := hd d hd'; have := day_le he.le; show d < day e.w; omega
  · intro hr
    rw [hl hr]
    refine ⟨day_nonneg he.pos, hd, day_le he.le, fun f hf hz => ?_⟩
    rw [append_name] at hf
    cases hf
    exact he.same hz

theorem openLogFile_fails {c : Cfg} {e : Env} {fs : Dir} {o : Out} (h : o.isOpen = false) (he : e.openOk = false) :
    openLogFile c e fs o = (fs, o) := by
  simp [openLogFile, h, he]

/-- The log file is open after `rotateLogFile(); openLogFile()`. -/
def opens (c : Cfg) (e : Env) (o : Out) : Bool :=
  if o.isOpen && !(c.rotate && decide (o.last ≠ day e.t)) then true else e.openOk

/-- After `rotateLogFile(); openLogFile()`. -/
theorem ready_open {c : Cfg} {fs0 fs : Dir} {L : List S} {e : Env} {o : Out} (hdel : c.delete = none)
    (h : Ready c fs0 L e fs o) (he : EnvOk c e) :
    Up c fs0 L e.w (openLogFile c e (rotateLogFile c e fs o).1 (rotateLogFile c e fs o).2).1
      (openLogFile c e (rotateLogFile c e fs o).1 (rotateLogFile c e fs o).2).2 ∧
    (c.rotate = true → (openLogFile c e (rotateLogFile c e fs o).1 (rotateLogFile c e fs o).2).2.last = day e.t) ∧
    (openLogFile c e (rotateLogFile c e fs o).1 (rotateLogFile c e fs o).2).2.isOpen = opens c e o := by
  have hew := he.le
  by_cases hrot : c.rotate = true ∧ o.last ≠ day e.t
  · obtain ⟨ds', g1, g2, g3⟩ := ready_moved h he hrot
    have hdl : deleteOld c (moveFile c e fs o.last) (day e.t) = moveFile c e fs o.last := by simp [deleteOld, hdel]
    have hop : opens c e o = e.openOk := by simp [opens, hrot.1, hrot.2]
    have hnr : c.rotate = false → ds' = [] := fun h => by rw [hrot.1] at h; cases h
    rw [hop]
    cases ho : e.openOk with
    | true =>
      have hr : rotateLogFile c e fs o = (append (moveFile c e fs o.last) c.name .opened e.w, ⟨true, day e.t⟩) := by
        simp only [rotateLogFile]
        rw [if_pos hrot, hdl, openLogFile_false rfl ho]
      rw [hr, openLogFile_true rfl]
      exact ⟨open_up g1 he hnr g2 fun _ => rfl, fun _ => rfl, rfl⟩
    | false =>
      have hr : rotateLogFile c e fs o = (moveFile c e fs o.last, ⟨false, day e.t⟩) := by
        simp only [rotateLogFile]
        rw [if_pos hrot, hdl, openLogFile_fails rfl ho]
      rw [hr, openLogFile_fails rfl ho]
      refine ⟨⟨ds', g1, hnr, ?_, fun _ => ⟨day_nonneg he.pos, g2, day_le hew, ?_⟩⟩, fun _ => rfl, rfl⟩
      · rcases g3 with g3 | ⟨_, f, g3, g4, g5, g6⟩
        · exact Or.inl ⟨g3, rfl⟩
        · exact Or.inr ⟨f, g3, g4, by omega, g6⟩
      · intro f hf hz
        have hf : moveFile c e fs o.last c.name = some f := hf
        rcases g3 with g3 | ⟨g, _⟩
        · rw [g3] at hf; cases hf
        · rw [hz] at g; cases g
  · have hr : rotateLogFile c e fs o = (fs, o) := by simp only [rotateLogFile]; rw [if_neg hrot]
    rw [hr]
    have hlast : c.rotate = true → o.last = day e.t := fun hr => Classical.byContradiction fun hne => hrot ⟨hr, hne⟩
    have hdue : (c.rotate && decide (o.last ≠ day e.t)) = false := by
      cases hro : c.rotate with
      | false => rfl
      | true => simp [hlast hro]
    obtain ⟨ds, h1, h2, hd, h3, h4⟩ := h
    cases ho : o.isOpen with
    | false =>
      have hop : opens c e o = e.openOk := by simp [opens, ho]
      rw [hop]
      cases hok : e.openOk with
      | true =>
        rw [openLogFile_false ho hok]
        obtain ⟨io, last⟩ := o
        exact ⟨open_up h1 he h2 hd hlast, hlast, rfl⟩
      | false =>
        rw [openLogFile_fails ho hok]
        exact ⟨⟨ds, h1, h2, h3.mono hew, h4.mono hew⟩, hlast, ho⟩
    | true =>
      have hop : opens c e o = true := by simp only [opens, ho, hdue]; rfl
      rw [openLogFile_true ho, hop]
      exact ⟨⟨ds, h1, h2, h3.mono hew, h4.mono hew⟩, hlast, ho⟩

theorem up_line {c : Cfg} {fs0 fs : Dir} {L : List S} {e : Env} {o : Out} (h : Up c fs0 L e.w fs o) (he : EnvOk c e)
    (hl : c.rotate = true → o.last = day e.t) (s : S) : Up c fs0 (L ++ [s]) e.w (append fs c.name (.line s) e.w) o := by
  obtain ⟨ds, h1, h2, h3, h4⟩ := h
  have hlt := Up.lt (fs0 := fs0) h2 h3 h4
  refine ⟨ds, by simpa [linesOf] using h1.append (.line s) e.w, h2, Or.inr ⟨_, append_name, ?_, Int.le_refl _, hlt⟩, ?_⟩
  · have := he.pos; have := he.le; show 0 ≤ e.w; omega
  · intro hr
    obtain ⟨g1, g2, g3, _⟩ := h4 hr
    refine ⟨g1, g2, g3, fun f hf hz => ?_⟩
    rw [append_name] at hf
    cases hf
    show o.last = day e.w
    rw [hl hr]; exact he.same hz

/-- The lines after dying there. -/
def withTorn (L : List S) (b : Bool) : Point → List S
  | .torn p => if b then L ++ [p] else L
  | _ => L

/-- Wherever the program dies. -/
theorem ready_die {c : Cfg} {fs0 fs : Dir} {L : List S} {e : Env} {o : Out} (hdel : c.delete = none)
    (h : Ready c fs0 L e fs o) (he : EnvOk c e) (pt : Point) :
    Down c fs0 (withTorn L (opens c e o) pt) e.w (dieIn c e fs o pt) := by
  have hwe := he.le
  have hsame := day_le he.le
  have hclear : Clear c fs0 L e.w fs := by
    obtain ⟨ds, h1, h2, hd, h3, h4⟩ := h
    refine ⟨ds, h1, h2, ?_⟩
    rcases h3 with ⟨h4, _⟩ | ⟨f, hf, hp, hle, hl⟩
    · exact Or.inl ⟨h4, fun d hd' => by have := hd d hd'; omega⟩
    · exact Or.inr ⟨f, hf, hp, by omega, hl⟩
  have hmoved : Clear c fs0 L e.w (if c.rotate = true ∧ o.last ≠ day e.t then moveFile c e fs o.last else fs) := by
    split
    · next hrot =>
      obtain ⟨ds', g1, g2, g3⟩ := ready_moved h he hrot
      refine ⟨ds', g1, (fun h => by rw [hrot.1] at h; cases h), ?_⟩
      rcases g3 with g3 | ⟨_, f, g3, g4, g5, g6⟩
      · exact Or.inl ⟨g3, fun d hd => by have := g2 d hd; omega⟩
      · exact Or.inr ⟨f, g3, g4, by omega, g6⟩
    · exact hclear
  have hdl : ∀ fs, deleteOld c fs (day e.t) = fs := fun fs => by simp [deleteOld, hdel]
  have hdeleted : (if c.rotate = true ∧ o.last ≠ day e.t then
      deleteOld c (if c.rotate = true ∧ o.last ≠ day e.t then moveFile c e fs o.last else fs) (day e.t) else fs) =
      (if c.rotate = true ∧ o.last ≠ day e.t then moveFile c e fs o.last else fs) := by
    split
    · next hrot => rw [hdl]
    · rfl
  have hup := ready_open hdel h he
  cases pt with
  | nothing => exact Or.inl hclear
  | zipping p =>
    simp only [dieIn]
    split
    · next hz =>
      obtain ⟨ds, h1, h2, hd, h3, h4⟩ := h
      obtain ⟨hl0, hl1, hl2, hl3⟩ := h4 hz.1.1
      have hlt : o.last < day e.t := by have := hz.1.2; omega
      have hmax : day e.t < 2932897 := by have := he.max; simp only [day]; omega
      rcases h3 with ⟨hn, _⟩ | ⟨f, hf, hp, hle, hl⟩
      · left
        rw [if_pos hn]
        refine ⟨ds ++ [o.last], files_empty h1 hl0 (by omega) hl1 _, (fun h => by rw [hz.1.1] at h; cases h), Or.inl ⟨?_, ?_⟩⟩
        · simp [Dir.set, Ne.symm (archiveName_ne (c := c) (d := o.last)), hn]
        · intro d hd
          simp only [List.mem_append, List.mem_singleton] at hd
          rcases hd with hd | hd
          · have := hl1 d hd; omega
          · omega
      · right
        have hl := hl3 f hf hz.2
        have hlt := hlt
        have hsm := hsame
        refine ⟨hz.1.1, hz.2, fs, f, _, hclear, hf, ?_, by rw [hl]⟩
        omega
    · exact Or.inl hclear
  | moved => exact Or.inl hmoved
  | deleting sub =>
    left
    have : dieIn c e fs o (.deleting sub) = (if c.rotate = true ∧ o.last ≠ day e.t then moveFile c e fs o.last else fs) := by
      funext x
      simp only [dieIn, hdeleted, ite_self]
    rw [this]; exact hmoved
  | created =>
    left
    simp only [dieIn, hdeleted]
    generalize (if c.rotate = true ∧ o.last ≠ day e.t then moveFile c e fs o.last else fs) = M at hmoved ⊢
    by_cases hn : e.openOk = true ∧ M c.name = none
    · rw [if_pos hn]
      obtain ⟨ds, h1, h2, h3⟩ := hmoved
      refine ⟨ds, files_create h1 hn.2 e.w, h2, Or.inr ⟨⟨[], e.w⟩, by simp [Dir.set], ?_, Int.le_refl _, ?_⟩⟩
      · have := he.pos; show 0 ≤ e.w; omega
      · rcases h3 with ⟨_, h3⟩ | ⟨f, hf, _⟩
        · exact h3
        · rw [hn.2] at hf; cases hf
    · rw [if_neg hn]; exact hmoved
  | opened => exact Or.inl hup.1.clear
  | torn p =>
    left
    simp only [dieIn, withTorn, hup.2.2]
    split
    · exact (up_line hup.1 he hup.2.1 p).clear
    · exact hup.1.clear

/-- An unfinished archive is written again. -/
theorem stray_move {c : Cfg} {fsV : Dir} {last : Int} {g : File} {e : Env} (hz : c.zip = true) (hm : e.moveOk = true) :
    moveFile c e (fsV.set (archiveName c last) (some g)) last = moveFile c e fsV last := by
  have hn : (fsV.set (archiveName c last) (some g)) c.name = fsV c.name := by
    simp [Dir.set, Ne.symm (archiveName_ne (c := c) (d := last))]
  simp only [moveFile, hz, hm, if_true, hn]
  funext x
  simp only [Dir.set]
  split
  · rfl
  · split <;> rfl

theorem stray_rotate {c : Cfg} {fsV : Dir} {o : Out} {g : File} {e : Env} (hz : c.zip = true) (hm : e.moveOk = true)
    (hrot : c.rotate = true ∧ o.last ≠ day e.t) :
    rotateLogFile c e (fsV.set (archiveName c o.last) (some g)) o = rotateLogFile c e fsV o := by
  simp only [rotateLogFile]
  rw [if_pos hrot, if_pos hrot, stray_move hz hm]

theorem stray_die {c : Cfg} {fsV : Dir} {o : Out} {g : File} {e : Env} (hz : c.zip = true) (hm : e.moveOk = true)
    (hrot : c.rotate = true ∧ o.last ≠ day e.t) (pt : Point) (hpt : pt ≠ .nothing) :
    dieIn c e (fsV.set (archiveName c o.last) (some g)) o pt = dieIn c e fsV o pt := by
  cases pt with
  | nothing => exact absurd rfl hpt
  | zipping p =>
    have hn : (fsV.set (archiveName c o.last) (some g)) c.name = fsV c.name := by
      simp [Dir.set, Ne.symm (archiveName_ne (c := c) (d := o.last))]
    have hd : (c.rotate = true ∧ o.last ≠ day e.t) ∧ c.zip = true := ⟨hrot, hz⟩
    simp only [dieIn, hn, if_pos hd]
    funext x
    simp only [Dir.set]
    split <;> rfl
  | moved => simp only [dieIn, if_pos hrot, stray_move hz hm]
  | deleting sub => simp only [dieIn, if_pos hrot, stray_move hz hm]
  | created => simp only [dieIn, if_pos hrot, stray_move hz hm]
  | opened => simp only [dieIn, stray_rotate hz hm hrot]
  | torn p => simp only [dieIn, stray_rotate hz hm hrot]

theorem create_eq {c : Cfg} {e : Env} {fs : Dir} : create c e fs =
    openLogFile c e (rotateLogFile c e fs (startOut c e fs)).1 (rotateLogFile c e fs (startOut c e fs)).2 := by
  unfold create startOut
  cases h : fs c.name with
  | some f => rfl
  | none =>
    have hn : ¬ (c.rotate = true ∧ (if c.rotate = true then day e.t else 0) ≠ day e.t) := by
      rintro ⟨h1, h2⟩; rw [if_pos h1] at h2; exact h2 rfl
    simp only [rotateLogFile]
    rw [if_neg hn]

theorem startOut_set {c : Cfg} {e : Env} {fs : Dir} {d : Int} {g : Option File} :
    startOut c e (fs.set (archiveName c d) g) = startOut c e fs := by
  have : (fs.set (archiveName c d) g) c.name = fs c.name := by simp [Dir.set, Ne.symm (archiveName_ne (c := c) (d := d))]
  simp only [startOut, this]

/-- The state of the program and its files. -/
def Good (c : Cfg) (fs0 : Dir) (L : List S) (now : Int) (s : Sys) : Prop :=
  match s.out with
  | some o => Up c fs0 L now s.fs o
  | none => Down c fs0 L now s.fs

theorem down_start {c : Cfg} {fs0 fs : Dir} {L : List S} {now : Int} {e : Env} (hdel : c.delete = none)
    (h : Down c fs0 L now fs) (he : EnvOk c e) (hle : now ≤ e.t) :
    Up c fs0 L e.w (create c e fs).1 (create c e fs).2 ∧ (c.rotate = true → (create c e fs).2.last = day e.t) ∧
      (create c e fs).2.isOpen = e.openOk := by
  have hclosed : ∀ fs, (startOut c e fs).isOpen = false := by
    intro fs; unfold startOut; split <;> rfl
  have hop : ∀ fs, opens c e (startOut c e fs) = e.openOk := by
    intro fs; simp [opens, hclosed fs]
  rcases h with h | ⟨hr, hz, fsV, f, g, h1, h2, h3, rfl⟩
  · rw [create_eq, ← hop fs]; exact ready_open hdel (h.ready hle he.pos) he
  · have hd : startOut c e fsV = ⟨false, day f.mtime⟩ := by simp [startOut, h2]
    have hrot : c.rotate = true ∧ (startOut c e fsV).last ≠ day e.t := by
      rw [hd]; exact ⟨hr, by have := day_le hle; simp only; omega⟩
    have hs := stray_rotate (fsV := fsV) (g := g) hz (he.mv hz) hrot
    have := ready_open hdel (h1.ready hle he.pos) he
    rw [hop fsV] at this
    rw [create_eq, startOut_set]
    rw [hd] at hs this ⊢
    rw [hs]; exact this

theorem down_die {c : Cfg} {fs0 fs : Dir} {L : List S} {now : Int} {e : Env} (hdel : c.delete = none)
    (h : Down c fs0 L now fs) (he : EnvOk c e) (hle : now ≤ e.t) (pt : Point) (hpt : ∀ p, pt ≠ .torn p) :
    Down c fs0 L e.w (dieIn c e fs (startOut c e fs) pt) := by
  have hL : ∀ b, withTorn L b pt = L := by
    intro b
    cases pt <;> first | rfl | exact absurd rfl (hpt _)
  by_cases hp : pt = .nothing
  · subst hp; exact h.mono (by have := he.le; omega)
  rcases h with h | ⟨hr, hz, fsV, f, g, h1, h2, h3, rfl⟩
  · have := ready_die hdel (h.ready hle he.pos) he pt
    rwa [hL] at this
  · have hd : startOut c e fsV = ⟨false, day f.mtime⟩ := by simp [startOut, h2]
    have hrot : c.rotate = true ∧ (startOut c e fsV).last ≠ day e.t := by
      rw [hd]; exact ⟨hr, by have := day_le hle; simp only; omega⟩
    have hs := stray_die (fsV := fsV) (g := g) hz (he.mv hz) hrot pt hp
    have := ready_die hdel (h1.ready hle he.pos) he pt
    rw [hL] at this
    rw [startOut_set]
    rw [hd] at hs this ⊢
    rw [hs]; exact this

theorem nowC_nonneg {c : Cfg} : ∀ (h : List COp), ClockC c h → 0 ≤ nowC h
  | [], _ => Int.le_refl _
  | op :: h, hc => by
    have := nowC_nonneg h hc.1
    unfold nowC
    cases he : op.env with
    | none => simpa using this
    | some e => have := hc.2 e he; simp only; omega

theorem isOpenC_push {c : Cfg} {h : List COp} {o : Out} (hr : runningC h = true) (h1 : o.isOpen = isOpenC c h)
    (h2 : c.rotate = true → o.last = lastC h) (e : Env) (s : S) : isOpenC c (.op (.push e s) :: h) = opens c e o := by
  simp only [isOpenC, hr, Bool.true_and, opens, h1]
  cases hro : c.rotate with
  | false => simp
  | true => rw [h2 hro]; simp only [ne_eq, eq_comm (a := day e.t)]

theorem good_all {c : Cfg} {fs0 : Dir} (hdel : c.delete = none) (h0 : Clean c fs0) :
    ∀ h : List COp, ClockC c h → AlwaysC (fun e => c.zip = true → e.moveOk = true) h → TornOk h →
      Good c fs0 (recorded c h) (nowC h) (runC c fs0 h) ∧ (runningC h = (runC c fs0 h).out.isSome) ∧
      ∀ o, (runC c fs0 h).out = some o → o.isOpen = isOpenC c h ∧ (c.rotate = true → o.last = lastC h)
  | [], _, _, _ => by
    refine ⟨Or.inl ⟨[], ⟨List.Pairwise.nil, by simp, ?_, ?_, fun _ _ _ => rfl⟩, fun _ => rfl, Or.inl ⟨h0.1, by simp⟩⟩, rfl,
      fun o ho => by cases ho⟩
    · intro d _ _; simp [runC, h0.2 d]
    · simp [linesIn, runC, h0.1, recorded]
  | op :: h, hc, ha, ht => by
    obtain ⟨ih, ihr, iho⟩ := good_all hdel h0 h hc.1 (fun o ho => ha o (List.mem_cons_of_mem _ ho))
      ⟨fun e s p hm => ht.1 e s p (List.mem_cons_of_mem _ hm), fun e p hm => ht.2 e p (List.mem_cons_of_mem _ hm)⟩
    have hnn := nowC_nonneg h hc.1
    have henv : ∀ e, op.env = some e → EnvOk c e ∧ nowC h ≤ e.t := by
      intro e he
      obtain ⟨h1, h2, h3, h4⟩ := hc.2 e he
      have := ha op (List.mem_cons_self ..) e he
      exact ⟨⟨this, by omega, h2, h3, fun hz => (sameDay_iff _ _).1 (h4 hz)⟩, h1⟩
    simp only [runC]
    generalize hs : runC c fs0 h = s at *
    obtain ⟨fs, out⟩ := s
    have gone : ∀ {o : Out}, (none : Option Out) = some o → o.isOpen = isOpenC c (op :: h) ∧ (c.rotate = true → o.last = lastC (op :: h)) :=
      fun h => by cases h
    cases op with
    | op o =>
      cases o with
      | start e =>
        obtain ⟨he, hle⟩ := henv e rfl
        have hew := he.le
        cases out with
        | some o =>
          have hr : runningC h = true := ihr
          refine ⟨Up.mono (h := ih) (by show nowC h ≤ e.w; omega), rfl, fun o' ho' => ?_⟩
          simp only [isOpenC, lastC, hr, if_true]
          exact iho o' ho'
        | none =>
          have hr : runningC h = false := ihr
          obtain ⟨g1, g2, g3⟩ := down_start hdel ih he hle
          refine ⟨g1, rfl, fun o' ho' => ?_⟩
          simp only [stepC, step, Option.some.injEq] at ho'
          subst ho'
          simp only [isOpenC, lastC, hr, Bool.false_eq_true, if_false]
          exact ⟨g3, g2⟩
      | push e l =>
        obtain ⟨he, hle⟩ := henv e rfl
        have hew := he.le
        cases out with
        | some o =>
          have hr : runningC h = true := ihr
          obtain ⟨i1, i2⟩ := iho o rfl
          have hopen := isOpenC_push hr i1 i2 e l
          obtain ⟨h1, h2, h3⟩ := ready_open hdel (Up.ready ih hle) he
          have hp : pushImpl c e fs o l = if opens c e o = true then
              (append (openLogFile c e (rotateLogFile c e fs o).1 (rotateLogFile c e fs o).2).1 c.name
                (.line l) e.w, (openLogFile c e (rotateLogFile c e fs o).1 (rotateLogFile c e fs o).2).2)
              else openLogFile c e (rotateLogFile c e fs o).1 (rotateLogFile c e fs o).2 := by
            simp only [pushImpl, h3]
          have hp2 : (pushImpl c e fs o l).2 = (openLogFile c e (rotateLogFile c e fs o).1 (rotateLogFile c e fs o).2).2 := by
            rw [hp]; split <;> rfl
          refine ⟨?_, ?_, ?_⟩
          · show Up c fs0 (recorded c (.op (.push e l) :: h)) e.w (pushImpl c e fs o l).1 (pushImpl c e fs o l).2
            simp only [recorded, hopen]
            rw [hp]
            split
            · exact up_line h1 he h2 l
            · exact h1
          · simp only [runningC, hr]; rfl
          · intro o' ho'
            simp only [stepC, step, Option.some.injEq] at ho'
            subst ho'
            rw [hp2, h3, hopen]
            exact ⟨rfl, h2⟩
        | none =>
          have hr : runningC h = false := ihr
          refine ⟨?_, ?_, fun _ ho' => gone ho'⟩
          · show Down c fs0 (recorded c (.op (.push e l) :: h)) e.w fs
            simp only [recorded, isOpenC, hr, Bool.false_and, Bool.false_eq_true, if_false]
            exact Down.mono ih (by omega)
          · simp only [runningC, hr]; rfl
      | stop =>
        cases out with
        | some o => exact ⟨Or.inl (Up.clear ih), rfl, fun _ ho' => gone ho'⟩
        | none => exact ⟨ih, rfl, fun _ ho' => gone ho'⟩
    | die =>
      cases out with
      | some o => exact ⟨Or.inl (Up.clear ih), rfl, fun _ ho' => gone ho'⟩
      | none => exact ⟨ih, rfl, fun _ ho' => gone ho'⟩
    | dieStart e pt =>
      obtain ⟨he, hle⟩ := henv e rfl
      have hew := he.le
      cases out with
      | some o => exact ⟨Or.inl ((Up.clear ih).mono (by show nowC h ≤ e.w; omega)), rfl, fun _ ho' => gone ho'⟩
      | none =>
        exact ⟨down_die hdel ih he hle pt (by rintro p rfl; exact ht.2 e p (List.mem_cons_self ..)), rfl, fun _ ho' => gone ho'⟩
    | diePush e l pt =>
      obtain ⟨he, hle⟩ := henv e rfl
      have hew := he.le
      cases out with
      | some o =>
        have hr : runningC h = true := ihr
        obtain ⟨i1, i2⟩ := iho o rfl
        refine ⟨?_, rfl, fun _ ho' => gone ho'⟩
        have := ready_die hdel (Up.ready ih hle) he pt
        show Down c fs0 (recorded c (.diePush e l pt :: h)) e.w (dieIn c e fs o pt)
        have hL : recorded c (.diePush e l pt :: h) = withTorn (recorded c h) (opens c e o) pt := by
          cases pt <;> simp only [recorded, withTorn, isOpenC_push hr i1 i2 e l]
        rw [hL]; exact this
      | none =>
        have hr : runningC h = false := ihr
        refine ⟨?_, rfl, fun _ ho' => gone ho'⟩
        show Down c fs0 (recorded c (.diePush e l pt :: h)) e.w fs
        have : recorded c (.diePush e l pt :: h) = recorded c h := by cases pt <;> simp [recorded, isOpenC, hr]
        rw [this]
        exact Down.mono ih (by omega)

theorem nowC_lt {c : Cfg} : ∀ (h : List COp), ClockC c h → nowC h < 2932897 * 86400
  | [], _ => by simp [nowC]
  | op :: h, hc => by
    have := nowC_lt h hc.1
    unfold nowC
    cases he : op.env with
    | none => simpa using this
    | some e => exact (hc.2 e he).2.2.1

theorem recorded_cons (c : Cfg) (op : COp) (h : List COp) : recorded c (op :: h) = recorded c h ∨
    (∃ e s, op = .op (.push e s) ∧ recorded c (op :: h) = recorded c h ++ [s]) ∨
    ∃ e s p, op = .diePush e s (.torn p) ∧ recorded c (op :: h) = recorded c h ++ [p] := by
  rcases op with (e | ⟨e, s⟩ | _) | ⟨e, pt⟩ | ⟨e, s, pt⟩ | _
  · exact Or.inl rfl
  · simp only [recorded]
    split
    · exact Or.inr (Or.inl ⟨e, s, rfl, rfl⟩)
    · exact Or.inl rfl
  · exact Or.inl rfl
  · exact Or.inl rfl
  · cases pt with
    | torn p =>
      simp only [recorded]
      split
      · exact Or.inr (Or.inr ⟨e, s, p, rfl, rfl⟩)
      · exact Or.inl rfl
    | _ => exact Or.inl rfl
  · exact Or.inl rfl

theorem isOpenC_of_openOk (c : Cfg) : ∀ h : List COp, AlwaysC (fun e => e.openOk = true) h → isOpenC c h = runningC h
  | [], _ => rfl
  | op :: h, ha => by
    have ih := isOpenC_of_openOk c h fun o ho => ha o (List.mem_cons_of_mem _ ho)
    rcases op with (e | ⟨e, s⟩ | _) | ⟨e, pt⟩ | ⟨e, s, pt⟩ | _
    · have := ha _ List.mem_cons_self e rfl
      simp only [isOpenC, runningC]
      split
      · next hr => rw [ih, hr]
      · exact this
    · have := ha _ List.mem_cons_self e rfl
      simp only [isOpenC, runningC, this, ite_self, Bool.and_true]
    all_goals rfl

end Verif.Logging.File.Crash
