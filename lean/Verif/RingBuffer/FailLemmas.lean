import Verif.RingBuffer.FailSpec
import Verif.RingBuffer.Lemmas

/-! # Lemmas for C121 -/
namespace Verif.RingBuffer.Fail

variable {α : Type u}

theorem contents_junk (b : RB α) (h : Wf b) (j : α) :
    Wf ({ b with buf := b.buf.set b.w j } : RB α) ∧ contents ({ b with buf := b.buf.set b.w j } : RB α) = contents b := by
  have hwf : Wf ({ b with buf := b.buf.set b.w j } : RB α) := ⟨by simpa using h.1, by simpa using h.2⟩
  have hsz : size ({ b with buf := b.buf.set b.w j } : RB α) = size b := by simp [size]
  refine ⟨hwf, contents_ext hwf (by rw [contents_length b h, hsz]) ?_⟩
  intro i hi
  rw [hsz] at hi
  rw [contents_getElem? b h, if_pos hi]
  have hp : pos ({ b with buf := b.buf.set b.w j } : RB α) i = pos b i := by simp [pos]
  rw [hp]
  have hne : b.w ≠ pos b i := by
    obtain ⟨hw, hr⟩ := h
    simp only [size] at hi
    simp only [pos]
    split at hi <;> split <;> omega
  simp only []
  rw [List.getElem?_set_ne hne]

theorem writeFails_sim (b : RB α) (s : Queue α) (h : Sim b s) (v : α) (ow : Bool) (j : α) :
    (writeFails b ow j).1 = (qStep s (.write v ow j)).1 ∧ Sim (writeFails b ow j).2 (qStep s (.write v ow j)).2 := by
  obtain ⟨hwf, hc, hcap⟩ := h
  have hlen : s.q.length = size b := by rw [← hc, contents_length b hwf]
  have hle : size b ≤ capacity b := by have := size_lt b hwf; simp only [capacity]; omega
  by_cases hroom : size b < capacity b
  · have hnw := (store_room b hwf hroom v).2.2
    have hj := contents_junk b hwf j
    simp only [writeFails, qStep, hnw, if_false, hwf.1, if_true, hlen, ← hcap, hroom]
    exact ⟨trivial, hj.1, hj.2.trans hc, by simp [capacity, ← hcap]⟩
  · have hnw := nw_full b hwf hroom
    cases ow with
    | false =>
      simp only [writeFails, qStep, hnw, if_true, hlen, ← hcap, hroom, if_false, Bool.false_eq_true, false_and]
      exact ⟨trivial, hwf, hc, hcap⟩
    | true =>
      by_cases h0 : 0 < capacity b
      · have hne : contents b ≠ [] := by
          intro he
          have : size b = 0 := by rw [← contents_length b hwf, he]; rfl
          omega
        obtain ⟨b1, hb1, hwf1, hc1, hbuf, hw1⟩ := skip_ok b hwf hne
        have hj := contents_junk b1 hwf1 j
        simp only [writeFails, qStep, hnw, if_true, hlen, ← hcap, hroom, if_false, true_and, h0, hb1, hwf1.1]
        exact ⟨hj.1, by rw [hj.2, hc1, hc], by simp [capacity, hbuf, ← hcap]⟩
      · have he : contents b = [] := by
          apply List.eq_nil_of_length_eq_zero
          rw [contents_length b hwf]; omega
        simp only [writeFails, qStep, hnw, if_true, hlen, ← hcap, hroom, if_false, true_and, h0, skip_throw b hwf he]
        exact ⟨hwf, hc, hcap⟩

theorem readFails_sim (b : RB α) (s : Queue α) (h : Sim b s) :
    (readFails b).1 = (qStep s .read).1 ∧ Sim (readFails b).2 (qStep s .read).2 := by
  obtain ⟨hwf, hc, hcap⟩ := h
  have hr := read_eq b hwf
  cases hq : contents b with
  | nil =>
    rw [hq] at hr hc
    have hwr : b.w = b.r := by
      have : size b = 0 := by rw [← contents_length b hwf, hq]; rfl
      have h1 := hwf.1
      have h2 := hwf.2
      simp only [size] at this; split at this <;> omega
    simp only [readFails, hwr, if_true, qStep, ← hc]
    exact ⟨trivial, hwf, by rw [hq]; exact hc, hcap⟩
  | cons x xs =>
    rw [hq] at hr hc
    obtain ⟨b', h1, h2, h3, h4, h5⟩ := hr
    have hwr : b.w ≠ b.r := by
      intro he
      rw [read, if_pos he] at h1
      cases h1
    have hb : ({ b with r := if b.r + 1 ≥ b.buf.length then 0 else b.r + 1 } : RB α) = b' := by
      rw [skip, if_neg hwr] at h2
      simpa using h2
    have hrf : readFails b = (.copyFailed, b') := by
      rw [← hb]
      simp only [readFails, hwr, if_false, hwf.2, if_true]
    rw [hrf]
    simp only [qStep, ← hc]
    exact ⟨trivial, h3, h4, by simp [capacity, h5, ← hcap]⟩

theorem stepF_sim [Inhabited α] (b : RB α) (s : Queue α) (h : Sim b s) (op : FOp α) (ho : NoLoopFailure op) :
    (stepF b op).1 = (qStep s op).1 ∧ Sim (stepF b op).2 (qStep s op).2 := by
  cases op with
  | good op => have := sim_step b s h op; exact ⟨congrArg FObs.obs this.1, this.2⟩
  | write v ow j => exact writeFails_sim b s h v ow j
  | read => exact readFails_sim b s h
  | setCapacityEarly m => exact ⟨rfl, h⟩
  | setCapacityAt m i j => exact absurd ho (by simp [NoLoopFailure])

theorem runF_sim [Inhabited α] (ops : List (FOp α)) (ho : ∀ op ∈ ops, NoLoopFailure op) (b : RB α) (s : Queue α) (h : Sim b s) :
    (runF b ops).1 = (qRun s ops).1 ∧ Sim (runF b ops).2 (qRun s ops).2 := by
  induction ops generalizing b s with
  | nil => exact ⟨rfl, h⟩
  | cons op ops ih =>
    have h1 := stepF_sim b s h op (ho op (by simp))
    have h2 := ih (fun x hx => ho x (by simp [hx])) _ _ h1.2
    simp only [runF, qRun]
    exact ⟨by rw [h1.1, h2.1], h2.2⟩

theorem setCapacityFails_eq [Inhabited α] (b : RB α) (h : Wf b) (m i : Nat) (j : α) (hi : i < min m (size b)) :
    ∃ buf, buf.length = m + 1 ∧ setCapacityFails b m i j = (.copyFailed, { b with buf := buf }) := by
  have hsz := size_lt b h
  obtain ⟨hw, hr⟩ := h
  have hn : i < (if m < size b then m else size b) := by split <;> omega
  obtain ⟨buf, h1, h2, _⟩ := copyLoop_spec b.buf i 0
    (let o := b.r + (size b - if m < size b then m else size b); if o ≥ b.buf.length then o - b.buf.length else o)
    (vecResize b.buf (m + 1)) (by simp only []; split <;> split <;> omega) (by rw [vecResize_length]; omega)
  refine ⟨buf.set i j, by rw [List.length_set, h2, vecResize_length], ?_⟩
  simp only [] at h1
  simp only [setCapacityFails, if_pos hn, h1]

theorem run_no_ub [Inhabited α] (b : RB α) (h : Wf b) (ops : List (Op α)) : Obs.ub ∉ (run b ops).1 := by
  rw [(sim_run ops b ⟨capacity b, contents b⟩ ⟨h, rfl, rfl⟩).1]
  generalize (⟨capacity b, contents b⟩ : Queue α) = s
  induction ops generalizing s with
  | nil => intro ho; simp [Queue.run] at ho
  | cons op ops ih =>
    intro ho
    simp only [Queue.run, List.mem_cons] at ho
    rcases ho with ho | ho
    · cases op <;> simp only [Queue.step] at ho <;> (try split at ho) <;> (try split at ho) <;> cases ho
    · exact ih _ ho

end Verif.RingBuffer.Fail
