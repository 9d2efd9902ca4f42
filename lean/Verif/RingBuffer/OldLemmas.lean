import Verif.RingBuffer.OldModel
import Verif.RingBuffer.Bulk

namespace Verif.RingBuffer
variable {α : Type u}

theorem old_size_eq (b : RB α) : Old.size b = size b := rfl

theorem old_skip_eq (b : RB α) : Old.skip b = skip b := by
  simp only [Old.skip, skip]
  split
  · rfl
  · split <;> rfl

theorem old_write_eq (b : RB α) (v : α) (ow : Bool) : Old.write b v ow = write b v ow := by
  simp only [Old.write, write, old_skip_eq]

theorem old_at_eq (b : RB α) (i : Nat) : Old.at' b i = at' b i := by
  simp only [Old.at', Old.atPos, at', old_size_eq]
  by_cases h : i < size b
  · simp only [h, if_true]
  · simp only [h, if_false]

theorem old_atStore_eq (b : RB α) (i : Nat) (v : α) : Old.atStore b i v = atStore b i v := by
  simp only [Old.atStore, Old.atPos, atStore, old_size_eq]
  by_cases h : i < size b
  · simp only [h, if_true]
  · simp only [h, if_false]

theorem old_read_eq (b : RB α) : Old.read b = read b := by
  simp only [Old.read, read, bind, Outcome.bind]
  split
  · rfl
  · by_cases h : b.r + 1 ≥ b.buf.length
    · simp only [if_pos h]
    · simp only [if_neg h]

theorem old_copyLoop_eq (old : List α) : ∀ (k i o : Nat) (buf : List α),
    Old.copyLoop old k i o buf = copyLoop old k i o buf
  | 0, _, _, _ => rfl
  | k + 1, i, o, buf => by
    simp only [Old.copyLoop, copyLoop, old_copyLoop_eq old k]

theorem old_setCapacity_eq [Inhabited α] (b : RB α) (m : Nat) :
    Old.setCapacity b m = setCapacity b m := by
  simp only [Old.setCapacity, setCapacity, old_copyLoop_eq, old_size_eq]; rfl

theorem old_step_eq [Inhabited α] (b : RB α) (c : Call α) : Old.step b c = newStep b c := by
  cases c <;> simp only [Old.step, newStep, step, old_write_eq, old_read_eq, old_skip_eq,
    old_setCapacity_eq, old_at_eq, old_atStore_eq] <;> rfl

theorem atStore_eq (b : RB α) (h : Wf b) (i : Nat) (v : α) (hi : i < size b) :
    ∃ b', atStore b i v = .ok b' ∧ Wf b' ∧ contents b' = (contents b).set i v ∧
      capacity b' = capacity b := by
  have hl := size_lt b h
  have hp : pos b i < b.buf.length := pos_lt b h (by omega)
  refine ⟨{ b with buf := b.buf.set (pos b i) v }, ?_, ?_, ?_, ?_⟩
  · simp only [atStore, if_pos hi, bind, Outcome.bind]
    have e : (if i + b.r ≥ b.buf.length then i + b.r - b.buf.length else i + b.r) = pos b i := by
      simp only [pos]
      split <;> split <;> omega
    rw [e]
    simp only [Outcome.vecSet, if_pos hp]
  · exact ⟨by simpa using h.1, by simpa using h.2⟩
  · have hw : Wf { b with buf := b.buf.set (pos b i) v } := ⟨by simpa using h.1, by simpa using h.2⟩
    apply contents_ext hw
    · rw [List.length_set, contents_length b h]; simp [size]
    · intro k hk
      have hk' : k < size b := by simpa [size] using hk
      have e : pos { b with buf := b.buf.set (pos b i) v } k = pos b k := by simp [pos]
      rw [e, List.getElem?_set, contents_length b h, List.getElem?_set]
      by_cases hik : i = k
      · subst hik
        simp [hi, hp]
      · have : pos b i ≠ pos b k := fun hh => hik (pos_inj b h (by omega) (by omega) hh)
        rw [if_neg hik, if_neg this, contents_getElem? b h, if_pos hk']
  · simp [capacity]

theorem sim_call [Inhabited α] (b : RB α) (s : Queue α) (h : Sim b s) (c : Call α) :
    (newStep b c).1 = (s.call c).1 ∧ Sim (newStep b c).2 (s.call c).2 := by
  cases c with
  | atStore i v =>
    obtain ⟨hwf, hc, hcap⟩ := h
    have hlen : s.q.length = size b := by rw [← hc, contents_length b hwf]
    by_cases hi : i < size b
    · obtain ⟨b', e, w', c', k'⟩ := atStore_eq b hwf i v hi
      simp only [newStep, Queue.call, e, settle, hlen, if_pos hi]
      exact ⟨trivial, w', by rw [c', hc], by rw [k', hcap]⟩
    · simp only [newStep, Queue.call, hlen, if_neg hi, atStore, settle]
      exact ⟨trivial, hwf, hc, hcap⟩
  | write v ow => exact sim_step b s h (.write v ow)
  | read => exact sim_step b s h .read
  | skip => exact sim_step b s h .skip
  | clear => exact sim_step b s h .clear
  | setCapacity m => exact sim_step b s h (.setCapacity m)
  | «at» i => exact sim_step b s h (.at i)
  | size => exact sim_step b s h .size
  | capacity => exact sim_step b s h .capacity

theorem sim_upd {W : Nat → RB α} {Q : Nat → Queue α} (h : ∀ i, Sim (W i) (Q i)) (i : Nat)
    {b : RB α} {s : Queue α} (hb : Sim b s) : ∀ k, Sim (upd W i b k) (upd Q i s k) := by
  intro k
  simp only [upd]
  split
  · exact hb
  · exact h k

theorem sim_mk [Inhabited α] (n : Nat) : Sim (mk n : RB α) ⟨n, []⟩ :=
  ⟨wf_mk n, contents_mk n, by simp [capacity, mk]⟩

theorem newRun_eq [Inhabited α] (p : List (Stmt α)) : ∀ (W : Nat → RB α) (Q : Nat → Queue α),
    (∀ i, Sim (W i) (Q i)) → newRun W p = Queue.runAll Q p := by
  induction p with
  | nil => intros; rfl
  | cons st p ih =>
    intro W Q h
    cases st with
    | create i c => simp only [newRun, Queue.runAll]; rw [ih _ _ (sim_upd h i (sim_mk c))]
    | copy i j => simp only [newRun, Queue.runAll]; rw [ih _ _ (sim_upd h i (show Sim (copyOf (W j)) (Q j) from h j))]
    | assign i j => simp only [newRun, Queue.runAll]; rw [ih _ _ (sim_upd h i (show Sim (assign (W i) (W j)) (Q j) from h j))]
    | call i c =>
      have := sim_call (W i) (Q i) (h i) c
      simp only [newRun, Queue.runAll]
      rw [this.1, ih _ _ (sim_upd h i this.2)]

theorem oldRun_eq [Inhabited α] (p : List (Stmt α)) : ∀ (W : Nat → RB α),
    Old.run W p = newRun W p := by
  induction p with
  | nil => intros; rfl
  | cons st p ih =>
    intro W
    cases st with
    | create i c => simp only [Old.run, newRun, ih]; rfl
    | copy i j => simp only [Old.run, newRun, ih]; rfl
    | assign i j => simp only [Old.run, newRun, ih]; rfl
    | call i c => simp only [Old.run, newRun, ih, old_step_eq]

end Verif.RingBuffer
