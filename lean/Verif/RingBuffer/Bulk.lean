import Verif.RingBuffer.Lemmas

/-! Auxiliary lemmas for bulk access and iterators. -/
namespace Verif.RingBuffer

variable {α : Type u}

theorem slices_eq (b : RB α) (h : Wf b) :
    slice b (arrayOne b) ++ slice b (arrayTwo b) = contents b := by
  obtain ⟨hw, hr⟩ := h
  unfold slice arrayOne arrayTwo contents
  by_cases hc : b.r ≤ b.w
  · simp [hc]
  · simp only [ge_iff_le, hc, if_false]
    congr 1
    rw [List.take_of_length_le]; simp

/-- The free slots in the order the ranges list them. -/
def freeSlots (b : RB α) : List Nat := slots (emptyArrayOne b) ++ slots (emptyArrayTwo b)

/-- Advance the write index by one. -/
def bump (b : RB α) : Nat := if b.w + 1 ≥ b.buf.length then 0 else b.w + 1

theorem freeSlots_cons (b : RB α) (h : Wf b) (hroom : size b < capacity b) (v : α) :
    freeSlots b = b.w :: freeSlots { b with buf := b.buf.set b.w v, w := bump b } := by
  obtain ⟨hw, hr⟩ := h
  simp only [size, capacity] at hroom
  simp only [freeSlots, slots, emptyArrayOne, emptyArrayTwo, bump, List.length_set]
  by_cases hc : b.r ≤ b.w
  · simp only [ge_iff_le, hc, if_true] at hroom ⊢
    by_cases h0 : b.r = 0
    · simp only [h0]
      have e1 : ¬ b.buf.length ≤ b.w + 1 := by omega
      obtain ⟨m, hm⟩ : ∃ m, b.buf.length - b.w - 1 = m + 1 := ⟨b.buf.length - b.w - 2, by omega⟩
      have hm' : b.buf.length - (b.w + 1) - 1 = m := by omega
      simp [e1, hm, hm', List.range'_succ]
    · by_cases e1 : b.buf.length ≤ b.w + 1
      · have e2 : b.buf.length - b.w = 1 := by omega
        have e3 : ¬ b.r ≤ 0 := by omega
        have e4 : 0 < b.r := by omega
        simp [h0, e1, e2, e4]
      · obtain ⟨m, hm⟩ : ∃ m, b.buf.length - b.w = m + 1 := ⟨b.buf.length - b.w - 1, by omega⟩
        have hm' : b.buf.length - (b.w + 1) = m := by omega
        have e2 : b.r ≤ b.w + 1 := by omega
        simp [h0, e1, e2, hm, hm', List.range'_succ]
  · simp only [ge_iff_le, hc, if_false] at hroom ⊢
    have e1 : ¬ b.buf.length ≤ b.w + 1 := by omega
    have e2 : ¬ b.r ≤ b.w + 1 := by omega
    obtain ⟨m, hm⟩ : ∃ m, b.r - b.w - 1 = m + 1 := ⟨b.r - b.w - 2, by omega⟩
    have hm' : b.r - (b.w + 1) - 1 = m := by omega
    simp [e1, e2, hm, hm', List.range'_succ]

theorem size_bump (b : RB α) (h : Wf b) (hroom : size b < capacity b) (v : α) :
    size ({ b with buf := b.buf.set b.w v, w := bump b } : RB α) = size b + 1 := by
  have hst := store_room b h hroom v
  have := congrArg List.length hst.2.1
  rw [contents_length _ hst.1] at this
  simp only [List.length_append, contents_length b h, List.length_cons, List.length_nil] at this
  exact this

theorem freeSlots_length (b : RB α) (h : Wf b) : (freeSlots b).length = reserve b := by
  obtain ⟨hw, hr⟩ := h
  simp only [freeSlots, slots, List.length_append, List.length_range', emptyArrayOne, emptyArrayTwo,
    reserve, capacity, size]
  split <;> (try split) <;> (try split) <;> simp only [] <;> omega

theorem pokes_w (b : RB α) (ps : List Nat) : ∀ (vs : List α) (b : RB α),
    (pokes b ps vs).w = b.w ∧ (pokes b ps vs).r = b.r ∧ (pokes b ps vs).buf.length = b.buf.length := by
  induction ps with
  | nil => intro vs b; cases vs <;> simp [pokes]
  | cons p ps ih => intro vs b; cases vs <;> simp [pokes, ih]

theorem pokes_buf (ps : List Nat) : ∀ (vs : List α) (b c : RB α), b.buf = c.buf →
    (pokes b ps vs).buf = (pokes c ps vs).buf := by
  induction ps with
  | nil => intro vs b c h; cases vs <;> simp [pokes, h]
  | cons p ps ih =>
    intro vs b c h
    cases vs with
    | nil => simp [pokes, h]
    | cons v vs => simp only [pokes]; exact ih vs _ _ (by simp [h])

theorem writes_eq (vs : List α) : ∀ (b : RB α), Wf b → vs.length ≤ reserve b →
    writes b vs = .ok (fakeWrite (pokes b (freeSlots b) vs) vs.length) := by
  induction vs with
  | nil =>
    intro b h _
    cases hf : freeSlots b <;>
    · simp only [writes, pokes, fakeWrite, List.length_nil, Nat.not_lt_zero, if_false, Nat.add_zero,
        Nat.mod_eq_of_lt h.1, gt_iff_lt]
  | cons v vs ih =>
    intro b h hl
    simp only [List.length_cons] at hl
    have hroom : size b < capacity b := by simp only [reserve] at hl; omega
    have hst := store_room b h hroom v
    simp only [] at hst
    have hsz := size_bump b h hroom v
    have hw : write b v false = .ok { b with buf := b.buf.set b.w v, w := bump b } := by
      simp only [write, hst.2.2, if_false]
      simp only [bind, Outcome.bind, Outcome.vecSet, h.1, if_true]
      rfl
    have hcap : capacity ({ b with buf := b.buf.set b.w v, w := bump b } : RB α) = capacity b := by
      simp [capacity]
    have hres : vs.length ≤ reserve ({ b with buf := b.buf.set b.w v, w := bump b } : RB α) := by
      simp only [reserve, hcap, hsz] at hl ⊢; omega
    have := ih { b with buf := b.buf.set b.w v, w := bump b } hst.1 hres
    simp only [writes, hw, bind, Outcome.bind]
    rw [this, freeSlots_cons b h hroom v]
    simp only [pokes]
    have hb := pokes_buf (freeSlots ({ b with buf := b.buf.set b.w v, w := bump b } : RB α)) vs
      { b with buf := b.buf.set b.w v, w := bump b } { b with buf := b.buf.set b.w v } rfl
    generalize freeSlots ({ b with buf := b.buf.set b.w v, w := bump b } : RB α) = ps at hb ⊢
    have h1 := pokes_w b ps vs { b with buf := b.buf.set b.w v, w := bump b }
    have h2 := pokes_w b ps vs { b with buf := b.buf.set b.w v }
    simp only [List.length_set] at h1 h2
    have r1 : reserve (pokes { b with buf := b.buf.set b.w v, w := bump b } ps vs)
        = reserve ({ b with buf := b.buf.set b.w v, w := bump b } : RB α) := by
      simp [reserve, capacity, size, h1]
    have r2 : reserve (pokes { b with buf := b.buf.set b.w v } ps vs) = reserve b := by
      simp [reserve, capacity, size, h2]
    have g1 : ¬ vs.length > reserve ({ b with buf := b.buf.set b.w v, w := bump b } : RB α) := by omega
    have g2 : ¬ (vs.length + 1) > reserve b := by omega
    have hm : (bump b + vs.length) % b.buf.length = (b.w + (vs.length + 1)) % b.buf.length := by
      have : vs.length + 1 < b.buf.length := by
        simp only [reserve, capacity] at hl; omega
      have := h.1
      rw [mod_two (by simp only [bump]; split <;> omega), mod_two (by omega)]
      simp only [bump]
      split <;> split <;> split <;> omega
    simp only [fakeWrite, List.length_cons, r1, r2, g1, g2, if_false, h1, h2, hb]
    rw [hm]

theorem skipN_iter (b : RB α) (h : Wf b) (k : Nat) :
    contents (skipN b k) = (contents b).drop k := (skipN_eq b h k).2.1

/-- The iterator at logical index `i`. -/
theorem begin_add (b : RB α) (h : Wf b) (i : Nat) (hi : i ≤ size b) :
    (begin' b).add i = { begin' b with current := (pos b i : Int) } := by
  have hs := size_lt b h
  obtain ⟨hw, hr⟩ := h
  simp only [begin', Iter.add, pos, Iter.mk.injEq, and_true]
  by_cases hc : b.r + i < b.buf.length
  · have h1 : ¬ ((b.r : Int) + i ≥ b.buf.length) := by omega
    have h2 : ¬ (0 > (b.r : Int) + i) := by omega
    simp only [h1, h2, hc, if_true, if_false]; omega
  · have h1 : ((b.r : Int) + i ≥ b.buf.length) := by omega
    have h2 : ¬ (0 > (b.r : Int) + i - b.buf.length) := by omega
    simp only [h1, h2, hc, if_true, if_false]; omega

theorem end_eq (b : RB α) (h : Wf b) : end' b = { begin' b with current := (pos b (size b) : Int) } := by
  obtain ⟨hw, hr⟩ := h
  simp only [end', begin', pos, size, Iter.mk.injEq, and_true]
  split <;> split <;> omega

theorem inc_pos (b : RB α) (h : Wf b) (i : Nat) (hi : i < size b) :
    ({ begin' b with current := (pos b i : Int) } : Iter).inc =
      { begin' b with current := (pos b (i + 1) : Int) } := by
  have hs := size_lt b h
  obtain ⟨hw, hr⟩ := h
  simp only [begin', Iter.inc, pos, Iter.mk.injEq, and_true]
  split <;> split <;> split <;> omega

theorem dec_pos (b : RB α) (h : Wf b) (i : Nat) (hi : i < size b) :
    ({ begin' b with current := (pos b (i + 1) : Int) } : Iter).dec =
      { begin' b with current := (pos b i : Int) } := by
  have hs := size_lt b h
  obtain ⟨hw, hr⟩ := h
  simp only [begin', Iter.dec, pos, Iter.mk.injEq, and_true]
  split <;> split <;> split <;> omega

theorem advance_pos (b : RB α) (h : Wf b) (n : Nat) : ∀ i, i + n ≤ size b →
    advance ({ begin' b with current := (pos b i : Int) } : Iter) n =
      { begin' b with current := (pos b (i + n) : Int) } := by
  induction n with
  | zero => intro i _; simp [advance]
  | succ n ih =>
    intro i hi
    simp only [advance]
    rw [inc_pos b h i (by omega), ih (i + 1) (by omega)]
    have e : i + 1 + n = i + (n + 1) := by omega
    rw [e]

theorem deref_pos (b : RB α) (h : Wf b) (i : Nat) (hi : i < size b) :
    Iter.deref b { begin' b with current := (pos b i : Int) } = at' b i := by
  have hs := size_lt b h
  obtain ⟨hw, hr⟩ := h
  have h0 : ¬ ((pos b i : Int) < 0) := by omega
  simp only [Iter.deref, at', hi, if_true, h0, if_false, Int.toNat_natCast]
  congr 1
  simp only [pos]
  split <;> split <;> omega

theorem pos_inj (b : RB α) (h : Wf b) {i j : Nat} (hi : i ≤ size b) (hj : j ≤ size b)
    (e : pos b i = pos b j) : i = j := by
  have hs := size_lt b h
  obtain ⟨hw, hr⟩ := h
  simp only [pos] at e
  split at e <;> split at e <;> omega

theorem diff_pos (b : RB α) (h : Wf b) {i j : Nat} (hi : i ≤ size b) (hj : j ≤ size b) :
    Iter.diff { begin' b with current := (pos b i : Int) } { begin' b with current := (pos b j : Int) }
      = (i : Int) - j := by
  have hs := size_lt b h
  obtain ⟨hw, hr⟩ := h
  simp only [Iter.diff, begin', pos]
  split <;> split <;> split <;> (try split) <;> omega

end Verif.RingBuffer
