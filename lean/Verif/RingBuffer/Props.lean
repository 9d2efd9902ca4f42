import Verif.RingBuffer.Bulk

/-!
# Properties of the ring buffer (C01-C05)

Vocabulary: `run` executes a history of interface calls on the translated code and
returns the list of everything the caller sees; `Queue.run` does the same for the
bounded FIFO queue of `Spec.lean`; `visible b` is the list `at(0), …, at(size()-1)`.
-/
namespace Verif.RingBuffer

variable {α : Type u}

/-- C01. For every capacity and every history of calls, the ring buffer shows the caller
exactly what a bounded FIFO queue shows: every value returned, every exception, and no
undefined behaviour. -/
theorem c01_history_refines_queue [Inhabited α] (n : Nat) (ops : List (Op α)) :
    (run (mk n) ops).1 = (Queue.run ⟨n, []⟩ ops).1 := by
  have h : Sim (mk n : RB α) ⟨n, []⟩ := ⟨wf_mk n, contents_mk n, by simp [capacity, mk]⟩
  exact (sim_run ops _ _ h).1

/-- C01, corollary: no history of calls ever performs an out-of-bounds access. -/
theorem c01_no_undefined_behaviour [Inhabited α] (n : Nat) (ops : List (Op α)) :
    ∀ o ∈ (run (mk n : RB α) ops).1, ∀ (_ : o = Obs.ub), False := by
  rw [c01_history_refines_queue]
  generalize (⟨n, []⟩ : Queue α) = s
  induction ops generalizing s with
  | nil => intro o ho; simp [Queue.run] at ho
  | cons op ops ih =>
    intro o ho he
    simp only [Queue.run, List.mem_cons] at ho
    rcases ho with ho | ho
    · subst he
      cases op <;> simp only [Queue.step] at ho <;> (try split at ho) <;> (try split at ho) <;> cases ho
    · exact ih _ o ho he

/-- C01, corollary: the queue never holds more than `capacity()` elements and `size()` never
exceeds `capacity()`, in every reachable state (including after `fakeWrite`). -/
theorem c01_size_le_capacity [Inhabited α] {b : RB α} (h : Reachable b) :
    size b ≤ capacity b := by
  have := size_lt b (reachable_wf h)
  simp only [capacity]; omega

example : (run (mk 2 : RB Nat) [.write 1 false, .write 2 false, .write 3 true, .read, .size]).1
    = [.unit, .unit, .unit, .val 2, .nat 1] := by rfl

/-- C02 (first half). In every reachable state that is full, with capacity at least one,
`write(v, true)` succeeds, removes exactly the oldest element and appends `v`. -/
theorem c02_overwrite_discards_oldest [Inhabited α] {b : RB α} (h : Reachable b)
    (hfull : full b = true) (hcap : 1 ≤ capacity b) (v : α) :
    ∃ b', write b v true = .ok b' ∧ visible b' = (visible b).tail ++ [.ok v] ∧
      capacity b' = capacity b := by
  have hwf := reachable_wf h
  have hf : size b = capacity b := by
    have := full_iff b hwf; rw [hfull] at this; simpa using this.symm
  obtain ⟨b', h1, h2, h3, h4⟩ := write_full_overwrite b hwf (by omega) (by omega) v
  exact ⟨b', h1, by rw [visible_eq _ h2, visible_eq _ hwf, h3]; simp, h4⟩

/-- C02 (second half). In every reachable full state `write(v, false)` throws
`std::out_of_range`; the state the caller goes on with is the old one. -/
theorem c02_no_overwrite_throws [Inhabited α] {b : RB α} (h : Reachable b)
    (hfull : full b = true) (v : α) :
    write b v false = .throws .outOfRange ∧ (step b (.write v false)).2 = b := by
  have hwf := reachable_wf h
  have hf : size b = capacity b := by
    have := full_iff b hwf; rw [hfull] at this; simpa using this.symm
  have := write_full_throw b hwf (by omega) v
  exact ⟨this, by simp [step, this, settle]⟩

/-- C02 (no loss). In every reachable state that is not full, both forms of `write` append
and lose nothing. -/
theorem c02_write_appends [Inhabited α] {b : RB α} (h : Reachable b)
    (hfull : full b = false) (v : α) (ow : Bool) :
    ∃ b', write b v ow = .ok b' ∧ visible b' = visible b ++ [.ok v] ∧ capacity b' = capacity b := by
  have hwf := reachable_wf h
  have hlt := size_lt b hwf
  have hf : size b ≠ capacity b := by
    have := full_iff b hwf; rw [hfull] at this; simpa using this.symm
  obtain ⟨b', h1, h2, h3, h4⟩ := write_room b hwf (by simp only [capacity] at *; omega) v ow
  exact ⟨b', h1, by rw [visible_eq _ h2, visible_eq _ hwf, h3]; simp, h4⟩

example : let b := (run (mk 2 : RB Nat) [.write 1 false, .write 2 false]).2
    full b = true ∧ 1 ≤ capacity b ∧ visible b = [.ok 1, .ok 2] := by decide

/-- C03. In every reachable state, `setCapacity(m)` succeeds and keeps exactly the newest
`min m size` elements in order. -/
theorem c03_setCapacity_keeps_newest [Inhabited α] {b : RB α} (h : Reachable b) (m : Nat) :
    ∃ b', setCapacity b m = .ok b' ∧ capacity b' = m ∧
      visible b' = (visible b).drop (size b - m) ∧ size b' = min m (size b) := by
  have hwf := reachable_wf h
  obtain ⟨b', h1, h2, h3, h4⟩ := setCapacity_eq b hwf m
  refine ⟨b', h1, h4, ?_, ?_⟩
  · rw [visible_eq _ h2, visible_eq _ hwf, h3, contents_length b hwf, List.map_drop]
  · rw [← contents_length b' h2, h3, List.length_drop, contents_length b hwf]; omega

example : let b := (run (mk 3 : RB Nat) [.write 1 false, .write 2 false, .write 3 false,
      .write 4 true]).2
    visible b = [.ok 2, .ok 3, .ok 4] ∧
    (setCapacity b 2).map visible = .ok [.ok 3, .ok 4] := by decide

/-- C04 (reading). In every reachable state the two array ranges concatenated hold exactly
the contents in order. -/
theorem c04_arrays_are_contents [Inhabited α] {b : RB α} (h : Reachable b) :
    (slice b (arrayOne b) ++ slice b (arrayTwo b)).map .ok = visible b ∧
    (arrayOne b).1 + (arrayOne b).2 ≤ b.buf.length ∧ (arrayTwo b).1 + (arrayTwo b).2 ≤ b.buf.length := by
  have hwf := reachable_wf h
  refine ⟨by rw [visible_eq _ hwf, slices_eq _ hwf], ?_⟩
  obtain ⟨hw, hr⟩ := hwf
  simp only [arrayOne, arrayTwo]
  constructor <;> split <;> simp only [] <;> omega

/-- C04 (free space). The two empty ranges lie inside the vector, have together exactly
`reserve()` slots, list no slot twice, and share no slot with the contents ranges. -/
theorem c04_empty_ranges_are_free [Inhabited α] {b : RB α} (h : Reachable b) :
    let free := slots (emptyArrayOne b) ++ slots (emptyArrayTwo b)
    let used := slots (arrayOne b) ++ slots (arrayTwo b)
    free.length = reserve b ∧ free.Nodup ∧ (∀ s ∈ free, s < b.buf.length ∧ s ∉ used) := by
  have hwf := reachable_wf h
  refine ⟨freeSlots_length b hwf, ?_, ?_⟩
  · obtain ⟨hw, hr⟩ := hwf
    rw [List.nodup_append]
    refine ⟨List.nodup_range', List.nodup_range', ?_⟩
    intro a ha c hc
    simp only [slots, List.mem_range'_1] at ha hc
    simp only [emptyArrayOne, emptyArrayTwo] at ha hc
    split at ha <;> (try split at ha) <;> simp_all <;> (try split at hc) <;> omega
  · obtain ⟨hw, hr⟩ := hwf
    intro s hs
    simp only [slots, List.mem_append, List.mem_range'_1, emptyArrayOne, emptyArrayTwo, arrayOne,
      arrayTwo] at hs ⊢
    by_cases hc : b.r ≤ b.w
    · by_cases h0 : b.r = 0
      · simp only [ge_iff_le, hc, h0, if_true] at hs ⊢
        simp only [ge_iff_le, Nat.zero_le, if_true, gt_iff_lt, Nat.lt_irrefl, if_false] at hs ⊢
        omega
      · have : 0 < b.r := by omega
        simp only [ge_iff_le, hc, h0, if_true, if_false, gt_iff_lt, this] at hs ⊢
        omega
    · simp only [ge_iff_le, hc, if_false] at hs ⊢
      omega

/-- C04 (bulk write). In every reachable state, storing up to `reserve()` values through the
empty ranges and calling `fakeWrite` gives exactly the same object as writing them one by
one with `write()`, and appends them to the contents. -/
theorem c04_fakeWrite_is_writes [Inhabited α] {b : RB α} (h : Reachable b) (vs : List α)
    (hl : vs.length ≤ reserve b) :
    writes b vs =
      .ok (fakeWrite (pokes b (slots (emptyArrayOne b) ++ slots (emptyArrayTwo b)) vs) vs.length) :=
  writes_eq vs b (reachable_wf h) hl

/-- C04 (bulk write, contents). -/
theorem c04_bulk_write_appends [Inhabited α] {b : RB α} (h : Reachable b) (vs : List α)
    (hl : vs.length ≤ reserve b) :
    visible (fakeWrite (pokes b (slots (emptyArrayOne b) ++ slots (emptyArrayTwo b)) vs) vs.length)
      = visible b ++ vs.map .ok := by
  have key : ∀ (vs : List α) (b : RB α), Wf b → vs.length ≤ reserve b →
      ∃ b', writes b vs = .ok b' ∧ Wf b' ∧ contents b' = contents b ++ vs := by
    intro vs
    induction vs with
    | nil => intro b hb _; exact ⟨b, rfl, hb, by simp⟩
    | cons v vs ih =>
      intro b hb hl
      simp only [List.length_cons, reserve] at hl
      obtain ⟨b1, e1, w1, c1, k1⟩ := write_room b hb (by omega) v false
      have hs : size b1 = size b + 1 := by
        rw [← contents_length b1 w1, c1]; simp [contents_length b hb]
      obtain ⟨b2, e2, w2, c2⟩ := ih b1 w1 (by simp only [reserve, hs, k1]; omega)
      refine ⟨b2, ?_, w2, by rw [c2, c1]; simp⟩
      simp only [writes, e1, bind, Outcome.bind]
      exact e2
  have hwf := reachable_wf h
  obtain ⟨b', e, w, c⟩ := key vs b hwf hl
  rw [c04_fakeWrite_is_writes h vs hl] at e
  injection e with e
  rw [e, visible_eq _ w, c, visible_eq _ hwf]
  simp

/-- C04 (clamping). `fakeWrite(k)` never makes the buffer exceed its capacity, never drops an
element that was there before, and adds exactly `min k reserve` elements. -/
theorem c04_fakeWrite_clamps [Inhabited α] {b : RB α} (h : Reachable b) (k : Nat) :
    size (fakeWrite b k) = min (size b + k) (capacity b) ∧
    (visible (fakeWrite b k)).take (size b) = visible b := by
  have hwf := reachable_wf h
  have hs : size (fakeWrite b k) = min (size b + k) (capacity b) := by
    have hlt := size_lt b hwf
    obtain ⟨hw, hr⟩ := hwf
    let c := if k > reserve b then reserve b else k
    have hc : c = min k (reserve b) := by simp only [c]; split <;> omega
    have hcl : c < b.buf.length := by rw [hc]; simp only [reserve, capacity]; omega
    have hm := mod_two (a := b.w + c) (n := b.buf.length) (by omega)
    have hf : fakeWrite b k = { b with w := (b.w + c) % b.buf.length } := rfl
    rw [hf, hm]
    rw [hc] at *
    simp only [size, reserve, capacity] at *
    split <;> split at hlt <;> split at hcl <;> split <;> (try split) <;> omega
  refine ⟨hs, ?_⟩
  have hwf' := fakeWrite_wf b hwf k
  have hcap := c01_size_le_capacity h
  apply List.ext_getElem?
  intro i
  rw [List.getElem?_take, visible_eq _ hwf', visible_eq _ hwf, List.getElem?_map, List.getElem?_map,
    contents_getElem? _ hwf', contents_getElem? _ hwf]
  by_cases hi : i < size b
  · have h1 : i < size (fakeWrite b k) := by rw [hs]; omega
    simp only [hi, h1, if_true]; rfl
  · simp [hi]

/-- C04 (skip). `skip(k)` removes the `min k size` oldest elements. -/
theorem c04_skip_count [Inhabited α] {b : RB α} (h : Reachable b) (k : Nat) :
    visible (skipN b k) = (visible b).drop k ∧ capacity (skipN b k) = capacity b := by
  have hwf := reachable_wf h
  obtain ⟨h1, h2, h3⟩ := skipN_eq b hwf k
  exact ⟨by rw [visible_eq _ h1, visible_eq _ hwf, h2, List.map_drop], h3⟩

example : let b := (run (mk 3 : RB Nat) [.write 1 false, .write 2 false, .read, .read, .write 7 false]).2
    slots (emptyArrayOne b) = [3] ∧ slots (emptyArrayTwo b) = [0] ∧ reserve b = 2 ∧
    visible (fakeWrite (pokes b [3, 0] [8, 9]) 2) = [.ok 7, .ok 8, .ok 9] := by decide

/-- C05. In every reachable state: `*(begin()+i)` is `at(i)`; stepping `i` times from
`begin()` gives the same iterator as `begin()+i`, so it visits the contents in order; the
iterator equals `end()` exactly after `size()` steps; and iterator difference is the
difference of positions, in particular `end()-begin() == size()`. -/
theorem c05_iterators_traverse [Inhabited α] {b : RB α} (h : Reachable b) (i : Nat)
    (hi : i ≤ size b) :
    advance (begin' b) i = (begin' b).add i ∧
    (i < size b → Iter.deref b ((begin' b).add i) = at' b i) ∧
    (((begin' b).add i).eq (end' b) = true ↔ i = size b) ∧
    Iter.diff (end' b) ((begin' b).add i) = (size b : Int) - i ∧
    Iter.diff ((begin' b).add i) (begin' b) = i := by
  have hwf := reachable_wf h
  have h0 : begin' b = { begin' b with current := (pos b 0 : Int) } := by
    have := hwf.2
    simp [begin', pos, this]
  have ha := begin_add b hwf i hi
  refine ⟨?_, ?_, ?_, ?_, ?_⟩
  · rw [ha]
    have := advance_pos b hwf i 0 (by omega)
    rw [← h0] at this
    rw [this]; simp
  · intro hlt
    rw [ha]; exact deref_pos b hwf i hlt
  · rw [ha, end_eq b hwf]
    simp only [Iter.eq, beq_iff_eq]
    constructor
    · intro e; exact pos_inj b hwf hi (Nat.le_refl _) (by omega)
    · intro e; rw [e]
  · rw [ha, end_eq b hwf]
    exact diff_pos b hwf (Nat.le_refl _) hi
  · rw [ha]
    have := diff_pos b hwf hi (Nat.zero_le _)
    rw [← h0] at this
    rw [this]; simp

/-- C05. `++` and `--` are inverse on the iterators of the range. -/
theorem c05_inc_dec_inverse [Inhabited α] {b : RB α} (h : Reachable b) (i : Nat)
    (hi : i < size b) :
    ((begin' b).add i).inc = (begin' b).add (i + 1) ∧
    ((begin' b).add i).inc.dec = (begin' b).add i ∧
    ((begin' b).add (i + 1)).dec.inc = (begin' b).add (i + 1) := by
  have hwf := reachable_wf h
  have h1 := begin_add b hwf i (by omega)
  have h2 := begin_add b hwf (i + 1) (by omega)
  simp only [Int.natCast_add, Int.cast_ofNat_Int] at h2
  have h2' : (begin' b).add ((i : Int) + 1) = _ := h2
  rw [h1, h2', inc_pos b hwf i hi, dec_pos b hwf i hi, inc_pos b hwf i hi]
  exact ⟨rfl, rfl, rfl⟩

/-- C05. Moving backwards: `(begin()+j) + (i-j) == begin()+i` for all positions, i.e. random
access with positive and negative offsets stays inside the range and agrees with stepping. -/
theorem c05_random_access [Inhabited α] {b : RB α} (h : Reachable b) (i j : Nat)
    (hi : i ≤ size b) (hj : j ≤ size b) :
    ((begin' b).add j).add ((i : Int) - j) = (begin' b).add i := by
  have hwf := reachable_wf h
  rw [begin_add b hwf j hj, begin_add b hwf i hi]
  have hs := size_lt b hwf
  obtain ⟨hw, hr⟩ := hwf
  simp only [begin', Iter.add, pos, Iter.mk.injEq, and_true]
  split <;> split <;> split <;> split <;> omega

example : let b := (run (mk 3 : RB Nat) [.write 1 false, .write 2 false, .write 3 false,
      .write 4 true]).2
    (List.range 3).map (fun i => Iter.deref b (advance (begin' b) i)) = [.ok 2, .ok 3, .ok 4] ∧
    advance (begin' b) 3 = end' b ∧ (end' b).current = 0 := by decide

end Verif.RingBuffer
