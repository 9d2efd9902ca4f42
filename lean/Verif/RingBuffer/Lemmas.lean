import Verif.RingBuffer.Spec

/-! Auxiliary lemmas for the ring buffer: abstraction function and simulation. -/
namespace Verif.RingBuffer

variable {α : Type u}

/-- Index invariant. -/
def Wf (b : RB α) : Prop := b.w < b.buf.length ∧ b.r < b.buf.length

/-- Abstraction function. -/
def contents (b : RB α) : List α :=
  if b.r ≤ b.w then (b.buf.drop b.r).take (b.w - b.r)
  else b.buf.drop b.r ++ b.buf.take b.w

/-- Physical position of logical index `i`. -/
def pos (b : RB α) (i : Nat) : Nat :=
  if b.r + i < b.buf.length then b.r + i else b.r + i - b.buf.length

theorem contents_getElem? (b : RB α) (h : Wf b) (i : Nat) :
    (contents b)[i]? = if i < size b then b.buf[pos b i]? else none := by
  obtain ⟨hw, hr⟩ := h
  unfold contents size pos
  by_cases hc : b.r ≤ b.w
  · simp only [hc, ge_iff_le, if_true, List.getElem?_take, List.getElem?_drop]
    by_cases hi : i < b.w - b.r
    · simp only [hi, if_true]
      have : b.r + i < b.buf.length := by omega
      simp [this]
    · simp [hi]
  · simp only [hc, ge_iff_le, if_false]
    by_cases h1 : b.r + i < b.buf.length
    · rw [List.getElem?_append_left (by simp; omega)]
      have : i < b.w + b.buf.length - b.r := by omega
      simp [List.getElem?_drop, h1, this]
    · rw [List.getElem?_append_right (by simp; omega)]
      simp only [List.length_drop, List.getElem?_take, h1, if_false]
      by_cases h2 : i < b.w + b.buf.length - b.r
      · have e1 : i - (b.buf.length - b.r) < b.w := by omega
        have e2 : i - (b.buf.length - b.r) = b.r + i - b.buf.length := by omega
        simp only [e2] at e1 ⊢
        simp [e1, h2]
      · have e1 : ¬ (i - (b.buf.length - b.r) < b.w) := by omega
        simp [e1, h2]

theorem pos_lt (b : RB α) (h : Wf b) {i : Nat} (hi : i < b.buf.length) : pos b i < b.buf.length := by
  obtain ⟨hw, hr⟩ := h
  unfold pos; split <;> omega

theorem size_lt (b : RB α) (h : Wf b) : size b < b.buf.length := by
  obtain ⟨hw, hr⟩ := h
  unfold size; split <;> omega

@[simp] theorem contents_length (b : RB α) (h : Wf b) : (contents b).length = size b := by
  obtain ⟨hw, hr⟩ := h
  unfold contents size
  by_cases hc : b.r ≤ b.w <;> simp [hc] <;> omega

theorem contents_ext {b : RB α} (h : Wf b) {l : List α} (hl : l.length = size b)
    (he : ∀ i, i < size b → l[i]? = b.buf[pos b i]?) : contents b = l := by
  apply List.ext_getElem?
  intro i
  rw [contents_getElem? b h]
  by_cases hi : i < size b
  · simp [hi, he i hi]
  · simp [hi]; omega

theorem wf_mk [Inhabited α] (n : Nat) : Wf (mk n : RB α) := by
  simp [Wf, mk]

theorem contents_mk [Inhabited α] (n : Nat) : contents (mk n : RB α) = [] := by
  simp [contents, mk]

theorem mod_two {a n : Nat} (h : a < n + n) : a % n = if a < n then a else a - n := by
  split
  · exact Nat.mod_eq_of_lt ‹_›
  · rw [Nat.mod_eq_sub_mod (by omega)]
    exact Nat.mod_eq_of_lt (by omega)

theorem full_iff (b : RB α) (h : Wf b) : full b = (size b == capacity b) := by
  obtain ⟨hw, hr⟩ := h
  have hm := mod_two (a := b.w + 1) (n := b.buf.length) (by omega)
  rw [Bool.eq_iff_iff]
  simp only [full, hm, size, capacity, beq_iff_eq]
  split <;> split <;> omega

theorem empty_iff (b : RB α) (h : Wf b) : empty b = (size b == 0) := by
  obtain ⟨hw, hr⟩ := h
  rw [Bool.eq_iff_iff]
  simp only [empty, size, beq_iff_eq]
  split <;> omega

theorem at_eq (b : RB α) (h : Wf b) (i : Nat) :
    at' b i = match (contents b)[i]? with
      | some x => .ok x
      | none => .throws .outOfRange := by
  rw [contents_getElem? b h]
  unfold at'
  have hs := size_lt b h
  by_cases hi : i < size b
  · simp only [hi, if_true, Outcome.vecGet]
    have : (if i + b.r ≥ b.buf.length then i + b.r - b.buf.length else i + b.r) = pos b i := by
      unfold pos; split <;> split <;> omega
    rw [this]
    have hp := pos_lt b h (i := i) (by omega)
    rw [List.getElem?_eq_getElem hp]
  · simp [hi]

theorem skip_ok (b : RB α) (h : Wf b) (hne : contents b ≠ []) :
    ∃ b', skip b = .ok b' ∧ Wf b' ∧ contents b' = (contents b).tail ∧ b'.buf = b.buf ∧ b'.w = b.w := by
  have hs : size b ≠ 0 := by
    intro h0; apply hne; apply List.eq_nil_of_length_eq_zero; rw [contents_length b h, h0]
  have hlt := size_lt b h
  obtain ⟨hw, hr⟩ := h
  have hrw : ¬ b.w = b.r := by
    intro e; apply hs; simp [size, e]
  refine ⟨{ b with r := if b.r + 1 ≥ b.buf.length then 0 else b.r + 1 }, by simp [skip, hrw], ?_, ?_, rfl, rfl⟩
  · constructor
    · exact hw
    · show (if b.r + 1 ≥ b.buf.length then 0 else b.r + 1) < b.buf.length
      split <;> omega
  · have hwf' : Wf { b with r := if b.r + 1 ≥ b.buf.length then 0 else b.r + 1 } := by
      constructor
      · exact hw
      · show (if b.r + 1 ≥ b.buf.length then 0 else b.r + 1) < b.buf.length
        split <;> omega
    have hsz : size { b with r := if b.r + 1 ≥ b.buf.length then 0 else b.r + 1 } = size b - 1 := by
      simp only [size]; split <;> split <;> split <;> omega
    apply contents_ext hwf'
    · rw [hsz, List.length_tail, contents_length b ⟨hw, hr⟩]
    · intro i hi
      rw [hsz] at hi
      rw [List.getElem?_tail, contents_getElem? b ⟨hw, hr⟩, if_pos (by omega)]
      congr 1
      simp only [pos]
      simp only [size] at hi hlt
      split <;> split <;> split <;> (try omega) <;> split at hi <;> omega

theorem skip_throw (b : RB α) (h : Wf b) (he : contents b = []) : skip b = .throws .outOfRange := by
  have : size b = 0 := by rw [← contents_length b h, he]; rfl
  obtain ⟨hw, hr⟩ := h
  have : b.w = b.r := by simp only [size] at this; split at this <;> omega
  simp [skip, this]

theorem read_eq (b : RB α) (h : Wf b) :
    match contents b with
    | [] => read b = .throws .outOfRange
    | x :: xs => ∃ b', read b = .ok (x, b') ∧ skip b = .ok b' ∧ Wf b' ∧ contents b' = xs ∧ b'.buf = b.buf := by
  cases hc : contents b with
  | nil =>
    have := skip_throw b h hc
    simp only [skip] at this
    split at this
    · simp [read, *]
    · cases this
  | cons x xs =>
    obtain ⟨b', hb', hwf, hcont, hbuf, hww⟩ := skip_ok b h (by simp [hc])
    refine ⟨b', ?_, hb', hwf, by simp [hcont, hc], hbuf⟩
    have h0 := contents_getElem? b h 0
    have hs : 0 < size b := by rw [← contents_length b h, hc]; simp
    rw [hc, if_pos hs] at h0
    have hp : pos b 0 = b.r := by simp [pos, h.2]
    rw [hp] at h0
    unfold skip at hb'
    split at hb'
    · cases hb'
    · rename_i hne
      injection hb' with hb'
      subst hb'
      simp only [read, hne, if_false, Outcome.vecGet, ← h0, List.getElem?_cons_zero]
      rfl

/-- The store at the write index followed by advancing it, when there is room. -/
theorem store_room (b : RB α) (h : Wf b) (hroom : size b < capacity b) (v : α) :
    let nw := if b.w + 1 ≥ b.buf.length then 0 else b.w + 1
    let b' : RB α := { buf := b.buf.set b.w v, w := nw, r := b.r }
    Wf b' ∧ contents b' = contents b ++ [v] ∧ nw ≠ b.r := by
  obtain ⟨hw, hr⟩ := h
  intro nw b'
  have hnw : nw < b.buf.length := by
    show (if b.w + 1 ≥ b.buf.length then 0 else b.w + 1) < b.buf.length
    split <;> omega
  have hwf : Wf b' := ⟨by simpa [b'] using hnw, by simpa [b'] using hr⟩
  have hsz : size b' = size b + 1 := by
    simp only [size, capacity, b', nw, List.length_set] at hroom ⊢
    split at hroom <;> split <;> split <;> omega
  refine ⟨hwf, ?_, ?_⟩
  · apply contents_ext hwf
    · rw [List.length_append, contents_length b ⟨hw, hr⟩, hsz]; rfl
    · intro i hi
      rw [hsz] at hi
      have hpos : pos b' i = pos b i := by simp [pos, b']
      rw [hpos]
      have hbuf : b'.buf = b.buf.set b.w v := rfl
      rw [hbuf]
      by_cases h2 : i < size b
      · rw [List.getElem?_append_left (by rw [contents_length b ⟨hw, hr⟩]; exact h2),
          contents_getElem? b ⟨hw, hr⟩, if_pos h2]
        have : b.w ≠ pos b i := by
          simp only [pos, size] at *
          split <;> split at h2 <;> omega
        rw [List.getElem?_set_ne this]
      · have hi' : i = size b := by omega
        subst hi'
        rw [List.getElem?_append_right (by rw [contents_length b ⟨hw, hr⟩]; exact Nat.le_refl _),
          contents_length b ⟨hw, hr⟩]
        have : pos b (size b) = b.w := by
          simp only [pos, size]
          split <;> split <;> omega
        rw [this, List.getElem?_set_self hw]
        simp
  · simp only [size, capacity, nw] at hroom ⊢
    split at hroom <;> split <;> omega

theorem write_room (b : RB α) (h : Wf b) (hroom : size b < capacity b) (v : α) (ow : Bool) :
    ∃ b', write b v ow = .ok b' ∧ Wf b' ∧ contents b' = contents b ++ [v] ∧ capacity b' = capacity b := by
  have hst := store_room b h hroom v
  obtain ⟨h1, h2, h3⟩ := hst
  refine ⟨_, ?_, h1, h2, by simp [capacity]⟩
  simp only [write, h3, if_false]
  simp only [bind, Outcome.bind, Outcome.vecSet, h.1, if_true]

theorem nw_full (b : RB α) (h : Wf b) (hfull : ¬ size b < capacity b) :
    (if b.w + 1 ≥ b.buf.length then 0 else b.w + 1) = b.r := by
  obtain ⟨hw, hr⟩ := h
  simp only [size, capacity] at hfull
  split at hfull <;> split <;> omega

theorem write_full_throw (b : RB α) (h : Wf b) (hfull : ¬ size b < capacity b) (v : α) :
    write b v false = .throws .outOfRange := by
  have := nw_full b h hfull
  simp only [write, this, if_true]
  rfl

theorem write_full_overwrite (b : RB α) (h : Wf b) (hfull : ¬ size b < capacity b)
    (hcap : 0 < capacity b) (v : α) :
    ∃ b', write b v true = .ok b' ∧ Wf b' ∧ contents b' = (contents b).tail ++ [v]
      ∧ capacity b' = capacity b := by
  have hnw := nw_full b h hfull
  have hne : contents b ≠ [] := by
    intro e
    have := contents_length b h
    rw [e] at this
    simp at this; omega
  obtain ⟨b1, hb1, hwf1, hc1, hbuf1, hw1⟩ := skip_ok b h hne
  have hs1 : size b1 < capacity b1 := by
    rw [← contents_length b1 hwf1, hc1, List.length_tail, contents_length b h]
    have h3 : capacity b1 = capacity b := by simp [capacity, hbuf1]
    have h4 := size_lt b h
    rw [h3]
    simp only [capacity] at *
    omega
  obtain ⟨h1, h2, h3⟩ := store_room b1 hwf1 hs1 v
  rw [hc1] at h2
  refine ⟨_, ?_, h1, h2, by simp [capacity, hbuf1]⟩
  have hnw1 : (if b1.w + 1 ≥ b1.buf.length then 0 else b1.w + 1) = b.r := by
    rw [hbuf1, hw1]; exact hnw
  simp only [write, hnw, if_true, hb1]
  simp only [bind, Outcome.bind, Outcome.vecSet, hwf1.1, if_true, hnw1]

theorem write_cap0 (b : RB α) (h : Wf b) (hcap : capacity b = 0) (v : α) (ow : Bool) :
    write b v ow = .throws .outOfRange := by
  have hlt := size_lt b h
  have hs : size b = 0 := by simp only [capacity] at hcap; omega
  cases ow with
  | false => exact write_full_throw b h (by omega) v
  | true =>
    have hnw := nw_full b h (by omega)
    have hnil : contents b = [] := by
      apply List.eq_nil_of_length_eq_zero; rw [contents_length b h, hs]
    simp only [write, hnw, if_true, skip_throw b h hnil]
    rfl

theorem clear_eq (b : RB α) (h : Wf b) : Wf (clear b) ∧ contents (clear b) = [] ∧
    capacity (clear b) = capacity b := by
  refine ⟨⟨?_, ?_⟩, ?_, rfl⟩
  · exact Nat.lt_of_le_of_lt (Nat.zero_le _) h.1
  · exact Nat.lt_of_le_of_lt (Nat.zero_le _) h.1
  · simp [contents, clear]

theorem skipN_eq (b : RB α) (h : Wf b) (k : Nat) : Wf (skipN b k) ∧
    contents (skipN b k) = (contents b).drop k ∧ capacity (skipN b k) = capacity b := by
  unfold skipN
  by_cases hk : k ≥ size b
  · simp only [hk, if_true]
    have := clear_eq b h
    refine ⟨this.1, ?_, this.2.2⟩
    rw [this.2.1, List.drop_eq_nil_of_le (by rw [contents_length b h]; exact hk)]
  · simp only [hk, if_false]
    obtain ⟨hw, hr⟩ := h
    have hlt := size_lt b ⟨hw, hr⟩
    have hm := mod_two (a := b.r + k) (n := b.buf.length) (by omega)
    have hwf' : Wf { b with r := (b.r + k) % b.buf.length } := by
      refine ⟨hw, ?_⟩
      show (b.r + k) % b.buf.length < b.buf.length
      exact Nat.mod_lt _ (by omega)
    refine ⟨hwf', ?_, rfl⟩
    have hsz : size { b with r := (b.r + k) % b.buf.length } = size b - k := by
      simp only [size, hm] at *
      split at hk <;> split <;> split <;> omega
    apply contents_ext hwf'
    · rw [hsz, List.length_drop, contents_length b ⟨hw, hr⟩]
    · intro i hi
      rw [hsz] at hi
      rw [List.getElem?_drop, contents_getElem? b ⟨hw, hr⟩, if_pos (by omega)]
      congr 1
      simp only [pos, hm]
      simp only [size] at hi hlt hk
      split <;> split <;> split <;> (try omega) <;> split at hi <;> omega

theorem copyLoop_spec (old : List α) : ∀ (k i o : Nat) (buf : List α),
    o < old.length → i + k ≤ buf.length →
    ∃ buf', copyLoop old k i o buf = .ok buf' ∧ buf'.length = buf.length ∧
      (∀ j, j < i → buf'[j]? = buf[j]?) ∧
      (∀ j, j < k → j ≤ old.length → buf'[i + j]? = old[if o + j < old.length then o + j else o + j - old.length]?) := by
  intro k
  induction k with
  | zero => intro i o buf ho hb; exact ⟨buf, rfl, rfl, fun _ _ => rfl, fun j hj => by omega⟩
  | succ k ih =>
    intro i o buf ho hb
    obtain ⟨buf', h1, h2, h3, h4⟩ := ih (i + 1) (if o + 1 ≥ old.length then 0 else o + 1) (buf.set i old[o])
      (by split <;> omega) (by rw [List.length_set]; omega)
    refine ⟨buf', ?_, by rw [h2, List.length_set], ?_, ?_⟩
    · simp only [copyLoop, bind, Outcome.bind, Outcome.vecGet, List.getElem?_eq_getElem ho, Outcome.vecSet,
        show i < buf.length by omega, if_true]
      exact h1
    · intro j hj
      rw [h3 j (by omega), List.getElem?_set_ne (by omega)]
    · intro j hj hjl
      cases j with
      | zero =>
        rw [Nat.add_zero, h3 i (by omega), List.getElem?_set_self (by omega)]
        rw [Nat.add_zero, if_pos ho, List.getElem?_eq_getElem ho]
      | succ j =>
        have := h4 j (by omega) (by omega)
        rw [show i + 1 + j = i + (j + 1) by omega] at this
        rw [this]
        congr 1
        split <;> split <;> split <;> omega

theorem vecResize_length [Inhabited α] (v : List α) (n : Nat) : (vecResize v n).length = n := by
  simp [vecResize]; omega

theorem setCapacity_eq [Inhabited α] (b : RB α) (h : Wf b) (m : Nat) :
    ∃ b', setCapacity b m = .ok b' ∧ Wf b' ∧
      contents b' = (contents b).drop ((contents b).length - m) ∧ capacity b' = m := by
  obtain ⟨hw, hr⟩ := h
  have hlt := size_lt b ⟨hw, hr⟩
  let ns := if m < size b then m else size b
  have hns : ns = min m (size b) := by
    show (if m < size b then m else size b) = _
    split <;> omega
  let o := if b.r + (size b - ns) ≥ b.buf.length then b.r + (size b - ns) - b.buf.length
    else b.r + (size b - ns)
  have ho : o < b.buf.length := by
    show (if b.r + (size b - ns) ≥ b.buf.length then b.r + (size b - ns) - b.buf.length
      else b.r + (size b - ns)) < b.buf.length
    split <;> omega
  obtain ⟨buf', h1, h2, h3, h4⟩ := copyLoop_spec b.buf ns 0 o (vecResize b.buf (m + 1)) ho
    (by rw [vecResize_length]; omega)
  refine ⟨{ buf := buf', r := 0, w := ns }, ?_, ?_, ?_, ?_⟩
  · show (copyLoop b.buf ns 0 o (vecResize b.buf (m + 1))).bind _ = _
    rw [h1]; rfl
  · constructor
    · show ns < buf'.length
      rw [h2, vecResize_length]; omega
    · show 0 < buf'.length
      rw [h2, vecResize_length]; omega
  · have hwf' : Wf { buf := buf', r := 0, w := ns } := by
      constructor
      · show ns < buf'.length
        rw [h2, vecResize_length]; omega
      · show 0 < buf'.length
        rw [h2, vecResize_length]; omega
    have hsz : size { buf := buf', r := 0, w := ns } = ns := by simp [size]
    apply contents_ext hwf'
    · rw [hsz, List.length_drop, contents_length b ⟨hw, hr⟩]; omega
    · intro i hi
      rw [hsz] at hi
      have := h4 i hi (by omega)
      rw [Nat.zero_add] at this
      have hp : pos { buf := buf', r := 0, w := ns } i = i := by
        simp only [pos, h2, vecResize_length]; split <;> omega
      rw [hp, List.getElem?_drop, contents_length b ⟨hw, hr⟩, contents_getElem? b ⟨hw, hr⟩, if_pos (by omega)]
      show _ = buf'[i]?
      rw [this]
      congr 1
      simp only [pos, o]
      split <;> split <;> split <;> omega
  · simp [capacity, h2, vecResize_length]

/-- Simulation relation. -/
def Sim (b : RB α) (s : Queue α) : Prop := Wf b ∧ contents b = s.q ∧ capacity b = s.cap

theorem obsVal_at (b : RB α) (s : Queue α) (h : Sim b s) (i : Nat) :
    obsVal (at' b i) = (match s.q[i]? with | some x => Obs.val x | none => .threw .outOfRange) := by
  obtain ⟨h1, h2, h3⟩ := h
  rw [at_eq b h1, h2]
  cases s.q[i]? <;> rfl

theorem sim_step [Inhabited α] (b : RB α) (s : Queue α) (h : Sim b s) (op : Op α) :
    (step b op).1 = (s.step op).1 ∧ Sim (step b op).2 (s.step op).2 := by
  have h' := h
  obtain ⟨hwf, hc, hcap⟩ := h
  have hlen : s.q.length = size b := by rw [← hc, contents_length b hwf]
  have hle : size b ≤ capacity b := by
    have := size_lt b hwf; simp only [capacity]; omega
  cases op with
  | write v ow =>
    simp only [step, Queue.step]
    by_cases h1 : size b < capacity b
    · obtain ⟨b', e, w', c', k'⟩ := write_room b hwf h1 v ow
      have : s.q.length < s.cap := by omega
      simp only [e, settle, this, if_true]
      exact ⟨trivial, w', by rw [c', hc], by rw [k', hcap]⟩
    · have hn : ¬ s.q.length < s.cap := by omega
      simp only [hn, if_false]
      by_cases h2 : ow = true ∧ 0 < s.cap
      · obtain ⟨rfl, h0⟩ := h2
        obtain ⟨b', e, w', c', k'⟩ := write_full_overwrite b hwf h1 (by omega) v
        simp only [e, settle, h0, and_self, if_true]
        exact ⟨trivial, w', by rw [c', hc], by rw [k', hcap]⟩
      · simp only [h2, if_false]
        have : write b v ow = .throws .outOfRange := by
          cases ow with
          | false => exact write_full_throw b hwf h1 v
          | true => exact write_cap0 b hwf (by simp at h2; omega) v true
        rw [this]
        exact ⟨rfl, h'⟩
  | read =>
    simp only [step, Queue.step]
    have := read_eq b hwf
    rw [hc] at this
    revert this
    cases hq : s.q with
    | nil => intro this; simp only at this; rw [this]; exact ⟨rfl, h'⟩
    | cons x xs =>
      intro this
      obtain ⟨b', e, _, w', c', k'⟩ := this
      rw [e]
      exact ⟨rfl, w', c', by simp only [capacity, k']; exact hcap⟩
  | skip =>
    simp only [step, Queue.step]
    cases hq : s.q with
    | nil =>
      rw [skip_throw b hwf (by rw [hc, hq])]
      exact ⟨rfl, h'⟩
    | cons x xs =>
      obtain ⟨b', e, w', c', k', _⟩ := skip_ok b hwf (by rw [hc, hq]; simp)
      rw [e]
      simp only [settle]
      exact ⟨trivial, w', by rw [c', hc, hq]; rfl, by simp only [capacity, k']; exact hcap⟩
  | skipN k =>
    have := skipN_eq b hwf k
    exact ⟨rfl, this.1, by simp only [step, Queue.step]; rw [this.2.1, hc], by simp only [step, Queue.step]; rw [this.2.2, hcap]⟩
  | clear =>
    have := clear_eq b hwf
    exact ⟨rfl, this.1, this.2.1, by simp only [step, Queue.step]; rw [this.2.2, hcap]⟩
  | setCapacity m =>
    obtain ⟨b', e, w', c', k'⟩ := setCapacity_eq b hwf m
    simp only [step, Queue.step, e, settle]
    exact ⟨trivial, w', by rw [c', hc], k'⟩
  | «at» i =>
    simp only [step, Queue.step]
    rw [obsVal_at b s h' i]
    cases s.q[i]? <;> exact ⟨rfl, h'⟩
  | front =>
    simp only [step, Queue.step, front]
    rw [obsVal_at b s h' 0]
    cases hq : s.q <;> exact ⟨rfl, h'⟩
  | size => exact ⟨by simp only [step, Queue.step]; rw [hlen], h'⟩
  | empty => exact ⟨by simp only [step, Queue.step]; rw [empty_iff b hwf, hlen], h'⟩
  | full => exact ⟨by simp only [step, Queue.step]; rw [full_iff b hwf, hlen, hcap], h'⟩
  | capacity => exact ⟨by simp only [step, Queue.step]; rw [hcap], h'⟩
  | reserve => exact ⟨by simp only [step, Queue.step, reserve]; rw [hcap, hlen], h'⟩

theorem sim_run [Inhabited α] (ops : List (Op α)) : ∀ (b : RB α) (s : Queue α), Sim b s →
    (run b ops).1 = (s.run ops).1 ∧ Sim (run b ops).2 (s.run ops).2 := by
  induction ops with
  | nil => intro b s h; exact ⟨rfl, h⟩
  | cons op ops ih =>
    intro b s h
    have h1 := sim_step b s h op
    have h2 := ih _ _ h1.2
    refine ⟨?_, h2.2⟩
    have e1 : (run b (op :: ops)).1 = (step b op).1 :: (run (step b op).2 ops).1 := rfl
    have e2 : (s.run (op :: ops)).1 = (s.step op).1 :: ((s.step op).2.run ops).1 := rfl
    rw [e1, e2, h1.1, h2.1]

theorem fakeWrite_wf (b : RB α) (h : Wf b) (k : Nat) : Wf (fakeWrite b k) := by
  refine ⟨?_, h.2⟩
  show _ % _ < b.buf.length
  exact Nat.mod_lt _ (by have := h.1; omega)

theorem reachable_wf [Inhabited α] {b : RB α} (h : Reachable b) : Wf b := by
  induction h with
  | fresh n => exact wf_mk n
  | @step b op _ ih =>
    exact (sim_step b ⟨capacity b, contents b⟩ ⟨ih, rfl, rfl⟩ op).2.1
  | fakeWrite k _ ih => exact fakeWrite_wf _ ih k
  | poke i v _ ih => exact ⟨by simpa using ih.1, by simpa using ih.2⟩

theorem visible_eq [Inhabited α] (b : RB α) (h : Wf b) : visible b = (contents b).map .ok := by
  apply List.ext_getElem?
  intro i
  simp only [visible, List.getElem?_map]
  by_cases hi : i < size b
  · have : i < (contents b).length := by rw [contents_length b h]; exact hi
    rw [List.getElem?_range hi, List.getElem?_eq_getElem this]
    simp only [Option.map_some]
    rw [at_eq b h, List.getElem?_eq_getElem this]
  · have : (contents b).length ≤ i := by rw [contents_length b h]; omega
    rw [List.getElem?_eq_none this, List.getElem?_eq_none (by simp; omega)]
    rfl

end Verif.RingBuffer
