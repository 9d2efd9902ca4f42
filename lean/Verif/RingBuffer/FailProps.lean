import Verif.RingBuffer.FailLemmas

/-!
# C121: what a ring buffer holds after the copying of an element has thrown

The caller expects that a call that throws changes nothing.  `runF` executes a history of calls, each of
which may have a failing copy; `qRun` is the queue of `FailSpec.lean`, which says what is lost.
-/
namespace Verif.RingBuffer.Fail

variable {α : Type u}

/-- C121, for all histories in which `setCapacity` does not fail in its copy loop: everything the caller sees is
what the queue of the specification shows: a failing `write` without overwriting changes nothing, a failing
`write` on a full buffer loses the oldest element, a failing `read` loses the element it should have returned, a
failing allocation in `setCapacity` changes nothing.
Missing: failures in the loop of `setCapacity`, see `c121_failed_shrink_undefined`. -/
theorem c121_histories_partial [Inhabited α] (n : Nat) (ops : List (FOp α)) (ho : ∀ op ∈ ops, NoLoopFailure op) :
    (runF (mk n) ops).1 = (qRun ⟨n, []⟩ ops).1 :=
  (runF_sim ops ho _ _ ⟨wf_mk n, contents_mk n, by simp [capacity, mk]⟩).1

/-- C121: a `write` that fails on a buffer with room leaves all elements. -/
theorem c121_failed_write_keeps [Inhabited α] {b : RB α} (h : Reachable b) (hf : full b = false) (v junk : α) (ow : Bool) :
    (stepF b (.write v ow junk)).1 = .copyFailed ∧ visible (stepF b (.write v ow junk)).2 = visible b := by
  have hwf := reachable_wf h
  have hlt := size_lt b hwf
  have hroom : size b < capacity b := by
    have := full_iff b hwf
    rw [hf] at this
    have : size b ≠ capacity b := by simpa using this.symm
    simp only [capacity] at *; omega
  have hs := writeFails_sim b ⟨capacity b, contents b⟩ ⟨hwf, rfl, rfl⟩ v ow junk
  have hl : (contents b).length < capacity b := by rw [contents_length b hwf]; exact hroom
  simp only [qStep, hl, if_true] at hs
  exact ⟨hs.1, by rw [stepF, visible_eq _ hs.2.1, visible_eq _ hwf, hs.2.2.1]⟩

/-- C121, violated: an overwriting `write` that fails on a full buffer has lost the oldest element all the same. -/
theorem c121_failed_overwrite_loses_oldest [Inhabited α] {b : RB α} (h : Reachable b) (hf : full b = true)
    (hcap : 1 ≤ capacity b) (v junk : α) :
    (stepF b (.write v true junk)).1 = .copyFailed ∧ visible (stepF b (.write v true junk)).2 = (visible b).tail := by
  have hwf := reachable_wf h
  have hfull : ¬ size b < capacity b := by
    have := full_iff b hwf
    rw [hf] at this
    have : size b = capacity b := by simpa using this.symm
    omega
  have hs := writeFails_sim b ⟨capacity b, contents b⟩ ⟨hwf, rfl, rfl⟩ v true junk
  have hl : ¬ (contents b).length < capacity b := by rw [contents_length b hwf]; exact hfull
  have h0 : 0 < capacity b := hcap
  simp only [qStep, hl, if_false, true_and, h0, if_true] at hs
  exact ⟨hs.1, by rw [stepF, visible_eq _ hs.2.1, visible_eq _ hwf, hs.2.2.1, List.map_tail]⟩

/-- C121, violated: a `read` whose result cannot be copied has removed the element all the same. -/
theorem c121_failed_read_loses [Inhabited α] {b : RB α} (h : Reachable b) (hne : empty b = false) :
    (stepF b (.read : FOp α)).1 = .copyFailed ∧ visible (stepF b (.read : FOp α)).2 = (visible b).tail := by
  have hwf := reachable_wf h
  have hs := readFails_sim b ⟨capacity b, contents b⟩ ⟨hwf, rfl, rfl⟩
  cases hc : contents b with
  | nil =>
    have hsz : size b = 0 := by rw [← contents_length b hwf, hc]; rfl
    have := empty_iff b hwf
    rw [hne, hsz] at this
    cases this
  | cons x xs =>
    simp only [hc, qStep] at hs
    exact ⟨hs.1, by rw [stepF, visible_eq _ hs.2.1, visible_eq _ hwf, hs.2.2.1, hc]; rfl⟩

/-- C121: after a failure in the copy loop of a `setCapacity` that does not shrink the buffer, no call has undefined
behaviour and the new capacity is in force. -/
theorem c121_failed_growth_in_bounds [Inhabited α] {b : RB α} (h : Reachable b) (m i : Nat) (junk : α)
    (hm : capacity b ≤ m) (hi : i < size b) (ops : List (Op α)) :
    (stepF b (.setCapacityAt m i junk)).1 = .copyFailed ∧
    capacity (stepF b (.setCapacityAt m i junk)).2 = m ∧
    Obs.ub ∉ (run (stepF b (.setCapacityAt m i junk)).2 ops).1 := by
  have hwf := reachable_wf h
  have hlt := size_lt b hwf
  simp only [capacity] at hm
  obtain ⟨buf, h1, h2⟩ := setCapacityFails_eq b hwf m i junk (by omega)
  simp only [stepF, h2]
  refine ⟨trivial, by simp [capacity, h1], run_no_ub _ ⟨?_, ?_⟩ ops⟩
  · have := hwf.1; simp only [h1]; omega
  · have := hwf.2; simp only [h1]; omega

/-- C121, violated: a `setCapacity` that does not shrink the buffer and fails in its copy loop can leave other elements
than before, and more of them: 3, 4, 5 become 3, 4, two new elements, and 3 once more. -/
theorem c121_failed_growth_corrupts :
    let b := (run (mk 3 : RB Nat) [.write 1 false, .write 2 false, .write 3 false, .skip, .skip, .write 4 false, .write 5 false]).2
    visible b = [.ok 3, .ok 4, .ok 5] ∧
    visible (stepF b (.setCapacityAt 5 1 9)).2 = [.ok 3, .ok 4, .ok 0, .ok 0, .ok 3] := by
  decide +kernel

/-- C121, violated: after `n` calls of `write` on a new buffer of capacity `n`, a `setCapacity` to a smaller positive capacity
that fails in its copy loop leaves a buffer that claims to have more elements than capacity, and the next
overwriting `write` stores its value behind the end of the array. -/
theorem c121_failed_shrink_undefined [Inhabited α] (vs : List α) (m i : Nat) (junk v : α) (hm : m < vs.length) (hi : i < m) :
    let b := (run (mk vs.length : RB α) (vs.map fun x => .write x false)).2
    let b' := (stepF b (.setCapacityAt m i junk)).2
    (stepF b (.setCapacityAt m i junk)).1 = .copyFailed ∧ visible b = vs.map .ok ∧
    capacity b' < size b' ∧ (step b' (.write v true)).1 = .ub := by
  intro b b'
  have hrun : ∀ (us : List α) (c : RB α), Wf c → c.r = 0 → c.w + us.length < c.buf.length →
      Wf (run c (us.map fun x => .write x false)).2 ∧ (run c (us.map fun x => .write x false)).2.r = 0 ∧
      (run c (us.map fun x => .write x false)).2.w = c.w + us.length ∧
      (run c (us.map fun x => .write x false)).2.buf.length = c.buf.length ∧
      contents (run c (us.map fun x => .write x false)).2 = contents c ++ us := by
    intro us
    induction us with
    | nil => intro c h1 h2 h3; exact ⟨h1, h2, rfl, rfl, by simp [run]⟩
    | cons u us ih =>
      intro c h1 h2 h3
      simp only [List.length_cons] at h3
      have hroom : size c < capacity c := by simp only [size, capacity, h2]; split <;> omega
      have hst := store_room c h1 hroom u
      have hlt : ¬ (c.w + 1 ≥ c.buf.length) := by omega
      simp only [hlt, if_false] at hst
      obtain ⟨s1, s2, s3⟩ := hst
      have hstep : (step c (.write u false)).2 = { buf := c.buf.set c.w u, w := c.w + 1, r := c.r } := by
        have hw : c.w < c.buf.length := h1.1
        have : write c u false = .ok { buf := c.buf.set c.w u, w := c.w + 1, r := c.r } := by
          simp only [write, hlt, if_false, s3]
          simp only [bind, Outcome.bind, Outcome.vecSet, hw, if_true]
        simp [step, this, settle]
      have e : (run c ((u :: us).map fun x => Op.write x false)).2 =
          (run (step c (.write u false)).2 (us.map fun x => .write x false)).2 := rfl
      rw [e, hstep]
      obtain ⟨r1, r2, r3, r4, r5⟩ := ih _ s1 (by simpa using h2) (by simp; omega)
      refine ⟨r1, r2, by rw [r3]; simp; omega, by rw [r4]; simp, by rw [r5, s2]; simp⟩
  obtain ⟨h1, h2, h3, h4, h5⟩ := hrun vs (mk vs.length) (wf_mk _) rfl (by simp [mk])
  change Wf b at h1
  change b.r = 0 at h2
  change b.w = (mk vs.length : RB α).w + vs.length at h3
  change b.buf.length = (mk vs.length : RB α).buf.length at h4
  change contents b = contents (mk vs.length) ++ vs at h5
  rw [contents_mk, List.nil_append] at h5
  have h3' : b.w = vs.length := by rw [h3]; simp [mk]
  have hsz : size b = vs.length := by rw [← contents_length b h1, h5]
  obtain ⟨buf, g1, g2⟩ := setCapacityFails_eq b h1 m i junk (by omega)
  have hb' : b' = { b with buf := buf } := by show (setCapacityFails b m i junk).2 = _; rw [g2]
  refine ⟨by show (setCapacityFails b m i junk).1 = _; rw [g2], by rw [visible_eq _ h1, h5], ?_, ?_⟩
  · rw [hb']
    simp only [capacity, size, h2, g1, h3', ge_iff_le, Nat.zero_le, if_true]; omega
  · have hw : write b' v true = .ub := by
      rw [hb']
      have e1 : b.w + 1 ≥ buf.length := by rw [g1, h3']; omega
      have e2 : ¬ b.w = 0 := by omega
      have e3 : ¬ (1 ≥ m + 1) := by omega
      have e4 : ¬ (b.w < m + 1) := by omega
      simp [write, e1, h2, skip, e2, bind, Outcome.bind, Outcome.vecSet, g1, e4]
    simp [step, hw, settle]

/-- C121: a buffer of the largest capacity has no room at all: it says it could hold 2^64-1 elements, refuses every element,
and `full()` divides by zero. -/
theorem c121_largest_capacity [Inhabited α] (v : α) (ow : Bool) :
    capacity64 (mk64 (2 ^ 64 - 1) : RB α) = 2 ^ 64 - 1 ∧
    write (mk64 (2 ^ 64 - 1)) v ow = .throws .outOfRange ∧
    full64 (mk64 (2 ^ 64 - 1) : RB α) = .ub := by
  have h : (mk64 (2 ^ 64 - 1) : RB α) = { buf := [], w := 0, r := 0 } := by
    have : (2 ^ 64 - 1 + 1) % 2 ^ 64 = 0 := by decide
    simp only [mk64, this]
    rfl
  rw [h]
  refine ⟨by simp only [capacity64, List.length_nil], ?_, rfl⟩
  cases ow <;> rfl

/-- C121: all other capacities are what they say. -/
theorem c121_other_capacities [Inhabited α] (n : Nat) (hn : n < 2 ^ 64 - 1) :
    (mk64 n : RB α) = mk n ∧ capacity64 (mk64 n : RB α) = n ∧ full64 (mk64 n : RB α) = .ok (decide (n = 0)) := by
  have h : (n + 1) % 2 ^ 64 = n + 1 := Nat.mod_eq_of_lt (by omega)
  have h2 : (mk64 n : RB α) = mk n := by simp only [mk64, h, mk]
  refine ⟨h2, ?_, ?_⟩
  · rw [h2]
    simp only [capacity64, mk, List.length_replicate]
    omega
  · rw [h2]
    simp only [full64, mk, List.length_replicate, full, Nat.add_eq_zero_iff, Nat.one_ne_zero, and_false, if_false]
    congr 1
    rcases Nat.eq_zero_or_pos n with rfl | h0
    · rfl
    · rw [Nat.mod_eq_of_lt (by omega)]
      simp; omega

example : (runF (mk 2 : RB Nat) [.good (.write 1 false), .write 7 false 0, .good (.write 2 false), .write 3 true 9, .good .size,
    .read, .good .size, .setCapacityEarly 7, .good .capacity]).1
    = [.obs .unit, .copyFailed, .obs .unit, .copyFailed, .obs (.nat 1), .copyFailed, .obs (.nat 0), .copyFailed, .obs (.nat 2)] := rfl
example : (step (stepF (run (mk 3 : RB Nat) [.write 1 false, .write 2 false, .write 3 false]).2 (.setCapacityAt 1 0 9)).2
    (.write 4 true)).1 = .ub := rfl

end Verif.RingBuffer.Fail
