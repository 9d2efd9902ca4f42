import Verif.Conc.RWLockPosix

/-! # C94: read/write locks on POSIX systems -/
namespace Verif.Conc.RWLockPosix

/-- What `s` says `t` holds. -/
def Os.holds (s : Os) (t : Nat) : Held := ⟨decide (s.writer = some t), s.readers.count t⟩

/-- Invariant: no readers while there is a writer. -/
def Ok (s : Os) : Prop := s.writer ≠ none → s.readers = []

theorem readResult_ok (h : How) (rc : Rc) : readResult h rc = decide (rc = .ok) := by
  cases h <;> cases rc <;> rfl

theorem writeResult_ok (h : How) (rc : Rc) : writeResult h rc = decide (rc = .ok) := by
  cases h <;> cases rc <;> rfl

theorem step_ok {max : Nat} {s s' : Os} {e : Ev} {r : Rec} (h : step max s e = some (s', r)) (hs : Ok s) : Ok s' := by
  obtain ⟨w, rd⟩ := s
  cases e with
  | read t hw => cases hw <;> simp only [step, Os.rd, Os.refuse] at h <;> unfold Ok at * <;> grind
  | write t hw => cases hw <;> simp only [step, Os.wr, Os.refuse] at h <;> unfold Ok at * <;> grind
  | unlock t => simp only [step, Os.unlock] at h; unfold Ok at *; grind

theorem step_holds {max : Nat} {s s' : Os} {e : Ev} {r : Rec} (h : step max s e = some (s', r)) (hs : Ok s) (t : Nat) :
    s'.holds t = (s.holds t).next t r := by
  obtain ⟨w, rd⟩ := s
  cases e with
  | read u hw =>
    cases hw <;> simp only [step, Os.rd, Os.refuse, readResult_ok] at h <;> unfold Ok at * <;>
      simp only [Os.holds, Held.next, Ev.who] <;> grind [List.count_cons]
  | write u hw =>
    simp only [step, Option.map_eq_some_iff, Prod.mk.injEq] at h
    obtain ⟨⟨s1, rc⟩, h1, h2, h3⟩ := h
    subst h2 h3
    have hx : (s1 = ⟨w, rd⟩ ∧ rc ≠ .ok) ∨ (s1 = ⟨some u, rd⟩ ∧ w = none ∧ rc = .ok) := by
      cases hw <;> simp only [Os.wr, Os.refuse] at h1 <;> grind
    rcases hx with ⟨rfl, hrc⟩ | ⟨rfl, rfl, rfl⟩
    · simp [Held.next, writeResult_ok, hrc]
    · by_cases hu : u = t <;> simp [Held.next, writeResult_ok, Ev.who, Os.holds, hu]
  | unlock u =>
    simp only [step, Option.map_eq_some_iff, Prod.mk.injEq] at h
    obtain ⟨s1, h1, h2, h3⟩ := h
    subst h2 h3
    simp only [Os.unlock] at h1
    have ho : w ≠ none → rd = [] := hs
    split at h1
    · rename_i hw
      cases h1
      subst hw
      by_cases hu : u = t <;> simp [Held.next, Ev.who, Os.holds, hu]
    · rename_i hw
      split at h1
      · rename_i hm
        cases h1
        have hwn : w = none := by
          cases w with
          | none => rfl
          | some x => rw [ho (by simp)] at hm; cases hm
        subst hwn
        by_cases hu : u = t
        · subst hu; simp [Held.next, Ev.who, Os.holds, List.count_erase_self]
        · simp [Held.next, Ev.who, Os.holds, hu, List.count_erase_of_ne (Ne.symm hu)]
      · cases h1

theorem run_inv {max : Nat} {s s' : Os} {rs : List Rec} (h : Run max s rs s') (hs : Ok s) :
    Ok s' ∧ ∀ t, s'.holds t = rs.foldl (Held.next t) (s.holds t) := by
  induction h with
  | nil => exact ⟨hs, fun _ => rfl⟩
  | cons h1 _ ih =>
    obtain ⟨i1, i2⟩ := ih (step_ok h1 hs)
    refine ⟨i1, fun t => ?_⟩
    rw [i2 t, List.foldl_cons, step_holds h1 hs t]

theorem ok_new : Ok Os.new := fun h => absurd rfl h

/-- C94. After every history of any number of threads, the lock is held exactly as the results returned
to the threads say: the writer is the one whose `writeLock` returned `true`, and each thread has as many
read locks as it was told. -/
theorem c94_results {max : Nat} {s : Os} {rs : List Rec} (h : Run max Os.new rs s) (t : Nat) :
    (held t rs).write = decide (s.writer = some t) ∧ (held t rs).reads = s.readers.count t := by
  have := (run_inv h ok_new).2 t
  have e : Os.new.holds t = .nothing := by simp [Os.holds, Os.new, Held.nothing]
  rw [e] at this
  unfold held
  rw [← this]
  exact ⟨rfl, rfl⟩

/-- C94. A writer excludes everybody else, and also excludes read locks of its own: whoever was told it
has the write lock, no other thread was told it has any lock that it has not given back. -/
theorem c94_exclusion {max : Nat} {s : Os} {rs : List Rec} (h : Run max Os.new rs s) {t : Nat}
    (ht : (held t rs).write = true) : (held t rs).reads = 0 ∧ ∀ u, u ≠ t → held u rs = .nothing := by
  have ho := (run_inv h ok_new).1
  have h1 := c94_results h t
  rw [ht] at h1
  have hw : s.writer = some t := by simpa using h1.1.symm
  have hr : s.readers = [] := ho (by simp [hw])
  refine ⟨by rw [h1.2, hr]; rfl, fun u hu => ?_⟩
  have h2 := c94_results h u
  rw [hr, hw] at h2
  have : ¬ (some t = some u) := by simpa using fun e => hu e.symm
  simp only [this, decide_false, List.count_nil] at h2
  obtain ⟨a, b⟩ := h2
  cases hx : held u rs with
  | mk w n => rw [hx] at a b; simp only at a b; subst a b; rfl

/-- C94. A call that returns `false` (timed out, busy, refused) has changed nothing: what follows can
follow without it (compare C54 for Windows). -/
theorem c94_failed_attempt {max : Nat} {s s' : Os} {e : Ev} {r : Rec} (h : step max s e = some (s', r))
    (hr : r.res = false) : s' = s := by
  obtain ⟨w, rd⟩ := s
  cases e with
  | read t hw => cases hw <;> simp only [step, Os.rd, Os.refuse, readResult_ok] at h <;> grind
  | write t hw => cases hw <;> simp only [step, Os.wr, Os.refuse, writeResult_ok] at h <;> grind
  | unlock t => simp only [step, Os.unlock] at h; grind

/-- C94, liveness. Once every thread has given back what it was told it holds, every way of asking for
the lock succeeds at once for every thread. -/
theorem c94_free_again {max : Nat} {s : Os} {rs : List Rec} (h : Run max Os.new rs s) (hm : 0 < max)
    (hz : ∀ t, held t rs = .nothing) (t : Nat) (hw : How) :
    (∃ s', step max s (.read t hw) = some (s', ⟨.read t hw, true⟩) ∧ s'.holds t = ⟨false, 1⟩) ∧
    (∃ s', step max s (.write t hw) = some (s', ⟨.write t hw, true⟩) ∧ s'.holds t = ⟨true, 0⟩) := by
  have hwr : s.writer = none := by
    cases hx : s.writer with
    | none => rfl
    | some o =>
      have := (c94_results h o).1
      rw [hz o, hx] at this
      simp [Held.nothing] at this
  have hrd : s.readers = [] := by
    cases hx : s.readers with
    | nil => rfl
    | cons o l =>
      have := (c94_results h o).2
      rw [hz o, hx] at this
      simp [Held.nothing] at this
  constructor
  · exact ⟨⟨none, [t]⟩, by simp [step, Os.rd, hwr, hrd, hm, readResult_ok], by simp [Os.holds]⟩
  · exact ⟨⟨some t, []⟩, by simp [step, Os.wr, hwr, hrd, writeResult_ok], by simp [Os.holds]⟩

/-- C94, sharing. While nobody was told it has the write lock, every way of asking for a read lock succeeds
at once, up to the maximal number of read locks. -/
theorem c94_readers_share {max : Nat} {s : Os} {rs : List Rec} (h : Run max Os.new rs s)
    (hz : ∀ t, (held t rs).write = false) (hm : s.readers.length < max) (t : Nat) (hw : How) :
    ∃ s', step max s (.read t hw) = some (s', ⟨.read t hw, true⟩) ∧ s'.holds t = ⟨false, (held t rs).reads + 1⟩ := by
  have hwr : s.writer = none := by
    cases hx : s.writer with
    | none => rfl
    | some o =>
      have := (c94_results h o).1
      rw [hz o, hx] at this
      simp at this
  refine ⟨⟨none, t :: s.readers⟩, by simp [step, Os.rd, hwr, hm, readResult_ok], ?_⟩
  simp [Os.holds, (c94_results h t).2]

/-- C94. Exactly the calls without timeout can block: `readLock()` while another thread has the write lock,
and `writeLock()` while another thread has it or anybody (also the caller) has a read lock. `unlock()` is
defined exactly for a thread that was told it holds something. -/
theorem c94_blocking {max : Nat} {s : Os} {rs : List Rec} (h : Run max Os.new rs s) (t : Nat) (hw : How) :
    (step max s (.read t hw) = none ↔ hw = .wait ∧ ∃ u, u ≠ t ∧ (held u rs).write = true) ∧
    (step max s (.write t hw) = none ↔ hw = .wait ∧
      ((∃ u, u ≠ t ∧ (held u rs).write = true) ∨ ∃ u, 0 < (held u rs).reads)) ∧
    (step max s (.unlock t) = none ↔ held t rs = .nothing) := by
  have ho := (run_inv h ok_new).1
  have hW : ∀ u, (held u rs).write = true ↔ s.writer = some u := fun u => by rw [(c94_results h u).1]; simp
  have hR : ∀ u, 0 < (held u rs).reads ↔ u ∈ s.readers := fun u => by
    rw [(c94_results h u).2]; exact List.count_pos_iff
  refine ⟨?_, ?_, ?_⟩
  · simp only [hW]
    unfold Ok at ho
    obtain ⟨w, rd⟩ := s
    cases hw <;> simp only [step, Os.rd, Os.refuse, Option.map_eq_none_iff] <;> grind
  · simp only [hW, hR]
    unfold Ok at ho
    obtain ⟨w, rd⟩ := s
    have : rd ≠ [] ↔ ∃ u, u ∈ rd := by
      cases rd with
      | nil => simp
      | cons a l => simp only [ne_eq, reduceCtorEq, not_false_eq_true, true_iff]; exact ⟨a, by simp⟩
    cases hw <;> simp only [step, Os.wr, Os.refuse, Option.map_eq_none_iff] <;> grind
  · have e : held t rs = .nothing ↔ (held t rs).write ≠ true ∧ ¬ 0 < (held t rs).reads := by
      cases held t rs with
      | mk w n => simp [Held.nothing]
    rw [e]
    simp only [hW, hR, step, Os.unlock, Option.map_eq_none_iff, ne_eq]
    grind

/-- A history with two readers, a refused writer, a granted writer and refused readers. -/
example : ∃ s, Run 5 Os.new [⟨.read 1 .wait, true⟩, ⟨.read 2 .try_, true⟩, ⟨.write 3 .timed, false⟩, ⟨.unlock 1, true⟩,
      ⟨.unlock 2, true⟩, ⟨.write 3 .wait, true⟩, ⟨.read 1 .try_, false⟩, ⟨.write 3 .wait, false⟩] s ∧ s.holds 3 = ⟨true, 0⟩ := by
  refine ⟨⟨some 3, []⟩, ?_, by decide⟩
  refine Run.cons (e := .read 1 .wait) (by rfl) ?_
  refine Run.cons (e := .read 2 .try_) (by rfl) ?_
  refine Run.cons (e := .write 3 .timed) (by rfl) ?_
  refine Run.cons (e := .unlock 1) (by rfl) ?_
  refine Run.cons (e := .unlock 2) (by rfl) ?_
  refine Run.cons (e := .write 3 .wait) (by rfl) ?_
  refine Run.cons (e := .read 1 .try_) (by rfl) ?_
  refine Run.cons (e := .write 3 .wait) (by rfl) ?_
  exact Run.nil _

theorem reader_stays {max : Nat} {s s' : Os} {rs : List Rec} (h : Run max s rs s') {t : Nat} (ht : t ∈ s.readers)
    (hs : Ok s) (hn : ∀ r ∈ rs, r.ev.who ≠ t) : t ∈ s'.readers := by
  induction h with
  | nil => exact ht
  | @cons s s1 s2 e r rs h1 _ ih =>
    refine ih ?_ (step_ok h1 hs) (fun r' hr' => hn r' (List.mem_cons_of_mem _ hr'))
    have hw := hn r List.mem_cons_self
    have hh := step_holds h1 hs t
    simp only [Held.next, hw, if_false, Os.holds, Held.mk.injEq] at hh
    exact List.count_pos_iff.1 (by rw [hh.2]; exact List.count_pos_iff.2 ht)

/-- C94 (upgrading deadlocks). A thread that holds a read lock and calls `writeLock()` waits for ever,
whatever the other threads do; and from then on no thread gets the write lock. -/
theorem c94_upgrade_deadlock {max : Nat} {s s' : Os} {pre rs : List Rec} (h0 : Run max Os.new pre s) {t : Nat}
    (ht : 0 < (held t pre).reads) (h : Run max s rs s') (hn : ∀ r ∈ rs, r.ev.who ≠ t) :
    step max s' (.write t .wait) = none ∧ ∀ r ∈ rs, ∀ u hw, r.ev = .write u hw → r.res = false := by
  have hs := (run_inv h0 ok_new).1
  have hm : t ∈ s.readers := List.count_pos_iff.1 (by rw [← (c94_results h0 t).2]; exact ht)
  clear h0 ht
  refine ⟨?_, ?_⟩
  · have h1 := reader_stays h hm hs hn
    have h2 := (run_inv h hs).1
    obtain ⟨w, rd⟩ := s'
    cases w with
    | none =>
      have : rd ≠ [] := List.ne_nil_of_mem h1
      simp [step, Os.wr, Os.refuse, this]
    | some w => rw [h2 (by simp)] at h1; cases h1
  · induction h with
    | nil => intro r hr; cases hr
    | @cons s s1 s2 e r rs h1 h2 ih =>
      intro r' hr'
      have hr0 := hn r List.mem_cons_self
      rcases List.mem_cons.1 hr' with rfl | hr'
      · intro u hw he
        obtain ⟨w, rd⟩ := s
        have hne : rd ≠ [] := List.ne_nil_of_mem hm
        have hwn : w = none := by
          cases w with
          | none => rfl
          | some w => rw [hs (by simp)] at hm; cases hm
        subst hwn
        cases e with
        | read t hw => simp only [step, Option.map_eq_some_iff] at h1; grind
        | unlock t => simp only [step, Option.map_eq_some_iff] at h1; grind
        | write t hw =>
          cases hw <;> simp only [step, Os.wr, Os.refuse, hne, writeResult_ok] at h1 <;> grind
      · exact ih (fun r2 h2 => hn r2 (List.mem_cons_of_mem _ h2)) (step_ok h1 hs)
          (reader_stays (Run.cons h1 (Run.nil _)) hm hs (by simpa using hr0)) r' hr'

/-- The hypotheses of `c94_upgrade_deadlock` are met by a history in which another reader comes and goes. -/
example : ∃ s s', Run 5 Os.new [⟨.read 1 .wait, true⟩] s ∧
    Run 5 s [⟨.read 2 .try_, true⟩, ⟨.unlock 2, true⟩, ⟨.write 2 .try_, false⟩] s' ∧ 0 < (held 1 [⟨.read 1 .wait, true⟩]).reads := by
  refine ⟨⟨none, [1]⟩, ⟨none, [1]⟩, Run.cons (e := .read 1 .wait) (by rfl) (Run.nil _), ?_, by decide⟩
  refine Run.cons (e := .read 2 .try_) (by rfl) ?_
  refine Run.cons (e := .unlock 2) (by rfl) ?_
  exact Run.cons (e := .write 2 .try_) (by rfl) (Run.nil _)

/-- C94 (asking again). A thread that has the write lock gets `false` from every further request, at once;
so a forcing `ScopedRWLock` on a lock the thread has already write-locked never finishes its constructor. -/
theorem c94_relock_refused {max : Nat} {s : Os} {rs : List Rec} (h : Run max Os.new rs s) {t : Nat}
    (ht : (held t rs).write = true) (hw : How) :
    step max s (.read t hw) = some (s, ⟨.read t hw, false⟩) ∧
    step max s (.write t hw) = some (s, ⟨.write t hw, false⟩) ∧
    ∀ fuel, Scoped.ctor true (fun _ => ((step max s (.write t .wait)).map (·.2.res)).getD true) fuel = none := by
  have h1 := c94_results h t
  rw [ht] at h1
  have hwr : s.writer = some t := by simpa using h1.1.symm
  have key : ∀ hw, step max s (.write t hw) = some (s, ⟨.write t hw, false⟩) := by
    intro hw
    cases hw <;> simp [step, Os.wr, hwr, Os.refuse, writeResult_ok]
  refine ⟨by cases hw <;> simp [step, Os.rd, hwr, Os.refuse, readResult_ok], key hw, ?_⟩
  intro fuel
  simp only [key, Option.map_some, Option.getD_some, Scoped.ctor]
  generalize 0 = n
  induction fuel generalizing n with
  | zero => rfl
  | succ k ih => simpa [Scoped.ctorLoop] using ih (n + 1)

end Verif.Conc.RWLockPosix
