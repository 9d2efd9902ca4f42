import Verif.Logging.Pool

/-!
# C45: thread streams are not shared between threads
-/
namespace Verif.Logging.Pool

/-- Thread `t` was handed stream `i` by `threadStream(l)` and has not given it back. -/
def Holds (s : State) (t i l : Nat) : Prop :=
  (∃ txt, s.pc t = .unlock i l txt ∨ s.pc t = .flushWait i l txt ∨ s.pc t = .push i l txt) ∨ s.pc t = .release i l ∨
  (∃ d r, s.pc t = .write ⟨i, l, d, r⟩) ∨ (∃ f ∈ s.outer t, f.i = i ∧ f.l = l)

theorem holds_pool {s : State} (h : Inv s) {t i l : Nat} (hh : Holds s t i l) : s.pool[i]? = some (some (t, l)) := by
  rcases hh with ⟨txt, hh | hh | hh⟩ | hh | ⟨d, r, hh⟩ | ⟨f, hf, rfl, rfl⟩
  · exact h.tp t i l (by rw [hh]; rfl)
  · exact h.tp t i l (by rw [hh]; rfl)
  · exact h.tp t i l (by rw [hh]; rfl)
  · exact h.tp t i l (by rw [hh]; rfl)
  · exact h.tp t i l (by rw [hh]; rfl)
  · exact h.ot t f hf

theorem inv_exec {c : Cfg} (hc : c.nested = false) {s s' : State} (h : Inv s) (as : List (Nat × Act))
    (he : exec c s as = some s') : Inv s' := by
  induction as generalizing s with
  | nil => cases he; exact h
  | cons a as ih =>
    obtain ⟨s1, h1, h2⟩ := Option.bind_eq_some_iff.1 he
    exact ih (inv_step hc h a.1 a.2 h1) h2

theorem tinv_exec {c : Cfg} (hc : c.nested = false) (hr : c.racy = false) {s s' : State} (h : Inv s) (ht : TInv s)
    (as : List (Nat × Act)) (he : exec c s as = some s') : TInv s' := by
  induction as generalizing s with
  | nil => cases he; exact ht
  | cons a as ih =>
    obtain ⟨s1, h1, h2⟩ := Option.bind_eq_some_iff.1 he
    exact ih (inv_step hc h a.1 a.2 h1) (tinv_step hc hr h ht a.1 a.2 h1) h2

theorem cinv_exec {c : Cfg} {s s' : State} (h : CInv s) (as : List (Nat × Act)) (he : exec c s as = some s') :
    CInv s' := by
  induction as generalizing s with
  | nil => cases he; exact h
  | cons a as ih =>
    obtain ⟨s1, h1, h2⟩ := Option.bind_eq_some_iff.1 he
    exact ih (cinv_step h a.1 a.2 h1) h2

/-- C45, the part that holds: as long as no thread nests a log statement in one of the same level,
no two statements (of the same or of different threads) hold the same thread stream, under every
interleaving of any number of threads. Missing: same-level nesting, see `c45_nested_shared`; and
holding the stream exclusively does not protect the text, see `c45_flush_race`. -/
theorem c45_exclusive_partial (n : Nat) (racy : Bool) (sched : List (Nat × Act)) (s : State)
    (he : exec ⟨false, racy⟩ (init n) sched = some s) (t u i l l' : Nat) (h1 : Holds s t i l) (h2 : Holds s u i l') :
    t = u ∧ l = l' := by
  have hI := inv_exec (c := ⟨false, racy⟩) rfl (inv_init n) sched he
  have e1 := holds_pool hI h1
  rw [holds_pool hI h2] at e1
  simp only [Option.some.injEq, Prod.mk.injEq] at e1
  exact ⟨e1.1.symm, e1.2.symm⟩

/-- C45: a stream given back can be taken again: no stream stays assigned when no statement is
being executed. -/
theorem c45_no_leak_partial (n : Nat) (racy : Bool) (sched : List (Nat × Act)) (s : State)
    (he : exec ⟨false, racy⟩ (init n) sched = some s) (hidle : ∀ t, s.pc t = .idle) (i : Nat) (o : Option (Nat × Nat))
    (hi : s.pool[i]? = some o) : o = none := by
  have hI := inv_exec (c := ⟨false, racy⟩) rfl (inv_init n) sched he
  rcases o with _ | ⟨t, l⟩
  · rfl
  · rcases hI.us t i l hi with h | ⟨f, hf, _⟩
    · rw [hidle t] at h; cases h
    · rw [hI.nt t (hidle t)] at hf; cases hf

/-- C45, texts: if moreover no `threadStream()` call runs while another thread is in `flush` between
giving the stream back (line 142) and resetting its write index (line 148), every message is exactly
the text of its log statement. -/
theorem c45_text_partial (n : Nat) (sched : List (Nat × Act)) (s : State)
    (he : exec ⟨false, false⟩ (init n) sched = some s) (m : Msg) (hm : m ∈ s.out) : m.text = m.meant :=
  (tinv_exec (c := ⟨false, false⟩) rfl rfl (inv_init n) (tinv_init n) sched he).ms m hm

/-- C45, under every interleaving: when a thread has finished all its log statements, exactly one
message was pushed for each of them, and in order if the thread never nested statements. -/
theorem c45_one_message_each (c : Cfg) (n : Nat) (sched : List (Nat × Act)) (s : State)
    (he : exec c (init n) sched = some s) (t : Nat) (hidle : s.pc t = .idle) (hout : s.outer t = []) :
    (s.called t).Perm ((s.out.filter (·.thread = t)).map fun m => (m.level, m.meant)) ∧
    (s.nests t = false → s.called t = (s.out.filter (·.thread = t)).map fun m => (m.level, m.meant)) := by
  have hC := cinv_exec (cinv_init n) sched he
  refine ⟨?_, fun hn => ?_⟩
  · simpa [pending, pendingTop, hidle, hout, meantOf] using hC.al t
  · simpa [pendingTop, hidle, meantOf] using (hC.eq t hn).1

/-- C45, texts and order together. -/
theorem c45_delivery_partial (n : Nat) (sched : List (Nat × Act)) (s : State)
    (he : exec ⟨false, false⟩ (init n) sched = some s) (t : Nat) (hidle : s.pc t = .idle) (hout : s.outer t = []) :
    (s.called t).Perm ((s.out.filter (·.thread = t)).map fun m => (m.level, m.text)) ∧
    (s.nests t = false → s.called t = (s.out.filter (·.thread = t)).map fun m => (m.level, m.text)) := by
  have e : (s.out.filter (·.thread = t)).map (fun m => (m.level, m.meant)) =
      (s.out.filter (·.thread = t)).map (fun m => (m.level, m.text)) := by
    refine List.map_congr_left fun m hm => ?_
    rw [c45_text_partial n sched s he m (List.mem_filter.1 hm).1]
  obtain ⟨h1, h2⟩ := c45_one_message_each _ n sched s he t hidle hout
  rw [e] at h1 h2
  exact ⟨h1, h2⟩

/-- `k` statements of thread `t`. -/
def gos (t k : Nat) : List (Nat × Act) := List.replicate k (t, .go)

/-- Thread 1 logs [1, 2] at level 2 and thread 2 logs [7] at level 3, interleaved; thread 1 logs [3] at
level 4 while evaluating the arguments of its first statement. -/
def goodSched : List (Nat × Act) :=
  [(1, .call 2 [1, 2])] ++ gos 1 4 ++ [(2, .call 3 [7])] ++ gos 2 4 ++ [(1, .call 4 [3])] ++ gos 1 10 ++ gos 1 7 ++ gos 2 6

/-- The hypotheses of `c45_delivery_partial` are met by a schedule with two threads and a nested
statement. -/
example : ∃ s, exec ⟨false, false⟩ (init 2) goodSched = some s ∧ s.pc 1 = .idle ∧ s.outer 1 = [] ∧ s.nests 1 = true ∧ s.nests 2 = false ∧ s.pc 2 = .idle ∧ s.called 2 = [(3, [7])] ∧
    s.out = [⟨1, 4, [3], [3]⟩, ⟨1, 2, [1, 2], [1, 2]⟩, ⟨2, 3, [7], [7]⟩] ∧ s.called 1 = [(2, [1, 2]), (4, [3])] ∧
    s.pool.length = 3 :=
  ⟨_, rfl, by decide⟩

/-- Two threads holding different streams. -/
example : ∃ s, exec ⟨false, true⟩ (init 2) ([(1, .call 2 [1])] ++ gos 1 4 ++ [(2, .call 2 [7])] ++ gos 2 4) = some s ∧
    s.pc 1 = .write ⟨0, 2, [1], []⟩ ∧ s.pc 2 = .write ⟨1, 2, [7], []⟩ :=
  ⟨_, rfl, by decide⟩

/-- Thread 1 logs [1], thread 2 takes the stream given back by thread 1 and writes 7, thread 1 resets
the write index, thread 2 writes 8 and flushes. -/
def raceSched : List (Nat × Act) :=
  [(1, .call 2 [1])] ++ gos 1 9 ++ [(2, .call 2 [7, 8])] ++ gos 2 4 ++ gos 1 1 ++ gos 2 4

/-- Finding: `flush` gives the stream back before it resets the write index. Under this schedule of
two threads, thread 2's message "7 8" is output as "8": text is lost. -/
theorem c45_flush_race : ∃ s, exec ⟨false, true⟩ (init 32) raceSched = some s ∧
    s.out = [⟨1, 2, [1], [1]⟩, ⟨2, 2, [8], [7, 8]⟩] :=
  ⟨_, rfl, by decide⟩

/-- As above, but thread 1 is still before the reset when thread 2 flushes. -/
def raceSched2 : List (Nat × Act) := [(1, .call 2 [1])] ++ gos 1 9 ++ [(2, .call 2 [7, 8])] ++ gos 2 8

/-- Finding: with the other order, thread 2's message contains the text of thread 1's message. -/
theorem c45_flush_race_mixes : ∃ s, exec ⟨false, true⟩ (init 32) raceSched2 = some s ∧
    s.out = [⟨1, 2, [1], [1]⟩, ⟨2, 2, [1, 7, 8], [7, 8]⟩] :=
  ⟨_, rfl, by decide⟩

/-- Thread 1 logs while evaluating the arguments of a statement of the same level, then thread 2
starts a statement. -/
def nestSched : List (Nat × Act) :=
  [(1, .call 2 [1, 2])] ++ gos 1 4 ++ [(1, .call 2 [3])] ++ gos 1 10 ++ [(2, .call 2 [7])] ++ gos 2 4 ++ gos 1 4

/-- Finding: the inner statement gives back the stream of the outer one. Here threads 1 and 2 then hold
the same stream and thread 1 outputs the text of thread 2; the inner message repeats the outer text. -/
theorem c45_nested_shared : ∃ s, exec anyCfg (init 32) nestSched = some s ∧
    s.pc 1 = .release 0 2 ∧ s.pc 2 = .write ⟨0, 2, [7], []⟩ ∧
    s.out = [⟨1, 2, [1, 3], [3]⟩, ⟨1, 2, [7, 2], [1, 2]⟩] :=
  ⟨_, rfl, by decide⟩

/-- Both threads of `c45_nested_shared` hold stream 0. -/
theorem c45_nested_shared_holds : ∃ s, exec anyCfg (init 32) nestSched = some s ∧ Holds s 1 0 2 ∧ Holds s 2 0 2 := by
  obtain ⟨s, h1, h2, h3, _⟩ := c45_nested_shared
  exact ⟨s, h1, Or.inr (Or.inl h2), Or.inr (Or.inr (Or.inl ⟨_, _, h3⟩))⟩

end Verif.Logging.Pool
