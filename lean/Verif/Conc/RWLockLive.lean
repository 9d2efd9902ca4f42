import Verif.Conc.RWLockProps

/-!
# The Win32 read-write lock does not deadlock (C126)
-/
namespace Verif.RWLock

/-- Inside `readLock` or `writeLock`, in one of their waits. -/
def Waiting (p : PC) : Prop := p = .rLock ∨ p = .rWait ∨ p = .wMutex ∨ p = .wEvent

/-- Outside all calls and holding a lock. -/
def Holds (s : State) (u : Nat) : Prop := s.pc u = .holdW ∨ (s.pc u = .idle ∧ 0 < s.reads u)

theorem blocked {c : Cfg} {s : State} {t : Nat} (h : step c s t .go = none) :
    s.pc t = .idle ∨ s.pc t = .holdW ∨ (s.pc t = .rLock ∧ s.access ≠ none) ∨ (s.pc t = .rWait ∧ s.event = false) ∨
    (s.pc t = .wMutex ∧ s.mOwner ≠ none ∧ s.mOwner ≠ some t) ∨ (s.pc t = .wEvent ∧ s.event = false) ∨
    (s.pc t = .urLock ∧ s.access ≠ none) := by
  unfold step at h
  cases hp : s.pc t <;> rw [hp] at h <;> simp only [reduceCtorEq] at h <;> simp <;> grind

theorem stuck_access {s : State} (hi : Inv ⟨false, false⟩ s) (hs : ∀ t, step ⟨false, false⟩ s t .go = none)
    (ha : s.access ≠ none) : (∃ u, s.pc u = .rWait) ∧ s.event = false ∧ s.readers = [] := by
  obtain ⟨u, hu⟩ := Option.ne_none_iff_exists'.1 ha
  have := (hi.access u).2 hu
  have hw : s.pc u = .rWait ∧ s.event = false := by
    rcases blocked (hs u) with h | h | h | h | h | h | h
    · rw [h] at this; simp [acc] at this
    · rw [h] at this; simp [acc] at this
    · rw [h.1] at this; simp [acc] at this
    · exact h
    · rw [h.1] at this; simp [acc] at this
    · rw [h.1] at this; simp [acc] at this
    · rw [h.1] at this; simp [acc] at this
  exact ⟨⟨u, hw.1⟩, hw.2, hi.wait u hw.1⟩

theorem stuck_no_unlock {s : State} (hi : Inv ⟨false, false⟩ s) (hs : ∀ t, step ⟨false, false⟩ s t .go = none) (t : Nat) :
    s.pc t ≠ .urLock := by
  intro hp
  have hb := blocked (hs t)
  rw [hp] at hb
  simp only [reduceCtorEq, false_and, false_or, true_and] at hb
  have hr := (stuck_access hi hs hb).2.2
  have := hi.cntE rfl t
  rw [hp, hr] at this
  simp [extra] at this

theorem stuck_event {s : State} (hi : Inv ⟨false, false⟩ s) (hs : ∀ t, step ⟨false, false⟩ s t .go = none)
    (he : s.event = false) : ∃ u, Holds s u := by
  cases hr : s.readers with
  | nil =>
    obtain ⟨u, hu⟩ := hi.tok he hr
    refine ⟨u, .inl ?_⟩
    rcases blocked (hs u) with h | h | h | h | h | h | h
    · rw [h] at hu; simp [rtr, wtok] at hu
    · exact h
    all_goals rw [h.1] at hu; simp [rtr, wtok] at hu
  | cons u l =>
    have hc := hi.cntE rfl u
    have h1 : 0 < s.readers.count u := List.count_pos_iff.2 (by rw [hr]; simp)
    have hn := stuck_no_unlock hi hs u
    have hx : extra (s.pc u) = 0 ∧ (s.pc u = .idle ∨ s.pc u = .holdW ∨ (s.pc u = .rLock ∧ s.access ≠ none) ∨ s.pc u = .rWait ∨
        s.pc u = .wMutex ∨ s.pc u = .wEvent) := by
      rcases blocked (hs u) with h | h | h | h | h | h | h
      · rw [h]; simp [extra]
      · rw [h]; simp [extra]
      · rw [h.1]; simp [extra, h.2]
      · rw [h.1]; simp [extra]
      · rw [h.1]; simp [extra]
      · rw [h.1]; simp [extra]
      · exact absurd h.1 hn
    have hpos : 0 < s.reads u := by omega
    rcases hx.2 with h | h | h | h | h | h
    · exact ⟨u, .inr ⟨h, hpos⟩⟩
    · exact ⟨u, .inl h⟩
    · have := (stuck_access hi hs h.2).2.2
      rw [hr] at this; cases this
    · have := hi.wait u h
      rw [hr] at this; cases this
    · have := hi.noR u (.inr (.inl h)); omega
    · have := hi.noR u (.inr (.inr h)); omega

/-- C126. No deadlock: in every reachable state (no time-out of the second wait of `writeLock`, no `unlock` that
gives up) in which no thread can go on, every thread is outside all calls, or waits in `readLock` or `writeLock`
while some other thread, outside all calls, holds the lock and has still to unlock it. In particular no thread
waits in `unlock`. -/
theorem c126_no_deadlock_partial {s : State} (h : Reach ⟨false, false⟩ s) (hs : ∀ t, step ⟨false, false⟩ s t .go = none) (t : Nat) :
    s.pc t = .idle ∨ s.pc t = .holdW ∨ (Waiting (s.pc t) ∧ ∃ u, u ≠ t ∧ Holds s u) := by
  have hi := reach_inv h
  have key : Waiting (s.pc t) → (∃ u, Holds s u) → ∃ u, u ≠ t ∧ Holds s u := by
    rintro hw ⟨u, hu⟩
    refine ⟨u, ?_, hu⟩
    rintro rfl
    rcases hu with hu | hu
    · rw [hu] at hw; simp [Waiting] at hw
    · rw [hu.1] at hw; simp [Waiting] at hw
  rcases blocked (hs t) with h | h | h | h | h | h | h
  · exact .inl h
  · exact .inr (.inl h)
  · have hw : Waiting (s.pc t) := .inl h.1
    exact .inr (.inr ⟨hw, key hw (stuck_event hi hs (stuck_access hi hs h.2).2.1)⟩)
  · have hw : Waiting (s.pc t) := .inr (.inl h.1)
    exact .inr (.inr ⟨hw, key hw (stuck_event hi hs h.2)⟩)
  · have hw : Waiting (s.pc t) := .inr (.inr (.inl h.1))
    refine .inr (.inr ⟨hw, key hw ?_⟩)
    obtain ⟨u, hu⟩ := Option.ne_none_iff_exists'.1 h.2.1
    have hm := ((hi.mtx rfl).1 u).2 hu
    rcases blocked (hs u) with h' | h' | h' | h' | h' | h' | h'
    · rw [h'] at hm; simp [mown] at hm
    · exact ⟨u, .inl h'⟩
    · rw [h'.1] at hm; simp [mown] at hm
    · rw [h'.1] at hm; simp [mown] at hm
    · rw [h'.1] at hm; simp [mown] at hm
    · exact stuck_event hi hs h'.2
    · rw [h'.1] at hm; simp [mown] at hm
  · have hw : Waiting (s.pc t) := .inr (.inr (.inr h.1))
    exact .inr (.inr ⟨hw, key hw (stuck_event hi hs h.2)⟩)
  · exact absurd h.1 (stuck_no_unlock hi hs t)

/-- C126: if nobody holds the lock and somebody is inside a call, some thread inside a call can go on. -/
theorem c126_progress_partial {s : State} (h : Reach ⟨false, false⟩ s) (hn : ∀ u, ¬ Holds s u) (t : Nat) (ht : s.pc t ≠ .idle) :
    ∃ u s', step ⟨false, false⟩ s u .go = some s' := by
  apply Classical.byContradiction
  intro hno
  have hs : ∀ t, step ⟨false, false⟩ s t .go = none := by
    intro u
    cases hu : step ⟨false, false⟩ s u .go with
    | none => rfl
    | some s' => exact absurd ⟨u, s', hu⟩ hno
  rcases c126_no_deadlock_partial h hs t with h' | h' | ⟨_, u, _, hu⟩
  · exact ht h'
  · exact hn t (.inl h')
  · exact hn u hu

/-- How many actions a call has left at most. -/
def left : PC → Nat
  | .idle | .holdW => 0
  | .rLock => 5 | .rCheck => 4 | .rWait => 3 | .rPush => 2 | .rUnlock _ => 1
  | .wMutex => 4 | .wEvent => 3 | .wPid => 2 | .wCount => 1
  | .uCheck _ => 5 | .uwRelease => 4 | .uwCount => 3 | .uwPid => 2 | .uwSet => 1
  | .urLock => 4 | .urErase => 3 | .urSet => 2 | .urUnlock => 1

/-- A call. -/
def Act.isCall : Act → Bool
  | .callRead | .callWrite | .callUnlock => true
  | _ => false

theorem step_left {c : Cfg} {s s' : State} {t : Nat} {a : Act} (h : step c s t a = some s') (u : Nat) :
    left (s'.pc u) + (if u = t ∧ a = .go then 1 else 0) ≤ left (s.pc u) + (if u = t ∧ a.isCall = true then 5 else 0) := by
  unfold step at h
  by_cases hu : u = t
  · subst hu
    cases hp : s.pc u <;> cases a <;> rw [hp] at h <;> simp only [reduceCtorEq] at h <;> (try split at h) <;>
      simp only [Option.some.injEq, reduceCtorEq] at h <;> subst h <;> simp [setPc, left, Act.isCall] <;> grind [left]
  · have : s'.pc u = s.pc u := by
      cases hp : s.pc t <;> cases a <;> rw [hp] at h <;> simp only [reduceCtorEq] at h <;> (try split at h) <;>
        simp only [Option.some.injEq, reduceCtorEq] at h <;> subst h <;> simp [setPc, hu]
    simp [this, hu]

/-- C126. Every call is over after at most five actions of its own, waits included: in every schedule a thread makes
at most five actions for each of its calls, whatever the time-outs. With `c126_no_deadlock_partial`: a call that
never returns waits for a thread that never unlocks, or is overtaken for ever (`c126_writer_starves`). -/
theorem c126_calls_short (c : Cfg) (as : List (Nat × Act)) (s : State) (h : exec c init as = some s) (t : Nat) :
    as.countP (fun x => x.1 = t && x.2 = .go) ≤ 5 * as.countP (fun x => x.1 = t && x.2.isCall) := by
  have key : ∀ (as : List (Nat × Act)) (s s' : State), exec c s as = some s' →
      left (s'.pc t) + as.countP (fun x => x.1 = t && x.2 = .go) ≤
        left (s.pc t) + 5 * as.countP (fun x => x.1 = t && x.2.isCall) := by
    intro as
    induction as with
    | nil => intro s s' he; cases he; simp
    | cons a as ih =>
      obtain ⟨v, a⟩ := a
      intro s s' he
      simp only [exec] at he
      cases hst : step c s v a with
      | none => rw [hst] at he; cases he
      | some s1 =>
        rw [hst] at he
        have h1 := ih s1 s' he
        have h2 := step_left hst t
        simp only [List.countP_cons, Bool.and_eq_true, decide_eq_true_eq]
        by_cases hv : v = t
        · subst hv
          simp only [true_and] at h2 ⊢
          have g1 : (Act.callRead.isCall = true ∧ Act.callWrite.isCall = true ∧ Act.callUnlock.isCall = true) ∧
              Act.go.isCall = false ∧ Act.timeout.isCall = false := by decide
          generalize hX : as.countP (fun x => decide (x.1 = v) && x.2.isCall) = X at *
          generalize hY : as.countP (fun x => decide (x.1 = v) && decide (x.2 = .go)) = Y at *
          cases a <;> simp [g1] at h2 ⊢ <;> omega
        · have hv' : ¬ t = v := fun e => hv e.symm
          simp only [hv, hv', false_and, if_false] at h2 ⊢
          omega
  have := key as init s h
  have h0 : left (init.pc t) = 0 := rfl
  omega

/-- Non-vacuity: a writer holds the lock, a reader and a second writer wait for it and nothing can go on. -/
example : ∃ s, exec ⟨false, false⟩ init ((1, .callWrite) :: List.replicate 4 (1, .go) ++ [(2, .callRead), (2, .go), (2, .go),
    (3, .callWrite)]) = some s ∧ s.pc 1 = .holdW ∧ s.pc 2 = .rWait ∧ s.pc 3 = .wMutex ∧
    (∀ t ∈ [1, 2, 3, 4], step ⟨false, false⟩ s t .go = none) := ⟨_, rfl, by decide, by decide, by decide, by decide⟩

/-- Finding: `tryReadLock()` and `readLock` with a timeout wait without limit. While thread 1 has the write lock and
thread 2 waits in `readLock()`, thread 3 inside `tryReadLock()` can neither go on nor give up, until thread 1
unlocks. -/
theorem c126_try_waits : ∃ s, exec ⟨true, true⟩ init ((1, .callWrite) :: List.replicate 4 (1, .go) ++ [(2, .callRead), (2, .go), (2, .go),
    (3, .callRead)]) = some s ∧ s.pc 1 = .holdW ∧ ∀ a, step ⟨true, true⟩ s 3 a = none :=
  ⟨_, rfl, by decide, by intro a; cases a <;> rfl⟩

/-- Thread 1 has a read lock and thread 3 waits in `writeLock` for the readers. -/
structure Round (s : State) : Prop where
  access : s.access = none
  readers : s.readers = [1]
  pid : s.writerPid = none
  pc1 : s.pc 1 = .idle
  pc2 : s.pc 2 = .idle
  pc3 : s.pc 3 = .wEvent
  r1 : s.reads 1 = 1
  r2 : s.reads 2 = 0
  event : s.event = false

/-- Thread 2 takes a read lock, thread 1 gives its own back and takes it again, thread 2 gives its own back. -/
def relay : List (Nat × Act) :=
  (2, .callRead) :: List.replicate 4 (2, .go) ++ (1, .callUnlock) :: List.replicate 4 (1, .go) ++
  (1, .callRead) :: List.replicate 4 (1, .go) ++ (2, .callUnlock) :: List.replicate 4 (2, .go)

theorem exec_app_live (c : Cfg) : ∀ (as bs : List (Nat × Act)) (s : State), exec c s (as ++ bs) =
    (exec c s as).bind fun s' => exec c s' bs := by
  intro as
  induction as with
  | nil => intro bs s; rfl
  | cons a as ih =>
    intro bs s
    simp only [List.cons_append, exec]
    cases step c s a.1 a.2 with
    | none => rfl
    | some s1 => exact ih bs s1

theorem join_readers {s : State} (t : Nat) (h1 : s.access = none) (h2 : s.readers ≠ []) (h3 : s.pc t = .idle) :
    ∃ s', exec ⟨false, false⟩ s ((t, .callRead) :: List.replicate 4 (t, .go)) = some s' ∧ s'.access = none ∧
      s'.readers = s.readers ++ [t] ∧ s'.writerPid = s.writerPid ∧ s'.event = s.event ∧ (∀ u, s'.pc u = s.pc u) ∧
      (∀ u, s'.reads u = if u = t then s.reads t + 1 else s.reads u) := by
  refine ⟨_, by simp [exec, step, setPc, h1, h2, h3, List.replicate]; rfl, ?_⟩
  simp only [true_and]
  refine ⟨fun u => ?_, fun u => by by_cases hu : u = t <;> simp⟩
  by_cases hu : u = t <;> simp [hu, h3]

theorem leave_readers {s : State} (t : Nat) (h1 : s.access = none) (h2 : s.readers.erase t ≠ []) (h3 : s.pc t = .idle)
    (h4 : s.writerPid = none) (h5 : t ∈ s.readers) (h6 : s.reads t = 1) :
    ∃ s', exec ⟨false, false⟩ s ((t, .callUnlock) :: List.replicate 4 (t, .go)) = some s' ∧ s'.access = none ∧
      s'.readers = s.readers.erase t ∧ s'.writerPid = s.writerPid ∧ s'.event = s.event ∧ (∀ u, s'.pc u = s.pc u) ∧
      (∀ u, s'.reads u = if u = t then 0 else s.reads u) := by
  refine ⟨_, by simp [-List.erase_eq_nil_iff, exec, step, setPc, h1, h2, h3, h4, h5, h6, List.replicate]; rfl, ?_⟩
  simp only [h4, true_and]
  refine ⟨fun u => ?_, fun u => by by_cases hu : u = t <;> simp⟩
  by_cases hu : u = t <;> simp [hu, h3]

theorem relay_round {s : State} (h : Round s) : ∃ s', exec ⟨false, false⟩ s relay = some s' ∧ Round s' := by
  obtain ⟨h1, h2, h3, h4, h5, h6, h7, h8, h9⟩ := h
  obtain ⟨s1, e1, a1, a2, a3, a4, a5, a6⟩ := join_readers 2 h1 (by simp [h2]) h5
  rw [h2] at a2
  obtain ⟨s2, e2, b1, b2, b3, b4, b5, b6⟩ := leave_readers (s := s1) 1 a1 (by simp [a2]) (by rw [a5, h4]) (by rw [a3, h3])
    (by simp [a2]) (by rw [a6, h7]; rfl)
  rw [a2] at b2
  obtain ⟨s3, e3, c1, c2, c3, c4, c5, c6⟩ := join_readers (s := s2) 1 b1 (by simp [b2]) (by rw [b5, a5, h4])
  rw [b2] at c2
  obtain ⟨s4, e4, d1, d2, d3, d4, d5, d6⟩ := leave_readers (s := s3) 2 c1 (by simp [c2]) (by rw [c5, b5, a5, h5])
    (by rw [c3, b3, a3, h3]) (by simp [c2]) (by simp [c6, b6, a6, h8])
  refine ⟨s4, ?_, ⟨d1, by simp [d2, c2], by rw [d3, c3, b3, a3, h3], by rw [d5, c5, b5, a5, h4],
    by rw [d5, c5, b5, a5, h5], by rw [d5, c5, b5, a5, h6], by simp [d6, c6, b6], by simp [d6], by rw [d4, c4, b4, a4, h9]⟩⟩
  unfold relay
  rw [exec_app_live, exec_app_live, exec_app_live, e1]
  simp only [Option.bind_some]
  rw [e2]
  simp only [Option.bind_some]
  rw [e3]
  exact e4

/-- Finding: a waiting writer can be overtaken by readers for ever. Two readers whose read locks overlap keep the
writer waiting for any number of rounds, although each of them unlocks again and again. -/
theorem c126_writer_starves (n : Nat) : ∃ s, exec ⟨false, false⟩ init
    ((1, .callRead) :: List.replicate 5 (1, .go) ++ [(3, .callWrite), (3, .go)] ++ (List.replicate n relay).flatten) = some s ∧
    s.pc 3 = .wEvent := by
  have key : ∀ (n : Nat) (s : State), Round s → ∃ s', exec ⟨false, false⟩ s (List.replicate n relay).flatten = some s' ∧ Round s' := by
    intro n
    induction n with
    | zero => intro s hs; exact ⟨s, rfl, hs⟩
    | succ n ih =>
      intro s hs
      obtain ⟨s1, h1, h2⟩ := relay_round hs
      obtain ⟨s2, h3, h4⟩ := ih s1 h2
      exact ⟨s2, by rw [List.replicate_succ, List.flatten_cons, exec_app_live, h1]; exact h3, h4⟩
  have h0 : ∃ s0, exec ⟨false, false⟩ init ((1, .callRead) :: List.replicate 5 (1, .go) ++ [(3, .callWrite), (3, .go)]) = some s0 ∧ Round s0 :=
    ⟨_, rfl, by constructor <;> rfl⟩
  obtain ⟨s0, h1, h2⟩ := h0
  obtain ⟨s', h3, h4⟩ := key n s0 h2
  exact ⟨s', by rw [exec_app_live, h1]; exact h3, h4.pc3⟩

end Verif.RWLock
