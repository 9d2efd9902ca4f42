import Verif.Conc.ThreadProps
/-!
# C62, C63, exactly: what `wait()` returns, and what is left of a thread after the destructor
-/
namespace Verif.Thread

/-- The thread will not touch `m_finished` or the mutex any more: not created, in its last log statement, or ended. -/
def Over (p : WPC) : Prop := p = .none ∨ p = .log ∨ p = .exited ∨ p = .joined

theorem over_Over {p : WPC} (h : over p = true) : Over p := by
  cases p <;> simp_all [over, Over]

theorem Over_over {p : WPC} (h : Over p) : over p = true := by
  rcases h with h | h | h | h <;> simp [h, over]

theorem others_over {trace : Bool} {s : State} (hi : Inv trace s) (h : over (s.w s.cur) = true) (i : Nat) : Over (s.w i) := by
  by_cases e : i = s.cur
  · rw [e]; exact over_Over h
  · exact over_Over (hi.old i e)

/-- C62, exactly. At the step with which a `wait()` without timeout returns, it returns true if every thread of the object has set
`m_finished`, and false if and only if the thread has left `run()` and released the mutex, but has not yet set `m_finished`. -/
theorem c62_wait_exact (trace : Bool) (as bs : List Act) (s0 s1 s : State) (ha : ∀ a ∈ as, a.isCancel = false)
    (hb : ∀ a ∈ bs, a.isCall = false) (h0 : exec trace init as = some s0)
    (h1 : exec trace s0 (.callWait :: bs) = some s1) (hin : s1.o ≠ .idle) (hs : step trace s1 .go = some s) (hret : s.o = .idle) :
    (s.ret = .wait true ∧ ∀ i, Over (s.w i)) ∨
    (s.ret = .wait false ∧ s.w s.cur = .setFinished ∧ ∀ i, i ≠ s.cur → Over (s.w i)) := by
  have hi0 := inv_exec as init s0 (inv_init trace) ha h0
  simp only [exec] at h1
  cases hst : step trace s0 .callWait with
  | none => rw [hst] at h1; cases h1
  | some s2 =>
    rw [hst] at h1
    have hp1 : Inv trace s2 ∧ WaitPhase s2 := ⟨inv_step hi0 _ rfl hst, Or.inl (Or.inl (call_wait hst))⟩
    obtain ⟨hi, hp⟩ := exec_preserves (trace := trace) (fun s => Inv trace s ∧ WaitPhase s) (fun a => a.isCall = false)
      (fun s s' a => waitPhase_step s s' a) bs s2 s1 hp1 hb h1
    have hi' := inv_step hi .go rfl hs
    simp only [step, stepO] at hs
    rcases hp with (h | h | h | h | h | h | h | h) | ⟨h, _⟩
    · rw [h] at hs
      simp only at hs
      split at hs <;> cases hs
      · next hj => have hoth := others_over hi (hi.jd hj (by rw [h]; simp) (by rw [h]; simp)); exact Or.inl ⟨rfl, hoth⟩
      · cases hret
    · rw [h] at hs
      simp only at hs
      split at hs <;> cases hs
      simp only at hret
      split at hret <;> cases hret
    · rw [h] at hs
      simp only at hs
      split at hs <;> cases hs
      cases hret
    · rw [h] at hs
      cases hs; cases hret
    · rw [h] at hs
      simp only at hs
      split at hs <;> cases hs
      · cases hret
      · next hf =>
        refine Or.inr ⟨rfl, ?_, fun i e => over_Over (hi.old i e)⟩
        have hw := hi.w3 h
        have hf2 := hi.fin2 (by simpa using hf)
        have hno : over (s1.w s1.cur) = false := by
          rcases hf2 with h' | h'
          · rw [h] at h'; cases h'
          · exact h'
        show s1.w s1.cur = .setFinished
        cases hc : s1.w s1.cur <;> rw [hc] at hw hno <;> simp_all [holds, early, over]
    · rw [h] at hs
      cases hs
      simp only at hret
      split at hret <;> cases hret
    · rw [h] at hs
      simp only at hs
      split at hs <;> cases hs
      cases hret
    · rw [h] at hs
      cases hs
      have hoth := others_over hi (hi.fin (hi.wj (by simp [h])))
      exact Or.inl ⟨rfl, hoth⟩
    · exact absurd h hin

/-- C62: after a `wait()` that returned false, one step of the thread later, another `wait()` returns true. -/
theorem c62_wait_again (trace : Bool) (as : List Act) (s : State) (ha : ∀ a ∈ as, a.isCancel = false)
    (h0 : exec trace init as = some s) (hidle : s.o = .idle) (hw : s.w s.cur = .setFinished) :
    ∃ k s', exec trace s (.work s.cur :: .callWait :: List.replicate k .go) = some s' ∧ s'.o = .idle ∧ s'.ret = .wait true := by
  have hi := inv_exec as init s (inv_init trace) ha h0
  have hst : s.starting = false := by
    cases hs : s.starting with
    | false => rfl
    | true =>
      rcases hi.st hs with h | h
      · rw [hidle] at h; cases h
      · rw [hw] at h; cases h
  cases hj : s.joined with
  | true =>
    refine ⟨1, _, by simp [exec, step, stepW, stepO, setW, hw, hidle, hj, List.replicate]; rfl, ?_⟩
    simp
  | false =>
    refine ⟨5, _, by simp [exec, step, stepW, stepO, setW, hw, hidle, hj, hst, List.replicate]; rfl, ?_⟩
    simp

/-- The hypotheses of `c62_wait_again` are met: the schedule of `c62_wait_returns_false`. -/
example : ∃ s, exec true init (lifeCycle.take 12 ++ [.callWait, .go, .go, .work 0, .work 0, .work 0, .go, .go, .go]) = some s ∧
    s.o = .idle ∧ s.w s.cur = .setFinished := ⟨_, rfl, by decide⟩

/-- C63, exactly: after the destructor an OS thread of the object can only do one thing that touches it, its last log statement
(with trace logging); it is memory that is gone exactly then. -/
theorem c63_only_last_message (trace : Bool) (as : List Act) (s s' : State) (ha : ∀ a ∈ as, a.isCancel = false)
    (h0 : exec trace init as = some s) (hd : s.o = .destroyed) (i : Nat) (hs : step trace s (.work i) = some s') :
    s.w i = .log ∧ s'.uaf = (s.uaf || trace) := by
  have hi := inv_exec as init s (inv_init trace) ha h0
  have hov := others_over hi (hi.dj (Or.inr hd)) i
  simp only [step] at hs
  rcases hov with h | h | h | h
  · simp [stepW, h] at hs
  · refine ⟨h, ?_⟩
    simp only [stepW, h, Option.map_some, Option.some.injEq] at hs
    rw [← hs]
    simp [hd]
  · simp [stepW, h] at hs
  · simp [stepW, h] at hs

/-- C63, exactly: an OS thread is joined, by `join()`, `wait()`, `start()` or the destructor, only by a step that found `m_finished`
not set or, in `start()`, cleared it itself; `join()`, `wait()` and the destructor of a thread that has finished never join it. -/
theorem c63_never_joined (trace : Bool) (as : List Act) (s s' : State) (ha : ∀ a ∈ as, a.isCancel = false)
    (h0 : exec trace init as = some s) (a : Act) (hs : step trace s a = some s') (i : Nat) (h1 : s.w i ≠ .joined) (h2 : s'.w i = .joined) :
    i = s.cur ∧ s.w i = .exited ∧ a = .go ∧ (s.o = .join2 ∨ s.o = .waitJoin2 ∨ s.o = .destroyJoin2 ∨ s.o = .startJoin) := by
  have hi := inv_exec as init s (inv_init trace) ha h0
  cases a with
  | work j =>
    exfalso
    simp only [step] at hs
    cases hw : stepW s j with
    | none => rw [hw] at hs; cases hs
    | some s1 =>
      rw [hw] at hs; cases hs
      unfold stepW at hw
      split at hw
      all_goals (try split at hw)
      all_goals (try (cases hw; done))
      all_goals (cases hw; simp only [setW] at h2; split at h2)
      all_goals first | exact h1 h2 | cases h2
  | die j =>
    simp only [step] at hs
    split at hs
    · next hc => rw [hi.nc j] at hc; exact absurd hc.1 (by simp)
    · cases hs
  | go =>
    simp only [step, stepO] at hs
    cases ho : s.o <;> rw [ho] at hs <;> simp only [reduceCtorEq] at hs
    all_goals (try split at hs)
    all_goals (try split at hs)
    all_goals (try (cases hs; done))
    all_goals (cases hs)
    all_goals (try (exact absurd h2 h1))
    all_goals (simp only [setW] at h2; split at h2)
    all_goals (try (exact absurd h2 h1))
    all_goals (try (cases h2; done))
    all_goals (simp_all)
  | createFails =>
    exfalso
    simp only [step, stepO] at hs
    cases ho : s.o <;> rw [ho] at hs <;> simp only [reduceCtorEq] at hs
    cases hs; exact h1 h2
  | _ =>
    exfalso
    simp only [step, stepO] at hs
    cases ho : s.o <;> rw [ho] at hs <;> simp only [reduceCtorEq] at hs
    cases hs; exact h1 h2

/-- The OS thread `i` is and remains unjoined. -/
def Lost (i : Nat) (s : State) : Prop :=
  (s.w i = .log ∨ s.w i = .exited) ∧ i < s.next ∧
  (i ≠ s.cur ∨ s.o = .start6 ∨ (s.joined = true ∧
    ((s.finished = true ∧ (s.o = .idle ∨ s.o = .start ∨ s.o = .start2 ∨ s.o = .start3 ∨ s.o = .stop ∨ s.o = .join ∨ s.o = .join3 ∨
      s.o = .wait ∨ s.o = .destroy ∨ s.o = .destroyFree ∨ s.o = .destroyed)) ∨ s.o = .start4 ∨ s.o = .start5)))

theorem lost_step {trace : Bool} {i : Nat} (s s' : State) (a : Act) (ha : a.isCancel = false)
    (h : Inv trace s ∧ Lost i s) (hs : step trace s a = some s') : Inv trace s' ∧ Lost i s' := by
  obtain ⟨hi, h1, h2, h3⟩ := h
  refine ⟨inv_step hi a ha hs, ?_⟩
  have hst := hi.st
  have hold := hi.old
  have hpst := hi.pst
  have hnc := hi.nc
  have hst' : s.starting = true → preCreate s.o = true ∨ i ≠ s.cur := by
    intro h
    rcases hst h with h | h
    · exact Or.inl h
    · right; intro e; rw [← e] at h; rcases h1 with h1 | h1 <;> rw [h1] at h <;> cases h
  cases a with
  | work j =>
    simp only [step] at hs
    cases hw : stepW s j with
    | none => rw [hw] at hs; cases hs
    | some s1 =>
      rw [hw] at hs; cases hs
      have hj : i = s.cur → j ≠ i → over (s.w j) = true := fun e1 e2 => hold j (e1 ▸ e2)
      unfold stepW at hw
      split at hw
      all_goals (try split at hw)
      all_goals (try (cases hw; done))
      all_goals cases hw
      all_goals simp only [Lost, setW]
      all_goals grind [over]
  | die j =>
    simp only [step] at hs
    split at hs
    · next hc => rw [hnc j] at hc; exact absurd hc.1 (by simp)
    · cases hs
  | go =>
    simp only [step, stepO] at hs
    cases ho : s.o <;> rw [ho] at hs <;> simp only [reduceCtorEq] at hs
    all_goals (try split at hs)
    all_goals (try split at hs)
    all_goals (try (cases hs; done))
    all_goals (cases hs)
    all_goals simp only [Lost, setW]
    all_goals simp only [ho, preCreate] at hst' h3
    all_goals grind
  | createFails =>
    simp only [step, stepO] at hs
    cases ho : s.o <;> rw [ho] at hs <;> simp only [reduceCtorEq] at hs
    cases hs
    simp only [Lost]; simp [h1, h2]
  | callCancel => cases ha
  | _ =>
    simp only [step, stepO] at hs
    cases ho : s.o <;> rw [ho] at hs <;> simp only [reduceCtorEq] at hs
    cases hs
    simp only [Lost]; rw [ho] at h3; simp_all

/-- C63, exactly: an OS thread that had set `m_finished` before `join()` was called is leaked: in every continuation, whatever is
called (also the destructor), it is never joined. -/
theorem c63_leaked_for_ever (trace : Bool) (as bs : List Act) (s0 s1 s : State) (ha : ∀ a ∈ as, a.isCancel = false)
    (hb : ∀ a ∈ bs, a.isCancel = false) (h0 : exec trace init as = some s0) (hidle : s0.o = .idle) (hf : s0.finished = true)
    (h1 : exec trace s0 [.callJoin, .go, .go] = some s1) (hs : exec trace s1 bs = some s) (i : Nat)
    (hw : s0.w i = .log ∨ s0.w i = .exited) : s.w i ≠ .joined ∧ s1.o = .idle := by
  have hinv := inv_exec as init s0 (inv_init trace) ha h0
  have e1 : s1 = { s0 with joined := true } := by
    simp [exec, step, stepO, hidle, hf] at h1
    rw [← h1]
    cases s0; simp_all
  have hinv1 : Inv trace s1 := inv_exec [.callJoin, .go, .go] s0 s1 hinv (by simp [Act.isCancel]) h1
  have hi : i < s0.next := by
    apply Classical.byContradiction
    intro hc
    rw [hinv.fresh i (by omega)] at hw
    simp at hw
  have hl : Lost i s1 := by
    rw [e1]
    exact ⟨hw, hi, Or.inr (Or.inr ⟨rfl, Or.inl ⟨hf, Or.inl hidle⟩⟩)⟩
  have := (exec_preserves (trace := trace) (fun s => Inv trace s ∧ Lost i s) (fun a => a.isCancel = false)
    (fun s s' a => lost_step s s' a) bs s1 s ⟨hinv1, hl⟩ hb hs).2
  refine ⟨?_, by rw [e1]; exact hidle⟩
  rcases this.1 with h | h <;> rw [h] <;> simp

/-- The hypotheses are met: a whole life. -/
example : ∃ s, exec true init lifeCycle = some s ∧ s.o = .idle ∧ s.finished = true ∧ s.w 0 = .exited := ⟨_, rfl, by decide⟩

end Verif.Thread
