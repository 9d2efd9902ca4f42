import Verif.Conc.ThreadLemmas

/-!
# Properties of `Thread` (C61, C62, C63)
-/
namespace Verif.Thread

/-- Does the action begin a call of `cancel()`? -/
def Act.isCancel : Act → Bool
  | .callCancel => true
  | _ => false

/-- Is the action the beginning of a public call? (Otherwise it continues a call or is a step
of an OS thread.) -/
def Act.isCall : Act → Bool
  | .callStart | .callStop | .callJoin | .callWait | .callCancel | .callDestroy => true
  | _ => false

theorem inv_step {trace : Bool} {s s' : State} (h : Inv trace s) (a : Act) (ha : a.isCancel = false)
    (hs : step trace s a = some s') : Inv trace s' := by
  cases a with
  | work i => exact inv_work h i hs
  | die i =>
    simp only [step] at hs
    split at hs
    · next hc => rw [h.nc i] at hc; exact absurd hc.1 (by simp)
    · cases hs
  | callCancel => cases ha
  | _ => exact inv_ctl h _ (by simp) hs

theorem inv_exec {trace : Bool} (as : List Act) : ∀ (s s' : State), Inv trace s →
    (∀ a ∈ as, a.isCancel = false) → exec trace s as = some s' → Inv trace s' := by
  induction as with
  | nil => intro s s' h _ he; cases he; exact h
  | cons a as ih =>
    intro s s' h ha he
    simp only [exec] at he
    cases hst : step trace s a with
    | none => rw [hst] at he; cases he
    | some s1 =>
      rw [hst] at he
      exact ih s1 s' (inv_step h a (ha a (by simp)) hst) (fun b hb => ha b (by simp [hb])) he

theorem exec_append {trace : Bool} (as bs : List Act) (s : State) :
    exec trace s (as ++ bs) = (exec trace s as).bind fun s' => exec trace s' bs := by
  induction as generalizing s with
  | nil => rfl
  | cons a as ih =>
    simp only [List.cons_append, exec]
    cases step trace s a with
    | none => rfl
    | some s1 => exact ih s1

/-- Preservation of a predicate along a schedule. -/
theorem exec_preserves {trace : Bool} (P : State → Prop) (ok : Act → Prop)
    (hstep : ∀ s s' a, ok a → P s → step trace s a = some s' → P s') (as : List Act) :
    ∀ (s s' : State), P s → (∀ a ∈ as, ok a) → exec trace s as = some s' → P s' := by
  induction as with
  | nil => intro s s' h _ he; cases he; exact h
  | cons a as ih =>
    intro s s' h ha he
    simp only [exec] at he
    cases hst : step trace s a with
    | none => rw [hst] at he; cases he
    | some s1 =>
      rw [hst] at he
      exact ih s1 s' (hstep s s1 a (ha a (by simp)) h hst) (fun b hb => ha b (by simp [hb])) he

theorem stepW_frame {s s' : State} {i : Nat} (h : stepW s i = some s') :
    s'.o = s.o ∧ s'.joined = s.joined ∧ s'.ret = s.ret ∧ s'.cur = s.cur ∧ s'.cancelled = s.cancelled ∧ s'.ctl = s.ctl := by
  unfold stepW at h
  split at h
  all_goals (try split at h)
  all_goals (try (cases h; done))
  all_goals (cases h; exact ⟨rfl, rfl, rfl, rfl, rfl, rfl⟩)

theorem call_join {trace : Bool} {s s' : State} (h : step trace s .callJoin = some s') : s'.o = .join := by
  cases ho : s.o <;> simp only [step, stepO, ho, reduceCtorEq] at h
  cases h; rfl

theorem call_stop {trace : Bool} {s s' : State} (h : step trace s .callStop = some s') : s'.o = .stop := by
  cases ho : s.o <;> simp only [step, stepO, ho, reduceCtorEq] at h
  cases h; rfl

theorem call_wait {trace : Bool} {s s' : State} (h : step trace s .callWait = some s') : s'.o = .wait := by
  cases ho : s.o <;> simp only [step, stepO, ho, reduceCtorEq] at h
  cases h; rfl

/-- While a `join()` call is in progress, and after it returned. -/
def JoinPhase (s : State) : Prop :=
  s.o = .join ∨ s.o = .join2 ∨ s.o = .join3 ∨ (s.o = .idle ∧ s.joined = true)

theorem joinPhase_step {trace : Bool} (s s' : State) (a : Act) (ha : a.isCall = false) (h : JoinPhase s)
    (hs : step trace s a = some s') : JoinPhase s' := by
  cases a with
  | work i =>
    simp only [step] at hs
    cases hw : stepW s i with
    | none => rw [hw] at hs; cases hs
    | some s1 =>
      rw [hw] at hs; cases hs
      have := stepW_frame hw
      simp only [JoinPhase, this.1, this.2.1]; exact h
  | die i =>
    simp only [step] at hs
    split at hs <;> cases hs
    exact h
  | go =>
    simp only [step, stepO] at hs
    rcases h with h | h | h | ⟨h, h'⟩ <;> rw [h] at hs <;> simp only at hs
    · cases hs
      by_cases hf : s.finished = true <;> simp [JoinPhase, hf]
    · split at hs <;> cases hs
      simp [JoinPhase]
    · cases hs; simp [JoinPhase]
    · cases hs
  | createFails =>
    simp only [step, stepO] at hs
    rcases h with h | h | h | ⟨h, h'⟩ <;> rw [h] at hs <;> cases hs
  | _ => cases ha

/-- C61. After `join()` returns, no OS thread created by this object is inside `run()` (nor
will get there without another `start()`): for every history without `cancel()`, when a
`join()` call made from outside has returned, each OS thread was never created, or has
finished `run()` and announced that it has. -/
theorem c61_join (trace : Bool) (as bs : List Act) (s0 s : State) (ha : ∀ a ∈ as, a.isCancel = false)
    (hb : ∀ a ∈ bs, a.isCall = false) (h0 : exec trace init as = some s0)
    (hs : exec trace s0 (.callJoin :: bs) = some s) (hret : s.o = .idle) :
    ∀ i, s.w i = .none ∨ s.w i = .log ∨ s.w i = .exited ∨ s.w i = .joined := by
  have hi0 := inv_exec as init s0 (inv_init trace) ha h0
  have hi := inv_exec (.callJoin :: bs) s0 s hi0 (by
    intro a hm
    rcases List.mem_cons.1 hm with rfl | hm
    · rfl
    · have := hb a hm; cases a <;> simp_all [Act.isCancel, Act.isCall]) hs
  simp only [exec] at hs
  cases hst : step trace s0 .callJoin with
  | none => rw [hst] at hs; cases hs
  | some s1 =>
    rw [hst] at hs
    have hp1 : JoinPhase s1 := Or.inl (call_join hst)
    have hp := exec_preserves JoinPhase (fun a => a.isCall = false) (fun s s' a => joinPhase_step s s' a) bs s1 s hp1 hb hs
    have hj : s.joined = true := by
      rcases hp with h | h | h | ⟨_, h⟩ <;> first | exact h | (rw [hret] at h; cases h)
    intro i
    have hov : over (s.w i) = true := by
      by_cases hc : i = s.cur
      · rw [hc]; exact hi.jd hj (by rw [hret]; simp) (by rw [hret]; simp)
      · exact hi.old i hc
    cases hw : s.w i <;> simp_all [over]

/-- start, run to the end, join. -/
def lifeCycle : List Act :=
  [.callStart, .go, .go, .go, .go, .go, .go, .work 0, .work 0, .work 0, .go, .work 0,
   .callStop, .go, .work 0, .work 0, .work 0, .work 0, .work 0]

example : ∃ s, exec true init lifeCycle = some s ∧ s.o = .idle ∧ s.ret = .start true ∧
    s.w 0 = .exited ∧ s.joined = false := ⟨_, rfl, by decide⟩

example : ∃ s, exec true init (lifeCycle ++ [.callJoin, .go, .go]) = some s ∧ s.o = .idle ∧ s.joined = true :=
  ⟨_, rfl, by decide⟩

/-- Before any new `start()`. -/
def Stopped (s : State) : Prop :=
  s.execute = false ∧ ∀ i, early (s.w i) = false ∧
    s.o ≠ .start ∧ s.o ≠ .startAgain ∧ s.o ≠ .start2 ∧ preCreate s.o = false ∧ s.o ≠ .startWait

theorem stopped_step {trace : Bool} (s s' : State) (a : Act) (ha : a ≠ .callStart) (h : Stopped s)
    (hs : step trace s a = some s') : Stopped s' := by
  obtain ⟨h1, h2⟩ := h
  cases a with
  | work i =>
    simp only [step] at hs
    cases hw : stepW s i with
    | none => rw [hw] at hs; cases hs
    | some s1 =>
      rw [hw] at hs; cases hs
      have h2i := (h2 i).1
      unfold stepW at hw
      cases hp : s.w i <;> rw [hp] at hw h2i <;> simp only [reduceCtorEq] at hw <;>
        simp only [early_tab, reduceCtorEq] at h2i
      all_goals (cases hw; refine ⟨by first | exact h1 | rfl, fun u => ⟨?_, (h2 u).2⟩⟩)
      all_goals (simp only [setW]; split)
      all_goals (first | exact (h2 u).1 | rfl)
  | die i =>
    simp only [step] at hs
    split at hs <;> cases hs
    refine ⟨h1, fun u => ⟨?_, (h2 u).2⟩⟩
    simp only [setW]
    split
    · rfl
    · exact (h2 u).1
  | callStart => exact absurd rfl ha
  | _ =>
    simp only [step, stepO] at hs
    have h20 := (h2 0).2
    cases ho : s.o <;> rw [ho] at hs h20 <;> simp only [reduceCtorEq] at hs <;>
      simp only [preCreate_tab, ne_eq, not_true, false_and, and_false, reduceCtorEq] at h20
    all_goals (try split at hs)
    all_goals (try split at hs)
    all_goals (try (cases hs; done))
    all_goals (cases hs)
    all_goals (refine ⟨by first | exact h1 | rfl, fun u => ⟨?_, ?_⟩⟩)
    all_goals (try simp only [setW])
    all_goals (try split)
    all_goals (first | exact (h2 u).1 | rfl | simp [preCreate_tab])

/-- C61. A `stop()` is never lost: once a `stop()` call has returned, `execute()` is false and
stays false, whatever the threads and the control thread do (except for another `start()`);
in particular the starting thread cannot overwrite it. -/
theorem c61_stop_not_lost (trace : Bool) (as bs : List Act) (s0 s1 s : State)
    (ha : ∀ a ∈ as, a.isCancel = false) (h0 : exec trace init as = some s0)
    (h1 : exec trace s0 [.callStop, .go] = some s1) (hb : ∀ a ∈ bs, a ≠ .callStart)
    (hs : exec trace s1 bs = some s) : s.execute = false := by
  have hi0 := inv_exec as init s0 (inv_init trace) ha h0
  have hi1 := inv_exec [.callStop, .go] s0 s1 hi0 (by simp [Act.isCancel]) h1
  have hst : Stopped s1 := by
    have ho : s1.o = .idle ∧ s1.execute = false := by
      simp only [exec] at h1
      cases hst : step trace s0 .callStop with
      | none => rw [hst] at h1; cases h1
      | some s2 =>
        rw [hst] at h1
        have ho2 : s2.o = .stop := call_stop hst
        simp only [Option.bind_some, step, stepO, ho2] at h1
        split at h1 <;> cases h1
        exact ⟨rfl, rfl⟩
    refine ⟨ho.2, fun i => ⟨?_, by simp [ho.1, preCreate]⟩⟩
    by_cases hc : i = s1.cur
    · cases he : early (s1.w i) with
      | false => rfl
      | true =>
        rw [hc] at he
        have := (hi1.st2 he).2
        rw [ho.1] at this; cases this
    · exact ((over_not _) (hi1.old i hc)).2.1
  exact (exec_preserves Stopped (fun a => a ≠ .callStart) (fun s s' a => stopped_step s s' a) bs s1 s hst hb hs).1

/-- Mutual exclusion of OS threads through `m_thread_mutex`, also with `cancel()`. -/
theorem holds_step {trace : Bool} (s s' : State) (a : Act) (h : ∀ i, holds (s.w i) = true → s.mutex = some i)
    (hs : step trace s a = some s') (hf : ∀ i, s.next ≤ i → s.w i = .none) :
    (∀ i, holds (s'.w i) = true → s'.mutex = some i) ∧ ∀ i, s'.next ≤ i → s'.w i = .none := by
  cases a with
  | work i =>
    simp only [step] at hs
    cases hw : stepW s i with
    | none => rw [hw] at hs; cases hs
    | some s1 =>
      rw [hw] at hs; cases hs
      have hi := h i
      have hfi := hf i
      unfold stepW at hw
      split at hw
      all_goals (try split at hw)
      all_goals (try (cases hw; done))
      all_goals (cases hw; simp only [setW]; constructor)
      all_goals (intro u; split)
      all_goals (simp_all [holds])
      all_goals grind
  | die i =>
    simp only [step] at hs
    split at hs
    · next hc =>
      cases hs
      constructor
      · intro u; simp only [setW]; split
        · simp [holds]
        · exact h u
      · intro u; simp only [setW]; split
        · next e => intro hu; subst e; exact absurd (hf u hu) hc.2.1
        · exact hf u
    · cases hs
  | _ =>
    simp only [step, stepO] at hs
    have hfn := hf s.next (Nat.le_refl _)
    split at hs
    all_goals (try split at hs)
    all_goals (try split at hs)
    all_goals (try (cases hs; done))
    all_goals cases hs
    all_goals (try exact ⟨h, hf⟩)
    all_goals
      constructor
      · simp only [setW]; intro u; split
        · simp [holds]
        · exact h u
      · simp only [setW]; intro u; split
        · grind
        · grind

/-- C61. `run()` is never executed by two OS threads at once, for every history, even with
`cancel()` and restarts. -/
theorem c61_one_run (trace : Bool) (as : List Act) (s : State) (h : exec trace init as = some s) (i j : Nat)
    (hi : s.w i = .running) (hj : s.w j = .running) : i = j := by
  have key := exec_preserves (trace := trace)
    (fun s => (∀ i, holds (s.w i) = true → s.mutex = some i) ∧ ∀ i, s.next ≤ i → s.w i = .none) (fun _ => True)
    (fun s s' a _ hp hs => holds_step s s' a hp.1 hs hp.2) as init s
    ⟨by simp [init, holds], by simp [init]⟩ (by simp) h
  have h1 := key.1 i (by rw [hi]; rfl)
  have h2 := key.1 j (by rw [hj]; rfl)
  rw [h1] at h2; injection h2

/-- C61. With `cancel()` the guarantee of `join()` is lost: `cancel()` declares the thread
finished at once, so a following `join()` does not wait; `run()` is still executing after
`join()` has returned. -/
theorem c61_cancel_join_still_running :
    ∃ s, exec true init (lifeCycle.take 12 ++ [.callCancel, .go, .go, .callJoin, .go, .go]) = some s ∧
      s.o = .idle ∧ s.joined = true ∧ s.w 0 = .running := ⟨_, rfl, by decide⟩

/-- start; the thread is cancelled inside `run()` and dies; join; start again. -/
def poison : List Act :=
  lifeCycle.take 12 ++ [.callCancel, .go, .go, .die 0, .callJoin, .go, .go,
    .callStart, .go, .go, .go, .go, .go, .go]

/-- C61. A cancelled thread never releases `m_thread_mutex`: the next `start()` hangs for
good (no action of any thread is possible any more). -/
theorem c61_cancel_poisons : ∃ s, exec true init poison = some s ∧ s.o = .startWait ∧
    ∀ a, step true s a = none := by
  refine ⟨_, rfl, rfl, ?_⟩
  intro a
  cases a with
  | work i =>
    by_cases h1 : i = 1
    · subst h1; rfl
    · by_cases h0 : i = 0
      · subst h0; rfl
      · simp [step, stepW, setW, init, h0, h1]
  | die i =>
    by_cases h1 : i = 1
    · subst h1; rfl
    · by_cases h0 : i = 0
      · subst h0; rfl
      · simp [step, setW, init, h0, h1]
  | _ => rfl

/-! ## C62 -/

/-- While a `wait()` call is in progress, and after it returned. -/
def WaitPhase (s : State) : Prop :=
  (s.o = .wait ∨ s.o = .wait2 ∨ s.o = .waitLock ∨ s.o = .waitUnlock ∨ s.o = .wait3 ∨ s.o = .waitJoin ∨
    s.o = .waitJoin2 ∨ s.o = .waitJoin3) ∨
  (s.o = .idle ∧ (s.ret = .wait true ∨ s.ret = .wait false) ∧
    ∀ i, holds (s.w i) = false ∧ early (s.w i) = false)

theorem waitPhase_step {trace : Bool} (s s' : State) (a : Act) (ha : a.isCall = false)
    (h : Inv trace s ∧ WaitPhase s) (hs : step trace s a = some s') : Inv trace s' ∧ WaitPhase s' := by
  obtain ⟨hi, h⟩ := h
  have hi' := inv_step hi a (by cases a <;> simp_all [Act.isCall, Act.isCancel]) hs
  refine ⟨hi', ?_⟩
  have hov : over (s.w s.cur) = true → ∀ i, holds (s.w i) = false ∧ early (s.w i) = false := by
    intro hc i
    have : over (s.w i) = true := by
      by_cases e : i = s.cur
      · rw [e]; exact hc
      · exact hi.old i e
    exact ⟨(over_not _ this).1, (over_not _ this).2.1⟩
  cases a with
  | work i =>
    simp only [step] at hs
    cases hw : stepW s i with
    | none => rw [hw] at hs; cases hs
    | some s1 =>
      rw [hw] at hs; cases hs
      have hfr := stepW_frame hw
      rcases h with h | ⟨h, h', h''⟩
      · left; simp only [hfr.1]; exact h
      · right
        refine ⟨by simp only [hfr.1]; exact h, by simp only [hfr.2.2.1]; exact h', ?_⟩
        intro u
        have hwi := h'' i
        unfold stepW at hw
        split at hw
        all_goals (try split at hw)
        all_goals (try (cases hw; done))
        all_goals (cases hw; simp only [setW]; split)
        all_goals (simp_all [holds, early])
  | die i =>
    simp only [step] at hs
    split at hs
    · next hc => rw [hi.nc i] at hc; exact absurd hc.1 (by simp)
    · cases hs
  | go =>
    simp only [step, stepO] at hs
    rcases h with (h | h | h | h | h | h | h | h) | ⟨h, h', h''⟩ <;> rw [h] at hs <;> simp only at hs
    · split at hs <;> cases hs
      · next hj => exact Or.inr ⟨rfl, Or.inl rfl, hov (hi.jd hj (by rw [h]; simp) (by rw [h]; simp))⟩
      · simp [WaitPhase]
    · split at hs <;> cases hs
      by_cases hf : s.finished = true <;> simp [WaitPhase, hf]
    · split at hs <;> cases hs
      simp [WaitPhase]
    · cases hs; simp [WaitPhase]
    · split at hs <;> cases hs
      · simp [WaitPhase]
      · refine Or.inr ⟨rfl, Or.inr rfl, ?_⟩
        intro i
        by_cases e : i = s.cur
        · rw [e]; exact hi.w3 h
        · exact ⟨(over_not _ (hi.old i e)).1, (over_not _ (hi.old i e)).2.1⟩
    · cases hs
      by_cases hf : s.finished = true <;> simp [WaitPhase, hf]
    · split at hs <;> cases hs
      simp [WaitPhase]
    · cases hs
      exact Or.inr ⟨rfl, Or.inl rfl, hov (hi.fin (hi.wj (by simp [h])))⟩
    · cases hs
  | createFails =>
    simp only [step, stepO] at hs
    rcases h with (h | h | h | h | h | h | h | h) | ⟨h, h', h''⟩ <;> rw [h] at hs <;> cases hs
  | _ => cases ha

/-- C62, the part that holds: when `wait()` (without timeout) returns, whatever it returns,
no OS thread of this object is inside `run()`, nor will be without another `start()`.
Missing: the returned value, documented as always `true`, see `c62_wait_returns_false`. -/
theorem c62_wait_partial (trace : Bool) (as bs : List Act) (s0 s : State) (ha : ∀ a ∈ as, a.isCancel = false)
    (hb : ∀ a ∈ bs, a.isCall = false) (h0 : exec trace init as = some s0)
    (hs : exec trace s0 (.callWait :: bs) = some s) (hret : s.o = .idle) :
    ∀ i, s.w i ≠ .lock ∧ s.w i ≠ .setExec ∧ s.w i ≠ .clrStarting ∧ s.w i ≠ .clrFinished ∧ s.w i ≠ .running := by
  have hi0 := inv_exec as init s0 (inv_init trace) ha h0
  simp only [exec] at hs
  cases hst : step trace s0 .callWait with
  | none => rw [hst] at hs; cases hs
  | some s1 =>
    rw [hst] at hs
    have hp1 : Inv trace s1 ∧ WaitPhase s1 := by
      exact ⟨inv_step hi0 _ rfl hst, Or.inl (Or.inl (call_wait hst))⟩
    have hp := (exec_preserves (trace := trace) (fun s => Inv trace s ∧ WaitPhase s) (fun a => a.isCall = false)
      (fun s s' a => waitPhase_step s s' a) bs s1 s hp1 hb hs).2
    rcases hp with h | ⟨_, _, h⟩
    · rw [hret] at h; simp at h
    · intro i
      have := h i
      refine ⟨?_, ?_, ?_, ?_, ?_⟩ <;> intro e <;> rw [e] at this <;> simp [holds, early] at this

/-- C62 is violated: `wait()` without a timeout, documented as "always returns `true`",
returns `false` if it gets the mutex between the thread's `unlock()` (Thread.cpp:244) and its
`m_finished = true` (245). -/
theorem c62_wait_returns_false :
    ∃ s, exec true init (lifeCycle.take 12 ++ [.callWait, .go, .go, .work 0, .work 0, .work 0, .go, .go, .go]) = some s ∧
      s.o = .idle ∧ s.ret = .wait false ∧ s.w 0 = .setFinished := ⟨_, rfl, by decide⟩

/-! ## C63 -/

/-- C63, the part that holds: with trace logging disabled and without `cancel()`, no OS thread
touches the object after its destructor has returned.
Missing: trace logging, see `c63_use_after_free`. -/
theorem c63_no_use_after_free_partial (as : List Act) (s : State) (ha : ∀ a ∈ as, a.isCancel = false)
    (h : exec false init as = some s) :
    s.uaf = false ∧ (s.o = .destroyed → ∀ i, s.w i = .none ∨ s.w i = .log ∨ s.w i = .exited ∨ s.w i = .joined) := by
  have hi := inv_exec as init s (inv_init false) ha h
  refine ⟨hi.ua rfl, fun hd i => ?_⟩
  have hov : over (s.w i) = true := by
    by_cases hc : i = s.cur
    · rw [hc]; exact hi.dj (Or.inr hd)
    · exact hi.old i hc
  cases hw : s.w i <;> simp_all [over]

/-- start, run to the end, destroy: with trace logging off nothing is touched afterwards. -/
example : ∃ s, exec false init (lifeCycle.take 18 ++ [.callDestroy, .go, .go, .go, .go, .work 0]) = some s ∧
    s.o = .destroyed ∧ s.uaf = false ∧ s.w 0 = .exited := ⟨_, rfl, by decide⟩

/-- C63 is violated with trace logging: the destructor does not `pthread_join` a thread that
has set `m_finished`, so the thread's last log message reads `m_thread_info` of the destroyed
object. -/
theorem c63_use_after_free :
    ∃ s, exec true init (lifeCycle.take 18 ++ [.callDestroy, .go, .go, .go, .go, .work 0]) = some s ∧
      s.o = .destroyed ∧ s.uaf = true := ⟨_, rfl, by decide⟩

/-- C63. An OS thread that ended before `join()` was called is never joined: `join()` and the
destructor skip `pthread_join`, its resources are leaked. -/
theorem c63_thread_leaked :
    ∃ s, exec true init (lifeCycle ++ [.callJoin, .go, .go, .callDestroy, .go, .go]) = some s ∧
      s.o = .destroyed ∧ s.w 0 = .exited := ⟨_, rfl, by decide⟩

end Verif.Thread
