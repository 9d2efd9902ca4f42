import Verif.Logging.Pipe.Live

/-!
# C129: log statements finish
-/
namespace Verif.Logging.Pipe

open Pool (PC Msg)
open Worker (PPC)

/-! ## Specification -/

/-- The action continues a log statement that has already begun, or is a step of a worker: no thread starts a
statement and nobody calls `start()` or `shutdown()`. -/
def Continues : Act → Prop
  | .go _ => True
  | .output _ .worker => True
  | _ => False

/-- The number of steps thread `t` makes in a schedule. -/
def stepsOf (t : Nat) (sched : List Act) : Nat := sched.countP fun x => x = .go t

/-! ## Proofs -/

theorem count_work {c : Conf} (hc : Sets c) (t : Nat) (as : List Act) {s s' : State} (h : PInv c s) (hm : MInv c s)
    (he : exec c s as = some s') (hn : ∀ x ∈ as, ∀ a l y, x ≠ .call t a l y) : stepsOf t as + work c s' t ≤ work c s t := by
  induction as generalizing s with
  | nil => cases he; simp [stepsOf]
  | cons x as ih =>
    obtain ⟨s1, h1, h2⟩ := Option.bind_eq_some_iff.1 he
    have hT := step_tr h1
    have := ih (pinv_tr h hT) (minv_tr hc h hm hT) h2 (fun y hy => hn y (List.mem_cons_of_mem _ hy))
    have hx := hn x List.mem_cons_self
    have hk : (if x = .go t then 1 else 0) + work c s1 t ≤ work c s t := by
      cases x with
      | call u a l y =>
        have hne : t ≠ u := by rintro rfl; exact hx a l y rfl
        simpa using Nat.le_of_eq (call_work h u a l y h1 t hne).1
      | go u =>
        by_cases e : u = t
        · subst e; have := (go_work h u h1).1; simp; omega
        · simpa [e] using Nat.le_of_eq ((go_work h u h1).2 t (Ne.symm e)).1
      | output o y => simpa using Nat.le_of_eq (out_work o y h1 t).1
    have hs : stepsOf t (x :: as) = (if x = .go t then 1 else 0) + stepsOf t as := by
      simp only [stepsOf, List.countP_cons, decide_eq_true_eq]
      omega
    omega

/-- C129, no livelock: a log statement makes only a bounded number of steps (9, plus one for each piece of text, plus 7
for each connected output), whatever the other threads do; apart from these it can only wait for a mutex. -/
theorem c129_bounded (c : Conf) (hc : Sets c) (n : Nat) (sched : List Act) (s s1 s' : State) (rest : List Act) (t a l : Nat)
    (txt : List Nat) (he : exec c (init n) sched = some s) (h1 : step c s (.call t a l txt) = some s1)
    (h2 : exec c s1 rest = some s') (hn : ∀ x ∈ rest, ∀ a l y, x ≠ .call t a l y) :
    stepsOf t rest ≤ 9 + txt.length + 7 * (c.conn a).length := by
  obtain ⟨h, hm⟩ := reach hc he
  have hT := step_tr h1
  have := count_work hc t rest (pinv_tr h hT) (minv_tr hc h hm hT) h2 hn
  have hw : work c s1 t = 9 + txt.length + 7 * (c.conn a).length := by
    simp only [step] at h1
    split at h1
    · next hb =>
      simp only [poolStep, Option.map_eq_some_iff] at h1
      obtain ⟨_, ⟨p, hp, rfl⟩, rfl⟩ := h1
      have hidle : (s.S a).pc t = .idle := by
        by_cases e : (s.S a).pc t = .idle
        · exact e
        · rw [h.bz a t e] at hb; cases hb
      obtain ⟨hpc, _⟩ := pool_call hidle hp
      simp [work, setB, logged, setS, hpc, cRank, isPush]
      omega
    · cases h1
  omega

/-- A worker inside its critical section leaves it. -/
theorem worker_leaves (w : Worker.State) (hi : Worker.Inv w) (hm : w.mutex = .worker) :
    ∃ k w', Worker.exec false w (Worker.worker k) = some w' ∧ w'.mutex = .none ∧ w'.pc = w.pc := by
  induction hme : Worker.measure w using Nat.strongRecOn generalizing w with
  | _ n ih =>
    have hcr := hi.wm.2 hm
    have hex : ∃ w1, Worker.stepW w = some w1 ∧ (w1.mutex = .none ∨ w1.mutex = .worker) := by
      unfold Worker.stepW
      rcases hp : w.w with _ | _ | _ | _ | _ | _ | _ | (_ | m) | m | _ | _ | m | _ | _ <;>
        rw [hp] at hcr <;> simp only [Worker.wcrit, Bool.false_eq_true] at hcr
      · cases hq : w.queue with
        | nil => exact ⟨_, rfl, Or.inr hm⟩
        | cons m q => exact ⟨_, rfl, Or.inr hm⟩
      · exact ⟨_, rfl, Or.inl rfl⟩
      · exact ⟨_, rfl, Or.inl rfl⟩
      · cases hq : w.queue with
        | nil => exact ⟨_, rfl, Or.inr hm⟩
        | cons m q => exact ⟨_, rfl, Or.inr hm⟩
      · exact ⟨_, rfl, Or.inr hm⟩
      · exact ⟨_, rfl, Or.inl rfl⟩
    obtain ⟨w1, h1, h2⟩ := hex
    have hpc := (Worker.stepW_pc h1).1
    rcases h2 with h2 | h2
    · refine ⟨1, w1, ?_, h2, hpc⟩
      show (Worker.stepW w).bind _ = _
      rw [h1]; rfl
    · obtain ⟨k, w', h3, h4, h5⟩ := ih _ (hme ▸ Worker.stepW_measure h1) w1 (Worker.inv_stepW hi h1) h2 rfl
      refine ⟨k + 1, w', ?_, h4, h5.trans hpc⟩
      show (Worker.stepW w).bind _ = _
      rw [h1]; exact h3

/-- A thread inside `push` (of an output) can continue, or the worker has to leave its critical section first. -/
theorem push_progress {c : Conf} {s : State} (h : PInv c s) {a t i l : Nat} {x : List Nat}
    (hp : (s.S a).pc t = .push i l x) :
    ∃ as s1 u s2, (∀ y ∈ as, Continues y) ∧ exec c s as = some s1 ∧ step c s1 (.go u) = some s2 ∧ PInv c s1 ∧
      (∀ v, work c s1 v = work c s v ∧ s1.busy v = s.busy v) := by
  have hb : s.busy t = some a := h.bz a t (by rw [hp]; simp)
  have here : ∀ s2, step c s (.go t) = some s2 → ∃ as s1 u s2, (∀ y ∈ as, Continues y) ∧ exec c s as = some s1 ∧
      step c s1 (.go u) = some s2 ∧ PInv c s1 ∧ (∀ v, work c s1 v = work c s v ∧ s1.busy v = s.busy v) :=
    fun s2 hs => ⟨[], s, t, s2, by simp, rfl, hs, h, fun _ => ⟨rfl, rfl⟩⟩
  obtain ⟨L, hL, hLt⟩ := h.pl a t (by rw [hp]; rfl)
  have hgo : step c s (.go t) = goStep c s t a := by simp [step, hb]
  rcases L with ⟨u, _ | ⟨o, r⟩, e⟩
  · refine here (setL (setS s a (Pool.setPc { s.S a with out := (s.S a).out ++ [⟨t, l, (s.S a).buf i, x⟩] } t
      (.release i l))) a none) ?_
    rw [hgo]
    unfold goStep
    simp only [hp, hL, poolStep]
    unfold Pool.step
    rw [hp]
    rfl
  · simp only at hLt; subst hLt
    have hls : goStep c s u a = loopStep c s a ⟨u, l, (s.S a).buf i, x⟩ u o r e := by
      unfold goStep; simp only [hp, hL]
    rw [hls] at hgo
    cases e with
    | false =>
      have hidle : (s.W o).pc a = .idle := by
        by_cases e : (s.W o).pc a = .idle
        · exact e
        · obtain ⟨t', r', h1⟩ := h.wp o a e
          rw [hL] at h1; cases h1
      by_cases hv : c.lv o ≤ l
      · simp only [loopStep, Bool.false_eq_true, if_false, hv, if_true, Worker.callP, hidle, Option.map_some] at hgo
        exact here _ hgo
      · simp only [loopStep, Bool.false_eq_true, if_false, hv] at hgo
        exact here _ hgo
    | true =>
      by_cases hidle : (s.W o).pc a = .idle
      · simp only [loopStep, if_true, hidle] at hgo
        exact here _ hgo
      · simp only [loopStep, if_true, hidle, if_false] at hgo
        cases hpp : (s.W o).pc a with
        | idle => exact absurd hpp hidle
        | push m => simp only [Worker.stepP, hpp, Option.map_some] at hgo; exact here _ hgo
        | unlock => simp only [Worker.stepP, hpp, Option.map_some] at hgo; exact here _ hgo
        | post => simp only [Worker.stepP, hpp, Option.map_some] at hgo; exact here _ hgo
        | lock m =>
          cases hmx : (s.W o).mutex with
          | none => simp only [Worker.stepP, hpp, hmx, if_true, Option.map_some] at hgo; exact here _ hgo
          | prod b =>
            have hcr := ((h.wi o).pm b).2 hmx
            have hnb : (s.W o).pc b ≠ .idle := by intro e; rw [e] at hcr; cases hcr
            obtain ⟨t', r', hl'⟩ := h.wp o b hnb
            obtain ⟨i', l', x', hp'⟩ := isPush_iff.1 (h.lp b _ hl')
            simp only at hp'
            have hb' : s.busy t' = some b := h.bz b t' (by rw [hp']; simp)
            have hg' : step c s (.go t') = (Worker.stepP (s.W o) b).map fun w => setW s o w := by
              simp only [step, hb', Option.bind_some]
              unfold goStep
              simp only [hp', hl', loopStep, if_true, hnb, if_false]
            have hst : ∃ w, Worker.stepP (s.W o) b = some w := by
              unfold Worker.stepP
              cases hq : (s.W o).pc b with
              | idle => exact absurd hq hnb
              | lock m => rw [hq] at hcr; cases hcr
              | push m => exact ⟨_, rfl⟩
              | unlock => exact ⟨_, rfl⟩
              | post => exact ⟨_, rfl⟩
            obtain ⟨w, hw⟩ := hst
            rw [hw] at hg'
            exact ⟨[], s, t', _, by simp, rfl, hg', h, fun _ => ⟨rfl, rfl⟩⟩
          | worker =>
            obtain ⟨k, w', h1, h2, h3⟩ := worker_leaves (s.W o) (h.wi o) hmx
            have hex := exec_worker c o k h1
            have hP : PInv c (setW s o w') := by
              have : ∀ (as : List Act) (s s' : State), PInv c s → exec c s as = some s' → PInv c s' := by
                intro as
                induction as with
                | nil => intro s s' h e; cases e; exact h
                | cons y as ih =>
                  intro s s' h e
                  obtain ⟨s1, e1, e2⟩ := Option.bind_eq_some_iff.1 e
                  exact ih _ _ (pinv_tr h (step_tr e1)) e2
              exact this _ _ _ h hex
            have hW : (setW s o w').W o = w' := by simp [setW]
            have hg' : step c (setW s o w') (.go u) =
                some (setW (setW s o w') o (Worker.setPc { w' with mutex := .prod a } a (.push m))) := by
              simp only [step]
              rw [show (setW s o w').busy u = some a from hb]
              simp only [Option.bind_some]
              unfold goStep
              simp only [show ((setW s o w').S a).pc u = .push i l x from hp,
                show (setW s o w').loop a = some ⟨u, o :: r, true⟩ from hL, loopStep, if_true, hW, h3, hidle, if_false]
              simp [Worker.stepP, h3, hpp, h2]
            refine ⟨workerOf o k, setW s o w', u, _, ?_, hex, hg', hP, fun v => ?_⟩
            · intro y hy
              rw [(List.mem_replicate.1 hy).2]
              trivial
            · refine ⟨work_congr rfl fun b _ => ⟨rfl, fun _ => ⟨rfl, fun q => ?_⟩⟩, rfl⟩
              by_cases e : q = o
              · subst e; simp [setW, h3]
              · simp [setW, e]

/-- If a thread is in a log statement, some thread in a log statement can make a step, after the worker that
may hold the mutex in question has left its critical section. -/
theorem some_progress {c : Conf} (hr : c.racy = true) {s : State} (h : PInv c s) {t a : Nat} (hb : s.busy t = some a) :
    ∃ as s1 u s2, (∀ y ∈ as, Continues y) ∧ exec c s as = some s1 ∧ step c s1 (.go u) = some s2 ∧ PInv c s1 ∧
      (∀ v, work c s1 v = work c s v ∧ s1.busy v = s.busy v) := by
  -- a thread that is not at a mutex and not in the loop continues
  have easy : ∀ v p, s.busy v = some a → isPush ((s.S a).pc v) = false →
      Pool.step ⟨false, c.racy⟩ (s.S a) v .go = some p →
      ∃ as s1 u s2, (∀ y ∈ as, Continues y) ∧ exec c s as = some s1 ∧ step c s1 (.go u) = some s2 ∧ PInv c s1 ∧
        (∀ v, work c s1 v = work c s v ∧ s1.busy v = s.busy v) := by
    intro v p hv hnp hs
    have hg : ∃ s2, step c s (.go v) = some s2 := by
      simp only [step, hv, Option.bind_some]
      unfold goStep
      cases hp : (s.S a).pc v
      case push => rw [hp] at hnp; cases hnp
      all_goals (simp only [poolStep, hs, Option.map_some]; exact ⟨_, rfl⟩)
    obtain ⟨s2, hg⟩ := hg
    exact ⟨[], s, v, s2, by simp, rfl, hg, h, fun _ => ⟨rfl, rfl⟩⟩
  -- the holder of the mutex continues
  have holder : ∀ v, (s.S a).mutex = some v → ∃ as s1 u s2, (∀ y ∈ as, Continues y) ∧ exec c s as = some s1 ∧
      step c s1 (.go u) = some s2 ∧ PInv c s1 ∧ (∀ v, work c s1 v = work c s v ∧ s1.busy v = s.busy v) := by
    intro v hv
    have hcr := ((h.pi a).mx v).2 hv
    have hbv : s.busy v = some a := h.bz a v (by intro e; rw [e] at hcr; cases hcr)
    cases hp : (s.S a).pc v with
    | look l x => exact easy v _ hbv (by rw [hp]; rfl) (by unfold Pool.step; rw [hp]; simp only [hr, true_or, if_true]; rfl)
    | unlock i l x => exact easy v _ hbv (by rw [hp]; rfl) (by unfold Pool.step; rw [hp])
    | push i l x => exact push_progress h hp
    | release i l => exact easy v _ hbv (by rw [hp]; rfl) (by unfold Pool.step; rw [hp])
    | post i => exact easy v _ hbv (by rw [hp]; rfl) (by unfold Pool.step; rw [hp])
    | _ => rw [hp] at hcr; cases hcr
  cases hp : (s.S a).pc t with
  | idle => exact absurd hp (h.bo a t hb)
  | acq l x =>
    cases hmx : (s.S a).mutex with
    | none => exact easy t _ hb (by rw [hp]; rfl) (by unfold Pool.step; rw [hp]; simp only [hmx, if_true]; rfl)
    | some v => exact holder v hmx
  | flushWait i l x =>
    cases hmx : (s.S a).mutex with
    | none => exact easy t _ hb (by rw [hp]; rfl) (by unfold Pool.step; rw [hp]; simp only [hmx, if_true]; rfl)
    | some v => exact holder v hmx
  | look l x => exact easy t _ hb (by rw [hp]; rfl) (by unfold Pool.step; rw [hp]; simp only [hr, true_or, if_true]; rfl)
  | unlock i l x => exact easy t _ hb (by rw [hp]; rfl) (by unfold Pool.step; rw [hp])
  | push i l x => exact push_progress h hp
  | release i l => exact easy t _ hb (by rw [hp]; rfl) (by unfold Pool.step; rw [hp])
  | post i => exact easy t _ hb (by rw [hp]; rfl) (by unfold Pool.step; rw [hp])
  | reset i => exact easy t _ hb (by rw [hp]; rfl) (by unfold Pool.step; rw [hp]; simp only [h.ou a t]; rfl)
  | write f =>
    cases hf : f.rest with
    | nil => exact easy t _ hb (by rw [hp]; rfl) (by unfold Pool.step; rw [hp]; simp only [hf]; rfl)
    | cons x r => exact easy t _ hb (by rw [hp]; rfl) (by unfold Pool.step; rw [hp]; simp only [hf]; rfl)

/-- The work of the threads of a list. -/
def total (c : Conf) (s : State) (T : List Nat) : Nat := (T.map (work c s)).sum

theorem total_lt {c : Conf} {s s' : State} {T : List Nat} {u : Nat} (hu : u ∈ T) (h1 : work c s' u < work c s u)
    (h2 : ∀ v, v ≠ u → work c s' v = work c s v) : total c s' T < total c s T := by
  have hle : ∀ v, work c s' v ≤ work c s v := fun v => by
    by_cases e : v = u
    · subst e; omega
    · exact Nat.le_of_eq (h2 v e)
  have hles : ∀ T, total c s' T ≤ total c s T := by
    intro T
    induction T with
    | nil => exact Nat.le_refl _
    | cons v T ih => have := hle v; simp only [total, List.map_cons, List.sum_cons] at ih ⊢; omega
  induction T with
  | nil => cases hu
  | cons v T ih =>
    simp only [total, List.map_cons, List.sum_cons] at ih ⊢
    have a1 := hle v
    have a2 := hles T
    simp only [total] at a2
    rcases List.mem_cons.1 hu with rfl | hu
    · omega
    · have := ih hu; omega

theorem finish {c : Conf} (hr : c.racy = true) (T : List Nat) (n : Nat) (s : State) (hn : total c s T = n) (h : PInv c s)
    (hT : ∀ t, s.busy t ≠ none → t ∈ T) :
    ∃ as s', (∀ y ∈ as, Continues y) ∧ exec c s as = some s' ∧ ∀ t, s'.busy t = none := by
  induction n using Nat.strongRecOn generalizing s with
  | _ n ih =>
    by_cases hall : ∀ t, s.busy t = none
    · exact ⟨[], s, by simp, rfl, hall⟩
    · obtain ⟨t, ht⟩ := Classical.not_forall.1 hall
      cases hb : s.busy t with
      | none => exact absurd hb ht
      | some a =>
        obtain ⟨as, s1, u, s2, h1, h2, h3, h4, h5⟩ := some_progress hr h hb
        obtain ⟨w1, w2⟩ := go_work h4 u h3
        have hu : s.busy u ≠ none := by
          intro e
          simp only [step, (h5 u).2, e, Option.bind_none] at h3
          cases h3
        have htot : total c s1 T = total c s T := by
          unfold total; congr 1
          exact List.map_congr_left fun v _ => (h5 v).1
        have hlt := total_lt (T := T) (hT u hu) w1 (fun v hv => (w2 v hv).1)
        have hT2 : ∀ v, s2.busy v ≠ none → v ∈ T := by
          intro v hv
          by_cases e : v = u
          · subst e; exact hT v hu
          · rw [(w2 v e).2, (h5 v).2] at hv; exact hT v hv
        obtain ⟨bs, s', b1, b2, b3⟩ := ih (total c s2 T) (by omega) s2 rfl (pinv_tr h4 (step_tr h3)) hT2
        refine ⟨as ++ .go u :: bs, s', ?_, ?_, b3⟩
        · intro y hy
          rcases List.mem_append.1 hy with hy | hy
          · exact h1 y hy
          · rcases List.mem_cons.1 hy with rfl | hy
            · trivial
            · exact b1 y hy
        · rw [exec_append, h2]
          show (step c s1 (.go u)).bind _ = _
          rw [h3]; exact b2

/-- The threads that start statements in a schedule. -/
def callers : List Act → List Nat
  | [] => []
  | .call t _ _ _ :: as => t :: callers as
  | _ :: as => callers as

theorem callers_mem {as : List Act} {t a l : Nat} {x : List Nat} (h : .call t a l x ∈ as) : t ∈ callers as := by
  induction as with
  | nil => cases h
  | cons y as ih =>
    rcases List.mem_cons.1 h with rfl | h'
    · exact List.mem_cons_self
    · have := ih h'
      cases y <;> simp only [callers] <;> first | exact this | exact List.mem_cons_of_mem _ this

/-- C129, no deadlock: from every reachable state, for any number of threads, streams and outputs, every log statement
that has begun can be finished by letting the threads that are inside log statements, and the workers, continue; no
new statement, `start()` or `shutdown()` is needed. Every statement that had begun is then recorded as before (no
thread starts one in between). -/
theorem c129_no_deadlock (c : Conf) (hc : Sets c) (hr : c.racy = true) (n : Nat) (sched : List Act) (s : State)
    (he : exec c (init n) sched = some s) :
    ∃ as s', (∀ y ∈ as, Continues y) ∧ exec c s as = some s' ∧ ∀ t, s'.busy t = none := by
  obtain ⟨h, _⟩ := reach hc he
  refine finish hr (callers sched) _ s rfl h fun t ht => ?_
  refine Classical.byContradiction fun hn => ht ?_
  exact busy_none he t rfl fun x hx a l y e => hn (callers_mem (e ▸ hx))

/-- Two threads on one stream and one on another, all in the middle of their statements: thread 2 waits for the mutex of
stream 0 held by thread 1, which waits for the mutex of output 0 held by thread 3. -/
def stuckSched : List Act :=
  [.output 0 .start, .call 1 0 2 [5], .call 2 0 2 [6], .call 3 1 2 [7]] ++ gos 3 8 ++ gos 1 7

example : ∃ s, exec (exConf true) (init 2) stuckSched = some s ∧ s.busy 1 = some 0 ∧ s.busy 2 = some 0 ∧ s.busy 3 = some 1 ∧
    step (exConf true) s (.go 1) = none ∧ step (exConf true) s (.go 2) = none ∧ (step (exConf true) s (.go 3)).isSome ∧
    stepsOf 1 (gos 1 7) = 7 :=
  ⟨_, rfl, by decide, by decide, by decide, rfl, rfl, rfl, by decide⟩

end Verif.Logging.Pipe
