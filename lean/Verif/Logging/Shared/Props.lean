import Verif.Logging.Shared.Discipline

/-!
# Data races and deadlocks of the logging library (C123, C124)

`System ι worker ok role st`: any number of threads, each of them a worker thread of an output or a program
that makes any sequence of the calls allowed by `ok`.  `exec st sched = some (tr, st')`: the threads run in the
order `sched`, `tr` are the accesses in the order in which they happened.
-/
namespace Verif.Logging.Shared
open Verif.Race

section
variable {ι : Type} [DecidableEq ι] {worker : Nat → Bool} {ok : Api → Prop} {role : ι → Option Nat}
  {st st' : St ι Sem Var} {sched : List ι} {tr : List (ι × E)}

theorem program_guarded {es : List E} (P : E → Bool) (m : Sem) (h : Program worker ok es)
    (hc : ∀ a c, ok a → Call worker a c → guarded P m false c = some false) : guarded P m false es = some false := by
  obtain ⟨cs, h1, rfl⟩ := h
  refine closed_flatten P m cs ?_
  intro c hc'
  obtain ⟨a, ha, hca⟩ := h1 c hc'
  exact hc a c ha hca

/-- C123: as long as `printConfiguration` is not called, no execution has a data race on the list of outputs
of a log stream: log statements, `addOutputStream` and `removeOutputStream` may be used by any number of
threads at once. -/
theorem c123_outputs_partial (h : System ι worker ok role st) (s : Nat)
    (hp : ∀ ss os, ok (.printConfiguration ss os) → s ∉ ss) (he : exec st sched = some (tr, st')) :
    ¬ DataRace tr (.outputs s) := by
  refine no_race _ (.stream s) st (by rw [h.sems]; rfl) ?_ sched tr st' he
  intro t
  cases hr : role t with
  | none =>
    have := program_guarded (acc (.outputs s)) (.stream s) (h.calls t hr)
      (fun a c ha hc => outputs_call s hc (fun ss os e => hp ss os (e ▸ ha)))
    unfold acc at this
    rw [this]; rfl
  | some o =>
    have hw := h.runs t o hr
    have := guarded_quiet (acc (.outputs s)) (.stream s) (st.prog t) false (by
      intro e he
      have := hw.mem e he
      simp only [acc, decide_eq_false_iff_not]
      grind)
    unfold acc at this
    rw [this]; rfl

/-- C123: no execution has a data race on the pool of thread streams of a log stream. -/
theorem c123_pool (h : System ι worker ok role st) (s : Nat) (he : exec st sched = some (tr, st')) :
    ¬ DataRace tr (.pool s) := by
  refine no_race _ (.stream s) st (by rw [h.sems]; rfl) ?_ sched tr st' he
  intro t
  cases hr : role t with
  | none =>
    have := program_guarded (acc (.pool s)) (.stream s) (h.calls t hr) (fun a c _ hc => pool_call s hc)
    unfold acc at this
    rw [this]; rfl
  | some o =>
    have hw := h.runs t o hr
    have := guarded_quiet (acc (.pool s)) (.stream s) (st.prog t) false (by
      intro e he
      have := hw.mem e he
      simp only [acc, decide_eq_false_iff_not]
      grind)
    unfold acc at this
    rw [this]; rfl

/-- C123: no execution has a data race on the format of an output, although formats may be changed while
other threads log. -/
theorem c123_format (h : System ι worker ok role st) (o : Nat) (he : exec st sched = some (tr, st')) :
    ¬ DataRace tr (.format o) := by
  refine no_race _ (.format o) st (by rw [h.sems]; rfl) ?_ sched tr st' he
  intro t
  cases hr : role t with
  | none =>
    have := program_guarded (acc (.format o)) (.format o) (h.calls t hr) (fun a c _ hc => format_call o hc)
    unfold acc at this
    rw [this]; rfl
  | some o' =>
    have := format_worker (o := o) (h.runs t o' hr)
    unfold acc at this
    rw [this]; rfl

theorem impl_no_sink {o : Nat} {es : List E} (hw : worker o = true) (h : PushAll worker es) :
    ∀ e ∈ es, ¬ Accesses e (.sink o) := by
  intro e he
  obtain ⟨o', es', hp, he'⟩ := h.mem e he
  have := hp.mem e he'
  unfold Accesses
  by_cases ho : o' = o
  · subst ho; grind
  · grind

/-- C123: no execution has a data race on what an output writes to, with and without worker thread. -/
theorem c123_sink (h : System ι worker ok role st) (o : Nat) (he : exec st sched = some (tr, st')) :
    ¬ DataRace tr (.sink o) := by
  cases hw : worker o with
  | false =>
    refine no_race _ (.direct o) st (by rw [h.sems]; rfl) ?_ sched tr st' he
    intro t
    cases hr : role t with
    | none =>
      have := program_guarded (acc (.sink o)) (.direct o) (h.calls t hr) (fun a c _ hc => direct_call o hc)
      unfold acc at this
      rw [this]; rfl
    | some o' =>
      have h1 := h.runs t o' hr
      have h2 := h.has t o' hr
      have hne : o' ≠ o := by rintro rfl; rw [hw] at h2; cases h2
      have := guarded_quiet (acc (.sink o)) (.direct o) (st.prog t) false (by
        intro e he
        have := h1.mem e he
        simp only [acc, decide_eq_false_iff_not]
        grind)
      unfold acc at this
      rw [this]; rfl
  | true =>
    have hother : ∀ u, role u ≠ some o → ∀ e ∈ st.prog u, ¬ Accesses e (.sink o) := by
      intro u hu e heu
      cases hr : role u with
      | some o' =>
        have hne : o' ≠ o := by rintro rfl; exact hu hr
        have := (h.runs u o' hr).mem e heu
        unfold Accesses
        grind
      | none =>
        obtain ⟨cs, h1, h2⟩ := h.calls u hr
        rw [h2, List.mem_flatten] at heu
        obtain ⟨c, hc, hec⟩ := heu
        obtain ⟨a, _, hca⟩ := h1 c hc
        cases hca with
        | flush s k es hp =>
          have := impl_no_sink hw hp e
          simp only [List.cons_append, List.mem_cons, List.mem_append, List.not_mem_nil, or_false] at hec
          rcases hec with rfl | rfl | rfl | h' | rfl | rfl | rfl | rfl <;> first | exact this h' | simp [Accesses]
        | setLogLevel ss os =>
          simp only [List.mem_append, List.mem_map] at hec
          rcases hec with ⟨_, _, rfl⟩ | ⟨_, _, rfl⟩ <;> simp [Accesses]
        | printConfiguration ss os =>
          simp only [List.mem_append, List.mem_map] at hec
          rcases hec with ⟨_, _, rfl⟩ | ⟨_, _, rfl⟩ <;> simp [Accesses]
        | _ =>
          simp only [List.mem_cons, List.not_mem_nil, or_false] at hec <;> (unfold Accesses; grind)
    by_cases hex : ∃ t, role t = some o
    · obtain ⟨t, ht⟩ := hex
      exact no_race_single _ st t (fun u hu => hother u (fun hr => hu (h.one u t o hr ht))) sched tr st' he
    · rintro ⟨a, b, i, j, e, f, ha, _, _, _, hea, _⟩
      exact hother i (fun hr => hex ⟨i, hr⟩) e (exec_mem sched st st' tr he i e (List.mem_of_getElem? ha)) hea

/-- C123, the part that holds for the message queue: no two modifications of the queue of an output race.
Missing: the worker tests whether the queue is empty without the mutex, see `c123_queue_race`. -/
theorem c123_queue_writes_partial (h : System ι worker ok role st) (o : Nat) (he : exec st sched = some (tr, st'))
    (a b : Nat) (i j : ι) (hab : a < b) (ha : tr[a]? = some (i, .wr (.queue o))) (hb : tr[b]? = some (j, .wr (.queue o))) :
    HB tr a b := by
  refine no_write_race _ (.queue o) st (by rw [h.sems]; rfl) ?_ sched tr st' he a b i j hab ha hb
  intro t
  cases hr : role t with
  | none =>
    have := program_guarded (wrt (.queue o)) (.queue o) (h.calls t hr) (fun a c _ hc => queue_call o hc)
    unfold wrt at this
    rw [this]; rfl
  | some o' =>
    have := queue_worker (o := o) (h.runs t o' hr)
    unfold wrt at this
    rw [this]; rfl

/-- C124: whenever nothing can go on any more, every thread has returned from all its calls, except worker
threads waiting for messages and `shutdown` calls waiting for the end of a worker. -/
theorem c124_no_deadlock (h : System ι worker ok role st) (he : exec st sched = some (tr, st'))
    (hstuck : ∀ t, step st' t = none) (t : ι) :
    st'.prog t = [] ∨ (∃ o r, st'.prog t = .acq (.fill o) :: r ∧ st'.sem (.fill o) = 0) ∨
      (∃ o r, st'.prog t = .acq (.ended o) :: r ∧ st'.sem (.ended o) = 0) := by
  have hl : ∀ t, locks mutex rank [] (st.prog t) = true := by
    intro t
    rw [locks_eq]
    cases hr : role t with
    | none =>
      obtain ⟨cs, h1, h2⟩ := h.calls t hr
      rw [h2, locksTo_flatten mutex rank cs (fun c hc => by
        obtain ⟨a, _, hca⟩ := h1 c hc
        exact order_call hca)]
      rfl
    | some o => rw [order_worker (h.runs t o hr)]; rfl
  have hR : ∀ m, mutex m = true → rank m < 3 := by
    intro m _; cases m <;> simp [rank]
  have hm : ∀ m, mutex m = true → st.sem m ≠ 0 := by
    intro m hm; rw [h.sems]; cases m <;> simp [initial, mutex] at *
  rcases stuck_waits mutex rank 3 hR st st' hm hl sched tr he hstuck t with h | ⟨m, r, h1, h2, h3⟩
  · exact .inl h
  · right
    cases m <;> simp only [mutex, Bool.true_eq_false] at h2
    · exact .inl ⟨_, _, h1, h3⟩
    · exact .inr ⟨_, _, h1, h3⟩

theorem exec_suffix : ∀ (is : List ι) (s s' : St ι Sem Var) (tr : List (ι × E)), exec s is = some (tr, s') →
    ∀ t, ∃ p, s.prog t = p ++ s'.prog t := by
  intro is
  induction is with
  | nil =>
    intro s s' tr he t
    simp only [exec, Option.some.injEq, Prod.mk.injEq] at he
    exact ⟨[], by simp [he.2]⟩
  | cons i is ih =>
    intro s s' tr he t
    obtain ⟨e, s1, tr1, hs, he1, rfl⟩ := exec_cons he
    obtain ⟨p, hp⟩ := ih s1 s' tr1 he1 t
    have hc := steps_count [i] s s1 [(i, e)] (by simp [exec, hs]) t
    have : ∃ q, s.prog t = q ++ s1.prog t := by
      unfold step at hs
      cases hpi : s.prog i with
      | nil => simp [hpi] at hs
      | cons e0 r =>
        rw [hpi] at hs
        have e1 : s1.prog = fun j => if j = i then r else s.prog j := by
          cases e0 with
          | acq m =>
            by_cases h0 : s.sem m = 0
            · simp [h0] at hs
            · simp only [h0, if_false, Option.some.injEq, Prod.mk.injEq] at hs; rw [← hs.2]
          | rel m => simp only [Option.some.injEq, Prod.mk.injEq] at hs; rw [← hs.2]
          | rd m => simp only [Option.some.injEq, Prod.mk.injEq] at hs; rw [← hs.2]
          | wr m => simp only [Option.some.injEq, Prod.mk.injEq] at hs; rw [← hs.2]
        rw [e1]
        by_cases ht : t = i
        · subst ht; exact ⟨[e0], by simp [hpi]⟩
        · exact ⟨[], by simp [ht]⟩
    obtain ⟨q, hq⟩ := this
    exact ⟨q ++ p, by rw [hq, hp, List.append_assoc]⟩

/-- C124: a `shutdown` that joins the worker of an output goes on only after the worker has ended, and a
worker takes a message only after one has been queued; what was done before happens before what follows. -/
theorem c124_waits_for (h : System ι worker ok role st) (he : exec st sched = some (tr, st')) (o : Nat) (m : Sem)
    (hm : m = .ended o ∨ m = .fill o) (b : Nat) (t : ι) (hb : tr[b]? = some (t, .acq m)) :
    ∃ (a : Nat) (u : ι), tr[a]? = some (u, .rel m) ∧ HB tr a b := by
  obtain ⟨a, u, h1, h2⟩ := acq_after_rel m sched st st' tr (by rw [h.sems]; rcases hm with rfl | rfl <;> rfl) he b t hb
  exact ⟨a, u, h2, .sync h1 h2 hb⟩

/-- C124: every log call returns. Whatever the threads do and in whatever order they run, a run ends after at
most as many steps as there are events, and when it has ended every thread that does not shut outputs down has
returned from all its calls. -/
theorem c124_calls_return (h : System ι worker ok role st) (he : exec st sched = some (tr, st')) (t : ι)
    (hrole : role t = none) (hok : ∀ o, ¬ ok (.shutdown o)) :
    sched.count t ≤ (st.prog t).length ∧ ((∀ u, step st' u = none) → st'.prog t = []) := by
  refine ⟨by have := steps_count sched st st' tr he t; omega, ?_⟩
  intro hstuck
  obtain ⟨p, hp⟩ := exec_suffix sched st st' tr he t
  have hno : ∀ e ∈ st.prog t, ∀ o, e ≠ .acq (.fill o) ∧ e ≠ .acq (.ended o) := by
    intro e heu o
    obtain ⟨cs, h1, h2⟩ := h.calls t hrole
    rw [h2, List.mem_flatten] at heu
    obtain ⟨c, hc, hec⟩ := heu
    obtain ⟨a, ha, hca⟩ := h1 c hc
    cases hca with
    | flush s k es hpa =>
      have hin : e ∈ es → e ≠ .acq (.fill o) ∧ e ≠ .acq (.ended o) := by
        intro h'
        obtain ⟨o', es', hpu, he'⟩ := hpa.mem e h'
        have := hpu.mem e he'
        grind
      simp only [List.cons_append, List.mem_cons, List.mem_append, List.not_mem_nil, or_false] at hec
      rcases hec with rfl | rfl | rfl | h' | rfl | rfl | rfl | rfl <;> first | exact hin h' | simp
    | setLogLevel ss os =>
      simp only [List.mem_append, List.mem_map] at hec
      rcases hec with ⟨_, _, rfl⟩ | ⟨_, _, rfl⟩ <;> simp
    | printConfiguration ss os =>
      simp only [List.mem_append, List.mem_map] at hec
      rcases hec with ⟨_, _, rfl⟩ | ⟨_, _, rfl⟩ <;> simp
    | shutdown o' hw => exact absurd ha (hok o')
    | shutdownLate o' hw => exact absurd ha (hok o')
    | shutdownIdle o' => exact absurd ha (hok o')
    | _ =>
      simp only [List.mem_cons, List.not_mem_nil, or_false] at hec <;> grind
  rcases c124_no_deadlock h he hstuck t with h' | ⟨o, r, h', _⟩ | ⟨o, r, h', _⟩
  · exact h'
  · exact absurd rfl (hno _ (by rw [hp, h']; simp) o).1
  · exact absurd rfl (hno _ (by rw [hp, h']; simp) o).2

end

end Verif.Logging.Shared
