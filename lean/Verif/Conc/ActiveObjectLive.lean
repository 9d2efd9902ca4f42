import Verif.Conc.ActiveObjectProps

/-!
# C133: an `ActiveObject` never deadlocks, and `stop()` ends it

Progress of the model in `ActiveObject.lean` (ActiveObject.cpp:34-93). A *go* action is one in which no
`lock()` fails, no wait is interrupted, and no client starts a new call.
-/
namespace Verif.ActiveObject.Live
open Verif.ActiveObject

/-- The actions that continue what has been started: the worker's or a client's next statement. -/
def IsGo : Act → Prop
  | .w a => a = .go
  | .c _ a => a = .go

/-- Remaining work of a client. -/
def cw : CPC → Nat
  | .idle => 0
  | .check _ => 15
  | .lock _ => 14
  | .push _ => 13
  | .unlock => 6
  | .post => 5
  | .delete _ => 1
  | .stopSet => 6
  | .stopPost => 5
  | .baseStop => 1

theorem cw_tab : cw .idle = 0 ∧ (∀ o, cw (.check o) = 15) ∧ (∀ o, cw (.lock o) = 14) ∧ (∀ o, cw (.push o) = 13) ∧
    cw .unlock = 6 ∧ cw .post = 5 ∧ (∀ o, cw (.delete o) = 1) ∧ cw .stopSet = 6 ∧ cw .stopPost = 5 ∧ cw .baseStop = 1 := by
  simp [cw]

/-- Remaining work of the worker. -/
def ww : WPC → Nat
  | .off => 0
  | .cond => 2
  | .wait => 1
  | .cond2 => 4
  | .empty => 3
  | .lock => 2
  | .pop => 1
  | .unlock _ => 6
  | .invoke _ => 5
  | .delete _ => 4
  | .drain => 1
  | .drainPop => 0

/-- Remaining work of the system, for the clients `cs`. -/
def work (cs : List Nat) (s : State) : Nat :=
  ww s.w + 6 * s.queue.length + 4 * s.sem + (cs.map fun t => cw (s.pc t)).sum

theorem sum_setPc (cs : List Nat) (hn : cs.Nodup) (s : State) (t : Nat) (ht : t ∈ cs) (p : CPC) :
    (cs.map fun u => cw (if u = t then p else s.pc u)).sum + cw (s.pc t) = (cs.map fun u => cw (s.pc u)).sum + cw p := by
  induction cs with
  | nil => cases ht
  | cons u cs ih =>
    have hn' := List.nodup_cons.1 hn
    simp only [List.map_cons, List.sum_cons]
    by_cases e : u = t
    · subst e
      have hc : (cs.map fun v => cw (if v = u then p else s.pc v)) = cs.map fun v => cw (s.pc v) := by
        refine List.map_congr_left fun v hv => ?_
        rw [if_neg (fun e : v = u => hn'.1 (e ▸ hv))]
      rw [hc, if_pos rfl]; omega
    · rw [if_neg e]
      have := ih hn'.2 (by rcases List.mem_cons.1 ht with h | h; exact absurd h.symm e; exact h)
      omega

theorem work_step {cs : List Nat} (hn : cs.Nodup) {s s' : State} (a : Act) (hg : IsGo a)
    (hc : ∀ t b, a = .c t b → t ∈ cs) (hs : step s a = some s') : work cs s' < work cs s := by
  cases a with
  | w a =>
    cases hg
    simp only [step, stepW] at hs
    rcases hp : s.w with _ | _ | _ | _ | _ | _ | _ | op | op | op | _ | _ <;> rw [hp] at hs <;> simp only [reduceCtorEq] at hs
    all_goals (try split at hs)
    all_goals (try (cases hs; done))
    all_goals cases hs
    all_goals simp only [work, hp, ww]
    all_goals (try simp only [apply_ite ww, ww])
    all_goals (try split)
    all_goals (try simp only [*, List.length_cons])
    all_goals omega
  | c t a =>
    cases hg
    have ht := hc t _ rfl
    have key := fun p => sum_setPc cs hn s t ht p
    simp only [step, stepC] at hs
    rcases hp : s.pc t with _ | op | op | op | _ | _ | op | _ | _ | _ <;> rw [hp] at hs key <;>
      simp only [reduceCtorEq] at hs
    all_goals (try split at hs)
    all_goals (try (cases hs; done))
    all_goals cases hs
    all_goals simp only [work, setPc, List.length_append, List.length_singleton]
    all_goals first
      | (have := key .idle; simp only [cw_tab] at this; omega)
      | (have := key (.lock op); simp only [cw_tab] at this; omega)
      | (have := key (.delete op); simp only [cw_tab] at this; omega)
      | (have := key (.push op); simp only [cw_tab] at this; omega)
      | (have := key .unlock; simp only [cw_tab] at this; omega)
      | (have := key .post; simp only [cw_tab] at this; omega)
      | (have := key .stopPost; simp only [cw_tab] at this; omega)

/-- Every run of go actions ends. -/
theorem work_exec {cs : List Nat} (hn : cs.Nodup) {s s' : State} (as : List Act) (hg : ∀ a ∈ as, IsGo a)
    (hc : ∀ t b, .c t b ∈ as → t ∈ cs) (he : exec s as = some s') : as.length + work cs s' ≤ work cs s := by
  induction as generalizing s with
  | nil => cases he; simp
  | cons a as ih =>
    obtain ⟨s1, h1, h2⟩ := Option.bind_eq_some_iff.1 he
    have e1 := work_step hn a (hg a (by simp)) (fun t b e => hc t b (by simp [e])) h1
    have e2 := ih (fun b hb => hg b (by simp [hb])) (fun t b hb => hc t b (by simp [hb])) h2
    simp only [List.length_cons]; omega

theorem work_le (cs : List Nat) (s : State) :
    work cs s ≤ 6 + 6 * s.queue.length + 4 * s.sem + 15 * (cs.filter fun t => s.pc t ≠ .idle).length := by
  have h1 : ww s.w ≤ 6 := by cases s.w <;> simp [ww]
  have h2 : (cs.map fun t => cw (s.pc t)).sum ≤ 15 * (cs.filter fun t => s.pc t ≠ .idle).length := by
    induction cs with
    | nil => simp
    | cons t cs ih =>
      simp only [List.map_cons, List.sum_cons, List.filter_cons]
      by_cases e : s.pc t = .idle
      · simp only [e, cw, ne_eq, not_true_eq_false, decide_false, Bool.false_eq_true, if_false] at ih ⊢; omega
      · have : cw (s.pc t) ≤ 15 := by cases s.pc t <;> simp [cw]
        simp only [ne_eq, e, not_false_eq_true, decide_true, if_true, List.length_cons] at ih ⊢; omega
  unfold work; omega

/-- The worker is in its final loop only after `m_execute` was cleared. -/
theorem drain_inv {s s' : State} (h : (s.w = .drain ∨ s.w = .drainPop) → s.execute = false) (a : Act)
    (hs : step s a = some s') : (s'.w = .drain ∨ s'.w = .drainPop) → s'.execute = false := by
  cases a with
  | w a =>
    simp only [step, stepW] at hs
    rcases hp : s.w with _ | _ | _ | _ | _ | _ | _ | op | op | op | _ | _ <;> cases a <;> rw [hp] at hs <;>
      simp only [reduceCtorEq] at hs
    all_goals (try split at hs)
    all_goals (try (cases hs; done))
    all_goals cases hs
    all_goals (try simp only)
    all_goals grind
  | c t a =>
    simp only [step, stepC] at hs
    rcases hp : s.pc t with _ | op | op | op | _ | _ | op | _ | _ | _ <;> cases a <;> rw [hp] at hs <;>
      simp only [reduceCtorEq] at hs
    all_goals (try split at hs)
    all_goals (try (cases hs; done))
    all_goals cases hs
    all_goals simp only [setPc]
    all_goals grind

theorem drain_exec {s s' : State} (h : (s.w = .drain ∨ s.w = .drainPop) → s.execute = false) (as : List Act)
    (he : exec s as = some s') : (s'.w = .drain ∨ s'.w = .drainPop) → s'.execute = false := by
  induction as generalizing s with
  | nil => cases he; exact h
  | cons a as ih =>
    obtain ⟨s1, h1, h2⟩ := Option.bind_eq_some_iff.1 he
    exact ih (drain_inv h a h1) h2

/-- C133, no deadlock: in every history without a direct call of `Thread::stop()`, if neither the worker
nor any client can go on, then no call is under way, and the worker is not running or waits for work
with an empty queue. -/
theorem c133_no_deadlock (as : List Act) (s : State) (hb : ∀ a ∈ as, a.isBase = false) (h : exec init as = some s)
    (hstuck : ∀ a, IsGo a → step s a = none) :
    (∀ t, s.pc t = .idle) ∧ (s.w = .off ∨ (s.w = .wait ∧ s.execute = true ∧ s.queue = [])) := by
  have hi := inv_exec as init s inv_init h
  have hst := stopInv_exec as init s ⟨by simp [init], by simp [init]⟩ hb h
  have hwgo := hstuck (.w .go) rfl
  have hcgo : ∀ t, step s (.c t .go) = none := fun t => hstuck (.c t .go) rfl
  have hmutex : s.mutex = .none := by
    cases hm : s.mutex with
    | none => rfl
    | worker =>
      have hw := hi.wm.2 hm
      simp only [step, stepW] at hwgo
      cases hp : s.w <;> rw [hp] at hw hwgo <;> simp only [wcrit, Bool.false_eq_true] at hw
      · have := hi.ne (Or.inr (Or.inl hp))
        cases hq : s.queue with
        | nil => exact absurd hq this
        | cons x q => rw [hq] at hwgo; cases hwgo
      · cases hwgo
    | client t =>
      have hc := (hi.cm t).2 hm
      have hgo := hcgo t
      simp only [step, stepC] at hgo
      cases hp : s.pc t <;> rw [hp] at hc hgo <;> simp only [ccrit, Bool.false_eq_true] at hc <;> cases hgo
  have hidle : ∀ t, s.pc t = .idle := by
    intro t
    have hgo := hcgo t
    simp only [step, stepC] at hgo
    cases hp : s.pc t <;> rw [hp] at hgo
    case lock op => simp only [hmutex, if_true] at hgo; cases hgo
    all_goals cases hgo
  refine ⟨hidle, ?_⟩
  simp only [step, stepW] at hwgo
  cases hp : s.w <;> rw [hp] at hwgo
  case off => exact Or.inl rfl
  case wait =>
    right
    have h0 : s.sem = 0 := by
      refine Classical.byContradiction fun hne => ?_
      simp only [if_neg hne] at hwgo; cases hwgo
    refine ⟨rfl, ?_, ?_⟩
    · cases hx : s.execute with
      | true => rfl
      | false =>
        have := hst.stop hp hx fun t => by rw [hidle t]; simp
        omega
    · exact c56_no_lost_wakeup as s h hp h0 fun t => by rw [hidle t]; simp
  case lock => simp only [hmutex, if_true] at hwgo; cases hwgo
  case pop =>
    have := hi.ne (Or.inr (Or.inl hp))
    cases hq : s.queue with
    | nil => exact absurd hq this
    | cons x q => rw [hq] at hwgo; cases hwgo
  case drainPop =>
    have := hi.ne (Or.inr (Or.inr hp))
    cases hq : s.queue with
    | nil => exact absurd hq this
    | cons x q => rw [hq] at hwgo; cases hwgo
  all_goals cases hwgo

/-- C133, every run ends: from every state, a run of go actions of the worker and the clients `cs` has at
most `6 + 6·(queued operations) + 4·(posted tokens) + 15·(calls under way)` actions, whatever the
schedule. -/
theorem c133_runs_end (cs : List Nat) (hn : cs.Nodup) (s s' : State) (as : List Act) (hg : ∀ a ∈ as, IsGo a)
    (hc : ∀ t b, .c t b ∈ as → t ∈ cs) (he : exec s as = some s') :
    as.length ≤ 6 + 6 * s.queue.length + 4 * s.sem + 15 * (cs.filter fun t => s.pc t ≠ .idle).length := by
  have h1 := work_exec hn as hg hc he
  have h2 := work_le cs s
  omega

theorem exec_append (s : State) (as bs : List Act) : exec s (as ++ bs) = (exec s as).bind fun s' => exec s' bs := by
  induction as generalizing s with
  | nil => rfl
  | cons a as ih =>
    simp only [List.cons_append, exec]
    cases step s a with
    | none => rfl
    | some s1 => exact ih s1

theorem go_execute {s s' : State} (as : List Act) (hg : ∀ a ∈ as, IsGo a) (he : exec s as = some s')
    (hx : s.execute = false) : s'.execute = false := by
  induction as generalizing s with
  | nil => cases he; exact hx
  | cons a as ih =>
    obtain ⟨s1, h1, h2⟩ := Option.bind_eq_some_iff.1 he
    refine ih (fun b hb => hg b (by simp [hb])) h2 ?_
    have hga := hg a (by simp)
    cases a with
    | w a =>
      cases hga
      simp only [step, stepW] at h1
      rcases hp : s.w with _ | _ | _ | _ | _ | _ | _ | op | op | op | _ | _ <;> rw [hp] at h1 <;> simp only [reduceCtorEq] at h1
      all_goals (try split at h1)
      all_goals (try (cases h1; done))
      all_goals cases h1
      all_goals exact hx
    | c t a =>
      cases hga
      simp only [step, stepC] at h1
      rcases hp : s.pc t with _ | op | op | op | _ | _ | op | _ | _ | _ <;> rw [hp] at h1 <;> simp only [reduceCtorEq] at h1
      all_goals (try split at h1)
      all_goals (try (cases h1; done))
      all_goals cases h1
      all_goals first | exact hx | rfl

/-- C133, `stop()` ends the worker: once `m_execute` was cleared (and `Thread::stop()` was never called
directly), every run that cannot be continued has ended the worker and all calls. Together with
`c133_runs_end`: `stop()`, and `join()` after it, always get through. -/
theorem c133_stop_ends (as : List Act) (s : State) (hb : ∀ a ∈ as, a.isBase = false) (h : exec init as = some s)
    (hx : s.execute = false) (bs : List Act) (hg : ∀ a ∈ bs, IsGo a) (s' : State) (he : exec s bs = some s')
    (hmax : ∀ a, IsGo a → step s' a = none) : s'.w = .off ∧ ∀ t, s'.pc t = .idle := by
  have he' : exec init (as ++ bs) = some s' := by rw [exec_append, h]; exact he
  obtain ⟨h1, h2⟩ := c133_no_deadlock (as ++ bs) s' (fun a ha => by
    rcases List.mem_append.1 ha with hm | hm
    · exact hb a hm
    · have := hg a hm
      cases a with
      | w a => rfl
      | c t a => cases this; rfl) he' hmax
  rcases h2 with h2 | ⟨_, h2, _⟩
  · exact ⟨h2, h1⟩
  · rw [go_execute bs hg he hx] at h2; cases h2

/-- After the worker's last look at the queue. -/
structure Late (s1 s : State) : Prop where
  off : s.w = .off
  ex : s.execute = false
  app : ∃ q, s.pushed = s1.pushed ++ q ∧ s.queue = q
  own : ∀ op, op ∈ s.queue → ∃ t, s1.pc t = .lock op ∨ s1.pc t = .push op
  cl : ∀ t op, s.pc t = .lock op ∨ s.pc t = .push op → s1.pc t = .lock op ∨ s1.pc t = .push op
  inv : s.invoked = s1.invoked

theorem late_step {s1 s s' : State} (h : Late s1 s) (a : Act) (ha : a ≠ .w .start) (hs : step s a = some s') : Late s1 s' := by
  obtain ⟨off, ex, ⟨q, app, hq⟩, own, cl, inv⟩ := h
  cases a with
  | w a =>
    simp only [step, stepW, off] at hs
    cases a
    · exact absurd rfl ha
    all_goals cases hs
  | c t a =>
    have clt := cl t
    simp only [step, stepC] at hs
    rcases hp : s.pc t with _ | op | op | op | _ | _ | op | _ | _ | _ <;> cases a <;> rw [hp] at hs <;>
      simp only [reduceCtorEq] at hs
    all_goals (try split at hs)
    all_goals (try (cases hs; done))
    all_goals cases hs
    all_goals (try (rename_i hx; rw [ex] at hx; cases hx; done))
    case c.push.go.refl =>
      refine ⟨off, ex, ⟨q ++ [op], by simp [setPc, app], by simp [setPc, hq]⟩, ?_, ?_, inv⟩
      · intro o ho
        simp only [setPc, List.mem_append, List.mem_singleton] at ho
        rcases ho with ho | rfl
        · exact own o ho
        · exact ⟨t, clt o (Or.inr hp)⟩
      · intro u o hu
        simp only [setPc] at hu
        by_cases e : u = t
        · rw [if_pos e] at hu; simp at hu
        · rw [if_neg e] at hu; exact cl u o hu
    all_goals refine ⟨off, by simp [setPc, ex], ⟨q, by simp [setPc, app], by simp [setPc, hq]⟩, own, ?_, inv⟩
    all_goals intro u o hu
    all_goals simp only [setPc] at hu
    all_goals by_cases e : u = t
    all_goals (try (rw [if_neg e] at hu; exact cl u o hu))
    all_goals rw [if_pos e] at hu
    all_goals (try (simp at hu; done))
    all_goals simp at hu
    all_goals (subst e; subst hu; exact clt _ (Or.inl hp))

theorem late_exec {s1 s s' : State} (h : Late s1 s) (as : List Act) (ha : ∀ a ∈ as, a ≠ .w .start)
    (he : exec s as = some s') : Late s1 s' := by
  induction as generalizing s with
  | nil => cases he; exact h
  | cons a as ih =>
    obtain ⟨s2, h1, h2⟩ := Option.bind_eq_some_iff.1 he
    exact ih (late_step h a (ha a (by simp)) h1) (fun b hb => ha b (by simp [hb])) h2

/-- C133, exactly what leaks: let the worker end (its final loop finds the queue empty) in state `s1`, and
let any history without a restart follow. The operations then in the queue, which nobody will invoke or
delete, are exactly those pushed after the worker's end; each belongs to a client that at the worker's end
had passed the `execute()` test of `queue()` and not yet pushed. So if no client is at that point, nothing
leaks. -/
theorem c133_leak_exact (as : List Act) (s1 : State) (h : exec init as = some s1) (hw : s1.w = .drain) (hq : s1.queue = [])
    (bs : List Act) (hb : ∀ a ∈ bs, a ≠ .w .start) (s2 : State) (he : exec s1 (.w .go :: bs) = some s2) :
    s2.w = .off ∧ s2.invoked = s1.invoked ∧ s2.pushed = s1.pushed ++ s2.queue ∧
    (∀ op ∈ s2.queue, ∃ t, s1.pc t = .lock op ∨ s1.pc t = .push op) ∧
    ((∀ t op, s1.pc t ≠ .lock op ∧ s1.pc t ≠ .push op) → s2.queue = []) := by
  have hx := drain_exec (s := init) (by simp [init]) as h (Or.inl hw)
  obtain ⟨s', h1, h2⟩ := Option.bind_eq_some_iff.1 he
  simp only [step, stepW, hw, hq, if_true, Option.some.injEq] at h1
  subst h1
  have hl : Late s1 { s1 with queue := [], w := .off } :=
    ⟨rfl, hx, ⟨[], by simp, rfl⟩, by simp, fun t op h => h, rfl⟩
  have hs1 : ({ s1 with w := .off } : State) = { s1 with queue := [], w := .off } := by rw [← hq]
  obtain ⟨g1, _, ⟨q, g3, g4⟩, g5, _, g7⟩ := late_exec hl bs hb (by first | exact h2 | (rw [← hs1]; exact h2))
  refine ⟨g1, g7, by rw [g4]; exact g3, g5, fun hno => ?_⟩
  cases hq2 : s2.queue with
  | nil => rfl
  | cons x r =>
    obtain ⟨t, ht⟩ := g5 x (by rw [hq2]; simp)
    rcases ht with ht | ht
    · exact absurd ht (hno t x).1
    · exact absurd ht (hno t x).2

/-- Does the action start a call that clears `m_execute`? -/
def Act.stops : Act → Bool
  | .c _ .callBaseStop | .c _ .callStop => true
  | _ => false

/-- Without stop calls the worker never drains, and what was popped is invoked. -/
structure RunInv (s : State) : Prop where
  ns : ∀ t, s.pc t ≠ .stopSet ∧ s.pc t ≠ .stopPost ∧ s.pc t ≠ .baseStop
  ex : s.w ≠ .off → s.execute = true
  nd : s.w ≠ .drain ∧ s.w ≠ .drainPop
  pi : s.popped = s.invoked ++ (match s.w with | .unlock op | .invoke op => [op] | _ => [])

theorem run_step {s s' : State} (h : RunInv s) (a : Act) (ha : Act.stops a = false) (hs : step s a = some s') : RunInv s' := by
  obtain ⟨ns, ex, nd, pi⟩ := h
  cases a with
  | w a =>
    simp only [step, stepW] at hs
    rcases hp : s.w with _ | _ | _ | _ | _ | _ | _ | op | op | op | _ | _ <;> cases a <;> rw [hp] at hs pi ex nd <;>
      simp only [reduceCtorEq] at hs
    all_goals (try split at hs)
    all_goals (try (cases hs; done))
    all_goals cases hs
    all_goals (try (exact absurd rfl nd.1))
    all_goals (try (exact absurd rfl nd.2))
    all_goals have hx : s.execute = true ∨ True := Or.inr trivial
    all_goals constructor
    all_goals (try assumption)
    all_goals (try simp only [ne_eq, reduceCtorEq, not_false_eq_true, and_self, forall_const])
    all_goals (try simp only [ne_eq, reduceCtorEq, not_false_eq_true, forall_const] at ex)
    all_goals (try simp_all)
  | c t a =>
    have nst := ns t
    simp only [step, stepC] at hs
    rcases hp : s.pc t with _ | op | op | op | _ | _ | op | _ | _ | _ <;> cases a <;> rw [hp] at hs <;>
      simp only [reduceCtorEq] at hs
    all_goals (try split at hs)
    all_goals (try (cases hs; done))
    all_goals cases hs
    all_goals (try (cases ha; done))
    all_goals (try (exact absurd hp nst.1))
    all_goals (try (exact absurd hp nst.2.1))
    all_goals (try (exact absurd hp nst.2.2))
    all_goals refine ⟨?_, ex, nd, pi⟩
    all_goals intro u
    all_goals simp only [setPc]
    all_goals by_cases e : u = t
    all_goals (try (rw [if_pos e]; simp; done))
    all_goals (try (rw [if_neg e]; exact ns u))
    all_goals simp [e]

theorem run_exec {s s' : State} (h : RunInv s) (as : List Act) (ha : ∀ a ∈ as, Act.stops a = false)
    (he : exec s as = some s') : RunInv s' := by
  induction as generalizing s with
  | nil => cases he; exact h
  | cons a as ih =>
    obtain ⟨s1, h1, h2⟩ := Option.bind_eq_some_iff.1 he
    exact ih (run_step h a (ha a (by simp)) h1) (fun b hb => ha b (by simp [hb])) h2

/-- C133, progress: as long as nobody stops the object, every run that cannot be continued has invoked
every operation that was queued, in order (and by `c133_runs_end` every run of go actions ends). -/
theorem c133_all_invoked (as : List Act) (s : State) (hb : ∀ a ∈ as, Act.stops a = false) (h : exec init as = some s)
    (hon : s.w ≠ .off) (hstuck : ∀ a, IsGo a → step s a = none) :
    s.invoked = s.pushed ∧ s.queue = [] ∧ ∀ t, s.pc t = .idle := by
  have hr := run_exec (s := init) ⟨by simp [init], by simp [init], by simp [init], by simp [init]⟩ as hb h
  have hi := inv_exec as init s inv_init h
  obtain ⟨h1, h2⟩ := c133_no_deadlock as s (fun a ha => by
    have := hb a ha
    cases a with
    | w a => rfl
    | c t a => cases a <;> first | rfl | cases this) h hstuck
  rcases h2 with h2 | ⟨h2, _, h3⟩
  · exact absurd h2 hon
  · refine ⟨?_, h3, h1⟩
    have := hr.pi
    rw [h2] at this
    rw [hi.lst, h3, this]; simp

/-! ## Concrete runs -/

/-- Two operations are queued and the worker processes the first one. -/
def workRun : List Act :=
  [.w .start, .w .go, .c 0 .callQueue, .c 0 .go, .c 0 .go, .c 0 .go, .c 0 .go, .c 0 .go, .w .go, .w .go,
   .c 1 .callQueue, .c 1 .go, .w .go, .w .go, .w .go, .w .go, .w .go, .w .go]

/-- From there both finish; the run meets the hypotheses of `c133_all_invoked` and `c133_runs_end`. -/
example : ∃ s s', exec init workRun = some s ∧
    exec s [.c 1 .go, .c 1 .go, .w .go, .c 1 .go, .w .go, .w .go, .w .go, .w .go, .w .go, .w .go, .w .go,
      .c 1 .go, .w .go, .w .go, .w .go, .w .go] = some s' ∧
    s'.invoked = [0, 1] ∧ s'.w = .wait ∧ s'.sem = 0 ∧ s'.pc 0 = .idle ∧ s'.pc 1 = .idle ∧ s.queue = [] :=
  ⟨_, _, rfl, rfl, by decide⟩

/-- A client between the test and the push when the worker ends: the hypotheses of `c133_leak_exact`. -/
example : ∃ s1 s2, exec init (leakRun.take 10) = some s1 ∧ s1.w = .drain ∧ s1.queue = [] ∧ s1.pc 0 = .lock 0 ∧
    exec s1 (.w .go :: leakRun.drop 11) = some s2 ∧ s2.queue = [0] :=
  ⟨_, _, rfl, rfl, rfl, rfl, rfl, rfl⟩

/-- `stop()` with an operation still queued: the run meets the hypotheses of `c133_stop_ends`. -/
example : ∃ s s', exec init [.w .start, .w .go, .c 0 .callQueue, .c 0 .go, .c 0 .go, .c 0 .go, .c 0 .go, .c 0 .go, .w .go,
      .c 1 .callStop, .c 1 .go, .c 1 .go] = some s ∧ s.execute = false ∧
    exec s [.w .go, .w .go, .w .go, .w .go, .w .go] = some s' ∧ s'.w = .off ∧ s'.deleted = [0] ∧ s'.invoked = [] :=
  ⟨_, _, rfl, rfl, rfl, rfl, rfl, rfl⟩

end Verif.ActiveObject.Live
