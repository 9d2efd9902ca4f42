import Verif.Conc.ActiveObject
import Mathlib.Data.List.Nodup

/-!
# Properties of `ActiveObject` (C56)
-/
namespace Verif.ActiveObject

theorem inv_exec (as : List Act) : ∀ (s s' : State), Inv s → exec s as = some s' → Inv s' := by
  induction as with
  | nil => intro s s' h he; cases he; exact h
  | cons a as ih =>
    intro s s' h he
    simp only [exec] at he
    cases hst : step s a with
    | none => rw [hst] at he; cases he
    | some s1 =>
      rw [hst] at he
      refine ih s1 s' ?_ he
      cases a with
      | w a => exact inv_stepW h a hst
      | c t a => exact inv_stepC h t a hst

/-- C56. In every interleaving of any number of clients, worker runs and stops: operations
are invoked in the order in which they were queued, each at most once. -/
theorem c56_in_order_once (as : List Act) (s : State) (h : exec init as = some s) :
    s.invoked.Sublist s.pushed ∧ s.pushed.Nodup ∧ s.invoked.Nodup := by
  have hi := inv_exec as init s inv_init h
  have h1 : s.invoked.Sublist s.pushed := by
    rw [hi.lst]; exact hi.iv.trans (List.sublist_append_left _ _)
  exact ⟨h1, hi.nd, h1.nodup hi.nd⟩

/-- C56. No operation is deleted twice; an operation still in the queue, or still owned by the
worker or by a client inside `queue()`, has not been deleted (no use after delete, and an
operation is never deleted by the rejecting `queue()` call and invoked as well). -/
theorem c56_deleted_once (as : List Act) (s : State) (h : exec init as = some s) :
    s.deleted.Nodup ∧ (∀ op ∈ s.queue, op ∉ s.deleted) ∧
    (∀ op, (s.w = .invoke op ∨ s.w = .delete op) → op ∉ s.deleted) ∧
    (∀ t op, (s.pc t = .check op ∨ s.pc t = .push op ∨ s.pc t = .delete op) →
      op ∉ s.deleted ∧ op ∉ s.invoked) := by
  have hi := inv_exec as init s inv_init h
  refine ⟨hi.dn, fun op hq hd => (hi.dl op hd).2 hq, fun op hw => (hi.wo op ?_).2, fun t op hc => ?_⟩
  · rcases hw with e | e <;> rw [e] <;> rfl
  · have := hi.cn t op (by rcases hc with e | e | e <;> rw [e] <;> rfl)
    refine ⟨this.2.2, fun hin => this.2.1 ?_⟩
    exact (hi.iv.trans (hi.lst ▸ List.sublist_append_left _ _)).subset hin

/-- C56. `front()`/`pop_front()` are never executed on an empty queue: the worker blocks only
in `wait()` (semaphore zero) and in `lock()` (mutex taken), or does not run. -/
theorem c56_worker_blocks_only_waiting (as : List Act) (s : State) (h : exec init as = some s)
    (hb : step s (.w .go) = none) :
    s.w = .off ∨ (s.w = .wait ∧ s.sem = 0) ∨ (s.w = .lock ∧ s.mutex ≠ .none) := by
  have hi := inv_exec as init s inv_init h
  simp only [step, stepW] at hb
  have hne := hi.ne
  cases hw : s.w with
  | off => exact Or.inl rfl
  | wait => rw [hw] at hb; simp only at hb; split at hb <;> simp_all
  | lock => rw [hw] at hb; simp only at hb; split at hb <;> simp_all
  | pop =>
    rw [hw] at hb; simp only at hb
    split at hb
    · next hq => exact absurd hq (hne (Or.inr (Or.inl hw)))
    · cases hb
  | drainPop =>
    rw [hw] at hb; simp only at hb
    split at hb
    · next hq => exact absurd hq (hne (Or.inr (Or.inr hw)))
    · cases hb
  | _ => rw [hw] at hb; simp only [reduceCtorEq] at hb

/-- C56. No lost wake-up: when the worker is blocked in `wait()` and no client is between its
`push_back` and its `post()`, the queue is empty. -/
theorem c56_no_lost_wakeup (as : List Act) (s : State) (h : exec init as = some s)
    (hw : s.w = .wait) (h0 : s.sem = 0) (hc : ∀ t, s.pc t ≠ .unlock ∧ s.pc t ≠ .post) : s.queue = [] := by
  have hi := inv_exec as init s inv_init h
  apply Classical.byContradiction
  intro hq
  have := hi.wake (Or.inr (Or.inl hw)) hq (fun t => by
    cases hp : s.pc t <;> simp_all [willPost])
  omega

/-- C56, the part that holds: when the worker has finished and no client is inside `queue()`,
every operation ever passed to `queue()` has been deleted exactly once or is still in the
queue; and those invoked are deleted unless leaked. If the queue is empty, nothing leaked.
Missing: an operation pushed after the final clean-up loop stays in the queue, see
`c56_leak`. -/
theorem c56_all_disposed_partial (as : List Act) (s : State) (h : exec init as = some s)
    (hw : s.w = .off) (hc : ∀ t, s.pc t = .idle) (op : Nat) (ho : op < s.next) :
    s.deleted.count op = 1 ∨ (op ∈ s.queue ∧ op ∉ s.deleted ∧ op ∉ s.invoked) := by
  have hi := inv_exec as init s inv_init h
  by_cases hd : op ∈ s.deleted
  · left
    rw [hi.dn.count, if_pos hd]
  · right
    have hq : op ∈ s.queue := by
      apply Classical.byContradiction
      intro hq
      obtain ⟨t, ht⟩ := hi.all op ho hd hq (by rw [hw]; simp [wop])
      rw [hc t] at ht
      simp [cop] at ht
    refine ⟨hq, hd, fun hin => ?_⟩
    have hp := hi.iv.subset hin
    have hnd := hi.nd
    rw [hi.lst, List.nodup_append] at hnd
    exact hnd.2.2 op hp op hq rfl

/-- A schedule that uses the object: one operation queued and executed, then stop. -/
def normalRun : List Act :=
  [.w .start, .w .go, .c 0 .callQueue, .c 0 .go, .c 0 .go, .c 0 .go, .c 0 .go, .c 0 .go,
   .w .go, .w .go, .w .go, .w .go, .w .go, .w .go, .w .go, .w .go, .w .go,
   .w .go, .c 1 .callStop, .c 1 .go, .c 1 .go, .w .go, .w .go, .w .go, .w .go]

example : ∃ s, exec init normalRun = some s ∧ s.invoked = [0] ∧ s.deleted = [0] ∧ s.w = .off ∧ s.queue = [] :=
  ⟨_, rfl, by decide⟩

/-- The client passes the `execute()` test, then the object is stopped and the worker runs to
its end, then the client pushes. -/
def leakRun : List Act :=
  [.w .start, .w .go, .c 0 .callQueue, .c 0 .go, .c 1 .callStop, .c 1 .go, .c 1 .go,
   .w .go, .w .go, .w .go, .w .go, .c 0 .go, .c 0 .go, .c 0 .go, .c 0 .go]

/-- C56 is violated: an operation can be leaked, neither invoked nor deleted, with the worker
finished and every client done. -/
theorem c56_leak : ∃ s, exec init leakRun = some s ∧ s.w = .off ∧ s.execute = false ∧
    s.pc 0 = .idle ∧ s.pc 1 = .idle ∧ s.queue = [0] ∧ s.invoked = [] ∧ s.deleted = [] :=
  ⟨_, rfl, by decide⟩

/-- C56 is violated: the final loop runs without the mutex. The worker is about to
`pop_front()` while a client is about to `push_back()` on the same `std::list` (data race). -/
theorem c56_drain_race : ∃ as s, exec init as = some s ∧ s.w = .drainPop ∧ s.pc 1 = .push 1 :=
  ⟨[.w .start, .w .go, .c 0 .callQueue, .c 0 .go, .c 0 .go, .c 0 .go, .c 1 .callQueue, .c 1 .go, .c 0 .go, .c 0 .go,
    .c 1 .go, .c 2 .callStop, .c 2 .go, .w .go, .w .go, .w .go, .w .go], _, rfl, by decide⟩

/-- The stop protocol's invariant when `Thread::stop()` is never called directly. -/
structure StopInv (s : State) : Prop where
  nobase : ∀ t, s.pc t ≠ .baseStop
  stop : s.w = .wait → s.execute = false → (∀ t, s.pc t ≠ .stopPost) → 0 < s.sem

/-- Does the action call `Thread::stop()` directly? -/
def Act.isBase : Act → Bool
  | .c _ .callBaseStop => true
  | _ => false

theorem stopInv_step {s s' : State} (h : StopInv s) (a : Act) (ha : a.isBase = false)
    (hs : step s a = some s') : StopInv s' := by
  obtain ⟨h1, h2⟩ := h
  cases a with
  | w a =>
    simp only [step, stepW] at hs
    rcases hp : s.w with _ | _ | _ | _ | _ | _ | _ | op | op | op | _ | _ <;>
      cases a <;> rw [hp] at hs <;> simp only [reduceCtorEq] at hs
    all_goals (try split at hs)
    all_goals (try (cases hs; done))
    all_goals cases hs
    all_goals constructor
    all_goals (try assumption)
    all_goals (try simp only)
    all_goals (try grind)
  | c t a =>
    simp only [step, stepC] at hs
    have h1t := h1 t
    rcases hp : s.pc t with _ | op | op | op | _ | _ | op | _ | _ | _ <;>
      cases a <;> rw [hp] at hs <;> simp only [reduceCtorEq] at hs
    all_goals (try split at hs)
    all_goals (try (cases hs; done))
    all_goals cases hs
    all_goals (try (cases ha; done))
    all_goals constructor
    all_goals simp only [setPc]
    all_goals (try grind)

theorem stopInv_exec (as : List Act) : ∀ (s s' : State), StopInv s → (∀ a ∈ as, a.isBase = false) →
    exec s as = some s' → StopInv s' := by
  induction as with
  | nil => intro s s' h _ he; cases he; exact h
  | cons a as ih =>
    intro s s' h ha he
    simp only [exec] at he
    cases hst : step s a with
    | none => rw [hst] at he; cases he
    | some s1 =>
      rw [hst] at he
      exact ih s1 s' (stopInv_step h a (ha a (by simp)) hst) (fun b hb => ha b (by simp [hb])) he

/-- C56. `stop()` always wakes the worker: once a `stop()` call has completed (`execute()` is
false and nobody is between clearing the flag and posting), the worker is not blocked in
`wait()`. -/
theorem c56_stop_wakes (as : List Act) (s : State) (hb : ∀ a ∈ as, a.isBase = false)
    (h : exec init as = some s) (he : s.execute = false) (hp : ∀ t, s.pc t ≠ .stopPost)
    (hw : s.w = .wait) : ∃ s', step s (.w .go) = some s' := by
  have hi := stopInv_exec as init s ⟨by simp [init], by simp [init]⟩ hb h
  have := hi.stop hw he hp
  refine ⟨_, by simp only [step, stepW, hw]; rw [if_neg (by omega)]⟩

/-- C56. But `Thread::stop()` is not virtual: called through the base class (as the destructor
of `Thread` does) it leaves the worker blocked for good. After `start()` and
`Thread::stop()`, with no client using the object again and no signal interrupting the wait, no action of
the worker is possible, so `join()` never returns. -/
theorem c56_base_stop_hangs : ∃ s, exec init [.w .start, .w .go, .c 0 .callBaseStop, .c 0 .go] = some s ∧
    s.execute = false ∧ s.w = .wait ∧ ∀ a, a ≠ .lockFails → step s (.w a) = none := by
  refine ⟨_, rfl, rfl, rfl, ?_⟩
  intro a ha; cases a
  · rfl
  · rfl
  · exact absurd rfl ha

/-- What holds as long as the worker has not been started. -/
structure Fresh (s : State) : Prop where
  ex : s.execute = false
  off : s.w = .off
  nopush : s.pushed = [] ∧ s.queue = [] ∧ s.invoked = []
  pcs : ∀ t op, s.pc t ≠ .lock op ∧ s.pc t ≠ .push op

theorem fresh_step {s s' : State} (h : Fresh s) (a : Act) (ha : a ≠ .w .start) (hs : step s a = some s') : Fresh s' := by
  obtain ⟨h1, h2, ⟨h3, h4, h5⟩, h6⟩ := h
  cases a with
  | w a =>
    simp only [step, stepW, h2] at hs
    cases a
    · exact absurd rfl ha
    · cases hs
    · cases hs
  | c t a =>
    simp only [step, stepC] at hs
    have h6t := h6 t
    rcases hp : s.pc t with _ | op | op | op | _ | _ | op | _ | _ | _ <;>
      cases a <;> rw [hp] at hs <;> simp only [reduceCtorEq] at hs
    all_goals (try split at hs)
    all_goals (try (cases hs; done))
    all_goals (try (exact absurd hp (h6t op).1))
    all_goals (try (exact absurd hp (h6t op).2))
    all_goals cases hs
    all_goals constructor
    all_goals simp only [setPc]
    all_goals (try grind)

/-- C56. Operations queued before the thread has been started are not kept for later: in every schedule
without a start, nothing is queued or invoked, and every operation passed to a finished `queue()` call
has been deleted. -/
theorem c56_rejected_before_start (as : List Act) (s : State) (ha : ∀ a ∈ as, a ≠ .w .start)
    (h : exec init as = some s) :
    s.queue = [] ∧ s.invoked = [] ∧ ((∀ t, s.pc t = .idle) → ∀ op, op < s.next → s.deleted.count op = 1) := by
  have key : ∀ (as : List Act) (s s' : State), Fresh s → (∀ a ∈ as, a ≠ .w .start) → exec s as = some s' → Fresh s' := by
    intro as
    induction as with
    | nil => intro s s' h _ he; cases he; exact h
    | cons a as ih =>
      intro s s' h ha he
      simp only [exec] at he
      cases hst : step s a with
      | none => rw [hst] at he; cases he
      | some s1 =>
        rw [hst] at he
        exact ih s1 s' (fresh_step h a (ha a (by simp)) hst) (fun b hb => ha b (by simp [hb])) he
  have hf := key as init s ⟨rfl, rfl, ⟨rfl, rfl, rfl⟩, by simp [init]⟩ ha h
  refine ⟨hf.nopush.2.1, hf.nopush.2.2, fun hc op ho => ?_⟩
  rcases c56_all_disposed_partial as s h hf.off hc op ho with h1 | h1
  · exact h1
  · rw [hf.nopush.2.1] at h1; simp at h1

/-- A schedule that meets the hypotheses: one operation is passed to `queue()` and deleted. -/
example : ∃ s, exec init [.c 0 .callQueue, .c 0 .go, .c 0 .go] = some s ∧ s.next = 1 ∧ s.deleted = [0] ∧
    s.pc 0 = .idle := ⟨_, rfl, by decide⟩

end Verif.ActiveObject
