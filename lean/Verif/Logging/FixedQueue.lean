import Verif.Base

/-!
# The fixed size message queue of the log worker (C48)

LogOutputStream.cpp:157-163 (insertion), 583-588 and 615-621 (removal), 640-659 (`incrementIndex`,
`isMessageQueueEmpty`, `isMessageQueueFull`), 530-542 (constructor: `message_queue_size + 1` slots).
Compiled only with `ICL_CORE_LOG_OUTPUT_STREAM_USE_FIXED_QUEUE`. All operations run under `m_mutex`
(C46), so they are sequential here. `size_t` is 64 bits: `read - 1` wraps around.
-/
namespace Verif.Logging.FixedQueue

variable {α : Type}

/-- LogOutputStream.h:292-300. A slot is `none` until it is first written. -/
structure Queue (α : Type) where
  slots : List (Option α)
  size : Nat
  write : Nat
  read : Nat

/-- LogOutputStream.cpp:530-542. -/
def Queue.create (n : Nat) : Queue α := ⟨List.replicate (n + 1) none, n, 0, 0⟩

/-- cpp:640-647 `incrementIndex`. -/
def incr (size i : Nat) : Nat := if i + 1 ≥ size then 0 else i + 1

/-- cpp:649-652 `isMessageQueueEmpty`. -/
def Queue.isEmpty (q : Queue α) : Bool := q.read == q.write

/-- `size_t` subtraction of 1. -/
def pred64 (i : Nat) : Nat := (i + (2 ^ 64 - 1)) % 2 ^ 64

/-- cpp:654-659 `isMessageQueueFull`. -/
def Queue.isFull (q : Queue α) : Bool :=
  q.write == pred64 q.read || (q.write == pred64 q.size && q.read == 0)

/-- cpp:158-162: `none` = an access outside the array. -/
def Queue.push (q : Queue α) (m : α) : Option (Queue α) :=
  if q.isFull then some q
  else if q.write < q.slots.length then
    some { q with slots := q.slots.set q.write (some m), write := incr q.size q.write }
  else none

/-- cpp:583-588: `none` = an access outside the array, or reading a slot that was never written. The second
component is the message taken, if any. -/
def Queue.pop (q : Queue α) : Option (Queue α × Option α) :=
  if q.isEmpty then some (q, none)
  else
    match q.slots[q.read]? with
    | some (some m) => some ({ q with read := incr q.size q.read }, some m)
    | _ => none

/-- Insertions and removals. -/
inductive QOp (α : Type) where
  | push (m : α)
  | pop

/-- Run operations, collecting the messages taken (`none` for an empty queue). -/
def run (q : Queue α) : List (QOp α) → Option (List (Option α))
  | [] => some []
  | .push m :: ops => (q.push m).bind fun q' => run q' ops
  | .pop :: ops => q.pop.bind fun r => (run r.1 ops).map (r.2 :: ·)

/-- Specification: a first-in first-out queue of capacity `c` that ignores insertions when full. -/
def specRun (c : Nat) (l : List α) : List (QOp α) → List (Option α)
  | [] => []
  | .push m :: ops => specRun c (if l.length < c then l ++ [m] else l) ops
  | .pop :: ops => l.head? :: specRun c l.tail ops

/-! ## Refinement -/

/-- The number of queued messages. -/
def Queue.len (q : Queue α) : Nat := if q.read ≤ q.write then q.write - q.read else q.size + q.write - q.read

/-- The queue holds `l`. -/
structure Rep (q : Queue α) (l : List α) : Prop where
  len : q.slots.length = q.size + 1
  r : q.read < q.size ∨ q.read = 0
  w : q.write < q.size ∨ q.write = 0
  sz : q.size < 2 ^ 64
  ll : l.length = q.len
  el : ∀ k, k < l.length → q.slots[(if q.read + k < q.size then q.read + k else q.read + k - q.size)]? = some l[k]?

theorem pred64_pos (i : Nat) (h : 0 < i) (h2 : i < 2 ^ 64) : pred64 i = i - 1 := by
  unfold pred64
  have e : i + (2 ^ 64 - 1) = (i - 1) + 2 ^ 64 := by omega
  rw [e, Nat.add_mod_right, Nat.mod_eq_of_lt (by omega)]

theorem pred64_zero : pred64 0 = 2 ^ 64 - 1 := by decide

theorem rep_create (n : Nat) (h : n < 2 ^ 64) : Rep (Queue.create n : Queue α) [] := by
  refine ⟨by simp [Queue.create], Or.inr rfl, Or.inr rfl, h, by simp [Queue.create, Queue.len], fun k hk => ?_⟩
  simp at hk

theorem isFull_iff (q : Queue α) (l : List α) (h : Rep q l) : q.isFull = true ↔ q.size ≠ 0 ∧ l.length + 1 = q.size := by
  obtain ⟨h1, h2, h3, h4, h5, _⟩ := h
  unfold Queue.isFull
  unfold Queue.len at h5
  simp only [Bool.or_eq_true, beq_iff_eq, Bool.and_eq_true]
  by_cases hr : q.read = 0
  · rw [hr, pred64_zero]
    by_cases hs : q.size = 0
    · rw [hs, pred64_zero]; simp only [hr] at *; omega
    · rw [pred64_pos _ (by omega) h4]
      rw [hr] at h5
      split at h5 <;> omega
  · rw [pred64_pos q.read (by omega) (by omega)]
    split at h5 <;> omega

theorem rep_push (q : Queue α) (l : List α) (h : Rep q l) (m : α) :
    ∃ q', q.push m = some q' ∧ q'.size = q.size ∧ Rep q' (if l.length < q.size - 1 then l ++ [m] else l) := by
  have hf := isFull_iff q l h
  obtain ⟨h1, h2, h3, h4, h5, h6⟩ := h
  unfold Queue.push
  unfold Queue.len at h5
  by_cases hfull : q.isFull = true
  · rw [if_pos hfull]
    have := hf.1 hfull
    refine ⟨q, rfl, rfl, ?_⟩
    rw [if_neg (by omega)]
    exact ⟨h1, h2, h3, h4, by unfold Queue.len; exact h5, h6⟩
  · have hnf : ¬(q.size ≠ 0 ∧ l.length + 1 = q.size) := fun hh => hfull (hf.2 hh)
    rw [if_neg hfull, if_pos (by omega)]
    refine ⟨_, rfl, rfl, ?_⟩
    by_cases hs : q.size = 0
    · rw [if_neg (by omega)]
      have hr0 : q.read = 0 := by omega
      have hw0 : q.write = 0 := by omega
      refine ⟨by simpa using h1, h2, ?_, h4, ?_, ?_⟩
      · right; simp [incr, hs]
      · simp only [Queue.len, incr, hs, hw0, hr0]
        simp only [hr0, hw0] at h5
        simpa using h5
      · have : l.length = 0 := by rw [hr0, hw0] at h5; simpa using h5
        intro k hk; omega
    · have hlt : l.length < q.size - 1 := by split at h5 <;> omega
      rw [if_pos hlt]
      refine ⟨by simpa using h1, h2, ?_, h4, ?_, ?_⟩
      · simp only [incr]; split <;> omega
      · simp only [Queue.len, incr, List.length_append, List.length_singleton]
        split at h5 <;> split <;> (try split) <;> omega
      · intro k hk
        rw [List.length_append, List.length_singleton] at hk
        simp only
        rw [List.getElem?_set]
        by_cases hk2 : k < l.length
        · have hne : ¬q.write = (if q.read + k < q.size then q.read + k else q.read + k - q.size) := by
            split at h5 <;> split <;> omega
          rw [if_neg hne, h6 k hk2, List.getElem?_append_left hk2]
        · have hkl : k = l.length := by omega
          have heq : q.write = (if q.read + k < q.size then q.read + k else q.read + k - q.size) := by
            split at h5 <;> split <;> omega
          rw [if_pos heq, if_pos (by omega), hkl]
          simp

theorem rep_pop (q : Queue α) (l : List α) (h : Rep q l) :
    ∃ q', q.pop = some (q', l.head?) ∧ q'.size = q.size ∧ Rep q' l.tail := by
  obtain ⟨h1, h2, h3, h4, h5, h6⟩ := h
  unfold Queue.pop
  unfold Queue.len at h5
  by_cases he : q.isEmpty = true
  · rw [if_pos he]
    have he' : q.read = q.write := by simpa [Queue.isEmpty] using he
    have hl : l = [] := List.eq_nil_of_length_eq_zero (by rw [he', if_pos (Nat.le_refl _)] at h5; omega)
    subst hl
    exact ⟨q, rfl, rfl, h1, h2, h3, h4, by unfold Queue.len; exact h5, h6⟩
  · rw [if_neg he]
    have he' : q.read ≠ q.write := by simpa [Queue.isEmpty] using he
    rcases l with _ | ⟨m, l⟩
    · exfalso; simp only [List.length_nil] at h5; split at h5 <;> omega
    · have h0 := h6 0 (by simp)
      have hrlt : q.read < q.size := by omega
      rw [Nat.add_zero, if_pos hrlt] at h0
      rw [h0]
      refine ⟨_, rfl, rfl, h1, ?_, h3, h4, ?_, ?_⟩
      · simp only [incr]; split <;> omega
      · simp only [List.length_cons] at h5
        simp only [Queue.len, incr, List.tail_cons]
        split at h5 <;> split <;> (try split) <;> omega
      · intro k hk
        simp only [List.tail_cons] at hk
        have hk1 := h6 (k + 1) (by simpa using hk)
        simp only [incr, List.tail_cons]
        rw [List.getElem?_cons_succ] at hk1
        rw [← hk1]
        congr 1
        simp only [List.length_cons] at h5
        split at h5 <;> split <;> (try split) <;> (try split) <;> omega

theorem run_eq (q : Queue α) (l : List α) (h : Rep q l) (ops : List (QOp α)) :
    run q ops = some (specRun (q.size - 1) l ops) := by
  induction ops generalizing q l with
  | nil => rfl
  | cons op ops ih =>
    cases op with
    | push m =>
      obtain ⟨q', h1, h2, h3⟩ := rep_push q l h m
      simp only [run, specRun, h1, Option.bind_some]
      rw [ih q' _ h3, h2]
    | pop =>
      obtain ⟨q', h1, h2, h3⟩ := rep_pop q l h
      simp only [run, specRun, h1, Option.bind_some]
      rw [ih q' _ h3, h2]; rfl

/-! ## C48 -/

/-- C48: for every size and every history, the fixed size queue never accesses a slot outside its array nor
an unwritten one, and behaves like a first-in first-out queue of capacity `size - 1` that drops a message
only when it is full. -/
theorem c48_fixed_queue (n : Nat) (h : n < 2 ^ 64) (ops : List (QOp α)) :
    run (Queue.create n) ops = some (specRun (n - 1) [] ops) :=
  run_eq _ _ (rep_create n h) ops

/-- Size 3 holds two messages. -/
example : run (Queue.create 3 : Queue Nat) [.push 1, .push 2, .push 3, .pop, .push 4, .pop, .pop, .pop] =
    some [some 1, some 2, some 4, none] := by decide

/-- Finding: a configured size of 1 (or 0) is accepted and drops every message. -/
theorem c48_size_one_drops_all (n : Nat) (h : n ≤ 1) (ops : List (QOp α)) :
    ∀ r, run (Queue.create n) ops = some r → ∀ x ∈ r, x = none := by
  intro r hr
  rw [c48_fixed_queue n (by omega)] at hr
  cases hr
  have : ∀ ops : List (QOp α), ∀ x ∈ specRun (n - 1) ([] : List α) ops, x = none := by
    intro ops
    induction ops with
    | nil => intro x hx; cases hx
    | cons op ops ih =>
      cases op with
      | push m =>
        simp only [specRun]
        rw [if_neg (by simp; omega)]
        exact ih
      | pop =>
        intro x hx
        simp only [specRun, List.head?_nil, List.tail_nil, List.mem_cons] at hx
        rcases hx with rfl | hx
        · rfl
        · exact ih x hx
  exact this ops

end Verif.Logging.FixedQueue
