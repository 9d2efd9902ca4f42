import Verif.Conc.Priority

/-!
# C147: thread priorities
-/
namespace Verif.Priority

/-! ## Specification -/

/-- The system accepts priority `p` for a thread: the program may change priorities, and the scheduling of the thread has
it (SCHED_FIFO and SCHED_RR: 1 to 99; otherwise 0 only). -/
def Accepts (rt : Bool) (p : Int) (allowed : Bool) : Prop := allowed = true ∧ ((rt = true ∧ 1 ≤ p ∧ p ≤ 99) ∨ (rt = false ∧ p = 0))

/-- The last priority that was accepted (newest request first). -/
inductive Current (rt : Bool) (p0 : Int) : List (Int × Bool) → Int → Prop where
  | none : Current rt p0 [] p0
  | new {l p a} : Accepts rt p a → Current rt p0 ((p, a) :: l) p
  | old {l p a q} : ¬ Accepts rt p a → Current rt p0 l q → Current rt p0 ((p, a) :: l) q

/-- Several calls of `setPriority`, the newest first. -/
def sets (l : List (Int × Bool)) : List Op := (l.map fun x => Op.setPriority x.1 x.2).reverse

/-! ## Theorems -/

theorem run_append (i : Impl) (l l' : List Op) : ∀ s, run i s (l ++ l') =
    ((run i s l).1 ++ (run i (run i s l).2 l').1, (run i (run i s l).2 l').2) := by
  induction l with
  | nil => intro s; rfl
  | cons a l ih => intro s; simp only [List.cons_append, run, ih, List.cons_append]

theorem accepts_iff (rt : Bool) (p : Int) (a : Bool) : Accepts rt p a ↔ (a && has rt p) = true := by
  cases rt <;> cases a <;> simp [Accepts, has]

theorem run_sets (c : Int) (rt : Bool) (p0 : Int) : ∀ l, ∃ q, Current rt p0 l q ∧
    (run .posix ⟨c, .live rt p0⟩ (sets l)).2 = ⟨c, .live rt q⟩
  | [] => ⟨p0, .none, rfl⟩
  | (p, a) :: l => by
    obtain ⟨q, h1, h2⟩ := run_sets c rt p0 l
    by_cases h : Accepts rt p a
    · refine ⟨p, .new h, ?_⟩
      have h' := (accepts_iff rt p a).1 h
      rw [sets, List.map_cons, List.reverse_cons, run_append]
      change (run .posix (run .posix ⟨c, .live rt p0⟩ (sets l)).2 _).2 = _
      rw [h2]
      simp [run, step, setPosix, h']
    · refine ⟨q, .old h h1, ?_⟩
      have h' : (a && has rt p) = false := by
        rw [← Bool.not_eq_true]; exact fun hh => h ((accepts_iff rt p a).2 hh)
      rw [sets, List.map_cons, List.reverse_cons, run_append]
      change (run .posix (run .posix ⟨c, .live rt p0⟩ (sets l)).2 _).2 = _
      rw [h2]
      simp [run, step, setPosix, h']

/-- POSIX, while the thread runs: `priority()` is the last priority that was accepted, in the beginning that of the thread that
called `start()`; and `setPriority(p)` answers `true` exactly if `p` is accepted. Another `start()` changes nothing. -/
theorem c147_running_partial (created : Int) (rt : Bool) (p0 : Int) (l : List (Int × Bool)) (p : Int) (allowed : Bool) :
    let s := (run .posix (create created) (.start rt p0 :: sets l)).2
    (∃ q, Current rt p0 l q ∧ (step .posix s .priority).1 = .prio q) ∧
    ((step .posix s (.setPriority p allowed)).1 = .flag true ↔ Accepts rt p allowed) ∧
    ((step .posix s (.setPriority p allowed)).1 = .flag false ↔ ¬ Accepts rt p allowed) ∧
    ∀ rt' p', step .posix s (.start rt' p') = (.flag true, s) := by
  obtain ⟨q, h1, h2⟩ := run_sets created rt p0 l
  have h3 : (run .posix (create created) (.start rt p0 :: sets l)).2 = ⟨created, .live rt q⟩ := h2
  dsimp only
  rw [h3]
  refine ⟨⟨q, h1, rfl⟩, ?_, ?_, fun _ _ => rfl⟩ <;>
  · rw [accepts_iff]
    cases h : allowed && has rt p <;> simp [step, setPosix, h]

/-- POSIX: the priority given to the constructor has no effect: whatever is called, all answers, and what the system does, are the
same for any other one. -/
theorem c147_created_priority_ignored (p p' : Int) (l : List Op) :
    (run .posix (create p) l).1 = (run .posix (create p') l).1 ∧
    (run .posix (create p) l).2.th = (run .posix (create p') l).2.th := by
  have one : ∀ (t : Th) (op : Op), (step .posix ⟨p, t⟩ op).1 = (step .posix ⟨p', t⟩ op).1 ∧
      ∃ t', (step .posix ⟨p, t⟩ op).2 = ⟨p, t'⟩ ∧ (step .posix ⟨p', t⟩ op).2 = ⟨p', t'⟩ := by
    intro t op
    cases op <;> cases t <;> exact ⟨rfl, _, rfl, rfl⟩
  have : ∀ (l : List Op) (t : Th), (run .posix ⟨p, t⟩ l).1 = (run .posix ⟨p', t⟩ l).1 ∧
      (run .posix ⟨p, t⟩ l).2.th = (run .posix ⟨p', t⟩ l).2.th := by
    intro l
    induction l with
    | nil => intro t; exact ⟨rfl, rfl⟩
    | cons op l ih =>
      intro t
      obtain ⟨h1, t', h2, h3⟩ := one t op
      simp only [run, h1, h2, h3, ih t']
      exact ⟨trivial, trivial⟩
  exact this l .none

/-- A thread made with priority 7 by a real-time thread of priority 20 runs with 20. -/
theorem c147_created_priority_lost : (run .posix (create 7) [.start true 20, .priority]).1 = [.flag true, .prio 20] := by decide

/-- POSIX: before the thread is started, and after it was joined while it ran, asking for the priority or setting it is
undefined; after the thread has ended (and nobody waited for it), the priority is 0 and cannot be set. -/
theorem c147_not_running (s : St) (p : Int) (a : Bool) :
    (s.th = .none ∨ s.th = .joined →
      (step .posix s .priority).1 = .undefined ∧ (step .posix s (.setPriority p a)).1 = .undefined) ∧
    (s.th = .ended → (step .posix s .priority).1 = .prio 0 ∧ (step .posix s (.setPriority p a)).1 = .flag false) := by
  constructor
  · rintro (h | h) <;> simp [step, h, getPosix, setPosix]
  · intro h; simp [step, h, getPosix, setPosix]

/-! ## With LXRT -/

/-- LXRT: whatever is called, `priority()` is the priority of the constructor, `setPriority` answers `false` and changes nothing,
and each time the thread is started, its task gets the absolute value of that priority. -/
theorem c147_lxrt (p : Int) (l : List Op) :
    let s := (run .lxrt (create p) l).2
    (step .lxrt s .priority).1 = .prio p ∧ (∀ q a, step .lxrt s (.setPriority q a) = (.flag false, s)) ∧
    ∀ rt q, s.th = .live rt q → q = p.natAbs := by
  have : ∀ (l : List Op) (s : St), s.created = p → (∀ rt q, s.th = .live rt q → q = p.natAbs) →
      (run .lxrt s l).2.created = p ∧ ∀ rt q, (run .lxrt s l).2.th = .live rt q → q = p.natAbs := by
    intro l
    induction l with
    | nil => intro s h1 h2; exact ⟨h1, h2⟩
    | cons op l ih =>
      intro s h1 h2
      refine ih _ ?_ ?_
      · cases op with
        | start rt q => simp only [step]; split <;> exact h1
        | _ => exact h1
      · cases op with
        | start rt q =>
          intro rt' q' h
          simp only [step] at h
          split at h
          · exact h2 _ _ h
          · simp only [Th.live.injEq] at h; rw [← h.2, h1]
        | finish =>
          intro rt q h
          simp only [step] at h
          split at h
          · cases h
          · exact h2 _ _ h
        | join =>
          intro rt q h
          simp only [step] at h
          split at h
          · cases h
          · exact h2 _ _ h
        | setPriority q a => exact h2
        | priority => exact h2
  obtain ⟨h1, h2⟩ := this l (create p) rfl fun _ _ h => by cases h
  exact ⟨congrArg Ans.prio h1, fun _ _ => rfl, h2⟩

/-! ## Examples -/

example : Current true 20 [(5, false), (120, true), (30, true)] 30 :=
  .old (by simp [Accepts]) (.old (by simp [Accepts]) (.new (by simp [Accepts])))

example : (run .posix (create 7) [.start false 0, .setPriority 5 true, .priority, .join, .start true 40, .setPriority 5 true, .priority,
    .finish, .priority]).1 =
    [.flag true, .flag false, .prio 0, .nothing, .flag true, .flag true, .prio 5, .nothing, .prio 0] := by decide

example : (run .lxrt (create (-7)) [.start true 40, .setPriority 5 true, .priority]).2.th = .live true 7 := by decide

end Verif.Priority
