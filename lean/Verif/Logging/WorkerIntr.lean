import Verif.Logging.WorkerProps

/-!
# What interrupted semaphore waits cost (C131): counting and invariants

The worker model of C46 with failing waits allowed (`intr = true`). The counters are functions of the schedule.
-/
namespace Verif.Logging.Worker.Intr

/-- Number of times the worker's wait for the mutex inside its main loop (LogOutputStream.cpp:577) was interrupted. -/
def lockFails : State → List Act → Nat
  | _, [] => 0
  | s, a :: as => (if a = .wFails ∧ s.w = .lock then 1 else 0) +
      match step true s a with
      | some s' => lockFails s' as
      | none => 0

/-- The messages whose `push` was interrupted in its wait for the mutex (LogOutputStream.cpp:156). -/
def lostPush : State → List Act → List Nat
  | _, [] => []
  | s, a :: as =>
    (match a with
      | .pFails t => (match s.pc t with | .lock m => [m] | _ => [])
      | _ => []) ++
      match step true s a with
      | some s' => lostPush s' as
      | none => []

/-- The worker's wait for the mutex before the final loop (LogOutputStream.cpp:614) was interrupted. -/
def finFails : State → List Act → Bool
  | _, [] => false
  | s, a :: as => decide (a = .wFails ∧ s.w = .finLock) ||
      match step true s a with
      | some s' => finFails s' as
      | none => false

/-- Tokens and messages, with `n` tokens lost. -/
structure Bk (n : Nat) (s : State) : Prop where
  on : s.owing.Nodup
  ow : ∀ t, t ∈ s.owing ↔ owes (s.pc t) = true
  wk : s.queue.length ≤ s.fill + s.owing.length + tok s.w + n

/-- Flags, positions, and the wake-up of the worker at `shutdown`. -/
structure Ctl (s : State) : Prop where
  ki : (s.k = .idle ∨ s.k = .returned ∨ s.k = .stop) → s.w ≠ .off → s.execute = true
  ko : (s.k = .idle ∨ s.k = .returned) → s.w = .off → s.execute = false
  kf : s.execute = true → fin s.w = false
  ks : s.k = .stop → s.w ≠ .off
  kp : s.k = .post ∨ s.k = .join → s.execute = false
  sp : s.k ≠ .idle → s.snap <+: s.pushed
  jw : s.k = .join → s.w = .wait → 0 < s.fill

/-- What shutdown promises. -/
structure Done (s : State) : Prop where
  sd : s.k ≠ .idle → s.k ≠ .returned → drained s.w = true → s.snap <+: s.written
  sr : s.k = .returned → s.snap <+: s.written

theorem bk_init : Bk 0 init := by constructor <;> simp [init, owes, tok]
theorem ctl_init : Ctl init := by constructor <;> simp [init, fin]
theorem done_init : Done init := by constructor <;> simp [init]

set_option maxHeartbeats 4000000 in
theorem bk_step {n : Nat} {s s' : State} (h : Bk n s) (a : Act) (hs : step true s a = some s') :
    Bk ((if a = .wFails ∧ s.w = .lock then 1 else 0) + n) s' := by
  obtain ⟨on, ow, wk⟩ := h
  cases a with
  | w =>
    simp only [reduceCtorEq, false_and, if_false, Nat.zero_add]
    simp only [step, stepW] at hs
    rcases hp : s.w with _ | _ | _ | _ | _ | _ | _ | (_ | m) | m | _ | _ | m | _ | _ <;>
      rw [hp] at hs wk <;> simp only [reduceCtorEq] at hs
    all_goals (try split at hs)
    all_goals (try (cases hs; done))
    all_goals cases hs
    all_goals simp only [tok] at wk
    all_goals constructor
    all_goals (try simp only [apply_ite tok, tok])
    all_goals (try assumption)
    all_goals (try grind)
  | p t =>
    simp only [reduceCtorEq, false_and, if_false, Nat.zero_add]
    have owt := ow t
    simp only [step, stepP] at hs
    rcases hp : s.pc t with _ | m | m | _ | _ <;> rw [hp] at hs <;> simp only [reduceCtorEq] at hs
    all_goals (try split at hs)
    all_goals (try (cases hs; done))
    all_goals cases hs
    all_goals have q1 := congrArg owes hp
    all_goals simp only [ptab] at q1
    all_goals constructor
    all_goals simp only [setPc]
    all_goals (try simp only [apply_ite owes, ptab])
    all_goals (try assumption)
    all_goals (try grind [List.length_erase_of_mem, List.Nodup.mem_erase_iff, List.Nodup.erase])
  | pCall t =>
    simp only [reduceCtorEq, false_and, if_false, Nat.zero_add]
    have owt := ow t
    simp only [step, callP] at hs
    split at hs
    · next hp =>
      cases hs
      have q1 := congrArg owes hp
      simp only [ptab] at q1
      constructor
      all_goals simp only [setPc]
      all_goals (try simp only [apply_ite owes, ptab])
      all_goals (try assumption)
      all_goals (try grind)
    · cases hs
  | pFails t =>
    simp only [reduceCtorEq, false_and, if_false, Nat.zero_add]
    have owt := ow t
    simp only [step, if_true, failP] at hs
    rcases hp : s.pc t with _ | m | m | _ | _ <;> rw [hp] at hs <;> simp only [reduceCtorEq] at hs
    cases hs
    have q1 := congrArg owes hp
    simp only [ptab] at q1
    constructor
    all_goals simp only [setPc]
    all_goals (try simp only [apply_ite owes, ptab])
    all_goals (try assumption)
    all_goals (try grind)
  | wFails =>
    simp only [step, if_true, failW] at hs
    rcases hp : s.w with _ | _ | _ | _ | _ | _ | _ | (_ | m) | m | _ | _ | m | _ | _ <;>
      rw [hp] at hs wk <;> simp only [reduceCtorEq] at hs
    all_goals cases hs
    all_goals simp only [tok] at wk
    all_goals constructor
    all_goals (try assumption)
    all_goals simp only [tok, reduceCtorEq, and_false, and_self, if_true, if_false] at wk ⊢
    all_goals omega
  | k =>
    simp only [reduceCtorEq, false_and, if_false, Nat.zero_add]
    simp only [step, stepK] at hs
    split at hs
    all_goals (try split at hs)
    all_goals (try (cases hs; done))
    all_goals cases hs
    all_goals constructor
    all_goals (try assumption)
    all_goals (simp only []; omega)
  | callStart =>
    simp only [reduceCtorEq, false_and, if_false, Nat.zero_add]
    simp only [step] at hs
    split at hs
    · next hh =>
      cases hs
      rw [hh.2] at wk
      exact ⟨on, ow, wk⟩
    · cases hs
  | callShutdown =>
    simp only [reduceCtorEq, false_and, if_false, Nat.zero_add]
    simp only [step] at hs
    split at hs
    · split at hs <;> (cases hs; exact ⟨on, ow, wk⟩)
    · cases hs

set_option maxHeartbeats 4000000 in
theorem ctl_step {s s' : State} (h : Ctl s) (a : Act) (hs : step true s a = some s') : Ctl s' := by
  obtain ⟨ki, ko, kf, ks, kp, sp, jw⟩ := h
  cases a with
  | w =>
    simp only [step, stepW] at hs
    rcases hp : s.w with _ | _ | _ | _ | _ | _ | _ | (_ | m) | m | _ | _ | m | _ | _ <;>
      rw [hp] at hs ki ko kf ks jw <;> simp only [reduceCtorEq] at hs
    all_goals (try split at hs)
    all_goals (try (cases hs; done))
    all_goals cases hs
    all_goals simp only [fin] at ki ko kf ks jw
    all_goals constructor
    all_goals (try simp only [apply_ite fin, fin])
    all_goals (try assumption)
    all_goals (try grind)
  | p t =>
    simp only [step, stepP] at hs
    rcases hp : s.pc t with _ | m | m | _ | _ <;> rw [hp] at hs <;> simp only [reduceCtorEq] at hs
    all_goals (try split at hs)
    all_goals (try (cases hs; done))
    all_goals cases hs
    all_goals constructor
    all_goals simp only [setPc]
    all_goals (try assumption)
    all_goals (try grind [prefix_grow])
  | pCall t =>
    simp only [step, callP] at hs
    split at hs
    · cases hs; exact ⟨ki, ko, kf, ks, kp, sp, jw⟩
    · cases hs
  | pFails t =>
    simp only [step, if_true, failP] at hs
    rcases hp : s.pc t with _ | m | m | _ | _ <;> rw [hp] at hs <;> simp only [reduceCtorEq] at hs
    cases hs; exact ⟨ki, ko, kf, ks, kp, sp, jw⟩
  | wFails =>
    simp only [step, if_true, failW] at hs
    rcases hp : s.w with _ | _ | _ | _ | _ | _ | _ | (_ | m) | m | _ | _ | m | _ | _ <;>
      rw [hp] at hs ki ko kf ks jw <;> simp only [reduceCtorEq] at hs
    all_goals cases hs
    all_goals simp only [fin] at ki ko kf ks jw
    all_goals constructor
    all_goals (try simp only [fin])
    all_goals (try assumption)
    all_goals (try grind)
  | k =>
    simp only [step, stepK] at hs
    split at hs
    all_goals (try split at hs)
    all_goals (try (cases hs; done))
    all_goals cases hs
    all_goals constructor
    all_goals (try assumption)
    all_goals (try grind)
  | callStart =>
    simp only [step] at hs
    split at hs
    · cases hs
      constructor
      all_goals (try assumption)
      all_goals (try grind [fin])
    · cases hs
  | callShutdown =>
    simp only [step] at hs
    split at hs
    · split at hs
      · cases hs; exact ⟨ki, ko, kf, ks, kp, sp, jw⟩
      · cases hs
        constructor
        all_goals (try assumption)
        all_goals (try grind [List.prefix_refl])
    · cases hs

set_option maxHeartbeats 4000000 in
theorem done_step {s s' : State} (h : Inv s) (hc : Ctl s) (hd : Done s) (a : Act) (hs : step true s a = some s')
    (hf : ¬ (a = .wFails ∧ s.w = .finLock)) : Done s' := by
  have ls := h.ls
  obtain ⟨ki, ko, kf, ks, kp, sp, jw⟩ := hc
  obtain ⟨sd, sr⟩ := hd
  cases a with
  | w =>
    simp only [step, stepW] at hs
    rcases hp : s.w with _ | _ | _ | _ | _ | _ | _ | (_ | m) | m | _ | _ | m | _ | _ <;>
      rw [hp] at hs ki ko kf ks sd ls <;> simp only [reduceCtorEq] at hs
    all_goals (try split at hs)
    all_goals (try (cases hs; done))
    all_goals cases hs
    all_goals simp only [fin, drained, inflight] at ki ko kf ks sd ls
    all_goals constructor
    all_goals (try simp only [apply_ite drained, drained])
    all_goals (try assumption)
    all_goals (try grind [prefix_grow])
  | p t =>
    simp only [step, stepP] at hs
    rcases hp : s.pc t with _ | m | m | _ | _ <;> rw [hp] at hs <;> simp only [reduceCtorEq] at hs
    all_goals (try split at hs)
    all_goals (try (cases hs; done))
    all_goals (cases hs; exact ⟨sd, sr⟩)
  | pCall t =>
    simp only [step, callP] at hs
    split at hs
    · cases hs; exact ⟨sd, sr⟩
    · cases hs
  | pFails t =>
    simp only [step, if_true, failP] at hs
    rcases hp : s.pc t with _ | m | m | _ | _ <;> rw [hp] at hs <;> simp only [reduceCtorEq] at hs
    cases hs; exact ⟨sd, sr⟩
  | wFails =>
    simp only [step, if_true, failW] at hs
    rcases hp : s.w with _ | _ | _ | _ | _ | _ | _ | (_ | m) | m | _ | _ | m | _ | _ <;>
      rw [hp] at hs sd hf <;> simp only [reduceCtorEq] at hs
    · cases hs; exact ⟨fun _ _ h => by simp [drained] at h, sr⟩
    · cases hs; exact ⟨fun _ _ h => by simp [drained] at h, sr⟩
    · exact absurd ⟨rfl, rfl⟩ hf
  | k =>
    simp only [step, stepK] at hs
    split at hs
    all_goals (try split at hs)
    all_goals (try (cases hs; done))
    all_goals cases hs
    all_goals constructor
    all_goals (try assumption)
    all_goals (try grind [drained])
  | callStart =>
    simp only [step] at hs
    split at hs
    · cases hs
      constructor
      all_goals (try assumption)
      all_goals (try grind [drained])
    · cases hs
  | callShutdown =>
    simp only [step] at hs
    split at hs
    · split at hs
      · cases hs; exact ⟨sd, sr⟩
      · cases hs
        have hd : s.execute = true → s.w ≠ .off → drained s.w = false := by
          intro h1 h2
          have := kf h1
          cases hw : s.w <;> rw [hw] at this h2 <;> simp_all [fin, drained]
        constructor
        all_goals (try assumption)
        all_goals (try grind [List.prefix_refl])
    · cases hs

theorem bk_exec (as : List Act) : ∀ {n : Nat} {s s' : State}, Bk n s → exec true s as = some s' →
    Bk (lockFails s as + n) s' := by
  induction as with
  | nil => intro n s s' h he; cases he; simpa [lockFails] using h
  | cons a as ih =>
    intro n s s' h he
    obtain ⟨s1, h1, h2⟩ := Option.bind_eq_some_iff.1 he
    have := ih (bk_step h a h1) h2
    simp only [lockFails, h1]
    rwa [Nat.add_comm _ (lockFails s1 as), Nat.add_assoc]

theorem ctl_exec (as : List Act) : ∀ {s s' : State}, Ctl s → exec true s as = some s' → Ctl s' := by
  induction as with
  | nil => intro s s' h he; cases he; exact h
  | cons a as ih =>
    intro s s' h he
    obtain ⟨s1, h1, h2⟩ := Option.bind_eq_some_iff.1 he
    exact ih (ctl_step h a h1) h2

theorem done_exec (as : List Act) : ∀ {s s' : State}, Inv s → Ctl s → Done s → exec true s as = some s' →
    finFails s as = false → Done s' := by
  induction as with
  | nil => intro s s' _ _ h he _; cases he; exact h
  | cons a as ih =>
    intro s s' i c d he hf
    obtain ⟨s1, h1, h2⟩ := Option.bind_eq_some_iff.1 he
    simp only [finFails, h1, Bool.or_eq_false_iff, decide_eq_false_iff_not] at hf
    exact ih (inv_step i a h1) (ctl_step c a h1) (done_step i c d a h1 hf.1) h2 hf.2

/-- Every message is inserted, lost, or still with its producer. -/
structure Acc (lost : List Nat) (s : State) : Prop where
  all : ∀ m, m < s.next → m ∈ s.pushed ∨ m ∈ lost ∨ ∃ t, pmsg (s.pc t) = some m
  ln : lost.Nodup
  lt : ∀ m ∈ lost, m < s.next
  lp : ∀ m ∈ lost, m ∉ s.pushed
  lo : ∀ m ∈ lost, ∀ t, pmsg (s.pc t) ≠ some m

theorem acc_init : Acc [] init := by constructor <;> simp [init]

/-- What one action loses. -/
def lostBy (s : State) : Act → List Nat
  | .pFails t => (match s.pc t with | .lock m => [m] | _ => [])
  | _ => []

theorem acc_same {l : List Nat} {s s' : State} (h : Acc l s) (e1 : s'.next = s.next) (e2 : s'.pushed = s.pushed)
    (e3 : s'.pc = s.pc) : Acc l s' := by
  obtain ⟨a, b, c, d, e⟩ := h
  constructor <;> (try simp only [e1, e2, e3]) <;> assumption

set_option maxHeartbeats 4000000 in
theorem acc_step {l : List Nat} {s s' : State} (hi : Inv s) (h : Acc l s) (a : Act) (hs : step true s a = some s') :
    Acc (l ++ lostBy s a) s' := by
  cases a with
  | w =>
    simp only [lostBy, List.append_nil]
    refine acc_same h ?_ ?_ ?_ <;>
    · simp only [step, stepW] at hs
      rcases hp : s.w with _ | _ | _ | _ | _ | _ | _ | (_ | m) | m | _ | _ | m | _ | _ <;>
        rw [hp] at hs <;> simp only [reduceCtorEq] at hs
      all_goals (try split at hs)
      all_goals (try (cases hs; done))
      all_goals (cases hs; rfl)
  | wFails =>
    simp only [lostBy, List.append_nil]
    refine acc_same h ?_ ?_ ?_ <;>
    · simp only [step, if_true, failW] at hs
      rcases hp : s.w with _ | _ | _ | _ | _ | _ | _ | (_ | m) | m | _ | _ | m | _ | _ <;>
        rw [hp] at hs <;> simp only [reduceCtorEq] at hs
      all_goals (cases hs; rfl)
  | k =>
    simp only [lostBy, List.append_nil]
    refine acc_same h ?_ ?_ ?_ <;>
    · simp only [step, stepK] at hs
      split at hs
      all_goals (try split at hs)
      all_goals (try (cases hs; done))
      all_goals (cases hs; rfl)
  | callStart =>
    simp only [lostBy, List.append_nil]
    refine acc_same h ?_ ?_ ?_ <;>
    · simp only [step] at hs
      split at hs
      · cases hs; rfl
      · cases hs
  | callShutdown =>
    simp only [lostBy, List.append_nil]
    refine acc_same h ?_ ?_ ?_ <;>
    · simp only [step] at hs
      split at hs
      · split at hs <;> (cases hs; rfl)
      · cases hs
  | p t =>
    obtain ⟨pm, wm, ls, nd, pn, mn, mu⟩ := hi
    obtain ⟨all, ln, lt, lp, lo⟩ := h
    simp only [lostBy, List.append_nil]
    simp only [step, stepP] at hs
    rcases hp : s.pc t with _ | m | m | _ | _ <;> rw [hp] at hs <;> simp only [reduceCtorEq] at hs
    all_goals (try split at hs)
    all_goals (try (cases hs; done))
    all_goals cases hs
    all_goals have q2 := congrArg pmsg hp
    all_goals simp only [ptab] at q2
    all_goals constructor
    all_goals (try simp only [setPc])
    all_goals (try simp only [apply_ite pmsg, ptab])
    all_goals (try assumption)
    all_goals (try grind)
  | pCall t =>
    obtain ⟨pm, wm, ls, nd, pn, mn, mu⟩ := hi
    obtain ⟨all, ln, lt, lp, lo⟩ := h
    simp only [lostBy, List.append_nil]
    simp only [step, callP] at hs
    split at hs
    · next hp =>
      cases hs
      have q2 := congrArg pmsg hp
      simp only [ptab] at q2
      constructor
      all_goals (try simp only [setPc])
      all_goals (try simp only [apply_ite pmsg, ptab])
      all_goals (try assumption)
      · intro m hm
        by_cases e : m = s.next
        · exact Or.inr (Or.inr ⟨t, by simp [e]⟩)
        · rcases all m (by omega) with h | h | ⟨u, hu⟩
          · exact Or.inl h
          · exact Or.inr (Or.inl h)
          · refine Or.inr (Or.inr ⟨u, ?_⟩)
            have : u ≠ t := by rintro rfl; rw [q2] at hu; cases hu
            simpa [this] using hu
      · intro m hm; have := lt m hm; omega
      · intro m hm u
        split
        · intro e; have := lt m hm; simp at e; omega
        · exact lo m hm u
    · cases hs
  | pFails t =>
    obtain ⟨pm, wm, ls, nd, pn, mn, mu⟩ := hi
    obtain ⟨all, ln, lt, lp, lo⟩ := h
    simp only [step, if_true, failP] at hs
    rcases hp : s.pc t with _ | m | m | _ | _ <;> rw [hp] at hs <;> simp only [reduceCtorEq] at hs
    cases hs
    have q2 := congrArg pmsg hp
    simp only [ptab] at q2
    obtain ⟨m1, m2⟩ := mn t m q2
    simp only [lostBy, hp]
    constructor
    all_goals (try simp only [setPc])
    all_goals (try simp only [apply_ite pmsg, ptab])
    · intro x hx
      rcases all x hx with h | h | ⟨u, hu⟩
      · exact Or.inl h
      · exact Or.inr (Or.inl (by simp [h]))
      · by_cases e : u = t
        · subst e; rw [q2] at hu; cases hu; exact Or.inr (Or.inl (by simp))
        · exact Or.inr (Or.inr ⟨u, by simpa [e] using hu⟩)
    · rw [List.nodup_append]
      refine ⟨ln, by simp, ?_⟩
      intro a ha b hb
      rw [List.mem_singleton] at hb
      rintro rfl
      subst hb
      exact lo _ ha t q2
    · intro x hx
      rcases List.mem_append.1 hx with h | h
      · exact lt x h
      · rw [List.mem_singleton] at h; subst h; exact m1
    · intro x hx
      rcases List.mem_append.1 hx with h | h
      · exact lp x h
      · rw [List.mem_singleton] at h; subst h; exact m2
    · intro x hx u
      split
      · simp
      · next e =>
        rcases List.mem_append.1 hx with h | h
        · exact lo x h u
        · rw [List.mem_singleton] at h; subst h
          intro hu; exact e (mu u t _ hu q2)

theorem acc_exec (as : List Act) : ∀ {l : List Nat} {s s' : State}, Inv s → Acc l s → exec true s as = some s' →
    Acc (l ++ lostPush s as) s' := by
  induction as with
  | nil => intro l s s' _ h he; cases he; simpa [lostPush] using h
  | cons a as ih =>
    intro l s s' i h he
    obtain ⟨s1, h1, h2⟩ := Option.bind_eq_some_iff.1 he
    have := ih (inv_step i a h1) (acc_step i h a h1) h2
    have e : lostPush s (a :: as) = lostBy s a ++ lostPush s1 as := by
      simp only [lostPush, h1]
      cases a <;> rfl
    rw [e, ← List.append_assoc]
    exact this

end Verif.Logging.Worker.Intr
