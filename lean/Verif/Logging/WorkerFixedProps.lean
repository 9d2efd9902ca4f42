import Verif.Logging.WorkerFixed
import Verif.Logging.WorkerProps

/-!
# C107: with the fixed size queue, messages are lost only when the queue is full
-/
namespace Verif.Logging.Worker
open Verif.Logging.FixedQueue

/-- Where every message is. -/
structure Acc (s : FState) : Prop where
  all : ∀ m, m < s.next → m ∈ s.accepted ∨ m ∈ s.dropped ∨ m ∈ s.interrupted ∨ ∃ t, pmsg (s.pc t) = some m
  dl : ∀ m, m ∈ s.dropped ∨ m ∈ s.interrupted → m < s.next ∧ m ∉ s.accepted
  di : ∀ m, m ∈ s.dropped → m ∉ s.interrupted
  dn : s.dropped.Nodup
  inn : s.interrupted.Nodup
  dp : ∀ t m, pmsg (s.pc t) = some m → m ∉ s.dropped ∧ m ∉ s.interrupted

/-- Everything that holds in every execution. -/
structure FInv (n : Nat) (s : FState) (l : List Nat) : Prop where
  rep : Rep s.q l
  size : s.q.size = n
  inv : Inv (s.abs l)
  acc : Acc s

theorem acc_same {s s' : FState} (h : Acc s) (h1 : s'.next = s.next) (h2 : s'.accepted = s.accepted)
    (h3 : s'.dropped = s.dropped) (h4 : s'.interrupted = s.interrupted)
    (h5 : ∀ t, pmsg (s'.pc t) = pmsg (s.pc t)) : Acc s' := by
  obtain ⟨all, dl, di, dn, inn, dp⟩ := h
  constructor
  · intro m hm; rw [h2, h3, h4]; simp only [h5]; exact all m (by omega)
  · intro m hm; rw [h1, h2]; rw [h3, h4] at hm; exact dl m hm
  · intro m hm; rw [h4]; rw [h3] at hm; exact di m hm
  · rw [h3]; exact dn
  · rw [h4]; exact inn
  · intro t m hm; rw [h3, h4]; rw [h5] at hm; exact dp t m hm

theorem fstepW_same {s s' : FState} (h : fstepW s = .ok s') : s'.next = s.next ∧ s'.accepted = s.accepted ∧
    s'.dropped = s.dropped ∧ s'.interrupted = s.interrupted ∧ s'.pc = s.pc := by
  unfold fstepW at h
  split at h
  all_goals (try split at h)
  all_goals (try (cases h; done))
  all_goals (cases h; exact ⟨rfl, rfl, rfl, rfl, rfl⟩)

theorem acc_step {intr : Bool} {s s' : FState} {l : List Nat} (hi : Inv (s.abs l)) (h : Acc s) (a : Act)
    (hs : fstep intr s a = .ok s') : Acc s' := by
  cases a with
  | w =>
    obtain ⟨h1, h2, h3, h4, h5⟩ := fstepW_same hs
    exact acc_same h h1 h2 h3 h4 (fun t => by rw [h5])
  | wFails =>
    simp only [fstep, ffailW] at hs
    split at hs
    all_goals (try split at hs)
    all_goals (try (cases hs; done))
    all_goals (cases hs; exact acc_same h rfl rfl rfl rfl (fun _ => rfl))
  | k =>
    simp only [fstep, fstepK] at hs
    split at hs
    all_goals (try split at hs)
    all_goals (try (cases hs; done))
    all_goals (cases hs; exact acc_same h rfl rfl rfl rfl (fun _ => rfl))
  | callStart =>
    simp only [fstep] at hs
    split at hs
    all_goals (try (cases hs; done))
    cases hs; exact acc_same h rfl rfl rfl rfl (fun _ => rfl)
  | callShutdown =>
    simp only [fstep] at hs
    split at hs
    all_goals (try split at hs)
    all_goals (try (cases hs; done))
    all_goals (cases hs; exact acc_same h rfl rfl rfl rfl (fun _ => rfl))
  | pCall t =>
    have pn := hi.pn
    have mn := hi.mn
    obtain ⟨all, dl, di, dn, inn, dp⟩ := h
    simp only [fstep, fcallP] at hs
    split at hs
    · next hp =>
      cases hs
      have q2 := congrArg pmsg hp
      simp only [FState.abs] at pn mn
      constructor
      all_goals simp only [fsetPc, apply_ite pmsg, ptab] at *
      all_goals grind
    · cases hs
  | pFails t =>
    have pn := hi.pn
    have mn := hi.mn
    have mu := hi.mu
    obtain ⟨all, dl, di, dn, inn, dp⟩ := h
    simp only [fstep, ffailP] at hs
    split at hs
    · split at hs
      · next m hp =>
        cases hs
        have q2 := congrArg pmsg hp
        simp only [FState.abs] at pn mn mu
        constructor
        all_goals simp only [fsetPc, apply_ite pmsg, ptab] at *
        all_goals grind
      · cases hs
    · cases hs
  | p t =>
    have pn := hi.pn
    have mn := hi.mn
    have mu := hi.mu
    simp only [FState.abs] at pn mn mu
    simp only [fstep, fstepP] at hs
    rcases hp : s.pc t with _ | m | m | _ | _ <;> rw [hp] at hs <;> simp only [] at hs
    · cases hs
    · split at hs
      · cases hs
        refine acc_same h rfl rfl rfl rfl (fun u => ?_)
        by_cases hu : u = t
        · subst hu; simp [fsetPc, hp, pmsg]
        · simp [fsetPc, hu]
      · cases hs
    · obtain ⟨all, dl, di, dn, inn, dp⟩ := h
      have q2 := congrArg pmsg hp
      split at hs
      · cases hs
        constructor
        all_goals simp only [fsetPc, apply_ite pmsg, ptab] at *
        all_goals grind
      · split at hs
        · cases hs
        · cases hs
          constructor
          all_goals simp only [fsetPc, apply_ite pmsg, ptab] at *
          all_goals grind
    · cases hs
      refine acc_same h rfl rfl rfl rfl (fun u => ?_)
      by_cases hu : u = t
      · subst hu; simp [fsetPc, hp, pmsg]
      · simp [fsetPc, hu]
    · cases hs
      refine acc_same h rfl rfl rfl rfl (fun u => ?_)
      by_cases hu : u = t
      · subst hu; simp [fsetPc, hp, pmsg]
      · simp [fsetPc, hu]

theorem finv_init (n : Nat) (hn : n < 2 ^ 64) : FInv n (finit n) [] where
  rep := rep_create n hn
  size := rfl
  inv := inv_init
  acc := by constructor <;> simp [finit, pmsg]

theorem finv_step {n : Nat} {intr : Bool} {s : FState} {l : List Nat} (h1 : 1 ≤ n) (h : FInv n s l) (a : Act) :
    fstep intr s a ≠ .ub ∧ ∀ s', fstep intr s a = .ok s' → ∃ l', FInv n s' l' ∧
      stepB (n - 1) intr (s.abs l) a = some (s'.abs l') := by
  have hsim := sim h.rep h.size h1 intr a
  refine ⟨fun hu => by rw [hu] at hsim; exact hsim, fun s' hs => ?_⟩
  rw [hs] at hsim
  obtain ⟨l', hr, hn, hb⟩ := hsim
  exact ⟨l', ⟨hr, hn, invB_step h.inv a hb, acc_step h.inv h.acc a hs⟩, hb⟩

theorem finv_exec {n : Nat} {intr : Bool} {s : FState} {l : List Nat} (h1 : 1 ≤ n) (h : FInv n s l) (as : List Act) :
    fexec intr s as ≠ .ub ∧ ∀ s', fexec intr s as = .ok s' → ∃ l', FInv n s' l' := by
  induction as generalizing s l with
  | nil => exact ⟨by simp [fexec], fun s' hs => by cases hs; exact ⟨l, h⟩⟩
  | cons a as ih =>
    obtain ⟨h2, h3⟩ := finv_step (intr := intr) h1 h a
    simp only [fexec]
    cases hs : fstep intr s a with
    | blocked => exact ⟨by simp, fun s' h => by cases h⟩
    | ub => exact absurd hs h2
    | ok s1 =>
      obtain ⟨l1, h4, _⟩ := h3 s1 hs
      exact ih h4

theorem finv2_exec {n : Nat} {s s' : FState} {l : List Nat} (h1 : 1 ≤ n) (h : FInv n s l) (h2 : Inv2 (s.abs l)) (as : List Act)
    (he : fexec false s as = .ok s') : ∃ l', FInv n s' l' ∧ Inv2 (s'.abs l') := by
  induction as generalizing s l with
  | nil => cases he; exact ⟨l, h, h2⟩
  | cons a as ih =>
    obtain ⟨_, h3⟩ := finv_step (intr := false) h1 h a
    simp only [fexec] at he
    cases hs : fstep false s a with
    | blocked => rw [hs] at he; cases he
    | ub => rw [hs] at he; cases he
    | ok s1 =>
      rw [hs] at he
      obtain ⟨l1, h4, h5⟩ := h3 s1 hs
      exact ih h4 (inv2B_step h.inv h2 a h5) he

theorem fappend (intr : Bool) (a b : List Act) : ∀ s s1 : FState, fexec intr s a = .ok s1 →
    fexec intr s (a ++ b) = fexec intr s1 b := by
  induction a with
  | nil => intro s s1 h; cases h; rfl
  | cons x xs ih =>
    intro s s1 h
    simp only [List.cons_append, fexec] at *
    cases hs : fstep intr s x with
    | blocked => rw [hs] at h; cases h
    | ub => rw [hs] at h; cases h
    | ok s2 => rw [hs] at h; exact ih s2 s1 h

/-- The worker of the abstract system is matched by that of the real one. -/
theorem lift_worker {n : Nat} (h1 : 1 ≤ n) (k : Nat) : ∀ (s : FState) (l : List Nat) (t : State), FInv n s l →
    exec false (s.abs l) (worker k) = some t → ∃ s' l', fexec false s (worker k) = .ok s' ∧ FInv n s' l' ∧ t = s'.abs l' := by
  induction k with
  | zero => intro s l t h he; cases he; exact ⟨s, l, rfl, h, rfl⟩
  | succ k ih =>
    intro s l t h he
    obtain ⟨t1, h2, h3⟩ := Option.bind_eq_some_iff.1 he
    have hsim := sim h.rep h.size h1 false .w
    have hb : stepB (n - 1) false (s.abs l) .w = some t1 := h2
    cases hs : fstep false s .w with
    | blocked => rw [hs] at hsim; simp only [] at hsim; rw [hsim] at hb; cases hb
    | ub => rw [hs] at hsim; exact hsim.elim
    | ok s1 =>
      obtain ⟨l1, h4, h5⟩ := (finv_step (intr := false) h1 h .w).2 s1 hs
      rw [hb] at h5
      cases h5
      obtain ⟨s', l', h6, h7⟩ := ih s1 l1 t h4 h3
      refine ⟨s', l', ?_, h7⟩
      show fexec false s (.w :: worker k) = _
      simp only [fexec, hs]
      exact h6

/-! ## C107 -/

/-- C107: for every size of at least 1, any number of threads and any schedule, with or without interrupted
waits: no slot outside the array and no unwritten slot is accessed, the messages written are a prefix of those
stored, in that order, each once, and nothing stored is missing when the worker is idle and the queue is empty. -/
theorem c107_fifo (n : Nat) (h1 : 1 ≤ n) (h2 : n < 2 ^ 64) (intr : Bool) (sched : List Act) :
    fexec intr (finit n) sched ≠ .ub ∧
    ∀ s, fexec intr (finit n) sched = .ok s →
      s.written <+: s.accepted ∧ s.written.Nodup ∧ s.accepted.Nodup ∧
      (s.q.isEmpty = true → (s.w = .off ∨ s.w = .start ∨ s.w = .cond ∨ s.w = .wait) → s.written = s.accepted) := by
  obtain ⟨h3, h4⟩ := finv_exec (intr := intr) h1 (finv_init n h2) sched
  refine ⟨h3, fun s hs => ?_⟩
  obtain ⟨l, h⟩ := h4 s hs
  have ls : s.accepted = s.written ++ inflight s.w ++ l := h.inv.ls
  have nd : s.accepted.Nodup := h.inv.nd
  have hp : s.written <+: s.accepted := by rw [ls, List.append_assoc]; exact List.prefix_append ..
  refine ⟨hp, hp.sublist.nodup nd, nd, fun hq hw => ?_⟩
  rw [(rep_isEmpty s.q l h.rep).1 hq] at ls
  rcases hw with hw | hw | hw | hw <;> rw [hw] at ls <;> simpa [inflight] using ls.symm

/-- C107: every message whose `push` has been called is at exactly one place: stored, dropped because the queue was
full, given up because a wait was interrupted, or still in the hands of one thread that is inside `push`. -/
theorem c107_accounted (n : Nat) (h1 : 1 ≤ n) (h2 : n < 2 ^ 64) (intr : Bool) (sched : List Act) (s : FState)
    (he : fexec intr (finit n) sched = .ok s) :
    (s.accepted ++ s.dropped ++ s.interrupted).Nodup ∧
    (∀ m ∈ s.accepted ++ s.dropped ++ s.interrupted, m < s.next) ∧
    (∀ m, m < s.next → m ∈ s.accepted ++ s.dropped ++ s.interrupted ∨
      ∃ t, s.pc t = .lock m ∨ s.pc t = .push m) ∧
    ((∀ t, s.pc t = .idle) → ∀ m, m ∈ s.accepted ++ s.dropped ++ s.interrupted ↔ m < s.next) ∧
    (intr = false → s.interrupted = []) := by
  obtain ⟨l, h⟩ := (finv_exec (intr := intr) h1 (finv_init n h2) sched).2 s he
  have nd : s.accepted.Nodup := h.inv.nd
  have pn : ∀ m, m ∈ s.accepted → m < s.next := h.inv.pn
  obtain ⟨all, dl, di, dn, inn, dp⟩ := h.acc
  have hlt : ∀ m ∈ s.accepted ++ s.dropped ++ s.interrupted, m < s.next := by
    intro m hm; simp only [List.mem_append] at hm; grind
  have hall : ∀ m, m < s.next → m ∈ s.accepted ++ s.dropped ++ s.interrupted ∨
      ∃ t, s.pc t = .lock m ∨ s.pc t = .push m := by
    intro m hm
    rcases all m hm with h | h | h | ⟨t, h⟩
    · left; simp [h]
    · left; simp [h]
    · left; simp [h]
    · right
      refine ⟨t, ?_⟩
      cases hp : s.pc t <;> rw [hp] at h <;> simp_all [pmsg]
  refine ⟨?_, hlt, hall, fun hidle m => ⟨hlt m, fun hm => ?_⟩, fun hi => ?_⟩
  · rw [List.nodup_append, List.nodup_append]
    refine ⟨⟨nd, dn, ?_⟩, inn, ?_⟩
    · rintro a ha b hb rfl; exact (dl a (Or.inl hb)).2 ha
    · rintro a ha b hb rfl
      rcases List.mem_append.1 ha with ha | ha
      · exact (dl a (Or.inr hb)).2 ha
      · exact di a ha hb
  · rcases hall m hm with h | ⟨t, h⟩
    · exact h
    · rw [hidle t] at h; simp at h
  · subst hi
    have key : ∀ (as : List Act) (s s' : FState), s.interrupted = [] → fexec false s as = .ok s' → s'.interrupted = [] := by
      intro as
      induction as with
      | nil => intro s s' h he; cases he; exact h
      | cons a as ih =>
        intro s s' h he
        simp only [fexec] at he
        cases hs : fstep false s a with
        | blocked => rw [hs] at he; cases he
        | ub => rw [hs] at he; cases he
        | ok s1 =>
          rw [hs] at he
          refine ih s1 s' ?_ he
          cases a with
          | w => rw [(fstepW_same hs).2.2.2.1, h]
          | _ =>
            simp only [fstep, fstepP, fcallP, fstepK, Bool.false_eq_true, if_false] at hs
            all_goals (try split at hs)
            all_goals (try split at hs)
            all_goals (try split at hs)
            all_goals (try (cases hs; done))
            all_goals (cases hs; exact h)
    exact key sched _ _ rfl he

/-- C107: a message is dropped exactly if `size - 1` messages are waiting in the queue when it is to be
stored, in every reachable state; never more than that are waiting. -/
theorem c107_dropped_iff_full (n : Nat) (h1 : 1 ≤ n) (h2 : n < 2 ^ 64) (intr : Bool) (sched : List Act) (s : FState)
    (he : fexec intr (finit n) sched = .ok s) (t m : Nat) (hp : s.pc t = .push m) :
    ∃ s' waiting, fstep intr s (.p t) = .ok s' ∧ s.accepted = s.written ++ inflight s.w ++ waiting ∧
      waiting.length ≤ n - 1 ∧
      (waiting.length < n - 1 → s'.accepted = s.accepted ++ [m] ∧ s'.dropped = s.dropped) ∧
      (waiting.length = n - 1 → s'.accepted = s.accepted ∧ s'.dropped = s.dropped ++ [m]) := by
  obtain ⟨l, h⟩ := (finv_exec (intr := intr) h1 (finv_init n h2) sched).2 s he
  have ls : s.accepted = s.written ++ inflight s.w ++ l := h.inv.ls
  have hf := isFull_iff s.q l h.rep
  have hsz := h.size
  have hle : l.length ≤ n - 1 := by
    have h5 := h.rep.ll
    unfold Queue.len at h5
    have := h.rep.r
    have := h.rep.w
    split at h5 <;> omega
  by_cases hfull : s.q.isFull = true
  · have := hf.1 hfull
    refine ⟨fsetPc { s with dropped := s.dropped ++ [m], owing := t :: s.owing } t .unlock, l,
      by simp only [fstep, fstepP, hp, hfull, if_true], ls, hle, fun hlt => by omega, fun _ => ⟨rfl, rfl⟩⟩
  · obtain ⟨q', hq1, _, _⟩ := rep_push s.q l h.rep m
    have hne : ¬ (s.q.size ≠ 0 ∧ l.length + 1 = s.q.size) := fun h => hfull (hf.2 h)
    refine ⟨fsetPc { s with q := q', accepted := s.accepted ++ [m], owing := t :: s.owing } t .unlock, l,
      by simp [fstep, fstepP, hp, hfull, hq1], ls, hle, fun _ => ⟨rfl, rfl⟩, fun hlt => by omega⟩

/-- C107, provided no semaphore wait is interrupted: when `shutdown()` has returned, every message stored before
it was called has been written. -/
theorem c107_shutdown_partial (n : Nat) (h1 : 1 ≤ n) (h2 : n < 2 ^ 64) (sched : List Act) (s : FState)
    (he : fexec false (finit n) sched = .ok s) (hk : s.k = .returned) : s.snap <+: s.written := by
  obtain ⟨l, _, h4⟩ := finv2_exec h1 (finv_init n h2) inv2_init sched he
  exact h4.sr hk

/-- C107: `snap` is what had been stored when `shutdown()` was called on a running output. -/
theorem c107_snap (intr : Bool) (s s' : FState) (hw : s.w ≠ .off) (h : fstep intr s .callShutdown = .ok s') :
    s'.snap = s.accepted := by
  simp only [fstep, hw, if_false] at h
  split at h
  · cases h; rfl
  · cases h

/-- C107, progress, provided no semaphore wait is interrupted: with idle producers, the worker on its own comes
to rest after finitely many steps, and then every message ever stored has been written. -/
theorem c107_progress_partial (n : Nat) (h1 : 1 ≤ n) (h2 : n < 2 ^ 64) (sched : List Act) (s : FState)
    (he : fexec false (finit n) sched = .ok s) (hidle : ∀ t, s.pc t = .idle) (hw : s.w ≠ .off) (hx : s.execute = true) :
    ∃ k s', fexec false s (worker k) = .ok s' ∧ s'.w = .wait ∧ s'.written = s.accepted ∧ s'.q.isEmpty = true := by
  obtain ⟨l, h3, h4⟩ := finv2_exec h1 (finv_init n h2) inv2_init sched he
  obtain ⟨k, t, h5, h6⟩ := worker_stops (s.abs l)
  have i1 := inv_exec h3.inv (worker k) h5
  have i2 := inv2_exec h3.inv h4 (worker k) h5
  obtain ⟨p1, p2, p3, p4⟩ := worker_pc k h5
  have hidle' : ∀ u, t.pc u = .idle := by rw [p1]; exact hidle
  obtain ⟨s', l', h7, h8, rfl⟩ := lift_worker h1 k s l t h3 h5
  rcases stopped_cases i1 hidle' h6 with ho | ⟨ho, hf⟩
  · exact absurd ho (worker_execute k h3.inv h4 hx hw h5).2
  · have hq : l' = [] := by
      have := i2.wk
      rw [owing_nil i2 hidle', hf, ho] at this
      simpa [tok, FState.abs] using this
    subst hq
    have ls : s'.accepted = s'.written ++ inflight s'.w ++ [] := i1.ls
    have ho' : s'.w = .wait := ho
    rw [ho'] at ls
    have p3' : s'.accepted = s.accepted := p3
    exact ⟨k, s', h7, ho', by rw [← p3', ls]; simp [inflight], (rep_isEmpty _ _ h8.rep).2 rfl⟩

/-- C107, provided no semaphore wait is interrupted: `shutdown()` does not hang; waiting in `join()` with idle producers,
it returns after finitely many steps of the worker. -/
theorem c107_shutdown_returns_partial (n : Nat) (h1 : 1 ≤ n) (h2 : n < 2 ^ 64) (sched : List Act) (s : FState)
    (he : fexec false (finit n) sched = .ok s) (hidle : ∀ t, s.pc t = .idle) (hk : s.k = .join) :
    ∃ k s', fexec false s (worker k ++ [.k]) = .ok s' ∧ s'.k = .returned := by
  obtain ⟨l, h3, h4⟩ := finv2_exec h1 (finv_init n h2) inv2_init sched he
  obtain ⟨k, t, h5, h6⟩ := worker_stops (s.abs l)
  have i1 := inv_exec h3.inv (worker k) h5
  have i2 := inv2_exec h3.inv h4 (worker k) h5
  obtain ⟨p1, p2, p3, p4⟩ := worker_pc k h5
  have hidle' : ∀ u, t.pc u = .idle := by rw [p1]; exact hidle
  obtain ⟨s', l', h7, h8, rfl⟩ := lift_worker h1 k s l t h3 h5
  have hk' : s'.k = .join := (show s'.k = s.k from p2).trans hk
  rcases stopped_cases i1 hidle' h6 with ho | ⟨ho, hf⟩
  · have ho' : s'.w = .off := ho
    refine ⟨k, { s' with k := .returned }, ?_, rfl⟩
    rw [fappend false _ _ _ _ h7]
    simp [fexec, fstep, fstepK, hk', ho']
  · have h9 := i2.jw hk' ho
    omega

/-- C107, provided no semaphore wait is interrupted: a worker that sleeps while no thread is inside `push()` has
written everything that was stored; dropped messages cause no missed and no blocking wake-up. -/
theorem c107_no_lost_wakeup_partial (n : Nat) (h1 : 1 ≤ n) (h2 : n < 2 ^ 64) (sched : List Act) (s : FState)
    (he : fexec false (finit n) sched = .ok s) (hw : s.w = .wait) (hf : s.fill = 0) (hidle : ∀ t, s.pc t = .idle) :
    s.q.isEmpty = true ∧ s.written = s.accepted := by
  obtain ⟨l, h3, h4⟩ := finv2_exec h1 (finv_init n h2) inv2_init sched he
  have hq : l = [] := by
    have := h4.wk
    rw [owing_nil h4 hidle] at this
    simpa [tok, FState.abs, hf, hw] using this
  subst hq
  have ls : s.accepted = s.written ++ inflight s.w ++ [] := h3.inv.ls
  rw [hw] at ls
  exact ⟨(rep_isEmpty _ _ h3.rep).2 rfl, by simpa [inflight] using ls.symm⟩

/-- C107: a configured size of 1 drops every message, in every execution. -/
theorem c107_size_one (intr : Bool) (sched : List Act) (s : FState) (he : fexec intr (finit 1) sched = .ok s) :
    s.accepted = [] ∧ s.written = [] := by
  have key : ∀ (as : List Act) (s s' : FState) (l : List Nat), FInv 1 s l → s.accepted = [] →
      fexec intr s as = .ok s' → s'.accepted = [] := by
    intro as
    induction as with
    | nil => intro s s' l h1 h he; cases he; exact h
    | cons a as ih =>
      intro s s' l h1 h he
      simp only [fexec] at he
      cases hs : fstep intr s a with
      | blocked => rw [hs] at he; cases he
      | ub => rw [hs] at he; cases he
      | ok s1 =>
        rw [hs] at he
        obtain ⟨l1, h2, hb⟩ := (finv_step (intr := intr) (Nat.le_refl 1) h1 a).2 s1 hs
        refine ih s1 s' l1 h2 ?_ he
        have hb' : (s1.abs l1).pushed = [] := by
          have hp : (s.abs l).pushed = [] := h
          generalize s.abs l = x at hb hp
          generalize s1.abs l1 = y at hb
          clear h1 h2 he hs h
          cases a with
          | p t =>
            simp only [stepB, stepP, Nat.sub_self, Nat.not_lt_zero, if_false] at hb
            cases hpc : x.pc t <;> rw [hpc] at hb <;> simp only [] at hb
            all_goals (try split at hb)
            all_goals (try (cases hb; done))
            all_goals (cases hb; exact hp)
          | w => rw [(stepW_pc hb).2.2.1, hp]
          | _ =>
            simp only [stepB, step, failW, failP, callP, stepK] at hb
            all_goals (try split at hb)
            all_goals (try split at hb)
            all_goals (try split at hb)
            all_goals (try (cases hb; done))
            all_goals (cases hb; exact hp)
        exact hb'
  have h := key sched _ _ [] (finv_init 1 (by decide)) rfl he
  have hp := ((c107_fifo 1 (by decide) (by decide) intr sched).2 s he).1
  rw [h] at hp
  exact ⟨h, List.prefix_nil.1 hp⟩

/-! ### Examples -/

/-- Did it come out all right, and what was observed? -/
structure View where
  k : KPC
  w : WPC
  snap : List Nat
  written : List Nat
  accepted : List Nat
  dropped : List Nat
  deriving DecidableEq

/-- The view of an outcome. -/
def FRes.view : FRes → Option View
  | .ok s => some ⟨s.k, s.w, s.snap, s.written, s.accepted, s.dropped⟩
  | _ => none

/-- Non-vacuity: a queue of size 2 (one message), three messages from two threads; one is dropped; shutdown. -/
example : (fexec false (finit 2) (pushBy 1 ++ pushBy 2 ++ [.callStart] ++ worker 8 ++ pushBy 1 ++
    [.callShutdown, .k, .k] ++ worker 7 ++ [.k])).view =
      some ⟨.returned, .off, [0, 2], [0, 2], [0, 2], [1]⟩ := by
  decide

/-- Non-vacuity: two dropped messages still post the fill count; the worker comes to rest. -/
example : (fexec false (finit 2) (pushBy 1 ++ pushBy 2 ++ pushBy 3 ++ [.callStart] ++ worker 15)).view =
      some ⟨.idle, .wait, [], [0], [0], [1, 2]⟩ := by
  decide

/-- C107, finding: if the worker's last wait for the mutex is interrupted, `shutdown()` returns with messages left
in the queue, as with the unbounded queue. -/
theorem c107_interrupted_shutdown : (fexec true (finit 5)
    ([.callStart] ++ worker 2 ++ pushBy 1 ++ pushBy 1 ++ [.callShutdown, .k, .k] ++ worker 7 ++ [.wFails] ++ worker 1 ++ [.k])).view =
      some ⟨.returned, .off, [0, 1], [0], [0, 1], []⟩ := by
  decide

end Verif.Logging.Worker
