import Verif.Logging.Connect

/-!
# C130: connecting and disconnecting outputs while threads log
-/
namespace Verif.Logging.Connect

/-- C130: whatever the schedule (also with interrupted waits), every message was given, once each and in the order of the
set, to exactly the outputs that were connected at one moment: those whose last `addOutputStream` /
`removeOutputStream` that took effect before the message was an `addOutputStream`. -/
theorem c130_snapshot (intr : Bool) (sched : List (Nat × Act)) (s : State) (he : exec intr init sched = some s)
    (pre : List Ev) (m : Nat) (outs : List Nat) (post : List Ev) (hh : s.hist = pre ++ .msg m outs :: post) :
    outs.Pairwise (· < ·) ∧ ∀ o, o ∈ outs ↔ connected pre o = true :=
  (inv_exec inv_init sched he).hi pre m outs post hh

/-- C130: the set of outputs is never changed while another thread iterates over it: when thread `t` has an iterator
(inside `push`, or between two pushes), no step of thread `u` changes the set. -/
theorem c130_iterator_valid (intr : Bool) (sched : List (Nat × Act)) (s : State) (he : exec intr init sched = some s)
    (t : Nat) (hit : ∃ m, (∃ o, s.pc t = .fPush m o) ∨ ∃ l, s.pc t = .fNext m l)
    (u : Nat) (a : Act) (s' : State) (hs : step intr s u a = some s') : s'.conn = s.conn := by
  have h := inv_exec inv_init sched he
  have h1 : s.mutex = some t := by
    rcases hit with ⟨m, ⟨o, ht⟩ | ⟨l, ht⟩⟩ <;> exact (h.mx t).1 (by rw [ht]; rfl)
  have hne : ∀ p, s.pc u ≠ .rDel p ∧ s.pc u ≠ .aIns p := by
    intro p
    constructor <;> intro hu <;> have h2 := (h.mx u).1 (by rw [hu]; rfl) <;> rw [h1] at h2 <;> cases h2 <;>
      rcases hit with ⟨m, ⟨o, ht⟩ | ⟨l, ht⟩⟩ <;> rw [ht] at hu <;> cases hu
  unfold step at hs
  rcases hp : s.pc u with _ | m | ⟨m, l⟩ | ⟨m, o⟩ | _ | o | o | _ | o | o | _ <;>
    cases a <;> rw [hp] at hs <;> simp only [reduceCtorEq] at hs
  all_goals (try exact absurd hp (hne _).1)
  all_goals (try exact absurd hp (hne _).2)
  all_goals (try split at hs)
  all_goals (try (cases hs; done))
  all_goals (cases hs; rfl)

/-- No thread is about to connect output `o`. -/
def NoAdd (s : State) (o : Nat) : Prop := ∀ u, s.pc u ≠ .aWait o ∧ s.pc u ≠ .aIns o

/-- No thread is about to disconnect output `o`. -/
def NoRemove (s : State) (o : Nat) : Prop := ∀ u, s.pc u ≠ .rWait o ∧ s.pc u ≠ .rDel o

theorem gone_step {intr : Bool} {s s' : State} (h : Inv s) (t : Nat) (a : Act) (hs : step intr s t a = some s') (o : Nat)
    (hn : NoAdd s o) (ha : a ≠ .add o) : NoAdd s' o ∧ (o ∉ s.conn → o ∉ s'.conn) := by
  have so := h.so
  unfold step at hs
  unfold NoAdd at *
  have hnt := hn t
  rcases hp : s.pc t with _ | m | ⟨m, l⟩ | ⟨m, o⟩ | _ | o | o | _ | o | o | _ <;>
    cases a <;> rw [hp] at hs hnt <;> simp only [reduceCtorEq] at hs
  all_goals (try split at hs)
  all_goals (try (cases hs; done))
  all_goals cases hs
  all_goals simp only [setPc, setG, mem_insertSet, erase_mem so]
  all_goals grind

theorem kept_step {intr : Bool} {s s' : State} (h : Inv s) (t : Nat) (a : Act) (hs : step intr s t a = some s') (o : Nat)
    (hn : NoRemove s o) (ha : a ≠ .remove o) : NoRemove s' o ∧ (o ∈ s.conn → o ∈ s'.conn) := by
  have so := h.so
  unfold step at hs
  unfold NoRemove at *
  have hnt := hn t
  rcases hp : s.pc t with _ | m | ⟨m, l⟩ | ⟨m, o⟩ | _ | o | o | _ | o | o | _ <;>
    cases a <;> rw [hp] at hs hnt <;> simp only [reduceCtorEq] at hs
  all_goals (try split at hs)
  all_goals (try (cases hs; done))
  all_goals cases hs
  all_goals simp only [setPc, setG, mem_insertSet, erase_mem so]
  all_goals grind

/-- Removing: the thread has not erased yet, or the output is not in the set. -/
theorem removing_step {s s' : State} (h : Inv s) (u : Nat) (a : Act) (hs : step false s u a = some s') (t o : Nat)
    (hn : NoAdd s o) (ha : a ≠ .add o) (hr : s.pc t = .rWait o ∨ s.pc t = .rDel o ∨ o ∉ s.conn) :
    s'.pc t = .rWait o ∨ s'.pc t = .rDel o ∨ o ∉ s'.conn := by
  have hg := (gone_step h u a hs o hn ha).2
  rcases hr with hr | hr | hr
  · by_cases e : u = t
    · subst e
      unfold step at hs
      rw [hr] at hs
      cases a <;> simp only [reduceCtorEq] at hs
      · split at hs
        · cases hs; right; left; simp [setPc]
        · cases hs
      · cases hs
    · left
      unfold step at hs
      rcases hp : s.pc u with _ | m | ⟨m, l⟩ | ⟨m, o⟩ | _ | o | o | _ | o | o | _ <;>
        cases a <;> rw [hp] at hs <;> simp only [reduceCtorEq] at hs
      all_goals (try split at hs)
      all_goals (try (cases hs; done))
      all_goals cases hs
      all_goals simp only [setPc, setG, Ne.symm e, if_false, hr]
  · by_cases e : u = t
    · subst e
      unfold step at hs
      rw [hr] at hs
      cases a <;> simp only [reduceCtorEq] at hs
      cases hs
      right; right
      simp only [setPc, erase_mem h.so]
      grind
    · right; left
      unfold step at hs
      rcases hp : s.pc u with _ | m | ⟨m, l⟩ | ⟨m, o⟩ | _ | o | o | _ | o | o | _ <;>
        cases a <;> rw [hp] at hs <;> simp only [reduceCtorEq] at hs
      all_goals (try split at hs)
      all_goals (try (cases hs; done))
      all_goals cases hs
      all_goals simp only [setPc, setG, Ne.symm e, if_false, hr]
  · exact Or.inr (Or.inr (hg hr))

/-- Adding: the thread has not inserted yet, or the output is in the set. -/
theorem adding_step {s s' : State} (h : Inv s) (u : Nat) (a : Act) (hs : step false s u a = some s') (t o : Nat)
    (hn : NoRemove s o) (ha : a ≠ .remove o) (hr : s.pc t = .aWait o ∨ s.pc t = .aIns o ∨ o ∈ s.conn) :
    s'.pc t = .aWait o ∨ s'.pc t = .aIns o ∨ o ∈ s'.conn := by
  have hg := (kept_step h u a hs o hn ha).2
  rcases hr with hr | hr | hr
  · by_cases e : u = t
    · subst e
      unfold step at hs
      rw [hr] at hs
      cases a <;> simp only [reduceCtorEq] at hs
      · split at hs
        · cases hs; right; left; simp [setPc]
        · cases hs
      · cases hs
    · left
      unfold step at hs
      rcases hp : s.pc u with _ | m | ⟨m, l⟩ | ⟨m, o⟩ | _ | o | o | _ | o | o | _ <;>
        cases a <;> rw [hp] at hs <;> simp only [reduceCtorEq] at hs
      all_goals (try split at hs)
      all_goals (try (cases hs; done))
      all_goals cases hs
      all_goals simp only [setPc, setG, Ne.symm e, if_false, hr]
  · by_cases e : u = t
    · subst e
      unfold step at hs
      rw [hr] at hs
      cases a <;> simp only [reduceCtorEq] at hs
      cases hs
      right; right
      simp only [setPc, mem_insertSet]
      grind
    · right; left
      unfold step at hs
      rcases hp : s.pc u with _ | m | ⟨m, l⟩ | ⟨m, o⟩ | _ | o | o | _ | o | o | _ <;>
        cases a <;> rw [hp] at hs <;> simp only [reduceCtorEq] at hs
      all_goals (try split at hs)
      all_goals (try (cases hs; done))
      all_goals cases hs
      all_goals simp only [setPc, setG, Ne.symm e, if_false, hr]
  · exact Or.inr (Or.inr (hg hr))

theorem gone_exec {intr : Bool} (as : List (Nat × Act)) {s s' : State} (h : Inv s) (he : exec intr s as = some s') (o : Nat)
    (hn : NoAdd s o) (ha : ∀ x ∈ as, x.2 ≠ .add o) : NoAdd s' o ∧ (o ∉ s.conn → o ∉ s'.conn) := by
  induction as generalizing s with
  | nil => cases he; exact ⟨hn, id⟩
  | cons x as ih =>
    obtain ⟨s1, h1, h2⟩ := Option.bind_eq_some_iff.1 he
    obtain ⟨g1, g2⟩ := gone_step h x.1 x.2 h1 o hn (ha x List.mem_cons_self)
    obtain ⟨g3, g4⟩ := ih (inv_step h x.1 x.2 h1) h2 g1 (fun y hy => ha y (List.mem_cons_of_mem _ hy))
    exact ⟨g3, fun h => g4 (g2 h)⟩

theorem kept_exec {intr : Bool} (as : List (Nat × Act)) {s s' : State} (h : Inv s) (he : exec intr s as = some s') (o : Nat)
    (hn : NoRemove s o) (ha : ∀ x ∈ as, x.2 ≠ .remove o) : NoRemove s' o ∧ (o ∈ s.conn → o ∈ s'.conn) := by
  induction as generalizing s with
  | nil => cases he; exact ⟨hn, id⟩
  | cons x as ih =>
    obtain ⟨s1, h1, h2⟩ := Option.bind_eq_some_iff.1 he
    obtain ⟨g1, g2⟩ := kept_step h x.1 x.2 h1 o hn (ha x List.mem_cons_self)
    obtain ⟨g3, g4⟩ := ih (inv_step h x.1 x.2 h1) h2 g1 (fun y hy => ha y (List.mem_cons_of_mem _ hy))
    exact ⟨g3, fun h => g4 (g2 h)⟩

theorem removing_exec (as : List (Nat × Act)) {s s' : State} (h : Inv s) (he : exec false s as = some s') (t o : Nat)
    (hn : NoAdd s o) (ha : ∀ x ∈ as, x.2 ≠ .add o) (hr : s.pc t = .rWait o ∨ s.pc t = .rDel o ∨ o ∉ s.conn) :
    s'.pc t = .rWait o ∨ s'.pc t = .rDel o ∨ o ∉ s'.conn := by
  induction as generalizing s with
  | nil => cases he; exact hr
  | cons x as ih =>
    obtain ⟨s1, h1, h2⟩ := Option.bind_eq_some_iff.1 he
    have hx := ha x List.mem_cons_self
    exact ih (inv_step h x.1 x.2 h1) h2 (gone_step h x.1 x.2 h1 o hn hx).1
      (fun y hy => ha y (List.mem_cons_of_mem _ hy)) (removing_step h x.1 x.2 h1 t o hn hx hr)

theorem adding_exec (as : List (Nat × Act)) {s s' : State} (h : Inv s) (he : exec false s as = some s') (t o : Nat)
    (hn : NoRemove s o) (ha : ∀ x ∈ as, x.2 ≠ .remove o) (hr : s.pc t = .aWait o ∨ s.pc t = .aIns o ∨ o ∈ s.conn) :
    s'.pc t = .aWait o ∨ s'.pc t = .aIns o ∨ o ∈ s'.conn := by
  induction as generalizing s with
  | nil => cases he; exact hr
  | cons x as ih =>
    obtain ⟨s1, h1, h2⟩ := Option.bind_eq_some_iff.1 he
    have hx := ha x List.mem_cons_self
    exact ih (inv_step h x.1 x.2 h1) h2 (kept_step h x.1 x.2 h1 o hn hx).1
      (fun y hy => ha y (List.mem_cons_of_mem _ hy)) (adding_step h x.1 x.2 h1 t o hn hx hr)

/-- C130, provided no wait is interrupted: let thread `t` call `removeOutputStream(o)` while nobody is connecting `o`, and
let the call return (`s2`). From then on, until somebody calls `addOutputStream(o)`, no thread is inside `push` of `o` or
enters it, however many threads were and are logging: the output can be destroyed. Missing: interrupted waits, see
`c130_interrupted_remove`. -/
theorem c130_removed_quiet_partial (pre mid rest : List (Nat × Act)) (s s1 s2 s3 : State) (t o : Nat)
    (he : exec false init pre = some s) (hn : NoAdd s o) (h1 : step false s t (.remove o) = some s1)
    (h2 : exec false s1 mid = some s2) (hret : s2.pc t = .idle) (h3 : exec false s2 rest = some s3)
    (ha : ∀ x ∈ mid ++ rest, x.2 ≠ .add o) (u m : Nat) : s3.pc u ≠ .fPush m o := by
  have i0 := inv_exec inv_init pre he
  have i1 := inv_step i0 t _ h1
  have i2 := inv_exec i1 mid h2
  have i3 := inv_exec i2 rest h3
  have n1 := (gone_step i0 t _ h1 o hn (by simp)).1
  have hpc : s1.pc t = .rWait o := by
    unfold step at h1
    rcases hp : s.pc t with _ | m | ⟨m, l⟩ | ⟨m, o⟩ | _ | o | o | _ | o | o | _ <;> rw [hp] at h1 <;>
      simp only [reduceCtorEq] at h1
    cases h1
    simp [setPc]
  have ham : ∀ x ∈ mid, x.2 ≠ .add o := fun x hx => ha x (List.mem_append_left _ hx)
  have har : ∀ x ∈ rest, x.2 ≠ .add o := fun x hx => ha x (List.mem_append_right _ hx)
  have hg : o ∉ s2.conn := by
    rcases removing_exec mid i1 h2 t o n1 ham (Or.inl hpc) with h | h | h
    · rw [hret] at h; cases h
    · rw [hret] at h; cases h
    · exact h
  have hg3 := (gone_exec rest i2 h3 o (gone_exec mid i1 h2 o n1 ham).1 har).2 hg
  intro hu
  exact hg3 (i3.gp u m o hu).1

/-- C130, provided no wait is interrupted: after `addOutputStream(o)` has returned, and until somebody calls
`removeOutputStream(o)`, every message that takes effect is given to `o`. -/
theorem c130_added_gets_partial (pre mid rest : List (Nat × Act)) (s s1 s2 s3 : State) (t o : Nat)
    (he : exec false init pre = some s) (hn : NoRemove s o) (h1 : step false s t (.add o) = some s1)
    (h2 : exec false s1 mid = some s2) (hret : s2.pc t = .idle) (h3 : exec false s2 rest = some s3)
    (ha : ∀ x ∈ mid ++ rest, x.2 ≠ .remove o) (u m : Nat) (s4 : State) (outs : List Nat)
    (h4 : step false s3 u .go = some s4) (hm : s4.hist = s3.hist ++ [.msg m outs]) : o ∈ outs := by
  have i0 := inv_exec inv_init pre he
  have i1 := inv_step i0 t _ h1
  have i2 := inv_exec i1 mid h2
  have i3 := inv_exec i2 rest h3
  have n1 := (kept_step i0 t _ h1 o hn (by simp)).1
  have hpc : s1.pc t = .aWait o := by
    unfold step at h1
    rcases hp : s.pc t with _ | m | ⟨m, l⟩ | ⟨m, o⟩ | _ | o | o | _ | o | o | _ <;> rw [hp] at h1 <;>
      simp only [reduceCtorEq] at h1
    cases h1
    simp [setPc]
  have ham : ∀ x ∈ mid, x.2 ≠ .remove o := fun x hx => ha x (List.mem_append_left _ hx)
  have har : ∀ x ∈ rest, x.2 ≠ .remove o := fun x hx => ha x (List.mem_append_right _ hx)
  have hg : o ∈ s2.conn := by
    rcases adding_exec mid i1 h2 t o n1 ham (Or.inl hpc) with h | h | h
    · rw [hret] at h; cases h
    · rw [hret] at h; cases h
    · exact h
  have hg3 := (kept_exec rest i2 h3 o (kept_exec mid i1 h2 o n1 ham).1 har).2 hg
  have i4 := inv_step i3 u _ h4
  exact ((i4.hi s3.hist m outs [] hm).2 o).2 ((i3.co o).1 hg3)

/-- Complete calls of one thread. -/
def addBy (t o : Nat) : List (Nat × Act) := [(t, .add o), (t, .go), (t, .go), (t, .go)]
def gos (t k : Nat) : List (Nat × Act) := List.replicate k (t, .go)

/-- Outputs 5 and 3 are connected; thread 1 logs message 7 and is inside `push` of 3 when thread 2 calls
`removeOutputStream(5)`; after that thread 1 logs message 8. -/
def exPre : List (Nat × Act) := addBy 2 5 ++ addBy 2 3 ++ [(1, .flush 7)] ++ gos 1 2
def exMid : List (Nat × Act) := gos 1 5 ++ gos 2 3
def exRest : List (Nat × Act) := [(1, .flush 8)] ++ gos 1 4

/-- The hypotheses of `c130_removed_quiet_partial` are met (`NoAdd`: no other thread has acted). -/
example : ∃ s s1 s2 s3, exec false init exPre = some s ∧ s.pc 1 = .fPush 7 3 ∧ s.pc 2 = .idle ∧
    step false s 2 (.remove 5) = some s1 ∧ exec false s1 exMid = some s2 ∧ s2.pc 2 = .idle ∧
    exec false s2 exRest = some s3 ∧
    s3.hist = [.add 5, .add 3, .msg 7 [3, 5], .rem 5, .msg 8 [3]] :=
  ⟨_, _, _, _, rfl, by decide, by decide, rfl, rfl, by decide, rfl, by decide⟩

theorem noAdd_of {intr : Bool} (as : List (Nat × Act)) {s s' : State} (he : exec intr s as = some s') (t : Nat)
    (h0 : s.pc t = .idle) (h : ∀ x ∈ as, x.1 ≠ t) : s'.pc t = .idle := by
  induction as generalizing s with
  | nil => cases he; exact h0
  | cons x as ih =>
    obtain ⟨s1, h1, h2⟩ := Option.bind_eq_some_iff.1 he
    refine ih h2 ?_ (fun y hy => h y (List.mem_cons_of_mem _ hy))
    have hne := h x List.mem_cons_self
    unfold step at h1
    rcases hp : s.pc x.1 with _ | m | ⟨m, l⟩ | ⟨m, o⟩ | _ | o | o | _ | o | o | _ <;>
      cases hx : x.2 <;> rw [hp, hx] at h1 <;> simp only [reduceCtorEq] at h1
    all_goals (try split at h1)
    all_goals (try (cases h1; done))
    all_goals cases h1
    all_goals simp only [setPc, setG, Ne.symm hne, if_false, h0]

/-- `NoAdd` holds in that example. -/
example : ∀ s, exec false init exPre = some s → NoAdd s 5 := by
  intro s he u
  by_cases h1 : u = 1
  · subst h1; cases he; decide
  · by_cases h2 : u = 2
    · subst h2; cases he; decide
    · rw [noAdd_of exPre he u rfl (by simp [exPre, addBy, gos]; omega)]
      simp

/-- Finding: if the wait in `removeOutputStream` is interrupted, the function returns without having removed the output, and
says nothing: the next message is pushed to an output that its owner believes to be disconnected (and may have
deleted). -/
theorem c130_interrupted_remove : ∃ s, exec true init (addBy 2 5 ++ [(2, .remove 5), (2, .fail), (1, .flush 7)] ++ gos 1 2) = some s ∧
    s.pc 2 = .idle ∧ s.pc 1 = .fPush 7 5 :=
  ⟨_, rfl, by decide⟩

/-- Finding: if the wait in `addOutputStream` is interrupted, the output is not connected; if the wait in `flush` is
interrupted, the message is lost. -/
theorem c130_interrupted_add_flush : ∃ s, exec true init
    ([(2, .add 5), (2, .fail), (1, .flush 7)] ++ gos 1 3 ++ [(1, .flush 8), (1, .fail)]) = some s ∧
    s.pc 1 = .idle ∧ s.pc 2 = .idle ∧ s.hist = [.msg 7 []] :=
  ⟨_, rfl, by decide⟩

end Verif.Logging.Connect
