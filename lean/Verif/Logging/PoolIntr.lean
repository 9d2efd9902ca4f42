import Verif.Logging.PoolProps
import Mathlib.Data.List.Perm.Subperm

/-!
# Interrupted waits and the size of the pool of thread streams (C132): model and invariants

The model of `Pool.lean`, where `Semaphore::wait` may also fail (`sem_wait` interrupted by a signal):
LogStream.cpp:94-95 tries again, ThreadStream.cpp:142-146 prints an error, does not push the message,
does not release the thread stream and resets the write index.
-/
namespace Verif.Logging.Pool.Intr
open Verif.Logging.Pool

/-- The log stream with its threads, and the statements whose message was not pushed because the wait
in `flush` failed (history: thread, level, text). -/
structure IS where
  s : State
  lost : List (Nat × Nat × List Nat)

/-- Actions: those of `Pool.lean`, and a failing wait. -/
inductive IAct where
  | act (a : Act)
  | intr
  deriving DecidableEq, Repr

/-- LogStream.cpp:39-52. -/
def initI (n : Nat) : IS := ⟨init n, []⟩

/-- One action of thread `t`. A failed wait: LogStream.cpp:94-95 (again), ThreadStream.cpp:142-146. -/
def stepI (c : Cfg) (x : IS) (t : Nat) : IAct → Option IS
  | .act a => (step c x.s t a).map fun s' => { x with s := s' }
  | .intr =>
    match x.s.pc t with
    | .acq _ _ => some x
    | .flushWait i l txt => some ⟨setPc x.s t (.reset i), x.lost ++ [(t, l, txt)]⟩
    | _ => none

/-- Run a schedule. -/
def execI (c : Cfg) (x : IS) : List (Nat × IAct) → Option IS
  | [] => some x
  | (t, a) :: as => (stepI c x t a).bind fun x' => execI c x' as

/-- The number of log statements thread `t` has started and not finished. -/
def underWay (s : State) (t : Nat) : Nat := (if s.pc t = .idle then 0 else 1) + (s.outer t).length

/-! ## Who owns the assigned streams (every execution) -/

/-- Assigned streams are in use or belong to a statement whose flush failed; no two streams are
assigned to the same thread and level. -/
structure UInv (x : IS) : Prop where
  us : ∀ t i l, x.s.pool[i]? = some (some (t, l)) →
    top (x.s.pc t) = some (i, l) ∨ (∃ f ∈ x.s.outer t, f.i = i ∧ f.l = l) ∨ ∃ txt, (t, l, txt) ∈ x.lost
  ud : ∀ (i j : Nat) (p : Nat × Nat), x.s.pool[i]? = some (some p) → x.s.pool[j]? = some (some p) → i = j

theorem uinv_init (n : Nat) : UInv (initI n) := by
  constructor <;> simp only [initI, init, top_tab] <;> grind

set_option maxHeartbeats 4000000 in
theorem uinv_step {c : Cfg} {x x' : IS} (h : UInv x) (t : Nat) (a : IAct) (hs : stepI c x t a = some x') : UInv x' := by
  obtain ⟨s, lost⟩ := x
  obtain ⟨us, ud⟩ := h
  dsimp only at us ud
  cases a with
  | intr =>
    simp only [stepI] at hs
    rcases hp : s.pc t with _ | ⟨l, txt⟩ | ⟨l, txt⟩ | ⟨i, l, txt⟩ | f | ⟨i, l, txt⟩ | ⟨i, l, txt⟩ | ⟨i, l⟩ | i | i <;>
      rw [hp] at hs <;> simp only [reduceCtorEq] at hs
    · cases hs; exact ⟨us, ud⟩
    · cases hs
      have q1 := congrArg top hp
      simp only [top_tab] at q1
      constructor <;> simp only [setPc] <;> (try simp only [apply_ite top, top_tab]) <;> grind
  | act a =>
    simp only [stepI] at hs
    obtain ⟨s', hs, rfl⟩ := Option.map_eq_some_iff.1 hs
    have hlk := lookup_cases s.pool t
    unfold step at hs
    rcases hp : s.pc t with _ | ⟨l, txt⟩ | ⟨l, txt⟩ | ⟨i, l, txt⟩ | f | ⟨i, l, txt⟩ | ⟨i, l, txt⟩ | ⟨i, l⟩ | i | i <;>
      cases a <;> rw [hp] at hs <;> simp only [reduceCtorEq] at hs
    all_goals (try split at hs)
    all_goals (try (cases hs; done))
    all_goals cases hs
    all_goals have q1 := congrArg top hp
    all_goals simp only [top_tab] at q1
    case act.look.go.isTrue.refl =>
      rcases hlk l with ⟨i, e, h1⟩ | ⟨i, hno, e, h1⟩ | ⟨hno, e⟩ <;>
        rw [e] <;> constructor <;> simp only [setPc] <;>
          (try simp only [apply_ite top, top_tab]) <;> grind
    all_goals constructor
    all_goals simp only [setPc, setBuf, record, suspend]
    all_goals (try simp only [apply_ite top, top_tab])
    all_goals (try assumption)
    all_goals (try grind)

/-! ## Accounting (every execution) -/

/-- The statements of a thread whose message was lost. -/
def lostOf (x : IS) (t : Nat) : List (Nat × List Nat) := (x.lost.filter (·.1 = t)).map (·.2)

/-- Every statement was pushed, was lost, or is under way. -/
def AInv (x : IS) : Prop := ∀ t, (x.s.called t).Perm (meantOf x.s t ++ lostOf x t ++ pending x.s t)

theorem ainv_init (n : Nat) : AInv (initI n) := by
  intro t; simp [initI, init, meantOf, lostOf, pending, pendingTop]

set_option maxHeartbeats 4000000 in
theorem ainv_step {c : Cfg} {x x' : IS} (h : AInv x) (t : Nat) (a : IAct) (hs : stepI c x t a = some x') : AInv x' := by
  obtain ⟨s, lost⟩ := x
  intro u
  have alu := h u
  clear h
  cases a with
  | intr =>
    simp only [stepI] at hs
    rcases hp : s.pc t with _ | ⟨l, txt⟩ | ⟨l, txt⟩ | ⟨i, l, txt⟩ | f | ⟨i, l, txt⟩ | ⟨i, l, txt⟩ | ⟨i, l⟩ | i | i <;>
      rw [hp] at hs <;> simp only [reduceCtorEq] at hs
    · cases hs; exact alu
    · cases hs
      by_cases hu : u = t
      · subst hu
        simp only [pending, meantOf, lostOf, setPc, if_pos, hp, pendingTop, List.filter_append, List.map_append,
          List.nil_append] at alu ⊢
        simpa [List.append_assoc] using alu
      · have hu' : ¬ t = u := fun h => hu h.symm
        simp only [pending, meantOf, lostOf, setPc, if_neg hu, List.filter_append, List.map_append] at alu ⊢
        simpa [hu'] using alu
  | act a =>
    simp only [stepI] at hs
    obtain ⟨s', hs, rfl⟩ := Option.map_eq_some_iff.1 hs
    unfold step at hs
    rcases hp : s.pc t with _ | ⟨l, txt⟩ | ⟨l, txt⟩ | ⟨i, l, txt⟩ | f | ⟨i, l, txt⟩ | ⟨i, l, txt⟩ | ⟨i, l⟩ | i | i <;>
      cases a <;> rw [hp] at hs <;> simp only [reduceCtorEq] at hs
    all_goals (try split at hs)
    all_goals (try (cases hs; done))
    all_goals cases hs
    all_goals by_cases hu : u = t
    all_goals (try subst hu)
    all_goals simp only [pending, meantOf, lostOf, setPc, setBuf, record, suspend, if_pos, if_neg, hp, pendingTop, *,
      List.filter_append, List.map_append, List.nil_append, List.append_nil, List.map_cons, List.map_nil] at alu ⊢
    all_goals (try assumption)
    all_goals (try grind)

/-! ## Ownership and texts (no nesting in a statement of the same level) -/

/-- Ownership. -/
structure OInv (x : IS) : Prop where
  mx : ∀ t, crit (x.s.pc t) = true ↔ x.s.mutex = some t
  tp : ∀ t i l, top (x.s.pc t) = some (i, l) → x.s.pool[i]? = some (some (t, l))
  ot : ∀ t f, f ∈ x.s.outer t → x.s.pool[f.i]? = some (some (t, f.l))
  d1 : ∀ t i l f, top (x.s.pc t) = some (i, l) → f ∈ x.s.outer t → f.l ≠ l
  d2 : ∀ t l f, wants (x.s.pc t) = some l → f ∈ x.s.outer t → f.l ≠ l
  d3 : ∀ t, ((x.s.outer t).map (·.l)).Nodup
  nt : ∀ t, x.s.pc t = .idle → x.s.outer t = []
  ud : ∀ (i j : Nat) (p : Nat × Nat), x.s.pool[i]? = some (some p) → x.s.pool[j]? = some (some p) → i = j

theorem oinv_init (n : Nat) : OInv (initI n) := by
  constructor <;> simp only [initI, init, crit_tab, top_tab, wants_tab] <;> grind

set_option maxHeartbeats 4000000 in
theorem oinv_step {c : Cfg} (hc : c.nested = false) {x x' : IS} (h : OInv x) (t : Nat) (a : IAct)
    (hs : stepI c x t a = some x') : OInv x' := by
  obtain ⟨s, lost⟩ := x
  obtain ⟨mx, tp, ot, d1, d2, d3, nt, ud⟩ := h
  dsimp only at mx tp ot d1 d2 d3 nt ud
  cases a with
  | intr =>
    simp only [stepI] at hs
    rcases hp : s.pc t with _ | ⟨l, txt⟩ | ⟨l, txt⟩ | ⟨i, l, txt⟩ | f | ⟨i, l, txt⟩ | ⟨i, l, txt⟩ | ⟨i, l⟩ | i | i <;>
      rw [hp] at hs <;> simp only [reduceCtorEq] at hs
    · cases hs; exact ⟨mx, tp, ot, d1, d2, d3, nt, ud⟩
    · cases hs
      have q1 := congrArg top hp
      have q2 := congrArg crit hp
      have q3 := congrArg wants hp
      have mxt := mx t
      simp only [top_tab, crit_tab, wants_tab] at q1 q2 q3
      constructor <;> simp only [setPc] <;>
        (try simp only [apply_ite top, apply_ite crit, apply_ite wants, top_tab, crit_tab, wants_tab]) <;> grind
  | act a =>
    simp only [stepI] at hs
    obtain ⟨s', hs, rfl⟩ := Option.map_eq_some_iff.1 hs
    have hlk := lookup_cases s.pool t
    unfold step at hs
    rcases hp : s.pc t with _ | ⟨l, txt⟩ | ⟨l, txt⟩ | ⟨i, l, txt⟩ | f | ⟨i, l, txt⟩ | ⟨i, l, txt⟩ | ⟨i, l⟩ | i | i <;>
      cases a <;> rw [hp] at hs <;> simp only [reduceCtorEq, hc, false_or, Bool.false_eq_true] at hs
    all_goals (try split at hs)
    all_goals (try (cases hs; done))
    all_goals cases hs
    all_goals have q1 := congrArg top hp
    all_goals have q2 := congrArg crit hp
    all_goals have q3 := congrArg wants hp
    all_goals have mxt := mx t
    all_goals simp only [top_tab, crit_tab, wants_tab] at q1 q2 q3
    case act.look.go.isTrue.refl =>
      rcases hlk l with ⟨i, e, h1⟩ | ⟨i, hno, e, h1⟩ | ⟨hno, e⟩ <;>
        rw [e] <;> constructor <;> simp only [setPc] <;>
          (try simp only [apply_ite top, apply_ite crit, apply_ite wants, top_tab, crit_tab, wants_tab]) <;> grind
    all_goals constructor
    all_goals simp only [setPc, setBuf, record, suspend]
    all_goals (try simp only [apply_ite top, apply_ite crit, apply_ite wants, top_tab, crit_tab, wants_tab])
    all_goals (try assumption)
    all_goals (try grind)

/-- Texts, for executions that also avoid the window at the end of `flush`. -/
structure TXInv (x : IS) : Prop where
  rs : ∀ t, t ∈ x.s.resetting → atReset (x.s.pc t) = true
  /-- a stream that will be reset is free, or still assigned to the thread whose flush failed -/
  nr : ∀ t (i : Nat), willReset (x.s.pc t) = some i →
    (x.s.pool[i]? = some none ∧ (t ∈ x.s.resetting ∨ x.s.mutex = some t)) ∨
    (∃ l, x.s.pool[i]? = some (some (t, l)) ∧ ∀ f ∈ x.s.outer t, f.l ≠ l)
  fr : ∀ i : Nat, (∀ t l, top (x.s.pc t) ≠ some (i, l)) → (∀ t f, f ∈ x.s.outer t → f.i ≠ i) →
    (∀ t, willReset (x.s.pc t) ≠ some i) → x.s.buf i = []
  tx : ∀ t i b, topText (x.s.pc t) = some (i, b) → x.s.buf i = b
  ox : ∀ t f, f ∈ x.s.outer t → x.s.buf f.i = f.done
  ms : ∀ m ∈ x.s.out, m.text = m.meant

theorem txinv_init (n : Nat) : TXInv (initI n) := by
  constructor <;> simp only [initI, init, atReset_tab, willReset_tab, topText_tab] <;> grind

set_option maxHeartbeats 8000000 in
theorem txinv_step {c : Cfg} (hc : c.nested = false) (hr : c.racy = false) {x x' : IS} (h : OInv x) (ht : TXInv x)
    (t : Nat) (a : IAct) (hs : stepI c x t a = some x') : TXInv x' := by
  obtain ⟨s, lost⟩ := x
  obtain ⟨mx, tp, ot, d1, d2, d3, nt, ud⟩ := h
  obtain ⟨rs, nr, fr, tx, ox, ms⟩ := ht
  dsimp only at mx tp ot d1 d2 d3 nt ud rs nr fr tx ox ms
  have tt := fun u i b (h : topText (s.pc u) = some (i, b)) => topText_top h
  cases a with
  | intr =>
    simp only [stepI] at hs
    rcases hp : s.pc t with _ | ⟨l, txt⟩ | ⟨l, txt⟩ | ⟨i, l, txt⟩ | f | ⟨i, l, txt⟩ | ⟨i, l, txt⟩ | ⟨i, l⟩ | i | i <;>
      rw [hp] at hs <;> simp only [reduceCtorEq] at hs
    · cases hs; exact ⟨rs, nr, fr, tx, ox, ms⟩
    · cases hs
      have q1 := congrArg top hp
      have q2 := congrArg crit hp
      have q3 := congrArg wants hp
      have q4 := congrArg topText hp
      have q5 := congrArg willReset hp
      have q6 := congrArg atReset hp
      have mxt := mx t
      simp only [top_tab, crit_tab, wants_tab, topText_tab, willReset_tab, atReset_tab] at q1 q2 q3 q4 q5 q6
      constructor <;> simp only [setPc] <;>
        (try simp only [apply_ite top, apply_ite topText, apply_ite willReset, apply_ite atReset, top_tab, topText_tab, willReset_tab, atReset_tab]) <;> grind
  | act a =>
    simp only [stepI] at hs
    obtain ⟨s', hs, rfl⟩ := Option.map_eq_some_iff.1 hs
    have hlk := lookup_cases s.pool t
    unfold step at hs
    rcases hp : s.pc t with _ | ⟨l, txt⟩ | ⟨l, txt⟩ | ⟨i, l, txt⟩ | f | ⟨i, l, txt⟩ | ⟨i, l, txt⟩ | ⟨i, l⟩ | i | i <;>
      cases a <;> rw [hp] at hs <;> simp only [reduceCtorEq, hc, hr, false_or, Bool.false_eq_true] at hs
    all_goals (try split at hs)
    all_goals (try (cases hs; done))
    all_goals cases hs
    all_goals have q1 := congrArg top hp
    all_goals have q2 := congrArg crit hp
    all_goals have q3 := congrArg wants hp
    all_goals have q4 := congrArg topText hp
    all_goals have q5 := congrArg willReset hp
    all_goals have q6 := congrArg atReset hp
    all_goals have mxt := mx t
    all_goals simp only [top_tab, crit_tab, wants_tab, topText_tab, willReset_tab, atReset_tab] at q1 q2 q3 q4 q5 q6
    case act.look.go.isTrue.refl =>
      rcases hlk l with ⟨i, e, h1⟩ | ⟨i, hno, e, h1⟩ | ⟨hno, e⟩ <;>
        rw [e] <;> constructor <;> simp only [setPc] <;>
        (try simp only [apply_ite top, apply_ite topText, apply_ite willReset, apply_ite atReset, top_tab, topText_tab, willReset_tab, atReset_tab]) <;> (try grind)
    all_goals (try constructor)
    all_goals (try simp only [setPc, setBuf, record, suspend])
    all_goals (try simp only [apply_ite top, apply_ite topText, apply_ite willReset, apply_ite atReset, top_tab, topText_tab, willReset_tab, atReset_tab])
    all_goals (try assumption)
    all_goals (try grind)
    · intro j h1 h2 h3
      refine fr j (fun u l' hu => ?_) (fun u g hg => ?_) (fun u hu => ?_)
      · by_cases hut : u = t
        · subst hut
          rw [q1] at hu
          simp only [Option.some.injEq, Prod.mk.injEq] at hu
          exact h2 u f (by simp) hu.1
        · exact h1 u l' (by rw [if_neg hut]; exact hu)
      · refine h2 u g ?_
        by_cases hut : u = t
        · subst hut; simp [hg]
        · simpa [hut] using hg
      · by_cases hut : u = t
        · subst hut; rw [q5] at hu; cases hu
        · exact h3 u (by rw [if_neg hut]; exact hu)
    · intro j h1 h2 h3
      have hne : j ≠ f.i := by
        intro e; subst e
        exact h1 t f.l (by rw [if_pos rfl])
      rw [if_neg hne]
      refine fr j (fun u l' hu => ?_) h2 (fun u hu => ?_)
      · by_cases hut : u = t
        · subst hut
          rw [q1] at hu
          simp only [Option.some.injEq, Prod.mk.injEq] at hu
          exact hne hu.1.symm
        · exact h1 u l' (by rw [if_neg hut]; exact hu)
      · by_cases hut : u = t
        · subst hut; rw [q5] at hu; cases hu
        · exact h3 u (by rw [if_neg hut]; exact hu)
    · intro u j hu
      by_cases hut : u = t
      · rw [if_pos hut] at hu; cases hu
      · rw [if_neg hut] at hu
        simp only [if_neg hut, List.mem_filter, decide_eq_true_eq]
        rcases nr u j hu with ⟨h1, h2⟩ | h1
        · exact Or.inl ⟨h1, h2.imp (fun h => ⟨h, hut⟩) id⟩
        · exact Or.inr h1
    · rename_i g fs hout
      intro j h1 h2 h3
      split
      · rfl
      · next hne =>
        refine fr j (fun u l' hu => ?_) (fun u g' hg => ?_) (fun u hu => ?_)
        · by_cases hut : u = t
          · subst hut; rw [q1] at hu; cases hu
          · exact h1 u l' (by rw [if_neg hut]; exact hu)
        · by_cases hut : u = t
          · subst hut
            rw [hout] at hg
            rcases List.mem_cons.1 hg with rfl | hg
            · intro e
              exact h1 u g'.l (by rw [if_pos rfl, e])
            · exact h2 u g' (by rw [if_pos rfl]; exact hg)
          · exact h2 u g' (by rw [if_neg hut]; exact hg)
        · by_cases hut : u = t
          · subst hut; rw [q5] at hu; exact hne (Option.some.inj hu).symm
          · exact h3 u (by rw [if_neg hut]; exact hu)
    · rename_i g fs hout
      intro u g' hg
      have hg' : g' ∈ s.outer u := by
        by_cases hut : u = t
        · subst hut; rw [if_pos rfl] at hg; rw [hout]; exact List.mem_cons_of_mem _ hg
        · rw [if_neg hut] at hg; exact hg
      have h1 := ot u g' hg'
      have h2 := ox u g' hg'
      have h3 := nr t i q5
      split
      · next e =>
        rw [e] at h1
        rcases h3 with ⟨h3, _⟩ | ⟨l', h3, h4⟩
        · rw [h3] at h1; cases h1
        · rw [h3] at h1
          simp only [Option.some.injEq, Prod.mk.injEq] at h1
          obtain ⟨rfl, h5⟩ := h1
          exact absurd h5.symm (h4 g' hg')
      · exact h2

end Verif.Logging.Pool.Intr
