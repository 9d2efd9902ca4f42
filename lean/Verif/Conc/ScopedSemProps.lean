import Verif.Conc.ScopedSem
import Verif.Conc.SemaphoreProps

/-! # Scoped semaphores (C110) -/
namespace Verif.Conc.ScopedSem
open Verif.Conc.Sem

theorem pop_count {t : Nat} {x : Scope} (q : Scope → Bool) : ∀ {l rest : List Scope}, pop t l = some (x, rest) →
    l.countP q = rest.countP q + (if q x then 1 else 0) := by
  intro l
  induction l with
  | nil => intro rest h; cases h
  | cons y ys ih =>
    intro rest h
    simp only [pop] at h
    split at h
    · cases h; rw [List.countP_cons]
    · simp only [Option.map_eq_some_iff] at h
      obtain ⟨⟨z, r⟩, h1, h2⟩ := h
      cases h2
      simp only [List.countP_cons, ih h1]; exact Nat.add_right_comm _ _ _

/-- The values of the semaphores account for the open scopes. -/
def Inv (init : Nat → Nat) (s : State) : Prop :=
  ∀ i, ∃ v, s.sems i = .value v ∧ v + openScopes s i = init i

theorem inv_start (p : Plat) {init : Nat → Nat} (hn : ∀ i, init i ≤ maxValue) : Inv init (start p init) := by
  intro i
  exact ⟨init i, create_ok p (hn i), rfl⟩

theorem inv_step {p : Plat} {init : Nat → Nat} (hn : ∀ i, init i ≤ maxValue) {s s' : State} (h : Inv init s)
    {a : Act} (hs : step p s a = some s') : Inv init s' := by
  cases a with
  | enter t i intr =>
    obtain ⟨v, hv, hc⟩ := h i
    simp only [step, hv, Sem.step] at hs
    by_cases h0 : 0 < v
    · simp only [h0, if_true, Option.some.injEq] at hs
      subst hs
      intro j
      by_cases hj : j = i
      · subst hj
        refine ⟨v - 1, by simp [setSem], ?_⟩
        simp only [openScopes, List.countP_cons, true_and, decide_true, if_true] at hc ⊢
        omega
      · obtain ⟨w, hw, hcw⟩ := h j
        refine ⟨w, by simp [setSem, hj, hw], ?_⟩
        simp only [openScopes, List.countP_cons, Ne.symm hj, false_and, decide_false, Bool.false_eq_true, if_false] at hcw ⊢
        omega
    · simp only [h0, if_false] at hs
      by_cases hp : p = .posix ∧ intr = true
      · simp only [hp, and_self, if_true, Option.some.injEq] at hs
        subst hs
        intro j
        obtain ⟨w, hw, hcw⟩ := h j
        refine ⟨w, ?_, by simpa [openScopes, List.countP_cons] using hcw⟩
        simp only [setSem]
        split
        · next e => subst e; rw [hv] at hw; exact hw
        · exact hw
      · simp only [hp, if_false] at hs; cases hs
  | leave t =>
    simp only [step] at hs
    cases hp : pop t s.scopes with
    | none => simp [hp] at hs
    | some r =>
      obtain ⟨x, rest⟩ := r
      simp only [hp] at hs
      by_cases hx : x.dec = true
      · obtain ⟨v, hv, hc⟩ := h x.sem
        have hcount := pop_count (fun y => decide (y.sem = x.sem ∧ y.dec = true)) hp
        simp only [openScopes] at hc
        rw [hcount] at hc
        simp only [hx, true_and, decide_true, if_true] at hc
        have hlt : v < maxValue := by have := hn x.sem; simp at hc; omega
        simp only [hx, if_true, hv, Sem.step, hlt, Option.some.injEq] at hs
        subst hs
        intro j
        by_cases hj : j = x.sem
        · subst hj
          exact ⟨v + 1, by simp [setSem], by simp only [openScopes]; simp at hc ⊢; omega⟩
        · obtain ⟨w, hw, hcw⟩ := h j
          refine ⟨w, by simp [setSem, hj, hw], ?_⟩
          have := pop_count (fun y => decide (y.sem = j ∧ y.dec = true)) hp
          simp only [openScopes] at hcw ⊢
          simp [Ne.symm hj] at this
          simp at hcw ⊢; omega
      · simp only [hx, Bool.false_eq_true, if_false, Option.some.injEq] at hs
        subst hs
        intro j
        obtain ⟨w, hw, hcw⟩ := h j
        refine ⟨w, hw, ?_⟩
        have := pop_count (fun y => decide (y.sem = j ∧ y.dec = true)) hp
        simp only [openScopes] at hcw ⊢
        simp [hx] at this
        simp at hcw ⊢; omega

theorem inv_exec {p : Plat} {init : Nat → Nat} (hn : ∀ i, init i ≤ maxValue) (as : List Act) :
    ∀ {s s' : State}, Inv init s → exec p s as = some s' → Inv init s' := by
  induction as with
  | nil => intro s s' h he; cases he; exact h
  | cons a as ih =>
    intro s s' h he
    simp only [exec, Option.bind_eq_some_iff] at he
    obtain ⟨s1, h1, h2⟩ := he
    exact ih (inv_step hn h h1) h2

/-- C110: whatever threads do with scopes, at any time at most as many scopes of a semaphore with
`isDecremented()` are open as its initial value says. -/
theorem c110_at_most (p : Plat) (init : Nat → Nat) (hn : ∀ i, init i ≤ maxValue) (as : List Act) (s : State)
    (h : exec p (start p init) as = some s) (i : Nat) : openScopes s i ≤ init i := by
  obtain ⟨v, _, hv⟩ := inv_exec hn as (inv_start p hn) h i
  omega

/-- C110: no scope keeps a count: when fewer are open, another thread gets in at once. -/
theorem c110_not_blocked (p : Plat) (init : Nat → Nat) (hn : ∀ i, init i ≤ maxValue) (as : List Act) (s : State)
    (h : exec p (start p init) as = some s) (i : Nat) (hi : openScopes s i < init i) (t : Nat) (intr : Bool) :
    ∃ s', step p s (.enter t i intr) = some s' ∧ s'.scopes = ⟨t, i, true⟩ :: s.scopes ∧
      openScopes s' i = openScopes s i + 1 := by
  obtain ⟨v, h1, h2⟩ := inv_exec hn as (inv_start p hn) h i
  refine ⟨_, by simp only [step, h1, Sem.step, show 0 < v by omega, if_true]; rfl, rfl, ?_⟩
  simp [openScopes]

/-- C110: a thread enters a full semaphore's scope only unprotected, after a signal, on POSIX systems. -/
theorem c110_full (p : Plat) (init : Nat → Nat) (hn : ∀ i, init i ≤ maxValue) (as : List Act) (s : State)
    (h : exec p (start p init) as = some s) (i : Nat) (hi : openScopes s i = init i) (t : Nat) (intr : Bool) :
    if p = .posix ∧ intr = true
    then ∃ s', step p s (.enter t i intr) = some s' ∧ s'.scopes = ⟨t, i, false⟩ :: s.scopes ∧ s'.sems i = s.sems i
    else step p s (.enter t i intr) = none := by
  obtain ⟨v, h1, h2⟩ := inv_exec hn as (inv_start p hn) h i
  have hv : v = 0 := by omega
  subst hv
  split
  · next hc =>
    obtain ⟨rfl, rfl⟩ := hc
    exact ⟨_, by simp only [step, h1, Sem.step]; rfl, rfl, by simp [setSem, h1]⟩
  · next hc => simp [step, h1, Sem.step, hc]

/-- C110: a scope can always be left, and after all scopes have been left every semaphore has its initial
value again. -/
theorem c110_restored (p : Plat) (init : Nat → Nat) (hn : ∀ i, init i ≤ maxValue) (as : List Act) (s : State)
    (h : exec p (start p init) as = some s) :
    (∀ t, (∃ x ∈ s.scopes, x.thread = t) → ∃ s', step p s (.leave t) = some s' ∧
      s'.scopes.length + 1 = s.scopes.length) ∧
    (s.scopes = [] → ∀ i, s.sems i = .value (init i)) := by
  have hI := inv_exec hn as (inv_start p hn) h
  constructor
  · rintro t ⟨x, hx, ht⟩
    have hpop : ∀ l : List Scope, x ∈ l → ∃ y r, pop t l = some (y, r) ∧ r.length + 1 = l.length := by
      intro l
      induction l with
      | nil => intro h; cases h
      | cons z zs ih =>
        intro hm
        by_cases hz : z.thread = t
        · exact ⟨z, zs, by simp [pop, hz], rfl⟩
        · rcases List.mem_cons.1 hm with rfl | hm
          · exact absurd ht hz
          · obtain ⟨y, r, h1, h2⟩ := ih hm
            exact ⟨y, z :: r, by simp [pop, hz, h1], by simp [h2]⟩
    obtain ⟨y, r, h1, h2⟩ := hpop _ hx
    obtain ⟨v, hv, _⟩ := hI y.sem
    by_cases hd : y.dec = true
    · exact ⟨⟨setSem s.sems y.sem (.value (if v < maxValue then v + 1 else v)), r⟩, by simp only [step, h1, hd, if_true, hv, Sem.step], h2⟩
    · exact ⟨⟨s.sems, r⟩, by simp [step, h1, hd], h2⟩
  · intro he i
    obtain ⟨v, hv, hc⟩ := hI i
    simp only [openScopes, he, List.countP_nil] at hc
    rw [hv]; congr 1

/-- C110, in full on Windows: there every scope is protected, so at most `init i` scopes are open at once.
Missing: POSIX systems, see `c110_unprotected_scope`. -/
theorem c110_all_protected_partial (init : Nat → Nat) (hn : ∀ i, init i ≤ maxValue) (as : List Act) (s : State)
    (h : exec .win32 (start .win32 init) as = some s) (i : Nat) : allScopes s i ≤ init i := by
  have key : ∀ (as : List Act) (s s' : State), Inv init s → (∀ x ∈ s.scopes, x.dec = true) →
      exec .win32 s as = some s' → ∀ x ∈ s'.scopes, x.dec = true := by
    intro as
    induction as with
    | nil => intro s s' _ h he; cases he; exact h
    | cons a as ih =>
      intro s s' hI h he
      simp only [exec, Option.bind_eq_some_iff] at he
      obtain ⟨s1, h1, h2⟩ := he
      refine ih s1 s' (inv_step hn hI h1) ?_ h2
      cases a with
      | enter t j intr =>
        obtain ⟨v, hv, _⟩ := hI j
        simp only [step, hv, Sem.step] at h1
        split at h1
        · next heq =>
          split at heq
          · cases heq; cases h1
            intro x hx
            rcases List.mem_cons.1 hx with rfl | hx
            · rfl
            · exact h x hx
          · simp at heq
        · cases h1
      | leave t =>
        simp only [step] at h1
        have hsub : ∀ (l : List Scope) (y : Scope) (r : List Scope), pop t l = some (y, r) → ∀ x ∈ r, x ∈ l := by
          intro l
          induction l with
          | nil => intro y r h; cases h
          | cons z zs ih' =>
            intro y r hp x hx
            simp only [pop] at hp
            split at hp
            · cases hp; exact List.mem_cons_of_mem _ hx
            · simp only [Option.map_eq_some_iff] at hp
              obtain ⟨⟨a, b⟩, e1, e2⟩ := hp
              cases e2
              rcases List.mem_cons.1 hx with rfl | hx
              · simp
              · exact List.mem_cons_of_mem _ (ih' _ _ e1 x hx)
        cases hp : pop t s.scopes with
        | none => simp [hp] at h1
        | some r =>
          obtain ⟨y, rest⟩ := r
          simp only [hp] at h1
          have hr := hsub _ _ _ hp
          split at h1
          · split at h1
            · cases h1; intro x hx; exact h x (hr x hx)
            · cases h1
          · cases h1; intro x hx; exact h x (hr x hx)
  have hd := key as _ s (inv_start .win32 hn) (by intro x hx; cases hx) h
  have hle := c110_at_most .win32 init hn as s h i
  have : allScopes s i = openScopes s i := by
    simp only [allScopes, openScopes]
    apply List.countP_congr
    intro x hx
    simp [hd x hx]
  omega

/-- Two threads, nested scopes on two semaphores of different initial values. -/
def exampleRun : List Act :=
  [.enter 0 0 false, .enter 1 1 false, .enter 0 1 false, .leave 1, .enter 1 1 false, .leave 0, .leave 0]

example : (exec .posix (start .posix fun i => i + 1) exampleRun).map (·.scopes) = some [⟨1, 1, true⟩] := by decide

/-- C110 violated on POSIX systems if `isDecremented()` is not asked: a signal lets a second thread into the
scope of a semaphore with initial value 1. -/
theorem c110_unprotected_scope : ∃ s, exec .posix (start .posix fun _ => 1) [.enter 0 0 false, .enter 1 0 true] = some s ∧
    allScopes s 0 = 2 ∧ openScopes s 0 = 1 := ⟨_, rfl, by decide⟩

end Verif.Conc.ScopedSem
