import Verif.Conc.RWLockProps
/-!
# C54, exactly: which time-outs lose the Win32 read-write lock for whom
-/
namespace Verif.RWLock

/-! ## Specification -/

/-- The threads whose `writeLock` timed out while it waited for readers, in the order of the schedule. -/
def losses (c : Cfg) : State → List (Nat × Act) → List Nat
  | _, [] => []
  | s, (t, a) :: as =>
    (if s.pc t = .wEvent ∧ a = .timeout then [t] else []) ++
    match step c s t a with
    | none => []
    | some s' => losses c s' as

/-- `t` gets the write lock at once. -/
def WriteNow (c : Cfg) (s : State) (t : Nat) : Prop :=
  ∃ s', exec c s ((t, .callWrite) :: List.replicate 4 (t, .go)) = some s' ∧ s'.pc t = .holdW

/-- `t` gets a read lock at once. -/
def ReadNow (c : Cfg) (s : State) (t : Nat) : Prop :=
  ∃ s', exec c s ((t, .callRead) :: List.replicate 5 (t, .go)) = some s' ∧ s'.reads t = 1

/-! ## Invariant -/

/-- The writer mutex is owned once for each loss and once for the position of its owner. -/
structure Owned (L : List Nat) (s : State) : Prop where
  own : ∀ t, (mown (s.pc t) = true ∨ t ∈ L) ↔ s.mOwner = some t
  cnt : ∀ t, s.mOwner = some t → s.mCount = L.length + if mown (s.pc t) = true then 1 else 0
  zero : s.mOwner = none → s.mCount = 0

theorem owned_init : Owned [] init := by
  constructor <;> simp [init, mown]

theorem owned_step {c : Cfg} {L : List Nat} {s s' : State} (hi : Inv c s) (h : Owned L s) (t : Nat) (a : Act)
    (hs : step c s t a = some s') : Owned (L ++ if s.pc t = .wEvent ∧ a = .timeout then [t] else []) s' := by
  obtain ⟨h1, h2, h3⟩ := h
  have h1t := h1 t
  have h2t := h2 t
  have hL : L = [] ↔ L.length = 0 := List.length_eq_zero_iff.symm
  have hLm : L.length = 0 → t ∉ L := by intro h; rw [← hL] at h; simp [h]
  have hN : s.mOwner = none → L.length = 0 := by
    intro hn
    cases L with
    | nil => rfl
    | cons u L => have := (h1 u).1 (Or.inr List.mem_cons_self); rw [hn] at this; cases this
  have hK : s.mOwner = some t → L.length ≠ 0 → t ∈ L := by
    intro hn hl
    cases L with
    | nil => exact absurd rfl hl
    | cons u L =>
      have := (h1 u).1 (Or.inr List.mem_cons_self)
      rw [hn] at this; injection this with this; rw [this]; exact List.mem_cons_self
  have hZ : L.length = 0 → ∀ u, u ∉ L := by intro h u; rw [← hL] at h; simp [h]
  have hpid := hi.pid t
  clear hi
  unfold step at hs
  rcases hp : s.pc t with _ | _ | _ | _ | _ | (_ | _) | _ | _ | _ | _ | _ | (_ | _) | _ | _ | _ | _ | _ | _ | _ | _ <;>
    cases a <;> rw [hp] at hs <;> simp only [reduceCtorEq] at hs
  all_goals (try split at hs)
  all_goals cases hs
  all_goals have q5 := congrArg mown hp
  all_goals simp only [mown_tab] at q5
  all_goals simp only [hp, wpid_tab] at hpid
  all_goals simp only [reduceCtorEq, and_false, and_true, if_false, if_true, List.append_nil]
  all_goals constructor
  all_goals simp only [setPc, apply_ite mown, mown_tab]
  all_goals (try assumption)
  all_goals (try grind)

theorem owned_exec {c : Cfg} : ∀ (as : List (Nat × Act)) (L : List Nat) (s s' : State), Inv c s → Owned L s → exec c s as = some s' →
    Owned (L ++ losses c s as) s' := by
  intro as
  induction as with
  | nil => intro L s s' _ h he; cases he; simpa [losses] using h
  | cons a as ih =>
    obtain ⟨t, a⟩ := a
    intro L s s' hi h he
    simp only [exec] at he
    cases hst : step c s t a with
    | none => rw [hst] at he; cases he
    | some s1 =>
      rw [hst] at he
      have := ih _ s1 s' (inv_step hi t a hst) (owned_step hi h t a hst) he
      simp only [losses, hst]
      rw [← List.append_assoc]; exact this

theorem exec_append {c : Cfg} : ∀ (as bs : List (Nat × Act)) (s s' s'' : State), exec c s as = some s' → exec c s' bs = some s'' →
    exec c s (as ++ bs) = some s'' ∧ losses c s (as ++ bs) = losses c s as ++ losses c s' bs := by
  intro as
  induction as with
  | nil => intro bs s s' s'' h1 h2; cases h1; exact ⟨h2, rfl⟩
  | cons a as ih =>
    obtain ⟨t, a⟩ := a
    intro bs s s' s'' h1 h2
    simp only [exec] at h1
    cases hst : step c s t a with
    | none => rw [hst] at h1; cases h1
    | some s1 =>
      rw [hst] at h1
      obtain ⟨e1, e2⟩ := ih bs s1 s' s'' h1 h2
      simp only [List.cons_append, exec, losses, hst, Option.bind]
      exact ⟨e1, by rw [e2, List.append_assoc]⟩

/-! ## The theorems -/

/-- C54, exactly. For every history with any time-outs in `readLock` and `writeLock` (none in `unlock`), when every thread is
outside and holds nothing: every thread gets a read lock at once, and a thread gets the write lock at once if and only if every
`writeLock` that timed out waiting for readers was its own. -/
theorem c54_exact (as : List (Nat × Act)) (s : State) (h : exec ⟨true, false⟩ init as = some s)
    (hidle : ∀ t, s.pc t = .idle ∧ s.reads t = 0) (t : Nat) :
    (WriteNow ⟨true, false⟩ s t ↔ ∀ u ∈ losses ⟨true, false⟩ init as, u = t) ∧ ReadNow ⟨true, false⟩ s t := by
  have hi := reach_inv (exec_reach as init s .init h)
  have ho := owned_exec as [] init s (inv_init _) owned_init h
  rw [List.nil_append] at ho
  have hr : s.readers = [] := by
    cases hl : s.readers with
    | nil => rfl
    | cons u l =>
      have := hi.cntE rfl u
      simp [(hidle u).1, (hidle u).2, extra, hl] at this
  have he : s.event = true := by
    cases hev : s.event with
    | true => rfl
    | false =>
      obtain ⟨u, hu⟩ := hi.tok hev hr
      simp [(hidle u).1, rtr, wtok] at hu
  have ha : s.access = none := by
    cases ho : s.access with
    | none => rfl
    | some u =>
      have := (hi.access u).2 ho
      simp [(hidle u).1, acc] at this
  have hm : ∀ u, u ∈ losses ⟨true, false⟩ init as ↔ s.mOwner = some u := by
    intro u
    rw [← ho.own u, (hidle u).1]
    simp [mown]
  refine ⟨⟨?_, ?_⟩, ?_⟩
  · rintro ⟨s', h1, _⟩ u hu
    rw [hm u] at hu
    apply Classical.byContradiction
    intro hne
    have : ¬ (s.mOwner = none ∨ s.mOwner = some t) := by rw [hu]; simp [hne]
    simp [exec, step, setPc, (hidle t).1, (hidle t).2, List.replicate, hu, hne] at h1
  · intro hall
    have hmo : s.mOwner = none ∨ s.mOwner = some t := by
      cases hs : s.mOwner with
      | none => exact Or.inl rfl
      | some u => exact Or.inr (by rw [hall u ((hm u).2 hs)])
    refine ⟨_, by simp [exec, step, setPc, (hidle t).1, (hidle t).2, he, hmo, List.replicate]; rfl, ?_⟩
    simp
  · refine ⟨_, by simp [exec, step, setPc, (hidle t).1, (hidle t).2, he, hr, ha, List.replicate]; rfl, ?_⟩
    simp

/-- C54, exactly: after a `writeLock` of `u` that timed out waiting for readers, in every continuation whatsoever, no other thread
ever gets the write lock, and no other thread can even suffer such a loss. -/
theorem c54_lost_for_ever (as bs : List (Nat × Act)) (s s' : State) (h : exec ⟨true, false⟩ init as = some s)
    (h' : exec ⟨true, false⟩ s bs = some s') (u : Nat) (hu : u ∈ losses ⟨true, false⟩ init as) (t : Nat) (ht : t ≠ u) :
    s'.pc t ≠ .holdW ∧ t ∉ losses ⟨true, false⟩ s bs := by
  obtain ⟨e1, e2⟩ := exec_append as bs init s s' h h'
  have ho := owned_exec (as ++ bs) [] init s' (inv_init _) owned_init e1
  rw [List.nil_append, e2] at ho
  have h1 := (ho.own u).1 (Or.inr (List.mem_append_left _ hu))
  refine ⟨fun hc => ?_, fun hc => ?_⟩
  · have := (ho.own t).1 (Or.inl (by rw [hc]; rfl))
    rw [h1] at this; injection this with this; exact ht this.symm
  · have := (ho.own t).1 (Or.inr (List.mem_append_right _ hc))
    rw [h1] at this; injection this with this; exact ht this.symm

/-- The history of `c54_writer_lost` has the loss of thread 2: it still gets the lock, thread 3 does not. -/
example : losses ⟨true, false⟩ init leak = [2] := by decide +kernel
example : ∃ s, exec ⟨true, false⟩ init leak = some s ∧ (exec ⟨true, false⟩ s ((2, .callWrite) :: List.replicate 4 (2, .go))).isSome ∧
    (exec ⟨true, false⟩ s ((3, .callWrite) :: List.replicate 4 (3, .go))).isNone := ⟨_, rfl, by decide⟩

end Verif.RWLock
