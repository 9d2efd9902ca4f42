import Verif.Conc.RWLockLemmas

/-!
# Properties of the Win32 read-write lock (C53, C54)
-/
namespace Verif.RWLock

/-- C53. In every interleaving of any number of threads, and whatever waits time out: while
a thread holds the write lock no other thread holds it, and no thread holds a read lock. -/
theorem c53_exclusion {c : Cfg} {s : State} (h : Reach c s) (t : Nat) (ht : s.pc t = .holdW) :
    (∀ u, u ≠ t → s.pc u ≠ .holdW) ∧ ∀ u, s.reads u = 0 := by
  have hi := reach_inv h
  have hw : wtok (s.pc t) = true := by rw [ht]; rfl
  refine ⟨fun u hu e => hu (hi.wu u t (by rw [e]; rfl) hw), fun u => ?_⟩
  have hr : s.readers = [] := by
    apply Classical.byContradiction
    intro hne
    have := hi.rw1 hne t
    rw [hw] at this; cases this
  have := hi.cntR u
  rw [hr] at this
  simp at this
  omega

/-- C53. Read locks are counted correctly: a thread holding `n` read locks appears at least
`n` times in the list of readers (so that a writer cannot get in before all are released). -/
theorem c53_readers_registered {c : Cfg} {s : State} (h : Reach c s) (t : Nat) :
    s.reads t ≤ s.readers.count t := by
  have := (reach_inv h).cntR t; omega

/-- Two readers at once, then a writer after both have left. -/
example : ∃ s, exec ⟨false, false⟩ init
    ((1, .callRead) :: List.replicate 5 (1, .go) ++ (2, .callRead) :: List.replicate 4 (2, .go)) = some s ∧
    s.reads 1 = 1 ∧ s.reads 2 = 1 := ⟨_, rfl, by decide⟩

/-- C54, the part that holds: if the wait for the event inside `writeLock` never times out
(i.e. a timed `writeLock` can only fail while waiting for other *writers*) and no `unlock`
gives up after 30000 s, then whenever every thread is outside and holds nothing, any thread
can acquire the write lock, and any thread the read lock, without waiting.
Missing: time-outs while waiting for *readers*, see `c54_writer_lost`. -/
theorem c54_recovers_partial {s : State} (h : Reach ⟨false, false⟩ s)
    (hidle : ∀ t, s.pc t = .idle ∧ s.reads t = 0) (t : Nat) :
    (∃ s', exec ⟨false, false⟩ s ((t, .callWrite) :: List.replicate 4 (t, .go)) = some s' ∧ s'.pc t = .holdW) ∧
    (∃ s', exec ⟨false, false⟩ s ((t, .callRead) :: List.replicate 5 (t, .go)) = some s' ∧ s'.reads t = 1) := by
  have hi := reach_inv h
  have hr : s.readers = [] := by
    cases hl : s.readers with
    | nil => rfl
    | cons u l =>
      have := hi.cntE rfl u
      simp [(hidle u).1, (hidle u).2, extra, hl] at this
  have he : s.event = true := by
    cases hev : s.event with
    | true => rfl
    | false =>
      obtain ⟨u, hu⟩ := hi.tok hev hr
      simp [(hidle u).1, rtr, wtok] at hu
  have hm : s.mOwner = none := by
    cases ho : s.mOwner with
    | none => rfl
    | some u =>
      have := ((hi.mtx rfl).1 u).2 ho
      simp [(hidle u).1, mown] at this
  have ha : s.access = none := by
    cases ho : s.access with
    | none => rfl
    | some u =>
      have := (hi.access u).2 ho
      simp [(hidle u).1, acc] at this
  constructor
  · refine ⟨_, by simp [exec, step, setPc, (hidle t).1, (hidle t).2, he, hm, List.replicate]; rfl, ?_⟩
    simp
  · refine ⟨_, by simp [exec, step, setPc, (hidle t).1, (hidle t).2, he, hr, ha, List.replicate]; rfl, ?_⟩
    simp

/-- The hypotheses of `c54_recovers_partial` are met after real use. -/
example : ∃ s, exec ⟨false, false⟩ init
    ((1, .callRead) :: List.replicate 5 (1, .go) ++ (1, .callUnlock) :: List.replicate 5 (1, .go)) = some s ∧
    s.pc 1 = .idle ∧ s.reads 1 = 0 ∧ s.event = true ∧ s.readers = [] := ⟨_, rfl, by decide⟩

/-- The writer mutex is owned by `w` once more often than `w` can release it. -/
structure Stuck (w : Nat) (s : State) : Prop where
  owner : s.mOwner = some w
  count : (if mown (s.pc w) then 1 else 0) < s.mCount
  others : ∀ t, t ≠ w → mown (s.pc t) = false
  nopid : ∀ t, t ≠ w → s.writerPid ≠ some t

theorem stuck_step {c : Cfg} {w : Nat} {s s' : State} (hi : Inv c s) (h : Stuck w s) (t : Nat) (a : Act)
    (hs : step c s t a = some s') : Stuck w s' := by
  obtain ⟨h1, h2, h3, h4⟩ := h
  have h3t := h3 t
  have hpid := hi.pid t
  clear hi
  unfold step at hs
  rcases hp : s.pc t with _ | _ | _ | _ | _ | (_ | _) | _ | _ | _ | _ | _ | (_ | _) | _ | _ | _ | _ | _ | _ | _ | _ <;>
    cases a <;> rw [hp] at hs <;> simp only [reduceCtorEq] at hs
  all_goals (try split at hs)
  all_goals cases hs
  all_goals have q5 := congrArg mown hp
  all_goals simp only [mown_tab] at q5
  all_goals simp only [hp, wpid_tab] at hpid
  all_goals constructor
  all_goals simp only [setPc, apply_ite mown, mown_tab]
  all_goals (try assumption)
  all_goals (try grind)

/-- Reader 1 enters; writer 2 times out while waiting for it; reader 1 leaves. -/
def leak : List (Nat × Act) :=
  (1, .callRead) :: List.replicate 5 (1, .go) ++ [(2, .callWrite), (2, .go), (2, .timeout)] ++
    (1, .callUnlock) :: List.replicate 5 (1, .go)

theorem leak_facts : ∃ s, exec ⟨true, false⟩ init leak = some s ∧
    (s.readers = [] ∧ s.event = true ∧ s.mOwner = some 2 ∧ s.mCount = 1 ∧ s.writerPid = none) ∧
    (∀ t, s.pc t = .idle) ∧ ∀ t, s.reads t = 0 := by
  refine ⟨_, rfl, by decide, ?_, ?_⟩ <;> intro t <;> simp only [setPc, init] <;> grind

/-- C54 is violated. The writer 2 times out waiting for the reader 1; the reader leaves; all
threads are outside and hold nothing. Yet from now on, in every continuation whatsoever, no
thread other than 2 ever gets the write lock: `m_writer_mutex` was not released. -/
theorem c54_writer_lost :
    ∃ s, exec ⟨true, false⟩ init leak = some s ∧ (∀ t, s.pc t = .idle ∧ s.reads t = 0) ∧
      ∀ as s', exec ⟨true, false⟩ s as = some s' → ∀ t, t ≠ 2 → s'.pc t ≠ .holdW := by
  obtain ⟨s, hs, ⟨_, _, h3, h4, h5⟩, h6, h7⟩ := leak_facts
  refine ⟨s, hs, fun t => ⟨h6 t, h7 t⟩, ?_⟩
  have key : ∀ (as : List (Nat × Act)) (s s' : State), Inv ⟨true, false⟩ s → Stuck 2 s →
      exec ⟨true, false⟩ s as = some s' → Stuck 2 s' := by
    intro as
    induction as with
    | nil => intro s s' _ h he; cases he; exact h
    | cons a as ih =>
      obtain ⟨t, a⟩ := a
      intro s s' hi h he
      simp only [exec] at he
      cases hst : step ⟨true, false⟩ s t a with
      | none => rw [hst] at he; cases he
      | some s1 => rw [hst] at he; exact ih s1 s' (inv_step hi t a hst) (stuck_step hi h t a hst) he
  intro as s' he t ht hh
  have hst : Stuck 2 s := ⟨h3, by rw [h6, h4]; decide, fun u _ => by rw [h6]; rfl,
    fun u _ => by rw [h5]; simp⟩
  have := (key as s s' (reach_inv (exec_reach leak init s .init hs)) hst he).others t ht
  rw [hh] at this; cases this

end Verif.RWLock
