import Verif.Conc.Semaphore

/-!
# C86: semaphores count
-/
namespace Verif.Conc.Sem
open Verif.Time

theorem create_ok (p : Plat) {n : Nat} (h : n ≤ maxValue) : create p n = .value n := by
  unfold maxValue at h
  cases p with
  | posix =>
    have e : n % 4294967296 = n := Nat.mod_eq_of_lt (by omega)
    simp [create, e, maxValue, h]
  | win32 =>
    have e : wrapI32 (n : Int) = n := by unfold wrapI32; omega
    simp [create, e]

theorem posts_cons (r : Rec) (rs : List Rec) : posts (r :: rs) = (if r.ev = .post then 1 else 0) + posts rs := by
  unfold posts
  by_cases h : r.ev = .post <;> simp [h]; omega

theorem taken_cons (r : Rec) (rs : List Rec) :
    taken (r :: rs) = (if r.ev ≠ .post ∧ r.res = true then 1 else 0) + taken rs := by
  unfold taken
  by_cases h : r.ev ≠ .post ∧ r.res = true
  · rw [List.filter_cons_of_pos (by simpa using h), if_pos h, List.length_cons]; omega
  · rw [List.filter_cons_of_neg (by simpa using h), if_neg h]; omega

theorem run_value {p : Plat} {n : Nat} {rs : List Rec} {s : Os} (h : Run p (.value n) rs s) :
    ∃ m, s = .value m ∧ m + taken rs ≤ n + posts rs ∧
      (n + posts rs ≤ maxValue → m + taken rs = n + posts rs) := by
  generalize hs : Os.value n = s0 at h
  induction h generalizing n with
  | nil => subst hs; exact ⟨n, rfl, by simp [posts, taken], by simp [posts, taken]⟩
  | @cons s s' s'' e r rs h1 _ ih =>
    subst hs
    have : ∃ m, s' = .value m ∧
        m + (if e ≠ .post ∧ r = true then 1 else 0) ≤ n + (if e = .post then 1 else 0) ∧
        (n + (if e = .post then 1 else 0) ≤ maxValue →
          m + (if e ≠ .post ∧ r = true then 1 else 0) = n + (if e = .post then 1 else 0)) := by
      cases e with
      | post =>
        simp only [step, Res.ok.injEq] at h1
        obtain ⟨rfl, rfl⟩ := h1
        refine ⟨_, rfl, ?_⟩
        unfold maxValue
        simp
        grind
      | wait hw intr =>
        simp only [step] at h1
        split at h1
        · cases h1; refine ⟨_, rfl, ?_⟩; simp; omega
        · split at h1
          · cases h1; exact ⟨_, rfl, by simp⟩
          · cases h1; exact ⟨_, rfl, by simp⟩
          · split at h1
            · cases h1; exact ⟨_, rfl, by simp⟩
            · cases h1
    obtain ⟨m, rfl, h2, h3⟩ := this
    obtain ⟨m', e', h4, h5⟩ := ih rfl
    refine ⟨m', e', ?_, ?_⟩
    · rw [posts_cons, taken_cons]; simp only; omega
    · rw [posts_cons, taken_cons]; simp only
      intro hle
      have := h3 (by omega)
      have := h5 (by omega)
      omega

/-- C86: in every history, successful waits never outnumber the initial value plus the posts. -/
theorem c86_never_too_many (p : Plat) (n : Nat) (hn : n ≤ maxValue) {rs : List Rec} {s : Os}
    (h : Run p (create p n) rs s) : taken rs ≤ n + posts rs := by
  rw [create_ok p hn] at h
  obtain ⟨m, _, h2, _⟩ := run_value h
  omega

/-- C86: no post is lost as long as the initial value plus all posts do not exceed 2^31 - 1: a wait that
fails or blocks does so only if every post was consumed.
Missing: beyond the limit, see `c86_post_lost` and `c86_large_initial`. -/
theorem c86_no_post_lost_partial (p : Plat) (n : Nat) {rs : List Rec} {s : Os} (h : Run p (create p n) rs s)
    (hb : n + posts rs ≤ maxValue) (hw : How) (intr : Bool) :
    (taken rs < n + posts rs → ∃ s', step p s (.wait hw intr) = .ok s' true) ∧
    (taken rs = n + posts rs →
      step p s (.wait hw intr) = .blocked ∨ step p s (.wait hw intr) = .ok s false) := by
  rw [create_ok p (by omega)] at h
  obtain ⟨m, rfl, h2, h3⟩ := run_value h
  have := h3 hb
  constructor
  · intro hlt
    exact ⟨.value (m - 1), by simp [step, show 0 < m by omega]⟩
  · intro heq
    have : m = 0 := by omega
    subst this
    cases hw <;> simp [step]
    cases p <;> cases intr <;> simp

/-- C86: `wait()` without timeout returns false only after an interruption (and never on Windows); `tryWait`
and the timed wait never block. -/
theorem c86_wait_result (p : Plat) (n : Nat) (intr : Bool) (hw : How) :
    (∀ s', step p (.value n) (.wait .wait intr) = .ok s' false → p = .posix ∧ intr = true) ∧
    (hw ≠ .wait → step p (.value n) (.wait hw intr) ≠ .blocked) := by
  constructor
  · intro s' h
    simp only [step] at h
    split at h
    · cases h
    · split at h
      · assumption
      · cases h
  · intro h
    cases hw <;> simp [step] at h ⊢ <;> split <;> simp

/-- Two posts, an immediate and a blocking wait, and a failing one. -/
example : Run .posix (create .posix 0) [⟨.post, false⟩, ⟨.wait .wait false, true⟩, ⟨.wait .try_ false, false⟩,
    ⟨.post, false⟩, ⟨.wait .timed false, true⟩] (.value 0) := by
  refine Run.cons (s' := .value 1) (by rfl) (Run.cons (s' := .value 0) (by rfl) (Run.cons (s' := .value 0) (by rfl)
    (Run.cons (s' := .value 1) (by rfl) (Run.cons (s' := .value 0) (by rfl) (Run.nil _)))))

/-- C86 violated at the limit: a post on a semaphore of value 2^31 - 1 is lost silently. -/
theorem c86_post_lost (p : Plat) : step p (.value maxValue) .post = .ok (.value maxValue) false := by
  cases p <;> decide

/-- C86 violated for large initial values: created with 2^32 the semaphore is 0 on both platforms; with 2^31
it is not initialised on POSIX (every use is undefined), and on Windows no wait ever succeeds, whatever is
posted. -/
theorem c86_large_initial :
    create .posix 4294967296 = .value 0 ∧ create .win32 4294967296 = .value 0 ∧
    create .posix 2147483648 = .uninit ∧ create .win32 2147483648 = .null ∧
    (∀ rs s, Run .win32 .null rs s → taken rs = 0) := by
  refine ⟨by decide, by decide, by decide, by decide, ?_⟩
  intro rs s h
  generalize hs : Os.null = s0 at h
  induction h with
  | nil => rfl
  | @cons s s' s'' e r rs h1 _ ih =>
    subst hs
    simp only [step, Res.ok.injEq] at h1
    obtain ⟨rfl, rfl⟩ := h1
    rw [taken_cons, ih rfl]
    simp

end Verif.Conc.Sem
