import Verif.Conc.Race.Lemmas

/-!
# Threads that take mutexes in increasing order do not block each other for ever
-/
set_option linter.unusedSectionVars false

namespace Verif.Race

variable {ι M X : Type} [DecidableEq ι] [DecidableEq M] [DecidableEq X]

/-- Follow the mutexes the thread holds (`mutex m`: `m` is used as a mutex). `false` if it takes a mutex
that is not above all it holds, waits for another semaphore while holding a mutex, gives back what it does
not hold, or ends while holding one. -/
def locks (mutex : M → Bool) (rank : M → Nat) : List M → List (Ev M X) → Bool
  | held, [] => held.isEmpty
  | held, .acq m :: r =>
    if mutex m then held.all (fun k => decide (rank k < rank m)) && locks mutex rank (m :: held) r
    else held.isEmpty && locks mutex rank held r
  | held, .rel m :: r =>
    if mutex m then decide (m ∈ held) && locks mutex rank (held.erase m) r else locks mutex rank held r
  | held, .rd _ :: r => locks mutex rank held r
  | held, .wr _ :: r => locks mutex rank held r

/-- Lock discipline of part of a program: from the mutexes held before to those held after. -/
def locksTo (mutex : M → Bool) (rank : M → Nat) : List M → List (Ev M X) → Option (List M)
  | held, [] => some held
  | held, .acq m :: r =>
    if mutex m then
      if held.all (fun k => decide (rank k < rank m)) then locksTo mutex rank (m :: held) r else none
    else if held.isEmpty then locksTo mutex rank held r else none
  | held, .rel m :: r =>
    if mutex m then if m ∈ held then locksTo mutex rank (held.erase m) r else none
    else locksTo mutex rank held r
  | held, .rd _ :: r => locksTo mutex rank held r
  | held, .wr _ :: r => locksTo mutex rank held r

theorem locks_eq (mutex : M → Bool) (rank : M → Nat) (p : List (Ev M X)) : ∀ held,
    locks mutex rank held p = (locksTo mutex rank held p == some []) := by
  induction p with
  | nil => intro held; cases held <;> rfl
  | cons e p ih =>
    intro held
    cases e with
    | acq m =>
      simp only [locks, locksTo]
      by_cases h : mutex m = true
      · simp only [h, if_true]
        by_cases h2 : held.all (fun k => decide (rank k < rank m)) = true
        · rw [if_pos h2, h2, Bool.true_and]; exact ih _
        · rw [if_neg h2]
          have h3 : held.all (fun k => decide (rank k < rank m)) = false := by simpa using h2
          rw [h3]; rfl
      · simp only [h]
        cases held with
        | nil => simpa using ih []
        | cons a as => rfl
    | rel m =>
      simp only [locks, locksTo]
      by_cases h : mutex m = true
      · by_cases h2 : m ∈ held
        · simpa [h, h2] using ih _
        · simp [h, h2]
      · simpa [h] using ih _
    | rd y => simpa [locks, locksTo] using ih _
    | wr y => simpa [locks, locksTo] using ih _

theorem locksTo_append (mutex : M → Bool) (rank : M → Nat) (p q : List (Ev M X)) : ∀ held,
    locksTo mutex rank held (p ++ q) = (locksTo mutex rank held p).bind fun h => locksTo mutex rank h q := by
  induction p with
  | nil => intro held; rfl
  | cons e p ih =>
    intro held
    cases e with
    | acq m =>
      simp only [List.cons_append, locksTo]
      by_cases h : mutex m = true
      · simp only [h, if_true]
        by_cases h2 : held.all (fun k => decide (rank k < rank m)) = true
        · rw [if_pos h2, if_pos h2]; exact ih _
        · rw [if_neg h2, if_neg h2]; rfl
      · simp only [h]
        cases held with
        | nil => simpa using ih []
        | cons a as => rfl
    | rel m =>
      simp only [List.cons_append, locksTo]
      by_cases h : mutex m = true
      · by_cases h2 : m ∈ held
        · simpa [h, h2] using ih _
        · simp [h, h2]
      · simpa [h] using ih _
    | rd y => simpa [locksTo] using ih _
    | wr y => simpa [locksTo] using ih _

/-- `h` says which mutexes each thread holds; a mutex that cannot be taken is held by somebody. -/
structure LInv (mutex : M → Bool) (rank : M → Nat) (h : ι → List M) (s : St ι M X) : Prop where
  ok : ∀ t, locks mutex rank (h t) (s.prog t) = true
  held : ∀ m, mutex m = true → s.sem m = 0 → ∃ t, m ∈ h t

theorem LInv.step {mutex : M → Bool} {rank : M → Nat} {h : ι → List M} {s s' : St ι M X} {i : ι} {e : Ev M X}
    (hi : LInv mutex rank h s) (hs : step s i = some (e, s')) : ∃ h', LInv mutex rank h' s' := by
  obtain ⟨ok, held⟩ := hi
  unfold Race.step at hs
  have oki := ok i
  cases hp : s.prog i with
  | nil => simp [hp] at hs
  | cons e0 r =>
    rw [hp] at hs oki
    cases e0 with
    | acq k =>
      by_cases hk : s.sem k = 0
      · simp [hk] at hs
      · simp only [hk, if_false, Option.some.injEq, Prod.mk.injEq] at hs
        obtain ⟨rfl, rfl⟩ := hs
        by_cases hm : mutex k = true
        · simp only [locks, hm, if_true, Bool.and_eq_true] at oki
          refine ⟨fun t => if t = i then k :: h t else h t, ?_, ?_⟩
          · intro t
            by_cases ht : t = i
            · subst ht; simpa using oki.2
            · simpa [ht] using ok t
          · intro m hm1 hm2
            by_cases hmk : m = k
            · subst hmk; exact ⟨i, by simp⟩
            · simp only [hmk, if_false] at hm2
              obtain ⟨t, ht⟩ := held m hm1 hm2
              refine ⟨t, ?_⟩
              by_cases ht' : t = i <;> simp [ht', ht] 
              subst ht'; exact .inr ht
        · simp only [locks, hm, Bool.false_eq_true, if_false, Bool.and_eq_true] at oki
          refine ⟨h, ?_, ?_⟩
          · intro t
            by_cases ht : t = i
            · subst ht; simpa using oki.2
            · simpa [ht] using ok t
          · intro m hm1 hm2
            have hmk : m ≠ k := by rintro rfl; exact hm hm1
            simp only [hmk, if_false] at hm2
            exact held m hm1 hm2
    | rel k =>
      simp only [Option.some.injEq, Prod.mk.injEq] at hs
      obtain ⟨rfl, rfl⟩ := hs
      by_cases hm : mutex k = true
      · simp only [locks, hm, if_true, Bool.and_eq_true] at oki
        refine ⟨fun t => if t = i then (h t).erase k else h t, ?_, ?_⟩
        · intro t
          by_cases ht : t = i
          · subst ht; simpa using oki.2
          · simpa [ht] using ok t
        · intro m hm1 hm2
          by_cases hmk : m = k
          · subst hmk; simp at hm2
          · simp only [hmk, if_false] at hm2
            obtain ⟨t, ht⟩ := held m hm1 hm2
            refine ⟨t, ?_⟩
            by_cases ht' : t = i
            · subst ht'; simp only [if_true]; exact (List.mem_erase_of_ne hmk).2 ht
            · simpa [ht'] using ht
      · simp only [locks, hm, Bool.false_eq_true, if_false] at oki
        refine ⟨h, ?_, ?_⟩
        · intro t
          by_cases ht : t = i
          · subst ht; simpa using oki
          · simpa [ht] using ok t
        · intro m hm1 hm2
          have hmk : m ≠ k := by rintro rfl; exact hm hm1
          simp only [hmk, if_false] at hm2
          exact held m hm1 hm2
    | rd y =>
      simp only [Option.some.injEq, Prod.mk.injEq] at hs
      obtain ⟨rfl, rfl⟩ := hs
      refine ⟨h, ?_, held⟩
      intro t
      by_cases ht : t = i
      · subst ht; simpa [locks] using oki
      · simpa [ht] using ok t
    | wr y =>
      simp only [Option.some.injEq, Prod.mk.injEq] at hs
      obtain ⟨rfl, rfl⟩ := hs
      refine ⟨h, ?_, held⟩
      intro t
      by_cases ht : t = i
      · subst ht; simpa [locks] using oki
      · simpa [ht] using ok t

theorem LInv.exec {mutex : M → Bool} {rank : M → Nat} : ∀ (is : List ι) (s s' : St ι M X) (h : ι → List M)
    (tr : List (ι × Ev M X)), LInv mutex rank h s → Race.exec s is = some (tr, s') → ∃ h', LInv mutex rank h' s' := by
  intro is
  induction is with
  | nil =>
    intro s s' h tr hi he
    simp only [Race.exec, Option.some.injEq, Prod.mk.injEq] at he
    exact ⟨h, he.2 ▸ hi⟩
  | cons i is ih =>
    intro s s' h tr hi he
    obtain ⟨e, s1, tr1, hs, he1, rfl⟩ := exec_cons he
    obtain ⟨h1, hi1⟩ := hi.step hs
    exact ih s1 s' h1 tr1 hi1 he1

/-- In a state in which no thread can go on, every thread has finished or waits for a semaphore that is not
used as a mutex, and holds no mutex. -/
theorem stuck_waits (mutex : M → Bool) (rank : M → Nat) (R : Nat) (hR : ∀ m, mutex m = true → rank m < R)
    (s s' : St ι M X) (hm : ∀ m, mutex m = true → s.sem m ≠ 0) (hp : ∀ t, locks mutex rank [] (s.prog t) = true)
    (is : List ι) (tr : List (ι × Ev M X)) (he : exec s is = some (tr, s')) (hstuck : ∀ t, step s' t = none) (t : ι) :
    s'.prog t = [] ∨ ∃ m r, s'.prog t = .acq m :: r ∧ mutex m = false ∧ s'.sem m = 0 := by
  have hi : LInv mutex rank (fun _ => []) s := ⟨hp, fun m h1 h2 => absurd h2 (hm m h1)⟩
  obtain ⟨h, ok, held⟩ := LInv.exec is s s' _ tr hi he
  have blocked : ∀ t, s'.prog t = [] ∨ ∃ m r, s'.prog t = .acq m :: r ∧ s'.sem m = 0 := by
    intro t
    have := hstuck t
    unfold step at this
    cases hpt : s'.prog t with
    | nil => exact .inl rfl
    | cons e r =>
      rw [hpt] at this
      cases e with
      | acq m =>
        right
        refine ⟨m, r, rfl, ?_⟩
        by_cases h0 : s'.sem m = 0
        · exact h0
        · simp [h0] at this
      | rel m => simp at this
      | rd x => simp at this
      | wr x => simp at this
  have key : ∀ n m, mutex m = true → s'.sem m = 0 → R - rank m ≤ n → False := by
    intro n
    induction n with
    | zero => intro m h1 _ h3; have := hR m h1; omega
    | succ n ih =>
      intro m h1 h2 h3
      obtain ⟨u, hu⟩ := held m h1 h2
      have oku := ok u
      rcases blocked u with hb | ⟨k, r, hb, hk⟩
      · rw [hb] at oku
        simp only [locks, List.isEmpty_iff] at oku
        rw [oku] at hu
        cases hu
      · rw [hb] at oku
        by_cases hmk : mutex k = true
        · simp only [locks, hmk, if_true, Bool.and_eq_true, List.all_eq_true, decide_eq_true_eq] at oku
          have := oku.1 m hu
          have := hR k hmk
          exact ih k hmk hk (by omega)
        · simp only [locks, hmk, Bool.false_eq_true, if_false, Bool.and_eq_true, List.isEmpty_iff] at oku
          rw [oku.1] at hu
          cases hu
  rcases blocked t with hb | ⟨m, r, hb, hk⟩
  · exact .inl hb
  · right
    refine ⟨m, r, hb, ?_, hk⟩
    cases hmm : mutex m with
    | false => rfl
    | true => exact (key _ m hmm hk (Nat.le_refl _)).elim

/-- Every thread makes at most as many steps as it has events. -/
theorem steps_count : ∀ (is : List ι) (s s' : St ι M X) (tr : List (ι × Ev M X)), exec s is = some (tr, s') →
    ∀ t, is.count t + (s'.prog t).length = (s.prog t).length := by
  intro is
  induction is with
  | nil =>
    intro s s' tr he t
    simp only [exec, Option.some.injEq, Prod.mk.injEq] at he
    simp [he.2]
  | cons i is ih =>
    intro s s' tr he t
    obtain ⟨e, s1, tr1, hs, he1, rfl⟩ := exec_cons he
    have h1 := ih s1 s' tr1 he1 t
    unfold step at hs
    cases hp : s.prog i with
    | nil => simp [hp] at hs
    | cons e0 r =>
      rw [hp] at hs
      have e1 : s1.prog = fun j => if j = i then r else s.prog j := by
        cases e0 with
        | acq m =>
          by_cases h0 : s.sem m = 0
          · simp [h0] at hs
          · simp only [h0, if_false, Option.some.injEq, Prod.mk.injEq] at hs; rw [← hs.2]
        | rel m => simp only [Option.some.injEq, Prod.mk.injEq] at hs; rw [← hs.2]
        | rd m => simp only [Option.some.injEq, Prod.mk.injEq] at hs; rw [← hs.2]
        | wr m => simp only [Option.some.injEq, Prod.mk.injEq] at hs; rw [← hs.2]
      rw [e1] at h1
      by_cases ht : t = i
      · subst ht
        simp only [if_true] at h1
        simp only [List.count_cons_self, hp, List.length_cons]
        omega
      · simp only [ht, if_false] at h1
        rw [List.count_cons_of_ne (Ne.symm ht)]
        exact h1

end Verif.Race
