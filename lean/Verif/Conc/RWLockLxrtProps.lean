import Verif.Conc.RWLockLxrt

/-! # C106: read/write locks under LXRT -/
namespace Verif.Conc.RWLockLxrt

/-- RTAI's state agrees with what the tasks were told; `l` has one entry for each read lock. -/
def Agrees (s : Os) (H : Nat → Held) (l : List Nat) : Prop :=
  s.readers = l.length ∧ (∀ t, (H t).reads = l.count t) ∧
  match s.writer with
  | none => ∀ t, (H t).writes = 0
  | some (w, n) => 0 < n ∧ l = [] ∧ ∀ t, (H t).writes = if t = w then n else 0

theorem held_snoc (t : Nat) (rs : List Rec) (r : Rec) : held t (rs ++ [r]) = (held t rs).next t r := by
  simp [held]

theorem disciplined_left {rs : List Rec} {r : Rec} (h : Disciplined (rs ++ [r])) : Disciplined rs := by
  intro a t b e
  exact h a t (b ++ [r]) (by rw [e]; simp)

theorem step_agrees {k : Codes} {v : Ver} {s s' : Os} {e : Ev} {r : Rec} {H : Nat → Held} {l : List Nat}
    (h : step k v s e = some (s', r)) (hs : Agrees s H l)
    (hd : ∀ t, e = .unlock t → H t ≠ .nothing) :
    r.ev = e ∧ ∃ l', Agrees s' (fun t => (H t).next t r) l' := by
  obtain ⟨w, n⟩ := s
  obtain ⟨h1, h2, h3⟩ := hs
  have k1 := k.timout_ne
  have k2 := k.busy_ne
  have k3 := k.inv_ne
  have stay : ∀ e', (∀ t, e' ≠ Ev.unlock t) → ∃ l', Agrees ⟨w, n⟩ (fun t => (H t).next t ⟨e', false⟩) l' := by
    intro e' he
    refine ⟨l, h1, ?_, ?_⟩
    · intro t
      rw [← h2 t]
      cases e' with
      | unlock u => exact absurd rfl (he u)
      | _ => simp [Held.next]
    · have : ∀ t, (H t).next t ⟨e', false⟩ = H t := by
        intro t
        cases e' with
        | unlock u => exact absurd rfl (he u)
        | _ => simp [Held.next]
      simpa only [this] using h3
  cases e with
  | read u hw =>
    simp only [step, Option.map_eq_some_iff, Prod.mk.injEq] at h
    obtain ⟨⟨s1, c⟩, e1, e2, e3⟩ := h
    subst e2 e3
    refine ⟨rfl, ?_⟩
    simp only [Os.rd] at e1
    cases w with
    | none =>
      simp only [Option.some.injEq, Prod.mk.injEq] at e1
      obtain ⟨rfl, rfl⟩ := e1
      simp only at h1 h3
      refine ⟨u :: l, by simp [h1], ?_, ?_⟩
      · intro t
        by_cases hu : u = t
        · subst hu; simp [Held.next, Ev.who, h2]
        · simp [Held.next, Ev.who, hu, h2]
      · intro t
        by_cases hu : u = t
        · subst hu; simp [Held.next, Ev.who, h3]
        · simp [Held.next, Ev.who, hu, h3]
    | some p =>
      obtain ⟨o, m⟩ := p
      have hx : s1 = ⟨some (o, m), n⟩ ∧ c ≠ 0 := by
        cases hw <;> simp only [Os.refuse] at e1 <;> grind
      obtain ⟨rfl, hc⟩ := hx
      simpa [hc] using stay (.read u hw) (by simp)
  | write u hw =>
    simp only [step, Option.map_eq_some_iff, Prod.mk.injEq] at h
    obtain ⟨⟨s1, c⟩, e1, e2, e3⟩ := h
    subst e2 e3
    refine ⟨rfl, ?_⟩
    simp only [Os.wr] at e1
    have hx : (s1 = ⟨w, n⟩ ∧ c ≠ 0) ∨ (w = none ∧ n = 0 ∧ s1 = ⟨some (u, 1), 0⟩ ∧ c = 0) ∨
        (∃ m, w = some (u, m) ∧ s1 = ⟨some (u, m + 1), n⟩ ∧ c = 0) := by
      cases w with
      | none => cases hq : wrHow v hw <;> simp only [Os.refuse, hq] at e1 <;> grind
      | some p => cases hq : wrHow v hw <;> simp only [Os.refuse, hq] at e1 <;> grind
    rcases hx with ⟨rfl, hc⟩ | ⟨rfl, rfl, rfl, rfl⟩ | ⟨m, rfl, rfl, rfl⟩
    · simpa [hc] using stay (.write u hw) (by simp)
    · simp only at h1 h3
      have hl : l = [] := List.length_eq_zero_iff.1 h1.symm
      subst hl
      refine ⟨[], rfl, ?_, by simp, rfl, ?_⟩
      · intro t
        by_cases hu : u = t <;> simp [Held.next, Ev.who, hu, h2]
      · intro t
        by_cases hu : u = t
        · subst hu; simp [Held.next, Ev.who, h3]
        · have hu' : ¬ t = u := fun e => hu e.symm
          simp [Held.next, Ev.who, hu, h3, hu']
    · simp only at h1 h3
      obtain ⟨h4, h5, h6⟩ := h3
      refine ⟨l, h1, ?_, by simp, h5, ?_⟩
      · intro t
        by_cases hu : u = t <;> simp [Held.next, Ev.who, hu, h2]
      · intro t
        by_cases hu : u = t
        · subst hu; simp [Held.next, Ev.who, h6]
        · have hu' : ¬ t = u := fun e => hu e.symm
          simp [Held.next, Ev.who, hu, h6, hu']
  | unlock u =>
    simp only [step, Option.some.injEq, Prod.mk.injEq] at h
    obtain ⟨rfl, rfl⟩ := h
    refine ⟨rfl, ?_⟩
    have hn := hd u rfl
    simp only [Os.unlock]
    cases w with
    | none =>
      simp only at h1 h3 ⊢
      have hu : u ∈ l := by
        apply Classical.byContradiction
        intro hc
        apply hn
        have := h2 u
        have h0 := h3 u
        rw [List.count_eq_zero_of_not_mem hc] at this
        cases hh : H u with
        | mk a b => rw [hh] at this h0; simp only at this h0; subst this h0; rfl
      refine ⟨l.erase u, ?_, ?_, ?_⟩
      · rw [List.length_erase_of_mem hu, h1]
      · intro t
        by_cases ht : u = t
        · subst ht; simp [Held.next, Ev.who, h3, h2, List.count_erase_self]
        · simp [Held.next, Ev.who, ht, h2, List.count_erase_of_ne (Ne.symm ht)]
      · intro t
        by_cases ht : u = t
        · subst ht; simp [Held.next, Ev.who, h3]
        · simp [Held.next, Ev.who, ht, h3]
    | some p =>
      obtain ⟨o, m⟩ := p
      simp only at h1 h3 ⊢
      obtain ⟨h4, h5, h6⟩ := h3
      subst h5
      by_cases ho : o = u
      · subst ho
        rw [if_pos rfl]
        refine ⟨[], h1, ?_, ?_⟩
        · intro t
          by_cases ht : o = t
          · subst ht; simp [Held.next, Ev.who, h6, h4, h2]
          · simp [Held.next, Ev.who, ht, h2]
        · by_cases hm : m = 1
          · subst hm
            simp only [if_pos]
            intro t
            by_cases ht : o = t
            · subst ht; simp [Held.next, Ev.who, h6]
            · have ht' : ¬ t = o := fun e => ht e.symm
              simp [Held.next, Ev.who, ht, h6, ht']
          · simp only [if_neg hm]
            refine ⟨by omega, trivial, ?_⟩
            intro t
            by_cases ht : o = t
            · subst ht; simp [Held.next, Ev.who, h6, h4]
            · have ht' : ¬ t = o := fun e => ht e.symm
              simp [Held.next, Ev.who, ht, h6, ht']
      · exfalso
        apply hn
        have a := h2 u
        have b := h6 u
        rw [if_neg (fun e => ho e.symm)] at b
        cases hh : H u with
        | mk x y => rw [hh] at a b; simp only [List.count_nil] at a b; subst a b; rfl

theorem run_agrees {k : Codes} {v : Ver} {rs : List Rec} {s : Os} (h : Run k v rs s) (hd : Disciplined rs) :
    ∃ l, Agrees s (fun t => held t rs) l := by
  induction h with
  | nil => exact ⟨[], rfl, fun _ => rfl, fun _ => rfl⟩
  | snoc h1 h2 ih =>
    rename_i s1 s2 e r rs1
    obtain ⟨l, hl⟩ := ih (disciplined_left hd)
    have he : r.ev = e ∧ ∀ t, e = .unlock t → r = ⟨.unlock t, true⟩ := by
      cases e with
      | read t w => simp only [step, Option.map_eq_some_iff, Prod.mk.injEq] at h2
                    obtain ⟨_, _, _, rfl⟩ := h2; simp
      | write t w => simp only [step, Option.map_eq_some_iff, Prod.mk.injEq] at h2
                     obtain ⟨_, _, _, rfl⟩ := h2; simp
      | unlock t => simp only [step, Option.some.injEq, Prod.mk.injEq] at h2
                    obtain ⟨_, rfl⟩ := h2; simp
    obtain ⟨_, l', hl'⟩ := step_agrees h2 hl (by
      intro t ht
      have := he.2 t ht
      exact hd rs1 t [] (by rw [this]))
    refine ⟨l', ?_⟩
    simpa only [held_snoc] using hl'

/-- C106. If tasks unlock only what they hold, a task that was told it has the write lock excludes
everybody: it has no read lock itself and no other task holds anything. -/
theorem c106_exclusion_partial {k : Codes} {v : Ver} {rs : List Rec} {s : Os} (h : Run k v rs s)
    (hd : Disciplined rs) {t : Nat} (ht : 0 < (held t rs).writes) :
    (held t rs).reads = 0 ∧ ∀ u, u ≠ t → held u rs = .nothing := by
  obtain ⟨l, h1, h2, h3⟩ := run_agrees h hd
  simp only at h2
  cases hw : s.writer with
  | none => rw [hw] at h3; simp only at h3; rw [h3 t] at ht; omega
  | some p =>
    obtain ⟨o, n⟩ := p
    rw [hw] at h3
    simp only at h3
    obtain ⟨h4, h5, h6⟩ := h3
    subst h5
    have hto : t = o := by
      apply Classical.byContradiction
      intro hc
      rw [h6 t, if_neg hc] at ht
      omega
    subst hto
    refine ⟨by simpa using h2 t, fun u hu => ?_⟩
    have a := h2 u
    have b := h6 u
    rw [if_neg hu] at b
    cases hh : held u rs with
    | mk x y => rw [hh] at a b; simp only [List.count_nil] at a b; subst a b; rfl

open Classical in
/-- C106. The result of every request of a read lock, for tasks that unlock only what they hold: `true`
if nobody has the write lock, `false` if the caller has it, and if another task has it `readLock()`
waits and the other functions give `false`. -/
theorem c106_read_result {k : Codes} {v : Ver} {rs : List Rec} {s : Os} (h : Run k v rs s)
    (hd : Disciplined rs) (t : Nat) (hw : How) :
    (step k v s (.read t hw)).map (fun x => x.2.res) =
      if ∀ u, (held u rs).writes = 0 then some true
      else if 0 < (held t rs).writes then some false
      else if hw = .wait then none else some false := by
  obtain ⟨l, h1, h2, h3⟩ := run_agrees h hd
  simp only at h2
  have k1 := k.timout_ne
  have k2 := k.busy_ne
  have k3 := k.inv_ne
  cases hwr : s.writer with
  | none =>
    rw [hwr] at h3
    simp only at h3
    rw [if_pos h3]
    simp [step, Os.rd, hwr]
  | some p =>
    obtain ⟨o, n⟩ := p
    rw [hwr] at h3
    simp only at h3
    obtain ⟨h4, h5, h6⟩ := h3
    rw [if_neg (fun hc => by have := hc o; rw [h6 o, if_pos rfl] at this; omega)]
    rw [h6 t]
    by_cases hto : t = o
    · subst hto
      simp [step, Os.rd, hwr, h4, k3]
    · have hot : ¬ o = t := fun e => hto e.symm
      cases hw <;> simp [step, Os.rd, hwr, hto, hot, Os.refuse, k1, k2]

open Classical in
/-- C106. The result of every request of the write lock, for tasks that unlock only what they hold:
`true` if nobody holds anything, or, with RTAI 3.8, if the caller has the write lock already; otherwise
`writeLock()` waits and the other functions give `false`. -/
theorem c106_write_result {k : Codes} {v : Ver} {rs : List Rec} {s : Os} (h : Run k v rs s)
    (hd : Disciplined rs) (t : Nat) (hw : How) :
    (step k v s (.write t hw)).map (fun x => x.2.res) =
      if (∀ u, held u rs = .nothing) ∨ (v = .v38 ∧ 0 < (held t rs).writes) then some true
      else if hw = .wait then none else some false := by
  obtain ⟨l, h1, h2, h3⟩ := run_agrees h hd
  simp only at h2
  have k1 := k.timout_ne
  have k2 := k.busy_ne
  cases hwr : s.writer with
  | none =>
    rw [hwr] at h3
    simp only at h3
    by_cases hl : l = []
    · subst hl
      rw [if_pos (Or.inl (fun u => by
        have a := h2 u
        have b := h3 u
        cases hh : held u rs with
        | mk x y => rw [hh] at a b; simp only [List.count_nil] at a b; subst a b; rfl))]
      simp [step, Os.wr, hwr, show s.readers = 0 from h1]
    · rw [if_neg]
      · have : s.readers ≠ 0 := by rw [h1]; intro hc; exact hl (List.length_eq_zero_iff.1 hc)
        cases hw <;> cases v <;> simp [step, Os.wr, hwr, this, wrHow, Os.refuse, k1, k2]
      · rintro (hc | ⟨_, hc⟩)
        · cases l with
          | nil => exact hl rfl
          | cons a m =>
            have := h2 a
            rw [hc a] at this
            simp [Held.nothing] at this
        · rw [h3 t] at hc; omega
  | some p =>
    obtain ⟨o, n⟩ := p
    rw [hwr] at h3
    simp only at h3
    obtain ⟨h4, h5, h6⟩ := h3
    have hno : ¬ ∀ u, held u rs = .nothing := by
      intro hc
      have := h6 o
      rw [hc o, if_pos rfl] at this
      simp only [Held.nothing] at this
      omega
    simp only [hno, false_or, h6 t]
    by_cases hto : t = o
    · subst hto
      cases hw <;> cases v <;> simp [step, Os.wr, hwr, recursive, wrHow, Os.refuse, k1, h4]
    · have hot : ¬ o = t := fun e => hto e.symm
      cases hw <;> cases v <;> simp [step, Os.wr, hwr, hto, hot, wrHow, Os.refuse, k1, k2]

/-- C106. A request that returns `false` has changed nothing. -/
theorem c106_failed_attempt {k : Codes} {v : Ver} {s s' : Os} {e : Ev} {r : Rec}
    (h : step k v s e = some (s', r)) (hr : r.res = false) : s' = s := by
  obtain ⟨w, n⟩ := s
  cases e with
  | read t hw =>
    cases w <;> cases hw <;> simp only [step, Os.rd, Os.refuse] at h <;> grind
  | write t hw =>
    cases w <;> cases hq : wrHow v hw <;> simp only [step, Os.wr, Os.refuse, hq] at h <;> grind
  | unlock t => simp only [step] at h; grind

/-- Some codes. -/
def codes : Codes := ⟨0xFFFE, -1, 0xFFFD, by decide, by decide, by decide⟩

/-- C106, violated. An `unlock()` of a task that holds nothing gives back a read lock of another task:
a writer then gets the lock while a reader still has it. -/
theorem c106_stray_unlock (v : Ver) : ∃ s, Run codes v [⟨.read 1 .wait, true⟩, ⟨.unlock 2, true⟩, ⟨.write 3 .wait, true⟩] s ∧
    held 1 [⟨.read 1 .wait, true⟩, ⟨.unlock 2, true⟩, ⟨.write 3 .wait, true⟩] = ⟨0, 1⟩ ∧
    held 3 [⟨.read 1 .wait, true⟩, ⟨.unlock 2, true⟩, ⟨.write 3 .wait, true⟩] = ⟨1, 0⟩ := by
  refine ⟨⟨some (3, 1), 0⟩, ?_, by decide, by decide⟩
  have r0 : Run codes v [] .new := .nil
  have r1 := r0.snoc (s' := ⟨none, 1⟩) (e := .read 1 .wait) (r := ⟨.read 1 .wait, true⟩) (by cases v <;> rfl)
  have r2 := r1.snoc (s' := ⟨none, 0⟩) (e := .unlock 2) (r := ⟨.unlock 2, true⟩) (by cases v <;> rfl)
  have r3 := r2.snoc (s' := ⟨some (3, 1), 0⟩) (e := .write 3 .wait) (r := ⟨.write 3 .wait, true⟩) (by cases v <;> rfl)
  exact r3

/-- C106. The same program behaves differently depending on the version of RTAI: a second `writeLock()`
of the writer succeeds with 3.8 and must be given back too; with 3.3 and 3.5 it waits for ever. -/
theorem c106_relock {k : Codes} {v : Ver} {rs : List Rec} {s : Os} (h : Run k v rs s)
    (hd : Disciplined rs) {t : Nat} (ht : 0 < (held t rs).writes) :
    (step k v s (.write t .wait)).map (fun x => x.2.res) = if v = .v38 then some true else none := by
  rw [c106_write_result h hd]
  have hno : ¬ ∀ u, held u rs = .nothing := by
    intro hc
    rw [hc t] at ht
    simp [Held.nothing] at ht
  simp [hno, ht]

/-- C106. A task that has a read lock and asks for the write lock waits for itself: no unlock of the
other tasks can help. -/
theorem c106_upgrade_waits {k : Codes} {v : Ver} {rs : List Rec} {s : Os} (h : Run k v rs s)
    (hd : Disciplined rs) {t : Nat} (ht : 0 < (held t rs).reads) : step k v s (.write t .wait) = none := by
  have hw : (held t rs).writes = 0 := by
    apply Classical.byContradiction
    intro hc
    have := (c106_exclusion_partial h hd (t := t) (by omega)).1
    omega
  have := c106_write_result h hd t .wait
  have hno : ¬ ∀ u, held u rs = .nothing := by
    intro hc
    rw [hc t] at ht
    simp [Held.nothing] at ht
  simpa [hno, hw] using this

/-- A disciplined history with a recursive writer and a reader refused meanwhile. -/
def sample : List Rec := [⟨.read 1 .wait, true⟩, ⟨.write 2 .try_, false⟩, ⟨.unlock 1, true⟩, ⟨.write 2 .wait, true⟩,
  ⟨.write 2 .try_, true⟩, ⟨.unlock 2, true⟩, ⟨.read 1 .timed, false⟩, ⟨.read 2 .wait, false⟩]

/-- Tells whether the prefixes before each `unlock` hold something. -/
def disc (pre : List Rec) : List Rec → Bool
  | [] => true
  | r :: rs => (match r.ev with | .unlock t => decide (held t pre ≠ .nothing) | _ => true) && disc (pre ++ [r]) rs

theorem disc_sound (pre rs : List Rec) (h : disc pre rs = true) :
    ∀ a t b, rs = a ++ ⟨.unlock t, true⟩ :: b → held t (pre ++ a) ≠ .nothing := by
  induction rs generalizing pre with
  | nil => intro a t b e; simp at e
  | cons r rs ih =>
    simp only [disc, Bool.and_eq_true] at h
    intro a t b e
    cases a with
    | nil =>
      simp only [List.nil_append, List.cons.injEq] at e
      obtain ⟨rfl, _⟩ := e
      simpa using h.1
    | cons x a =>
      simp only [List.cons_append, List.cons.injEq] at e
      obtain ⟨rfl, e⟩ := e
      have := ih (pre ++ [r]) h.2 a t b e
      simpa using this

example : Disciplined sample ∧ (∃ s, Run codes .v38 sample s) ∧ held 2 sample = ⟨1, 0⟩ := by
  refine ⟨fun a t b e => by simpa using disc_sound [] sample (by decide) a t b e, ⟨⟨some (2, 1), 0⟩, ?_⟩, by decide⟩
  have r0 : Run codes .v38 [] .new := .nil
  have r1 := r0.snoc (s' := ⟨none, 1⟩) (e := .read 1 .wait) (r := ⟨.read 1 .wait, true⟩) (by rfl)
  have r2 := r1.snoc (s' := ⟨none, 1⟩) (e := .write 2 .try_) (r := ⟨.write 2 .try_, false⟩) (by rfl)
  have r3 := r2.snoc (s' := ⟨none, 0⟩) (e := .unlock 1) (r := ⟨.unlock 1, true⟩) (by rfl)
  have r4 := r3.snoc (s' := ⟨some (2, 1), 0⟩) (e := .write 2 .wait) (r := ⟨.write 2 .wait, true⟩) (by rfl)
  have r5 := r4.snoc (s' := ⟨some (2, 2), 0⟩) (e := .write 2 .try_) (r := ⟨.write 2 .try_, true⟩) (by rfl)
  have r6 := r5.snoc (s' := ⟨some (2, 1), 0⟩) (e := .unlock 2) (r := ⟨.unlock 2, true⟩) (by rfl)
  have r7 := r6.snoc (s' := ⟨some (2, 1), 0⟩) (e := .read 1 .timed) (r := ⟨.read 1 .timed, false⟩) (by rfl)
  have r8 := r7.snoc (s' := ⟨some (2, 1), 0⟩) (e := .read 2 .wait) (r := ⟨.read 2 .wait, false⟩) (by rfl)
  exact r8

end Verif.Conc.RWLockLxrt
