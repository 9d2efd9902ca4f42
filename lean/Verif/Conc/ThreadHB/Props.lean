import Verif.Conc.ThreadHB.History

/-!
# C139: what is handed to a thread and what is taken from it

`Thread::start()` publishes everything its caller did before; `join()` and `wait()` make the results of
`run()` visible if they find the thread running. If they find it finished they return without any
synchronisation, and using the results is then a data race.
-/
namespace Verif.Thread.HBT

open Verif.Race (Ev HB DataRace Accesses race_of_adjacent)

variable {acts acts' : List XAct} {x y : X}

/-- The histories that never call `cancel()`. -/
abbrev NoCancel (acts : List XAct) : Prop := XAct.act .callCancel ∉ acts

theorem both {c : Prop} (h : H c x) (hI : Inv false x.s) (hn : NoCancel acts) (hc : c → Careful x acts)
    (he : xexec x acts = some y) : H c y ∧ Inv false y.s := by
  induction acts generalizing x with
  | nil => cases he; exact ⟨h, hI⟩
  | cons a as ih =>
    simp only [xexec, Option.bind_eq_some_iff] at he
    obtain ⟨x', h1, h2⟩ := he
    have hn' : NoCancel as := fun hm => hn (by simp [hm])
    suffices hx : H c x' ∧ Inv false x'.s from ih hx.1 hx.2 hn' (fun k => (hc k).2 x' h1) h2
    obtain ⟨s, tr⟩ := x
    rcases a with a | w | ⟨i, w⟩
    · simp only [xstep, Option.map_eq_some_iff] at h1
      obtain ⟨s', hs, rfl⟩ := h1
      have hcan : a ≠ .callCancel := by rintro rfl; exact hn (by simp)
      by_cases hw : ∃ i, a = .work i
      · obtain ⟨i, rfl⟩ := hw
        exact ⟨h.work hI hs, inv_work hI i hs⟩
      · by_cases hd : ∃ i, a = .die i
        · obtain ⟨i, rfl⟩ := hd
          simp only [Thread.step] at hs
          split at hs
          · rename_i hk; have := hI.nc i; simp only at this; rw [this] at hk; cases hk.1
          · cases hs
        · refine ⟨h.ctl hI (fun i e => hw ⟨i, e⟩) (fun i e => hd ⟨i, e⟩) hs, inv_ctl hI a hcan ?_⟩
          cases a <;> first | exact hs | exact absurd ⟨_, rfl⟩ hw | exact absurd ⟨_, rfl⟩ hd
    · simp only [xstep] at h1
      split at h1
      · simp only [Option.some.injEq] at h1; subst h1
        exact ⟨h.owner hI fun k => (hc k).1 w rfl, hI⟩
      · cases h1
    · simp only [xstep] at h1
      split at h1
      · rename_i hr
        simp only [Option.some.injEq] at h1; subst h1
        exact ⟨h.body hI hr, hI⟩
      · cases h1

/-- Everything the owner did before it created thread `i` happens before everything thread `i` does, in
every history. -/
theorem c139_start_publishes (he : xexec xinit acts = some x) {p c q i : Nat} {e f : Ev Sync Var}
    (hc : x.tr[c]? = some (none, .rel (.create i))) (hp : x.tr[p]? = some (none, e)) (hpc : p ≤ c)
    (hq : x.tr[q]? = some (some i, f)) : HB x.tr p q := by
  have k := (((G.init).exec he).follow q i f hq).2 c hc
  rcases Nat.lt_or_ge p c with h | h
  · exact .trans (.thread h hp hc) k
  · rw [show p = c from by omega]; exact k

/-- Everything thread `i` did happens before everything its owner does after a `pthread_join` of it, in
every history. -/
theorem c139_join_collects (he : xexec xinit acts = some x) {q b r i : Nat} {f g : Ev Sync Var}
    (hb : x.tr[b]? = some (none, .acq (.exit i))) (hq : x.tr[q]? = some (some i, f)) (hr : x.tr[r]? = some (none, g))
    (hbr : b ≤ r) : HB x.tr q r := by
  have k := (((G.init).exec he).joined b i hb).2 q f hq
  rcases Nat.lt_or_ge b r with h | h
  · exact .trans k (.thread h hb hr)
  · rw [show r = b from by omega]; exact k

/-- The bodies of two runs of the same object are ordered, whatever its owner does in between (without
`cancel()`): a later run sees the data an earlier one left. -/
theorem c139_runs_ordered (hn : NoCancel acts) (he : xexec xinit acts = some x) {q r i j : Nat} {v w : Bool}
    (hq : x.tr[q]? = some (some i, access v)) (hr : x.tr[r]? = some (some j, access w)) (hqr : q < r) :
    HB x.tr q r := by
  by_cases hij : i = j
  · subst hij; exact .thread hqr hq hr
  · exact (both (c := False) (H.init _) (inv_init _) hn (fun h => h.elim) he).1.d1 q r _ _ ⟨v, hq⟩ ⟨w, hr⟩ hqr
      (by simpa using hij) (.inr ⟨by simp, by simp⟩)

/-- An owner that uses the data only before the first start and after it has synchronised with the thread
has no data race on it (without `cancel()`). -/
theorem c139_no_race (hn : NoCancel acts) (hc : Careful xinit acts) (he : xexec xinit acts = some x) :
    ¬ DataRace x.tr .data := by
  rintro ⟨a, b, i, j, e, f, h1, h2, hij, hab, ha, hf, _, hh⟩
  have acc : ∀ {e : Ev Sync Var}, Accesses e .data → ∃ w, e = access w := by
    rintro e (rfl | rfl)
    · exact ⟨false, rfl⟩
    · exact ⟨true, rfl⟩
  obtain ⟨v, rfl⟩ := acc ha
  obtain ⟨w, rfl⟩ := acc hf
  exact hh ((both (c := True) (H.init _) (inv_init _) hn (fun _ => hc) he).1.d1 a b i j ⟨v, h1⟩ ⟨w, h2⟩ hab hij (.inl trivial))

/-! ## Which calls synchronise -/

/-- Positions after the synchronisation of `join()`, `wait()` and the destructor. -/
def synced : OPC → Bool
  | .join3 | .waitUnlock | .wait3 | .waitJoin | .waitJoin2 | .waitJoin3 | .idle | .destroyFree | .destroyed => true
  | _ => false

/-- Positions before it. -/
def syncing : OPC → Bool
  | .join2 | .waitLock | .destroyJoin2 => true
  | _ => false

theorem work_o {s s' : State} {i : Nat} (h : step false s (.work i) = some s') : s'.o = s.o := by
  simp only [step, stepW] at h
  cases hp : s.w i <;> simp only [hp, Option.map_none, reduceCtorEq] at h <;>
    (try (split at h)) <;> simp only [Option.map_some, Option.map_none, Option.some.injEq, reduceCtorEq] at h <;>
    subst h <;> rfl

theorem settles_step {a : XAct} (h : syncing x.s.o = true ∨ synced x.s.o = true ∧ settled x.tr = true)
    (ha : isCall a = false) (hs : xstep x a = some y) :
    syncing y.s.o = true ∨ synced y.s.o = true ∧ settled y.tr = true := by
  obtain ⟨s, tr⟩ := x
  rcases a with a | w | ⟨i, w⟩
  · simp only [xstep, Option.map_eq_some_iff] at hs
    obtain ⟨s', hs, rfl⟩ := hs
    by_cases hw : ∃ i, a = .work i
    · obtain ⟨i, rfl⟩ := hw
      simp only [work_o hs]
      have : settled (tr ++ events s (.work i)) = settled tr := settled_neutral (evW_neutral i _)
      rw [this]; exact h
    · by_cases hd : ∃ i, a = .die i
      · obtain ⟨i, rfl⟩ := hd
        simp only [Thread.step] at hs
        split at hs
        · simp only [Option.some.injEq] at hs; subst hs
          have : settled (tr ++ events s (.die i)) = settled tr := settled_neutral (by simp [events, neutral])
          simp only [setW, this]; exact h
        · cases hs
      · have h' : stepO s a = some s' := by
          cases a <;> first | exact hs | exact absurd ⟨_, rfl⟩ hw | exact absurd ⟨_, rfl⟩ hd
        clear hs
        simp only [settled_append]
        simp only at h
        unfold stepO at h'
        cases ho : s.o <;> rw [ho] at h <;> simp only [syncing, synced, Bool.false_eq_true, false_or, false_and,
            or_false, true_and, or_self] at h <;>
          cases a <;> simp only [isCall, reduceCtorEq] at ha <;> simp only [ho, reduceCtorEq] at h' <;>
          (try (exact absurd ⟨_, rfl⟩ hw)) <;> (try (exact absurd ⟨_, rfl⟩ hd)) <;>
          (try (split at h' <;> try simp only [reduceCtorEq] at h')) <;>
          (try (split at h' <;> try simp only [reduceCtorEq] at h')) <;>
          simp only [Option.some.injEq] at h' <;> subst h' <;>
          simp [events, evO, evNew, ho, settle, h, setW, syncing, synced]
        all_goals split <;> simp
  · simp only [xstep] at hs
    split at hs
    · simp only [Option.some.injEq] at hs; subst hs
      simp only [settled_neutral (push_neutral none w)]; exact h
    · cases hs
  · simp only [xstep] at hs
    split at hs
    · simp only [Option.some.injEq] at hs; subst hs
      simp only [settled_neutral (push_neutral (some i) w)]; exact h
    · cases hs

theorem settles (h : syncing x.s.o = true ∨ synced x.s.o = true ∧ settled x.tr = true)
    (hc : ∀ a ∈ acts, isCall a = false) (he : xexec x acts = some y) (hy : y.s.o = .idle ∨ y.s.o = .destroyed) :
    settled y.tr = true := by
  induction acts generalizing x with
  | nil =>
    cases he
    rcases h with h | h
    · rcases hy with hy | hy <;> rw [hy] at h <;> cases h
    · exact h.2
  | cons a as ih =>
    simp only [xexec, Option.bind_eq_some_iff] at he
    obtain ⟨x', h1, h2⟩ := he
    exact ih (settles_step h (hc a (by simp)) h1) (fun b hb => hc b (by simp [hb])) h2

/-- `join()`, when it finds the thread running, leaves the owner synchronised with it when it returns,
however the threads are interleaved with it. -/
theorem c139_join_settles (hj : x.s.o = .join) (hf : x.s.finished = false) (hc : ∀ a ∈ acts, isCall a = false)
    (he : xexec x (.act .go :: acts) = some y) (hy : y.s.o = .idle) : settled y.tr = true := by
  simp only [xexec, Option.bind_eq_some_iff] at he
  obtain ⟨x', h1, h2⟩ := he
  simp [xstep, step, stepO, hj, hf] at h1
  subst h1
  exact settles (.inl rfl) hc h2 (.inl hy)

/-- The same for `wait()`, whether it returns `true` or `false`. -/
theorem c139_wait_settles (hj : x.s.o = .wait2) (hf : x.s.finished = false) (hc : ∀ a ∈ acts, isCall a = false)
    (he : xexec x (.act .go :: acts) = some y) (hy : y.s.o = .idle) : settled y.tr = true := by
  simp only [xexec, Option.bind_eq_some_iff] at he
  obtain ⟨x', h1, h2⟩ := he
  simp [xstep, step, stepO, hj, hf] at h1
  obtain ⟨s', ⟨_, rfl⟩, rfl⟩ := h1
  exact settles (.inl rfl) hc h2 (.inl hy)

/-- The same for the destructor. -/
theorem c139_destructor_settles (hj : x.s.o = .destroyJoin) (hf : x.s.finished = false)
    (hc : ∀ a ∈ acts, isCall a = false) (he : xexec x (.act .go :: acts) = some y) (hy : y.s.o = .destroyed) :
    settled y.tr = true := by
  simp only [xexec, Option.bind_eq_some_iff] at he
  obtain ⟨x', h1, h2⟩ := he
  simp [xstep, step, stepO, hj, hf] at h1
  subst h1
  exact settles (.inl rfl) hc h2 (.inr hy)

/-! ## Where it goes wrong -/

theorem HB_from_worker {tr : Tr} (hn : ∀ m, (none, Ev.acq m) ∉ tr) {a b : Nat} (h : HB tr a b) :
    (∃ i e, tr[a]? = some (some i, e)) → ∃ i e, tr[b]? = some (some i, e) := by
  induction h with
  | thread _ h1 h2 =>
    rintro ⟨i, e, h3⟩
    rw [h1] at h3; simp only [Option.some.injEq, Prod.mk.injEq] at h3
    rw [h3.1] at h2; exact ⟨_, _, h2⟩
  | @sync a b i j m _ h1 h2 =>
    intro _
    rcases j with _ | j
    · exact absurd (List.mem_of_getElem? h2) (hn m)
    · exact ⟨_, _, h2⟩
  | trans _ _ h1 h2 => exact fun h => h2 (h1 h)

/-- While the owner has neither joined a thread nor taken its mutex, whatever it does with the data after a
write by `run()` is a data race. -/
theorem c139_unsynchronised_race {tr : Tr} (hn : ∀ m, (none, Ev.acq m) ∉ tr) {q r i : Nat} {w : Bool}
    (hq : tr[q]? = some (some i, access true)) (hr : tr[r]? = some (none, access w)) (h : q < r) :
    DataRace tr .data := by
  refine ⟨q, r, some i, none, _, _, hq, hr, by simp, h, .inr rfl, ?_, .inl rfl, ?_⟩
  · cases w
    · exact .inl rfl
    · exact .inr rfl
  · intro hb
    obtain ⟨j, e, hj⟩ := HB_from_worker hn hb ⟨i, _, hq⟩
    rw [hr] at hj; cases hj

/-- Start, and let the thread run up to the call of `run()`. -/
def boot : List XAct :=
  [.act .callStart, .act .go, .act .go, .act .go, .act .go, .act .go, .act .go,
   .act (.work 0), .act (.work 0), .act (.work 0), .act (.work 0), .act .go]

/-- The steps from the return of `run()` to the assignment of `m_finished`. -/
def finish : List XAct := [.act (.work 0), .act (.work 0), .act (.work 0), .act (.work 0)]

/-- `start()`; `run()` writes its result and ends; `join()`; the owner reads the result. -/
def joinLate : List XAct := boot ++ [.body 0 true] ++ finish ++ [.act .callJoin, .act .go, .act .go, .owner false]

/-- The same with `wait()`, which returns `true`. -/
def waitLate : List XAct := boot ++ [.body 0 true] ++ finish ++
  [.act .callWait, .act .go, .act .go, .act .go, .act .go, .act .go, .owner false]

/-- The trace of a schedule and a test of its final state. -/
def traceOf (acts : List XAct) (f : State → Bool) : Option (Tr × Bool) := (xexec xinit acts).map fun x => (x.tr, f x.s)

theorem traceOf_some {acts : List XAct} {f : State → Bool} {tr : Tr} (h : traceOf acts f = some (tr, true)) :
    ∃ x, xexec xinit acts = some x ∧ f x.s = true ∧ x.tr = tr := by
  simp only [traceOf, Option.map_eq_some_iff, Prod.mk.injEq] at h
  obtain ⟨x, h1, h2, h3⟩ := h
  exact ⟨x, h1, h3, h2⟩

/-- What happens until `run()` is called. -/
def bootTrace : Tr :=
  [(none, .rd .starting), (none, .rd .finished), (none, .wr .starting), (none, .wr .finished),
   (none, .rel (.create 0)), (none, .wr .threadId), (some 0, .acq (.create 0)), (some 0, .rd .threadId),
   (some 0, .acq .mutex), (some 0, .wr .execute), (some 0, .wr .starting), (some 0, .wr .finished),
   (none, .rd .starting)]

/-- What happens after `run()`. -/
def finishTrace : Tr := [(some 0, .wr .execute), (some 0, .rel .mutex), (some 0, .wr .finished)]

/-- `join()` on a thread that has finished by itself: reading its result afterwards is a data race. -/
theorem c139_join_race : ∃ x, xexec xinit joinLate = some x ∧ NoCancel joinLate ∧ x.s.joined = true ∧
    DataRace x.tr .data := by
  obtain ⟨x, h1, h2, h3⟩ := traceOf_some (acts := joinLate) (f := fun s => s.joined)
    (tr := bootTrace ++ [(some 0, .wr .data)] ++ finishTrace ++ [(none, .rd .finished), (none, .rd .data)])
    (by decide +kernel)
  refine ⟨x, h1, by decide +kernel, h2, ?_⟩
  rw [h3]
  exact c139_unsynchronised_race (q := 13) (r := 18) (i := 0) (w := false)
    (by intro m hm; simp [bootTrace, finishTrace] at hm) (by decide +kernel) (by decide +kernel) (by decide)

/-- `wait()` on a thread that has finished by itself returns `true`, and reading its result afterwards is a
data race. -/
theorem c139_wait_race : ∃ x, xexec xinit waitLate = some x ∧ NoCancel waitLate ∧ x.s.ret = .wait true ∧
    DataRace x.tr .data := by
  obtain ⟨x, h1, h2, h3⟩ := traceOf_some (acts := waitLate) (f := fun s => s.ret == .wait true)
    (tr := bootTrace ++ [(some 0, .wr .data)] ++ finishTrace ++ [(none, .rd .starting), (none, .rd .finished),
      (none, .rd .finished), (none, .rd .finished), (none, .rd .data)])
    (by decide +kernel)
  refine ⟨x, h1, by decide +kernel, by simpa using h2, ?_⟩
  rw [h3]
  exact c139_unsynchronised_race (q := 13) (r := 21) (i := 0) (w := false)
    (by intro m hm; simp [bootTrace, finishTrace] at hm) (by decide +kernel) (by decide +kernel) (by decide)

/-- `running()` and `join()` read `m_finished` while the thread writes it: a data race on the flag itself. -/
theorem c139_finished_race : ∃ acts x, xexec xinit acts = some x ∧ NoCancel acts ∧ DataRace x.tr .finished := by
  obtain ⟨x, h1, _, h3⟩ := traceOf_some (acts := boot ++ finish ++ [.act .callJoin, .act .go]) (f := fun _ => true)
    (tr := bootTrace ++ finishTrace ++ [(none, .rd .finished)]) (by decide +kernel)
  refine ⟨_, x, h1, by decide +kernel, ?_⟩
  rw [h3]
  exact race_of_adjacent (a := 15) (i := some 0) (j := none) (e := .wr .finished) (f := .rd .finished)
    (by decide +kernel) (by decide +kernel) (by decide) (.inr rfl) (.inl rfl) (.inl rfl)

theorem HB_no_rel {tr : Tr} {t : Option Nat} {n : Nat} (hn : ∀ c m, n ≤ c → tr[c]? ≠ some (t, .rel m)) {a b : Nat}
    (h : HB tr a b) : n ≤ a → (∃ e, tr[a]? = some (t, e)) → ∃ e, tr[b]? = some (t, e) := by
  induction h with
  | thread _ h1 h2 =>
    rintro _ ⟨e, h3⟩
    rw [h1] at h3; simp only [Option.some.injEq, Prod.mk.injEq] at h3
    rw [h3.1] at h2; exact ⟨_, h2⟩
  | @sync a b i j m _ h1 h2 =>
    rintro hl ⟨e, h3⟩
    rw [h1] at h3; simp only [Option.some.injEq, Prod.mk.injEq] at h3
    rw [h3.1] at h1; exact absurd h1 (hn a m hl)
  | @trans a b c k1 k2 h1 h2 =>
    intro hl h
    exact h2 (by have := k1.lt; omega) (h1 hl h)

/-- The new thread reads `m_thread_id` for its description while `pthread_create` stores it: a data race in
every start. -/
theorem c139_thread_id_race : ∃ acts x, xexec xinit acts = some x ∧ NoCancel acts ∧ DataRace x.tr .threadId := by
  obtain ⟨x, h1, _, h3⟩ := traceOf_some (acts := boot.take 8) (f := fun _ => true)
    (tr := bootTrace.take 9) (by decide +kernel)
  refine ⟨_, x, h1, by decide +kernel, ?_⟩
  rw [h3]
  refine ⟨5, 7, none, some 0, .wr .threadId, .rd .threadId, by decide +kernel, by decide +kernel, by decide,
    by decide, .inr rfl, .inl rfl, .inl rfl, ?_⟩
  intro hb
  obtain ⟨e, he⟩ := HB_no_rel (t := none) (n := 5) (by
    intro c m hc h
    have hl := get_lt h
    have : c = 5 ∨ c = 6 ∨ c = 7 ∨ c = 8 := by simp [bootTrace] at hl; omega
    rcases this with rfl | rfl | rfl | rfl <;> simp [bootTrace] at h) hb (Nat.le_refl _) ⟨_, rfl⟩
  simp [bootTrace] at he

/-! ## Non-vacuity: a careful owner that hands data over and takes a result -/

/-- Data prepared, `start()`, `run()` reads it and writes a result, `join()` while it runs, result read. -/
def careful : List XAct := [.owner true] ++ boot ++ [.body 0 false, .act .callJoin, .act .go, .body 0 true] ++ finish ++
  [.act (.work 0), .act .go, .act .go, .owner false]

/-- Decidable form of `Careful`. -/
def carefulB (x : X) : List XAct → Bool
  | [] => true
  | a :: as => (match a with | .owner _ => settled x.tr | _ => true) && (match xstep x a with
    | some x' => carefulB x' as
    | none => true)

theorem carefulB_iff {x : X} {acts : List XAct} (h : carefulB x acts = true) : Careful x acts := by
  induction acts generalizing x with
  | nil => trivial
  | cons a as ih =>
    simp only [carefulB, Bool.and_eq_true] at h
    refine ⟨?_, ?_⟩
    · rintro w rfl; exact h.1
    · intro x' hx
      have h2 := h.2
      rw [hx] at h2
      exact ih h2

example : ∃ x, NoCancel careful ∧ Careful xinit careful ∧ xexec xinit careful = some x ∧
    x.tr[0]? = some (none, .wr .data) ∧ x.tr[5]? = some (none, .rel (.create 0)) ∧
    x.tr[14]? = some (some 0, .rd .data) ∧ x.tr[16]? = some (some 0, .wr .data) ∧
    x.tr[21]? = some (none, .acq (.exit 0)) ∧ x.tr[22]? = some (none, .rd .data) := by
  obtain ⟨x, h1, _, h3⟩ := traceOf_some (acts := careful) (f := fun _ => true)
    (tr := [(none, .wr .data)] ++ bootTrace ++ [(some 0, .rd .data), (none, .rd .finished), (some 0, .wr .data)] ++
      finishTrace ++ [(some 0, .rel (.exit 0)), (none, .acq (.exit 0)), (none, .rd .data)]) (by decide +kernel)
  refine ⟨x, by decide +kernel, carefulB_iff (by decide +kernel), h1, ?_⟩
  rw [h3]
  decide +kernel

theorem xexec_append {x : X} {as bs : List XAct} : xexec x (as ++ bs) = (xexec x as).bind fun y => xexec y bs := by
  induction as generalizing x with
  | nil => rfl
  | cons a as ih =>
    simp only [List.cons_append, xexec]
    cases xstep x a with
    | none => rfl
    | some x' => exact ih

/-- `wait()` that finds the thread running, and returns `true`. -/
def waiting : List XAct := boot ++ [.body 0 true, .act .callWait, .act .go]
def waited : List XAct := finish ++ [.act .go, .act .go, .act .go, .act .go, .act .go]

example : ∃ x y, xexec xinit waiting = some x ∧ x.s.o = .wait2 ∧ x.s.finished = false ∧
    (∀ a ∈ waited, isCall a = false) ∧ xexec x (.act .go :: waited) = some y ∧ y.s.o = .idle ∧ y.s.ret = .wait true := by
  obtain ⟨x, h1, h2, _⟩ := traceOf_some (acts := waiting) (f := fun s => s.o == .wait2 && !s.finished)
    (tr := bootTrace ++ [(some 0, .wr .data)]) (by decide +kernel)
  obtain ⟨y, k1, k2, _⟩ := traceOf_some (acts := waiting ++ (.act .go :: waited)) (f := fun s => s.o == .idle && s.ret == .wait true)
    (tr := bootTrace ++ [(some 0, .wr .data), (none, .rd .starting), (none, .rd .finished)] ++ finishTrace ++
      [(none, .acq .mutex), (none, .rel .mutex), (none, .rd .finished), (none, .rd .finished)]) (by decide +kernel)
  rw [xexec_append, h1] at k1
  simp at h2 k2
  exact ⟨x, y, h1, h2.1, h2.2, by decide, k1, k2.1, k2.2⟩

/-- `join()` and the destructor that find the thread running. -/
example : ∃ x y, xexec xinit (boot ++ [.act .callJoin]) = some x ∧ x.s.o = .join ∧ x.s.finished = false ∧
    xexec x (.act .go :: (finish ++ [.act (.work 0), .act .go, .act .go])) = some y ∧ y.s.o = .idle := by
  obtain ⟨x, h1, h2, _⟩ := traceOf_some (acts := boot ++ [.act .callJoin]) (f := fun s => s.o == .join && !s.finished)
    (tr := bootTrace) (by decide +kernel)
  obtain ⟨y, k1, k2, _⟩ := traceOf_some
    (acts := boot ++ [.act .callJoin] ++ (.act .go :: (finish ++ [.act (.work 0), .act .go, .act .go]))) (f := fun s => s.o == .idle)
    (tr := bootTrace ++ [(none, .rd .finished)] ++ finishTrace ++ [(some 0, .rel (.exit 0)), (none, .acq (.exit 0))])
    (by decide +kernel)
  rw [xexec_append, h1] at k1
  simp at h2 k2
  exact ⟨x, y, h1, h2.1, h2.2, k1, k2⟩

example : ∃ x y, xexec xinit (boot ++ [.act .callDestroy, .act .go, .act .go]) = some x ∧ x.s.o = .destroyJoin ∧
    x.s.finished = false ∧
    xexec x (.act .go :: (finish ++ [.act (.work 0), .act .go, .act .go])) = some y ∧ y.s.o = .destroyed := by
  obtain ⟨x, h1, h2, _⟩ := traceOf_some (acts := boot ++ [.act .callDestroy, .act .go, .act .go])
    (f := fun s => s.o == .destroyJoin && !s.finished) (tr := bootTrace ++ [(none, .rd .starting), (none, .wr .execute)])
    (by decide +kernel)
  obtain ⟨y, k1, k2, _⟩ := traceOf_some
    (acts := boot ++ [.act .callDestroy, .act .go, .act .go] ++
      (.act .go :: (finish ++ [.act (.work 0), .act .go, .act .go]))) (f := fun s => s.o == .destroyed)
    (tr := bootTrace ++ [(none, .rd .starting), (none, .wr .execute), (none, .rd .finished)] ++ finishTrace ++
      [(some 0, .rel (.exit 0)), (none, .acq (.exit 0))])
    (by decide +kernel)
  rw [xexec_append, h1] at k1
  simp at h2 k2
  exact ⟨x, y, h1, h2.1, h2.2, k1, k2⟩

/-- Two runs of the same object that share data, with an unsynchronised `join()` between them. -/
def twice : List XAct := joinLate ++
  [.act .callStart, .act .go, .act .go, .act .go, .act .go, .act .go, .act .go,
   .act (.work 1), .act (.work 1), .act (.work 1), .act (.work 1), .body 1 true]

example : NoCancel twice ∧ ∃ x, ∃ q r : Nat, xexec xinit twice = some x ∧ x.tr[q]? = some (some 0, access true) ∧
    x.tr[r]? = some (some 1, access true) ∧ q < r := by
  refine ⟨by decide +kernel, ?_⟩
  obtain ⟨x, h1, _, h3⟩ := traceOf_some (acts := twice) (f := fun _ => true)
    (tr := bootTrace ++ [(some 0, .wr .data)] ++ finishTrace ++ [(none, .rd .finished), (none, .rd .data)] ++
      [(none, .rd .starting), (none, .rd .finished), (none, .wr .starting), (none, .wr .finished),
   (none, .rel (.create 1)), (none, .wr .threadId), (some 1, .acq (.create 1)), (some 1, .rd .threadId),
   (some 1, .acq .mutex), (some 1, .wr .execute), (some 1, .wr .starting), (some 1, .wr .finished),
   (some 1, .wr .data)]) (by decide +kernel)
  exact ⟨x, 13, 31, h1, by rw [h3]; decide +kernel, by rw [h3]; decide +kernel, by decide⟩

end Verif.Thread.HBT
