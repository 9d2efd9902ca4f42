import Verif.Config.Observe.Pending

/-!
# C142: observers that call back into the configuration manager
-/
namespace Verif.Cfg.Observe
open Verif.StdMap

variable {K V : Type} [LinearOrder K] [DecidableEq V] {e : K} {any : K → Bool} {rx : K → K → Bool}

/-- C142: whatever the observers do in their callbacks — set other values or the same one again, register and
unregister observers, to any depth —, when control is back in the main program every registered observer has
been called for its key since the last change: what it saw in its last call is the current value. The query `.*`
has to match every key and the key itself as a regular expression the key. -/
theorem c142_told_current (hany : ∀ q, any q = true) {tr : List (Ev K V)} {s : St K V}
    (h : exec e any rx St.init tr = some s) (hs : s.stack = []) (o : Nat) (k : K) (hrx : rx k k = true)
    (ha : (o, k) ∈ active tr ∨ (o, e) ∈ active tr) (v : V) (hv : current k tr = some v) :
    find s.items k = some v ∧ lastSeen o k tr = some (some v) := by
  have := exec_inv (P := Told e o k) ⟨Inv.init, by simp [active]⟩ (fun _ _ _ _ i hst => i.step hany hrx hst) h
  refine ⟨by rw [this.1.items]; exact hv, ?_⟩
  rcases this.2 ha v hv with h1 | h1
  · exact h1
  · rw [hs] at h1
    rcases h1 with ⟨r, h1, _⟩ | ⟨l, h1, _⟩ <;> cases h1

/-- C142: an observer that is not registered for all keys is called, by the time control is back in the main
program, exactly once for each `setValue` and each registration active at that moment, and once for each registration
with a pattern that some key matches; nesting neither loses nor adds a call. -/
theorem c142_exact_calls {tr : List (Ev K V)} {s : St K V} (h : exec e any rx St.init tr = some s) (hs : s.stack = [])
    (o : Nat) (k : K) (hno : ∀ ev ∈ tr, ev ≠ .reg o e) : calls o k tr = owed e rx o k [] tr := by
  have := exec_inv (P := Counted e rx o k) (fun _ => ⟨Inv.init, by simp [St.init], rfl⟩) (fun _ _ _ _ i hst => i.step hst) h
  have := (this hno).2.2
  rw [hs] at this
  simpa [due] using this

theorem owed_unregistered (o : Nat) (k : K) (post : List (Ev K V)) : ∀ (past : List (Ev K V)),
    (∀ q, (o, q) ∉ active past) → (∀ q, Ev.reg o q ∉ post) → owed e rx o k past post = 0 := by
  induction post with
  | nil => intros; rfl
  | cons ev post ih =>
    intro past ha hn
    have ha' : ∀ q, (o, q) ∉ active (past ++ [ev]) := by
      intro q
      rw [active_snoc]
      cases ev with
      | reg o' k' =>
        simp only [List.mem_append, List.mem_singleton, Prod.mk.injEq, not_or]
        refine ⟨ha q, ?_⟩
        rintro ⟨rfl, rfl⟩
        exact hn q (by simp)
      | unreg o' => simp only [List.mem_filter]; exact fun h => ha q h.1
      | _ => exact ha q
    have ih' := ih _ ha' (fun q hq => hn q (List.mem_cons_of_mem _ hq))
    cases ev with
    | set k' v => simp [owed, ih', List.count_eq_zero_of_not_mem, ha]
    | reg o' k' =>
      have : o' ≠ o := by rintro rfl; exact hn k' (by simp)
      simp [owed, ih', this]
    | _ => simp [owed, ih']

theorem not_active_unreg (o : Nat) (past : List (Ev K V)) (q : K) : (o, q) ∉ active (past ++ [.unreg o]) := by
  rw [active_snoc]
  simp

/-- C142: after `unregisterObserver(o)`, called by an observer or by the main program, `o` is still called for the
changes whose notification was in progress, and for no others: exactly as many calls follow as were owed
and not made before. -/
theorem c142_after_unregister {pre post : List (Ev K V)} {s : St K V} (o : Nat) (k : K)
    (h : exec e any rx St.init (pre ++ .unreg o :: post) = some s) (hs : s.stack = [])
    (hno : ∀ ev ∈ pre, ev ≠ .reg o e) (hpost : ∀ q, Ev.reg o q ∉ post) :
    calls o k pre + calls o k post = owed e rx o k [] pre := by
  have h1 := c142_exact_calls h hs o k (by
    intro ev hev
    rcases List.mem_append.1 hev with hev | hev
    · exact hno ev hev
    · rcases List.mem_cons.1 hev with rfl | hev
      · simp
      · rintro rfl; exact hpost e hev)
  have h2 : owed e rx o k pre (.unreg o :: post) = 0 := by
    simp only [owed, Nat.zero_add]
    exact owed_unregistered o k post _ (not_active_unreg o pre) hpost
  rw [owed_append, List.nil_append, h2] at h1
  simp only [calls, List.countP_append, List.countP_cons] at h1 ⊢
  simpa using h1

/-- No call of `o` is to come. -/
def Silent (o : Nat) (s : St K V) : Prop :=
  (∀ q, o ∉ s.obs q) ∧ (∀ r k, Frame.telling r k ∈ s.stack → o ∉ r) ∧ ∀ last, Frame.listing o last ∉ s.stack

/-- C142: an observer that the main program unregisters is never called again, until it is registered again. -/
theorem c142_silent_partial {pre post : List (Ev K V)} {s0 s : St K V} (o : Nat)
    (h0 : exec e any rx St.init pre = some s0) (hs : s0.stack = [])
    (h : exec e any rx St.init (pre ++ .unreg o :: post) = some s) (hpost : ∀ q, Ev.reg o q ∉ post) :
    callsOf o post = 0 := by
  have e1 : pre ++ .unreg o :: post = (pre ++ [.unreg o]) ++ post := by simp
  rw [e1, exec_append, Option.bind_eq_some_iff] at h
  obtain ⟨s1, h1, h2⟩ := h
  have i1 := inv_exec h1
  have hst : s1.stack = [] := by
    rw [exec_append, h0] at h1
    simp only [Option.bind_some, exec, Option.bind_eq_some_iff, Option.some.injEq] at h1
    obtain ⟨_, h1, rfl⟩ := h1
    simp only [step, hs, userRuns, if_true, Option.some.injEq] at h1
    rw [← h1]
  refine exec_inv (e := e) (any := any) (rx := rx) (s0 := s1)
    (P := fun tr s => (∀ q, Ev.reg o q ∉ tr) → Silent o s ∧ callsOf o tr = 0) ?_ ?_ h2 hpost |>.2
  · intro _
    refine ⟨⟨?_, by simp [hst], by simp [hst]⟩, rfl⟩
    intro q
    rw [i1.obs, active_snoc]
    simp
  · intro tr s ev s' ih hstep hreg
    obtain ⟨⟨so, st, sl⟩, hc⟩ := ih (fun q hq => hreg q (List.mem_append_left _ hq))
    have hev : ∀ q, ev ≠ .reg o q := by rintro q rfl; exact hreg q (by simp)
    rw [callsOf_snoc, hc]
    rcases step_cases hstep with ⟨k', v', rfl, _, rfl⟩ | ⟨o', k', rfl, _, rfl⟩ | ⟨o', rfl, _, rfl⟩ |
      ⟨o', k', st', rfl, e1, rfl⟩ | ⟨o', k', r, st', rfl, e1, rfl⟩ | ⟨o', k', last, st', rfl, e1, e2, rfl⟩ |
      ⟨k', st', rfl, e1, rfl⟩ | ⟨o', last, st', rfl, e1, e2, rfl⟩
    · refine ⟨⟨so, ?_, ?_⟩, rfl⟩
      · intro r k hm
        rcases List.mem_cons.1 hm with hm | hm
        · cases hm; simp [so]
        · exact st r k hm
      · intro last hm; exact sl last (by simpa using hm)
    · have ho : o ≠ o' := by rintro rfl; exact hev k' rfl
      refine ⟨⟨?_, ?_, ?_⟩, rfl⟩
      · intro q
        simp only
        split
        · simp [so, ho]
        · exact so q
      · intro r k hm
        rcases List.mem_cons.1 hm with hm | hm
        · split at hm
          · cases hm
          · cases hm
            split <;> simp [ho]
        · exact st r k hm
      · intro last hm
        rcases List.mem_cons.1 hm with hm | hm
        · split at hm
          · cases hm; exact ho rfl
          · cases hm
        · exact sl last hm
    · refine ⟨⟨?_, st, sl⟩, rfl⟩
      intro q hq
      exact so q (List.mem_filter.1 hq).1
    · rw [e1] at st sl
      exact ⟨⟨so, fun r k hm => st r k (List.mem_cons_of_mem _ hm), fun l hm => sl l (List.mem_cons_of_mem _ hm)⟩, rfl⟩
    · rw [e1] at st sl
      have ho := st _ _ List.mem_cons_self
      simp only [List.mem_cons, not_or] at ho
      refine ⟨⟨so, ?_, ?_⟩, by simp [Ne.symm ho.1]⟩
      · intro r' k hm
        simp only [List.mem_cons, reduceCtorEq, false_or] at hm
        rcases hm with hm | hm
        · cases hm; exact ho.2
        · exact st r' k (List.mem_cons_of_mem _ hm)
      · intro l hm; exact sl l (by simpa using hm)
    · rw [e1] at st sl
      have ho : o' ≠ o := by rintro rfl; exact sl last (by simp)
      refine ⟨⟨so, ?_, ?_⟩, by simp [ho]⟩
      · intro r' k hm; exact st r' k (by simpa using hm)
      · intro l hm
        simp only [List.mem_cons, reduceCtorEq, false_or] at hm
        rcases hm with hm | hm
        · cases hm; exact ho rfl
        · exact sl l (List.mem_cons_of_mem _ hm)
    · rw [e1] at st sl
      exact ⟨⟨so, fun r k hm => st r k (List.mem_cons_of_mem _ hm), fun l hm => sl l (List.mem_cons_of_mem _ hm)⟩, rfl⟩
    · rw [e1] at st sl
      exact ⟨⟨so, fun r k hm => st r k (List.mem_cons_of_mem _ hm), fun l hm => sl l (List.mem_cons_of_mem _ hm)⟩, rfl⟩

/-- C142: a function of the library never gets stuck: it calls the next observer or returns, and it does one thing
only. -/
theorem c142_progress (s : St K V) (h : userRuns s.stack = false) :
    ∃ ev s', step e any rx s ev = some s' ∧ (ev = .done ∨ ∃ o k v, ev = .call o k v) ∧
      ∀ ev' s'', step e any rx s ev' = some s'' → ev' = ev := by
  obtain ⟨items, obs, stack⟩ := s
  match stack with
  | [] => cases h
  | .callback _ _ :: _ => cases h
  | .telling [] k :: st =>
    refine ⟨.done, _, rfl, .inl rfl, ?_⟩
    intro ev' s'' h'
    cases ev' <;> simp [step, userRuns] at h' ⊢
  | .telling (o :: r) k :: st =>
    refine ⟨.call o k (find items k), _, by simp [step]; rfl, .inr ⟨_, _, _, rfl⟩, ?_⟩
    intro ev' s'' h'
    cases ev' <;> simp [step, userRuns] at h' ⊢
    obtain ⟨h1, ⟨h2, h3⟩, _⟩ := h'
    subst h2 h3
    exact ⟨rfl, rfl, h1⟩
  | .listing o last :: st =>
    cases hn : nextKey any items last with
    | none =>
      refine ⟨.done, _, by simp [step, hn]; rfl, .inl rfl, ?_⟩
      intro ev' s'' h'
      cases ev' <;> simp [step, userRuns, hn] at h' ⊢
    | some k =>
      refine ⟨.call o k (find items k), _, by simp [step, hn]; rfl, .inr ⟨_, _, _, rfl⟩, ?_⟩
      intro ev' s'' h'
      cases ev' <;> simp [step, userRuns, hn] at h' ⊢
      obtain ⟨h1, ⟨h2, h3⟩, _⟩ := h'
      subst h2 h3
      exact ⟨rfl, rfl, h1⟩

end Verif.Cfg.Observe
