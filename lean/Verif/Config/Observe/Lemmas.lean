import Verif.Config.Observe.Spec

/-!
# Lemmas for C142
-/
namespace Verif.Cfg.Observe
open Verif.StdMap

variable {K V : Type} [LinearOrder K] [DecidableEq V] {e : K} {any : K → Bool} {rx : K → K → Bool}

theorem exec_append (s : St K V) (p q : List (Ev K V)) :
    exec e any rx s (p ++ q) = (exec e any rx s p).bind fun s' => exec e any rx s' q := by
  induction p generalizing s with
  | nil => rfl
  | cons a p ih =>
    simp only [List.cons_append, exec]
    cases step e any rx s a with
    | none => rfl
    | some s' => exact ih s'

/-- Induction over the events. -/
theorem exec_inv {P : List (Ev K V) → St K V → Prop} {s0 : St K V} (h0 : P [] s0)
    (hs : ∀ tr s ev s', P tr s → step e any rx s ev = some s' → P (tr ++ [ev]) s') :
    ∀ {tr : List (Ev K V)} {s : St K V}, exec e any rx s0 tr = some s → P tr s := by
  suffices ∀ (tr done : List (Ev K V)) (s1 s : St K V), P done s1 → exec e any rx s1 tr = some s → P (done ++ tr) s by
    intro tr s h
    exact this tr [] s0 s h0 h
  intro tr
  induction tr with
  | nil =>
    intro done s1 s hp h
    simp only [exec, Option.some.injEq] at h
    subst h
    simpa using hp
  | cons a tr ih =>
    intro done s1 s hp h
    simp only [exec, Option.bind_eq_some_iff] at h
    obtain ⟨s2, h1, h2⟩ := h
    have := ih (done ++ [a]) s2 s (hs _ _ _ _ hp h1) h2
    simpa using this

/-! ## The trace functions, one more event -/

theorem active_snoc (tr : List (Ev K V)) (ev : Ev K V) : active (tr ++ [ev]) = match ev with
    | .reg o k => active tr ++ [(o, k)]
    | .unreg o => (active tr).filter fun a => a.1 ≠ o
    | _ => active tr := by
  simp only [active, List.foldl_append, List.foldl_cons, List.foldl_nil]
  cases ev <;> rfl

theorem current_snoc (k : K) (tr : List (Ev K V)) (ev : Ev K V) : current k (tr ++ [ev]) = match ev with
    | .set k' v => if k' = k then some v else current k tr
    | _ => current k tr := by
  simp only [current, List.foldl_append, List.foldl_cons, List.foldl_nil]
  cases ev <;> rfl

theorem lastSeen_snoc (o : Nat) (k : K) (tr : List (Ev K V)) (ev : Ev K V) : lastSeen o k (tr ++ [ev]) = match ev with
    | .call o' k' v => if o' = o ∧ k' = k then some v else lastSeen o k tr
    | _ => lastSeen o k tr := by
  simp only [lastSeen, List.foldl_append, List.foldl_cons, List.foldl_nil]
  cases ev <;> rfl

theorem calls_snoc (o : Nat) (k : K) (tr : List (Ev K V)) (ev : Ev K V) : calls o k (tr ++ [ev]) = calls o k tr +
    match ev with
    | .call o' k' _ => if o' = o ∧ k' = k then 1 else 0
    | _ => 0 := by
  simp only [calls, List.countP_append, List.countP_cons, List.countP_nil, Nat.zero_add]
  cases ev <;> simp

theorem callsOf_snoc (o : Nat) (tr : List (Ev K V)) (ev : Ev K V) : callsOf o (tr ++ [ev]) = callsOf o tr +
    match ev with
    | .call o' _ _ => if o' = o then 1 else 0
    | _ => 0 := by
  simp only [callsOf, List.countP_append, List.countP_cons, List.countP_nil, Nat.zero_add]
  cases ev <;> simp

theorem owed_append (o : Nat) (k : K) (p : List (Ev K V)) : ∀ (past q : List (Ev K V)),
    owed e rx o k past (p ++ q) = owed e rx o k past p + owed e rx o k (past ++ p) q := by
  induction p with
  | nil => simp [owed]
  | cons a p ih =>
    intro past q
    simp only [List.cons_append, owed, ih]
    simp only [List.append_assoc, List.cons_append, List.nil_append]
    omega

/-! ## The state after the events -/

structure Inv (tr : List (Ev K V)) (s : St K V) : Prop where
  sorted : Sorted s.items
  items : ∀ k, find s.items k = current k tr
  obs : ∀ k, s.obs k = ((active tr).filter fun a => a.2 = k).map Prod.fst

theorem Inv.init : Inv ([] : List (Ev K V)) St.init :=
  ⟨sorted_nil, fun _ => rfl, fun _ => rfl⟩

/-- What a step does to the data and the stack. -/
theorem step_cases {s s' : St K V} {ev : Ev K V} (h : step e any rx s ev = some s') :
    (∃ k v, ev = .set k v ∧ userRuns s.stack = true ∧
      s' = { s with items := assign s.items k v, stack := .telling (s.obs k ++ s.obs e) k :: s.stack }) ∨
    (∃ o k, ev = .reg o k ∧ userRuns s.stack = true ∧
      s' = { s with obs := (fun q => if q = k then s.obs q ++ [o] else s.obs q)
                    stack := (if k = e then .listing o none
                      else .telling (if s.items.any (fun x => rx k x.1) = true then [o] else []) k) :: s.stack }) ∨
    (∃ o, ev = .unreg o ∧ userRuns s.stack = true ∧
      s' = { s with obs := fun q => (s.obs q).filter (· ≠ o) }) ∨
    (∃ o k st, ev = .ret ∧ s.stack = .callback o k :: st ∧ s' = { s with stack := st }) ∨
    (∃ o k r st, ev = .call o k (find s.items k) ∧ s.stack = .telling (o :: r) k :: st ∧
      s' = { s with stack := .callback o k :: .telling r k :: st }) ∨
    (∃ o k last st, ev = .call o k (find s.items k) ∧ s.stack = .listing o last :: st ∧
      nextKey any s.items last = some k ∧ s' = { s with stack := .callback o k :: .listing o (some k) :: st }) ∨
    (∃ k st, ev = .done ∧ s.stack = .telling [] k :: st ∧ s' = { s with stack := st }) ∨
    (∃ o last st, ev = .done ∧ s.stack = .listing o last :: st ∧ nextKey any s.items last = none ∧
      s' = { s with stack := st }) := by
  cases ev with
  | set k v =>
    simp only [step] at h
    split at h
    · cases h; exact .inl ⟨k, v, rfl, by assumption, rfl⟩
    · cases h
  | reg o k =>
    simp only [step] at h
    split at h
    · refine .inr (.inl ⟨o, k, rfl, by assumption, ?_⟩)
      split at h
      · cases h; simp [*]
      · split at h <;> cases h <;> simp [*]
    · cases h
  | unreg o =>
    simp only [step] at h
    split at h
    · cases h; exact .inr (.inr (.inl ⟨o, rfl, by assumption, rfl⟩))
    · cases h
  | ret =>
    simp only [step] at h
    split at h
    · cases h; exact .inr (.inr (.inr (.inl ⟨_, _, _, rfl, by assumption, rfl⟩)))
    · cases h
  | call o k v =>
    simp only [step] at h
    split at h
    · cases h
    · rename_i hv
      have hv := Classical.not_not.1 hv
      subst hv
      split at h
      · split at h
        · rename_i hk
          obtain ⟨rfl, rfl⟩ := hk
          cases h
          exact .inr (.inr (.inr (.inr (.inl ⟨_, _, _, _, rfl, by assumption, rfl⟩))))
        · cases h
      · split at h
        · rename_i hk
          obtain ⟨rfl, hn⟩ := hk
          cases h
          exact .inr (.inr (.inr (.inr (.inr (.inl ⟨_, _, _, _, rfl, by assumption, hn, rfl⟩)))))
        · cases h
      · cases h
  | done =>
    simp only [step] at h
    split at h
    · cases h; exact .inr (.inr (.inr (.inr (.inr (.inr (.inl ⟨_, _, rfl, by assumption, rfl⟩))))))
    · split at h
      · cases h; exact .inr (.inr (.inr (.inr (.inr (.inr (.inr ⟨_, _, _, rfl, by assumption, by assumption, rfl⟩))))))
      · cases h
    · cases h

theorem Inv.step {tr : List (Ev K V)} {s s' : St K V} {ev : Ev K V} (i : Inv tr s)
    (h : step e any rx s ev = some s') : Inv (tr ++ [ev]) s' := by
  have hs := i.sorted
  have hi := i.items
  have ho := i.obs
  rcases step_cases h with ⟨k, v, rfl, _, rfl⟩ | ⟨o, k, rfl, _, rfl⟩ | ⟨o, rfl, _, rfl⟩ | ⟨o, k, st, rfl, _, rfl⟩ |
    ⟨o, k, r, st, rfl, _, rfl⟩ | ⟨o, k, last, st, rfl, _, _, rfl⟩ | ⟨k, st, rfl, _, rfl⟩ | ⟨o, last, st, rfl, _, _, rfl⟩
  · refine ⟨sorted_assign hs _ _, ?_, ?_⟩
    · intro q
      rw [current_snoc]
      simp only [find_assign hs, hi]
      by_cases hq : k = q
      · simp [hq]
      · simp [hq, Ne.symm hq]
    · intro q; rw [active_snoc]; exact ho q
  · refine ⟨hs, ?_, ?_⟩
    · intro q; rw [current_snoc]; exact hi q
    · intro q; rw [active_snoc]
      simp only [List.filter_append, List.map_append, ho q]
      by_cases hq : q = k
      · subst hq; simp
      · simp [hq, Ne.symm hq]
  · refine ⟨hs, ?_, ?_⟩
    · intro q; rw [current_snoc]; exact hi q
    · intro q; rw [active_snoc]
      simp only [ho q, List.filter_map, List.filter_filter]
      congr 1
      apply List.filter_congr
      intro a _
      simp [Bool.and_comm]
  all_goals
    refine ⟨hs, ?_, ?_⟩
    · intro q; rw [current_snoc]; exact hi q
    · intro q; rw [active_snoc]; exact ho q

theorem inv_exec {tr : List (Ev K V)} {s : St K V} (h : exec e any rx St.init tr = some s) : Inv tr s :=
  exec_inv (P := Inv) Inv.init (fun _ _ _ _ i hs => i.step hs) h

/-- `nextKey` gives the least matching key after `last`. -/
theorem nextKey_least {items : List (K × V)} (hs : Sorted items) {last : Option K} {k : K}
    (h : nextKey any items last = some k) {q : K} {v : V} (hq : find items q = some v) (hm : any q = true)
    (hl : ∀ l, last = some l → l < q) : q = k ∨ k < q := by
  simp only [nextKey, Option.map_eq_some_iff] at h
  obtain ⟨⟨k', v'⟩, hf, hk⟩ := h
  simp only at hk; subst hk
  rw [List.find?_eq_some_iff_append] at hf
  obtain ⟨_, as, bs, rfl, hn⟩ := hf
  have hmem := (find_eq_some hs q v).1 hq
  rw [List.mem_append] at hmem
  rcases hmem with hmem | hmem
  · have := hn _ hmem
    cases last with
    | none => simp [hm] at this
    | some l => simp [hm, hl l rfl] at this
  · rcases List.mem_cons.1 hmem with hmem | hmem
    · cases hmem; exact .inl rfl
    · right
      have h2 := List.pairwise_append.1 hs
      exact (List.pairwise_cons.1 h2.2.1).1 _ hmem

theorem nextKey_none {items : List (K × V)} (hs : Sorted items) {last : Option K}
    (h : nextKey any items last = none) {q : K} {v : V} (hq : find items q = some v) (hm : any q = true)
    (hl : ∀ l, last = some l → l < q) : False := by
  simp only [nextKey, Option.map_eq_none_iff, List.find?_eq_none] at h
  have := h _ ((find_eq_some hs q v).1 hq)
  cases last with
  | none => simp [hm] at this
  | some l => simp [hm, hl l rfl] at this

end Verif.Cfg.Observe
