import Verif.Config.Observe.Props
import Mathlib.Order.Nat

/-!
# C142: examples and violations

Keys and values are numbers, key 0 stands for `""`, and a key matches itself only.
-/
namespace Verif.Cfg.Observe
open Verif.StdMap

/-- The events can happen in this order, and control is back in the main program. -/
def complete (tr : List (Ev Nat Nat)) : Bool :=
  match exec 0 (fun _ => true) (fun q k => decide (q = k)) St.init tr with
  | some s => decide (s.stack = [])
  | none => false

theorem complete_exec {tr : List (Ev Nat Nat)} (h : complete tr = true) :
    ∃ s, exec 0 (fun _ => true) (fun q k => decide (q = k)) St.init tr = some s ∧ s.stack = [] := by
  simp only [complete] at h
  split at h
  · exact ⟨_, by assumption, of_decide_eq_true h⟩
  · cases h

/-- Observer 1 corrects the value of key 5 that the main program sets. -/
def corrects : List (Ev Nat Nat) :=
  [.reg 1 5, .done, .reg 2 5, .done, .set 5 7, .call 1 5 (some 7), .set 5 9, .call 1 5 (some 9), .ret,
    .call 2 5 (some 9), .ret, .done, .ret, .call 2 5 (some 9), .ret, .done]

/-- A run that meets the hypotheses of `c142_told_current` and `c142_exact_calls`. -/
example : complete corrects = true ∧ (2, 5) ∈ active corrects ∧ current 5 corrects = some 9 ∧
    lastSeen 2 5 corrects = some (some 9) ∧ calls 2 5 corrects = 2 ∧
    owed 0 (fun q k => decide (q = k)) 2 5 [] corrects = 2 := by decide +kernel

/-- An observer for all keys inserts a key while it is told about all keys. -/
example : complete [.set 3 1, .done, .reg 1 0, .call 1 3 (some 1), .set 5 2, .call 1 5 (some 2), .ret, .done, .ret,
    .call 1 5 (some 2), .ret, .done] = true := by decide +kernel

/-- Finding: an observer need not see every value: observer 2 is called twice and never sees the value 7 that the main
program has set, because observer 1 has changed it. -/
theorem c142_value_unseen : ∃ tr : List (Ev Nat Nat), complete tr = true ∧ Ev.set 5 7 ∈ tr ∧ calls 2 5 tr = 2 ∧
    Ev.call 2 5 (some 7) ∉ tr ∧ ∀ ev ∈ tr, ev ≠ .unreg 2 :=
  ⟨corrects, by decide +kernel, by decide +kernel, by decide +kernel, by decide +kernel, by decide +kernel⟩

/-- Observer 1 removes observer 2. -/
def removes : List (Ev Nat Nat) :=
  [.reg 1 5, .done, .reg 2 5, .done, .set 5 7, .call 1 5 (some 7), .unreg 2, .ret, .call 2 5 (some 7), .ret, .done]

/-- Finding: an observer is called after it has been unregistered. If it was unregistered by its destructor
(ConfigObserver.h:53-56), the object does not exist any more. -/
theorem c142_called_after_unregister : ∃ pre post : List (Ev Nat Nat), complete (pre ++ .unreg 2 :: post) = true ∧
    (∀ q, Ev.reg 2 q ∉ post) ∧ calls 2 5 post = 1 :=
  ⟨removes.take 6, removes.drop 7, by decide +kernel, by
    intro q; simp [removes], by decide +kernel⟩

/-- The hypotheses of `c142_after_unregister`. -/
example : complete (removes.take 6 ++ .unreg 2 :: removes.drop 7) = true ∧ calls 2 5 (removes.take 6) = 0 ∧
    calls 2 5 (removes.drop 7) = 1 ∧ owed 0 (fun q k => decide (q = k)) 2 5 [] (removes.take 6) = 1 := by decide +kernel

/-- The hypotheses of `c142_silent_partial`: the main program unregisters. -/
example : complete [.reg 2 5, .done] = true ∧ complete ([.reg 2 5, .done] ++ .unreg 2 :: [.set 5 7, .done]) = true := by
  decide +kernel

/-- One round of an observer that sets its own key. -/
def rounds : Nat → List (Ev Nat Nat)
  | 0 => []
  | n + 1 => .call 1 5 (some 7) :: .set 5 7 :: rounds n

theorem rounds_run (m : Nat) : ∀ (s : St Nat Nat) (st : List (Frame Nat)), s.items = [(5, 7)] → s.obs 5 = [1] →
    s.obs 0 = [] → s.stack = .telling [1] 5 :: st →
    ∃ s', exec 0 (fun _ => true) (fun q k => decide (q = k)) s (rounds m) = some s' ∧ st.length + m ≤ s'.stack.length := by
  induction m with
  | zero => intro s st _ _ _ hs; exact ⟨s, rfl, by simp [hs]⟩
  | succ m ihm =>
    intro s st hi ho h0 hs
    have h1 : step 0 (fun _ => true) (fun q k => decide (q = k)) s (.call 1 5 (some 7)) =
        some { s with stack := .callback 1 5 :: .telling [] 5 :: st } := by
      simp [step, hi, hs, find]
    have h2 : step 0 (fun _ => true) (fun q k => decide (q = k))
        { s with stack := .callback 1 5 :: .telling [] 5 :: st } (.set 5 7) =
        some { s with stack := .telling [1] 5 :: .callback 1 5 :: .telling [] 5 :: st } := by
      simp [step, userRuns, hi, ho, h0, assign]
    obtain ⟨s', h3, h4⟩ := ihm { s with stack := .telling [1] 5 :: .callback 1 5 :: .telling [] 5 :: st }
      (.callback 1 5 :: .telling [] 5 :: st) hi ho h0 rfl
    refine ⟨s', ?_, ?_⟩
    · simp only [rounds, exec, h1, h2, Option.bind_some]; exact h3
    · simp only [List.length_cons] at h4; omega

/-- Finding: an observer that sets its own key is called again for that, without end and ever deeper, even if it
sets the value that the key already has. -/
theorem c142_endless (n : Nat) : ∃ s : St Nat Nat, exec 0 (fun _ => true) (fun q k => decide (q = k)) St.init
    ([.reg 1 5, .done, .set 5 7] ++ rounds n) = some s ∧ n ≤ s.stack.length := by
  rw [exec_append]
  obtain ⟨s', h1, h2⟩ := rounds_run n ⟨[(5, 7)], fun q => if q = 5 then [1] else [], [.telling [1] 5]⟩ [] rfl rfl rfl rfl
  refine ⟨s', ?_, by simpa using h2⟩
  rw [← h1]
  rfl

variable {K V : Type} [LinearOrder K] [DecidableEq V] {e : K} {any : K → Bool} {rx : K → K → Bool}

theorem telling_quiet (k : K) (v : V) (items : List (K × V)) (obs : K → List Nat) (st : List (Frame K))
    (hf : find items k = some v) (r : List Nat) :
    exec e any rx ⟨items, obs, .telling r k :: st⟩ ((r.flatMap fun o => [.call o k (some v), .ret]) ++ [.done]) =
      some ⟨items, obs, st⟩ := by
  induction r with
  | nil => rfl
  | cons o r ih =>
    simp only [List.flatMap_cons, List.cons_append, List.nil_append, exec]
    have h1 : step e any rx ⟨items, obs, .telling (o :: r) k :: st⟩ (.call o k (some v)) =
        some ⟨items, obs, .callback o k :: .telling r k :: st⟩ := by simp [step, hf]
    rw [h1]
    exact ih

/-- C142: if the observers only look, `setValue` calls those for the key and then those for all keys, in the order of
registration, each with the new value, and changes nothing else. -/
theorem c142_quiet (s : St K V) (hs : Sorted s.items) (hu : userRuns s.stack = true) (k : K) (v : V) :
    exec e any rx s (.set k v :: ((s.obs k ++ s.obs e).flatMap fun o => [.call o k (some v), .ret]) ++ [.done]) =
      some { s with items := assign s.items k v } := by
  have h1 : step e any rx s (.set k v) =
      some ⟨assign s.items k v, s.obs, .telling (s.obs k ++ s.obs e) k :: s.stack⟩ := by simp [step, hu]
  rw [List.cons_append, exec, h1]
  exact telling_quiet k v _ _ _ (by rw [find_assign hs]; simp) _

end Verif.Cfg.Observe
