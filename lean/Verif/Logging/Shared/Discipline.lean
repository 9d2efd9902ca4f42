import Verif.Logging.Shared.Lemmas

/-!
# Each variable's mutex is held whenever it is accessed
-/
namespace Verif.Logging.Shared
open Verif.Race

/-- Accesses of `x`. -/
abbrev acc (x : Var) : E → Bool := fun e => decide (e = .rd x ∨ e = .wr x)

/-- Writes of `x`. -/
abbrev wrt (x : Var) : E → Bool := fun e => decide (e = .wr x)

theorem all_quiet {worker : Nat → Bool} {es : List E} (h : PushAll worker es) (s : Nat) :
    ∀ e ∈ es, e ≠ .acq (.stream s) ∧ e ≠ .rel (.stream s) := by
  intro e he
  obtain ⟨o, es', hp, he'⟩ := h.mem e he
  have := hp.mem e he'
  grind

theorem all_quiet2 {worker : Nat → Bool} {es : List E} (h : PushAll worker es) (x : Var)
    (hx : (∃ s, x = .outputs s) ∨ (∃ s, x = .pool s)) : ∀ e ∈ es, acc x e = false := by
  intro e he
  obtain ⟨o, es', hp, he'⟩ := h.mem e he
  have := hp.mem e he'
  simp only [acc, decide_eq_false_iff_not]
  grind

/-! ## The list of outputs and the pool -/

theorem outputs_call {worker : Nat → Bool} {a : Api} {es : List E} (s : Nat) (h : Call worker a es)
    (hp : ∀ ss os, a = .printConfiguration ss os → s ∉ ss) :
    guarded (acc (.outputs s)) (.stream s) false es = some false := by
  cases h with
  | flush s' k es he =>
    by_cases hs : s' = s
    · subst hs
      have := guarded_inside (acc (.outputs s')) (.stream s') es (all_quiet he s')
      simp [guarded, guarded_append, this]
    · have := guarded_quiet (acc (.outputs s)) (.stream s) es false (fun e h => ⟨(all_quiet he s e h).1,
        (all_quiet he s e h).2, all_quiet2 he _ (.inl ⟨s, rfl⟩) e h⟩)
      simp [guarded, guarded_append, this, hs]
  | setLogLevel ss os =>
    refine guarded_quiet _ _ _ _ ?_
    intro e he
    simp only [List.mem_append, List.mem_map] at he
    rcases he with ⟨_, _, rfl⟩ | ⟨_, _, rfl⟩ <;> simp
  | printConfiguration ss os =>
    refine guarded_quiet _ _ _ _ ?_
    intro e he
    have := hp ss os rfl
    simp only [List.mem_append, List.mem_map] at he
    rcases he with ⟨_, _, rfl⟩ | ⟨u, hu, rfl⟩
    · simp
    · have : u ≠ s := by rintro rfl; exact this hu
      simp [this]
  | found s' k => by_cases hs : s' = s <;> simp [guarded, hs]
  | taken s' k => by_cases hs : s' = s <;> simp [guarded, hs]
  | add s' => by_cases hs : s' = s <;> simp [guarded, hs]
  | remove s' => by_cases hs : s' = s <;> simp [guarded, hs]
  | _ => simp [guarded]

theorem pool_call {worker : Nat → Bool} {a : Api} {es : List E} (s : Nat) (h : Call worker a es) :
    guarded (acc (.pool s)) (.stream s) false es = some false := by
  cases h with
  | flush s' k es he =>
    by_cases hs : s' = s
    · subst hs
      have := guarded_inside (acc (.pool s')) (.stream s') es (all_quiet he s')
      simp [guarded, guarded_append, this]
    · have := guarded_quiet (acc (.pool s)) (.stream s) es false (fun e h => ⟨(all_quiet he s e h).1,
        (all_quiet he s e h).2, all_quiet2 he _ (.inr ⟨s, rfl⟩) e h⟩)
      simp [guarded, guarded_append, this, hs]
  | setLogLevel ss os =>
    refine guarded_quiet _ _ _ _ ?_
    intro e he
    simp only [List.mem_append, List.mem_map] at he
    rcases he with ⟨_, _, rfl⟩ | ⟨_, _, rfl⟩ <;> simp
  | printConfiguration ss os =>
    refine guarded_quiet _ _ _ _ ?_
    intro e he
    simp only [List.mem_append, List.mem_map] at he
    rcases he with ⟨_, _, rfl⟩ | ⟨u, hu, rfl⟩ <;> simp
  | found s' k => by_cases hs : s' = s <;> simp [guarded, hs]
  | taken s' k => by_cases hs : s' = s <;> simp [guarded, hs]
  | add s' => by_cases hs : s' = s <;> simp [guarded, hs]
  | remove s' => by_cases hs : s' = s <;> simp [guarded, hs]
  | _ => simp [guarded]

/-! ## The format -/

theorem format_impl {o o' : Nat} {es : List E} (h : PushImpl o' es) :
    guarded (acc (.format o)) (.format o) false es = some false := by
  cases h <;> by_cases ho : o' = o <;> simp [guarded, ho]

theorem format_push {worker : Nat → Bool} {o o' : Nat} {es : List E} (h : Push worker o' es) :
    guarded (acc (.format o)) (.format o) false es = some false := by
  cases h with
  | direct hw es hp => simp [guarded, guarded_append, format_impl hp]
  | _ => simp [guarded]

theorem format_all {worker : Nat → Bool} {o : Nat} {es : List E} (h : PushAll worker es) :
    guarded (acc (.format o)) (.format o) false es = some false := by
  induction h with
  | done => rfl
  | push o es rest hp hr ih => simp [guarded_append, format_push hp, ih]

theorem format_call {worker : Nat → Bool} {a : Api} {es : List E} (o : Nat) (h : Call worker a es) :
    guarded (acc (.format o)) (.format o) false es = some false := by
  cases h with
  | flush s' k es he => simp [guarded, guarded_append, format_all he]
  | setLogLevel ss os =>
    refine guarded_quiet _ _ _ _ ?_
    intro e he
    simp only [List.mem_append, List.mem_map] at he
    rcases he with ⟨_, _, rfl⟩ | ⟨_, _, rfl⟩ <;> simp
  | printConfiguration ss os =>
    refine guarded_quiet _ _ _ _ ?_
    intro e he
    simp only [List.mem_append, List.mem_map] at he
    rcases he with ⟨_, _, rfl⟩ | ⟨u, hu, rfl⟩ <;> simp
  | changeLogFormat o' => by_cases ho : o' = o <;> simp [guarded, ho]
  | _ => simp [guarded]

theorem format_round {o o' : Nat} {es : List E} (h : Round o' es) :
    guarded (acc (.format o)) (.format o) false es = some false := by
  cases h with
  | message es hp => simp [guarded, format_impl hp]
  | _ => simp [guarded]

theorem format_drain {o o' : Nat} {es : List E} (h : Drain o' es) :
    guarded (acc (.format o)) (.format o) false es = some false := by
  induction h with
  | done => simp [guarded]
  | message es rest hp hr ih => simp [guarded, guarded_append, format_impl hp, ih]

theorem format_worker {o o' : Nat} {es : List E} (h : Worker o' es) :
    guarded (acc (.format o)) (.format o) false es = some false := by
  cases h with
  | run rounds hr drain hd =>
    have h1 := closed_flatten (acc (.format o)) (.format o) rounds (fun c hc => format_round (hr c hc))
    have h2 := format_drain (o := o) hd
    simp [guarded, guarded_append, h1, h2]
  | noDrain rounds hr =>
    have h1 := closed_flatten (acc (.format o)) (.format o) rounds (fun c hc => format_round (hr c hc))
    simp [guarded, guarded_append, h1]
  | waiting rounds hr =>
    have h1 := closed_flatten (acc (.format o)) (.format o) rounds (fun c hc => format_round (hr c hc))
    simp [guarded, guarded_append, h1]

/-! ## What an output without worker thread writes to -/

theorem direct_push {worker : Nat → Bool} {o o' : Nat} {es : List E} (h : Push worker o' es) :
    guarded (acc (.sink o)) (.direct o) false es = some false := by
  cases h with
  | direct hw es hp =>
    have hin : ∀ e ∈ es, e ≠ .acq (.direct o) ∧ e ≠ .rel (.direct o) := by
      intro e he; have := hp.mem e he; grind
    by_cases ho : o' = o
    · subst ho
      have := guarded_inside (acc (.sink o')) (.direct o') es hin
      simp [guarded, guarded_append, this]
    · have := guarded_quiet (acc (.sink o)) (.direct o) es false (fun e he => ⟨(hin e he).1, (hin e he).2, by
        have := hp.mem e he
        simp only [acc, decide_eq_false_iff_not]
        grind⟩)
      simp [guarded, guarded_append, this, ho]
  | _ => simp [guarded]

theorem direct_all {worker : Nat → Bool} {o : Nat} {es : List E} (h : PushAll worker es) :
    guarded (acc (.sink o)) (.direct o) false es = some false := by
  induction h with
  | done => rfl
  | push o es rest hp hr ih => simp [guarded_append, direct_push hp, ih]

theorem direct_call {worker : Nat → Bool} {a : Api} {es : List E} (o : Nat) (h : Call worker a es) :
    guarded (acc (.sink o)) (.direct o) false es = some false := by
  cases h with
  | flush s' k es he => simp [guarded, guarded_append, direct_all he]
  | setLogLevel ss os =>
    refine guarded_quiet _ _ _ _ ?_
    intro e he
    simp only [List.mem_append, List.mem_map] at he
    rcases he with ⟨_, _, rfl⟩ | ⟨_, _, rfl⟩ <;> simp
  | printConfiguration ss os =>
    refine guarded_quiet _ _ _ _ ?_
    intro e he
    simp only [List.mem_append, List.mem_map] at he
    rcases he with ⟨_, _, rfl⟩ | ⟨u, hu, rfl⟩ <;> simp
  | _ => simp [guarded]

/-! ## Writes of the message queue -/

theorem queue_impl {o o' : Nat} {es : List E} (h : PushImpl o' es) (b : Bool) :
    guarded (wrt (.queue o)) (.queue o) b es = some b := by
  cases h <;> cases b <;> simp [guarded]

theorem queue_push {worker : Nat → Bool} {o o' : Nat} {es : List E} (h : Push worker o' es) :
    guarded (wrt (.queue o)) (.queue o) false es = some false := by
  cases h with
  | direct hw es hp => simp [guarded, guarded_append, queue_impl hp]
  | nothing => simp [guarded]
  | _ => by_cases ho : o' = o <;> simp [guarded, ho]

theorem queue_all {worker : Nat → Bool} {o : Nat} {es : List E} (h : PushAll worker es) :
    guarded (wrt (.queue o)) (.queue o) false es = some false := by
  induction h with
  | done => rfl
  | push o es rest hp hr ih => simp [guarded_append, queue_push hp, ih]

theorem queue_call {worker : Nat → Bool} {a : Api} {es : List E} (o : Nat) (h : Call worker a es) :
    guarded (wrt (.queue o)) (.queue o) false es = some false := by
  cases h with
  | flush s' k es he => simp [guarded, guarded_append, queue_all he]
  | setLogLevel ss os =>
    refine guarded_quiet _ _ _ _ ?_
    intro e he
    simp only [List.mem_append, List.mem_map] at he
    rcases he with ⟨_, _, rfl⟩ | ⟨_, _, rfl⟩ <;> simp
  | printConfiguration ss os =>
    refine guarded_quiet _ _ _ _ ?_
    intro e he
    simp only [List.mem_append, List.mem_map] at he
    rcases he with ⟨_, _, rfl⟩ | ⟨u, hu, rfl⟩ <;> simp
  | _ => simp [guarded]

theorem queue_round {o o' : Nat} {es : List E} (h : Round o' es) :
    guarded (wrt (.queue o)) (.queue o) false es = some false := by
  cases h with
  | message es hp => by_cases ho : o' = o <;> simp [guarded, queue_impl hp, ho]
  | late => by_cases ho : o' = o <;> simp [guarded, ho]
  | _ => simp [guarded]

theorem queue_drain {o o' : Nat} {es : List E} (h : Drain o' es) (b : Bool) (hb : o' = o → b = true) :
    guarded (wrt (.queue o)) (.queue o) b es = some b := by
  induction h with
  | done => simp [guarded]
  | message es rest hp hr ih =>
    by_cases ho : o' = o
    · have := hb ho
      subst this
      simp [guarded, guarded_append, queue_impl hp, ih]
    · simp [guarded, guarded_append, queue_impl hp, ih, ho]

theorem queue_worker {o o' : Nat} {es : List E} (h : Worker o' es) :
    guarded (wrt (.queue o)) (.queue o) false es = some false := by
  cases h with
  | run rounds hr drain hd =>
    have h1 := closed_flatten (wrt (.queue o)) (.queue o) rounds (fun c hc => queue_round (hr c hc))
    by_cases ho : o' = o
    · have h2 := queue_drain (o := o) hd true (fun _ => rfl)
      simp [guarded, guarded_append, h1, h2, ho]
    · have h2 := queue_drain (o := o) hd false (fun h => absurd h ho)
      simp [guarded, guarded_append, h1, h2, ho]
  | noDrain rounds hr =>
    have h1 := closed_flatten (wrt (.queue o)) (.queue o) rounds (fun c hc => queue_round (hr c hc))
    simp [guarded, guarded_append, h1]
  | waiting rounds hr =>
    have h1 := closed_flatten (wrt (.queue o)) (.queue o) rounds (fun c hc => queue_round (hr c hc))
    simp [guarded, guarded_append, h1]

/-! ## The order in which mutexes are taken -/

/-- Which semaphores are used as mutexes. -/
def mutex : Sem → Bool
  | .fill _ => false
  | .ended _ => false
  | _ => true

/-- The order in which mutexes are taken: stream, then queue or output, then format. -/
def rank : Sem → Nat
  | .stream _ => 0
  | .queue _ => 1
  | .direct _ => 1
  | .format _ => 2
  | _ => 0

theorem order_impl {o : Nat} {es : List E} (h : PushImpl o es) (held : List Sem) (hh : ∀ k ∈ held, rank k < 2) :
    locksTo mutex rank held es = some held := by
  have ha : held.all (fun k => decide (rank k < rank (.format o))) = true :=
    List.all_eq_true.2 (fun k hk => decide_eq_true (hh k hk))
  cases h <;> simp only [locksTo, mutex, ha, if_true] <;> simp

theorem order_push {worker : Nat → Bool} {o : Nat} {es : List E} (h : Push worker o es) (held : List Sem)
    (hh : ∀ k ∈ held, rank k < 1) : locksTo mutex rank held es = some held := by
  have ha : held.all (fun k => decide (rank k < rank (.queue o))) = true :=
    List.all_eq_true.2 (fun k hk => decide_eq_true (hh k hk))
  have hb : held.all (fun k => decide (rank k < rank (.direct o))) = true :=
    List.all_eq_true.2 (fun k hk => decide_eq_true (hh k hk))
  cases h with
  | direct hw es hp =>
    have := order_impl hp (.direct o :: held) (by
      intro k hk
      rcases List.mem_cons.1 hk with rfl | hk
      · simp [rank]
      · have := hh k hk; omega)
    simp only [List.cons_append, locksTo, mutex, hb, if_true, locksTo_append, this, Option.bind_some]
    simp
  | nothing => rfl
  | queued h => simp only [locksTo, mutex, ha, if_true]; simp
  | full h => simp only [locksTo, mutex, ha, if_true]; simp

theorem order_all {worker : Nat → Bool} {es : List E} (h : PushAll worker es) (held : List Sem)
    (hh : ∀ k ∈ held, rank k < 1) : locksTo mutex rank held es = some held := by
  induction h with
  | done => rfl
  | push o es rest hp hr ih => simp [locksTo_append, order_push hp held hh, ih]

theorem order_plain (es : List E) (h : ∀ e ∈ es, (∃ x, e = .rd x) ∨ ∃ x, e = .wr x) (held : List Sem) :
    locksTo mutex rank held es = some held := by
  induction es with
  | nil => rfl
  | cons e es ih =>
    have i := ih (fun x hx => h x (by simp [hx]))
    rcases h e (by simp) with ⟨x, rfl⟩ | ⟨x, rfl⟩ <;> simpa [locksTo] using i

theorem order_call {worker : Nat → Bool} {a : Api} {es : List E} (h : Call worker a es) :
    locksTo mutex rank [] es = some [] := by
  cases h with
  | flush s k es he =>
    have := order_all he [.stream s] (by simp [rank])
    simp [locksTo, locksTo_append, mutex, this]
  | setLogLevel ss os =>
    refine order_plain _ ?_ _
    intro e he
    simp only [List.mem_append, List.mem_map] at he
    rcases he with ⟨u, _, rfl⟩ | ⟨u, _, rfl⟩ <;> simp
  | printConfiguration ss os =>
    refine order_plain _ ?_ _
    intro e he
    simp only [List.mem_append, List.mem_map] at he
    rcases he with ⟨u, _, rfl⟩ | ⟨u, _, rfl⟩ <;> simp
  | _ => simp [locksTo, mutex]

theorem order_round {o : Nat} {es : List E} (h : Round o es) : locksTo mutex rank [] es = some [] := by
  cases h with
  | message es hp => simp [locksTo, mutex, order_impl hp []]
  | _ => simp [locksTo, mutex]

theorem order_drain {o : Nat} {es : List E} (h : Drain o es) (held : List Sem) (hh : ∀ k ∈ held, rank k < 2) :
    locksTo mutex rank held es = some held := by
  induction h with
  | done => rfl
  | message es rest hp hr ih => simp [locksTo, locksTo_append, order_impl hp held hh, ih]

theorem order_worker {o : Nat} {es : List E} (h : Worker o es) : locksTo mutex rank [] es = some [] := by
  cases h with
  | run rounds hr drain hd =>
    have h1 := locksTo_flatten mutex rank rounds (fun c hc => order_round (hr c hc))
    have h2 := order_drain hd [.queue o] (by simp [rank])
    simp [locksTo, locksTo_append, mutex, h1, h2]
  | noDrain rounds hr =>
    have h1 := locksTo_flatten mutex rank rounds (fun c hc => order_round (hr c hc))
    simp [locksTo, locksTo_append, mutex, h1]
  | waiting rounds hr =>
    have h1 := locksTo_flatten mutex rank rounds (fun c hc => order_round (hr c hc))
    simp [locksTo, locksTo_append, mutex, h1]

end Verif.Logging.Shared
