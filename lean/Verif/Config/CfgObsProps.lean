import Verif.Config.CfgProps
import Mathlib.Data.List.Induction

/-! # Configuration observers: C41 -/
namespace Verif.Cfg
open Verif.StdMap

theorem put_calls {m : Mgr} {done : List Op} (i : Inv m done) (e : S × S) :
    (put m e).calls = m.calls ++ callsFor (active done) e := by
  have h1 : (put m e).calls = m.calls ++ ((lookup m.observers e.1).getD [] ++
      (lookup m.observers []).getD []).map
        (fun o => (o, e.1, lookup (insert e.1 e.2 m).items e.1)) := rfl
  rw [h1, find_insert i.items, i.obs, i.obs]
  simp [callsFor, List.map_map, Function.comp_def]

theorem Inv.put {m : Mgr} {done : List Op} (i : Inv m done) (e : S × S) : Inv (Cfg.put m e) done :=
  ⟨sorted_put i.items e, i.obsSorted, i.obs⟩

theorem putAll_calls {done : List Op} (es : List (S × S)) {m : Mgr} (i : Inv m done) :
    (es.foldl put m).calls = m.calls ++ es.flatMap (callsFor (active done)) := by
  induction es generalizing m with
  | nil => simp
  | cons e es ih =>
    rw [List.foldl_cons, ih (i.put e), put_calls i]
    simp

/-- C41: `setValue`, after any history of calls, stores the value and then calls exactly the
observers registered for the key and those registered for all keys (in this order, oldest
registration first, as often as they are registered); they find the new value in the
directory. -/
theorem c41_set_notifies_partial (fs : Files) (k : Nat) (rx : S → S → Bool) (ops : List Op) (m : Mgr)
    (hm : runOps fs k rx newMgr ops = some m) (key v : S) (hk : key ≠ configfileKey) (j : Nat) :
    ∃ b m', setValue fs j key v m = some (.ok (b, m')) ∧
      m'.calls = m.calls ++ callsFor (active ops) (key, v) ∧
      (∀ q, lookup m'.items q = if q = key then some v else lookup m.items q) ∧
      (b = true ↔ lookup m.items key = none) := by
  have i := inv_run ops hm
  refine ⟨_, put m (key, v), by simp only [setValue, if_neg hk]; rfl, put_calls i _,
    find_put i.items _, ?_⟩
  have e : ∀ d1 d2 : DecidableEq S, @find S S d1 m.items key = @find S S d2 m.items key := by
    intro d1 d2; rw [Subsingleton.elim d1 d2]
  simp only [KeyValue.insert, lookup]
  rw [e _ (fun a b => LinearOrder.toDecidableEq a b)]
  cases @find S S (fun a b => LinearOrder.toDecidableEq a b) m.items key <;> simp

/-- C41: `setValue("/configfile", f)` loads the file; every entry of the file and then the key
itself is notified like any other change. -/
theorem c41_set_configfile_notifies (fs : Files) (k : Nat) (rx : S → S → Bool) (ops : List Op)
    (m m' : Mgr) (hm : runOps fs k rx newMgr ops = some m) (f : S) (j : Nat) (b : Bool)
    (h : setValue fs j configfileKey f m = some (.ok (b, m'))) :
    ∃ es ok, (∀ m0, load fs j f m0 = some (.ok (ok, es.foldl put m0))) ∧
      m'.calls = m.calls ++ es.flatMap (callsFor (active ops))
        ++ callsFor (active ops) (configfileKey, f) ∧
      ∀ q, lookup m'.items q = if q = configfileKey then some f
        else (lastValue es q).or (lookup m.items q) := by
  have i := inv_run ops hm
  simp only [setValue, if_true] at h
  cases hl : load fs j f m with
  | none => rw [hl] at h; cases h
  | some r =>
    cases r with
    | throws e => rw [hl] at h; simp [Outcome.map] at h
    | ub => rw [hl] at h; simp [Outcome.map] at h
    | ok x =>
      obtain ⟨ok, m1⟩ := x
      rw [hl] at h
      obtain ⟨es, rfl, hu⟩ := load_uniform hl
      simp only [Option.map_some, Outcome.map, Option.some.injEq, Outcome.ok.injEq,
        Prod.mk.injEq] at h
      have hs := putAll_spec es m i.items
      have i' : Inv (es.foldl put m) ops := ⟨hs.1, by rw [(putAll_fields es m).2.2.1]; exact i.obsSorted,
        by rw [(putAll_fields es m).2.2.1]; exact i.obs⟩
      refine ⟨es, ok, hu, ?_, ?_⟩
      · rw [← h.2, put_calls i', putAll_calls es i]
      · intro q
        rw [← h.2, find_put hs.1, hs.2]

/-- C41: the same for `initialize()`: the changes it makes are exactly the changes it
notifies, in the same order. -/
theorem c41_initialize_notifies (fs : Files) (k : Nat) (rx : S → S → Bool) (ops : List Op)
    (m m' : Mgr) (hm : runOps fs k rx newMgr ops = some m) (o : Getopt.Out) (j : Nat) (b : Bool)
    (h : init fs j o m = some (.ok (b, m'))) :
    ∃ es : List (S × S),
      (∀ q, lookup m'.items q = (lastValue es q).or (lookup m.items q)) ∧
      m'.calls = m.calls ++ es.flatMap (callsFor (active ops)) := by
  have i := inv_run ops hm
  obtain ⟨es, ini, rfl⟩ := init_puts h
  exact ⟨es, (putAll_spec es m i.items).2, putAll_calls es i⟩

/-- C41: no call without a change: a history step that is not a registration and leaves the
directory alone by making no change makes no call.  In particular `addParameter` and
`unregisterObserver` call nobody. -/
theorem c41_no_other_calls (m : Mgr) (p : Param) (o : Nat) :
    (addParameter p m).calls = m.calls ∧ (addPositional p m).calls = m.calls ∧
    (unregisterObserver o m).calls = m.calls := by
  refine ⟨?_, ?_, rfl⟩
  · simp only [addParameter]; split <;> rfl
  · simp only [addPositional]; split <;> rfl

/-- Only registered observers are called. -/
theorem run_calls_active {fs : Files} {k : Nat} {rx : S → S → Bool} {m m' : Mgr} {done : List Op}
    {op : Op} (i : Inv m done) (h : op.run fs k rx m = some m') :
    ∃ new, m'.calls = m.calls ++ new ∧ ∀ c ∈ new, c.1 ∈ (active (done ++ [op])).map (·.1) := by
  have hp : ∀ es : List (S × S), active (done ++ [op]) = active done → m'.calls = (es.foldl put m).calls →
      ∃ new, m'.calls = m.calls ++ new ∧ ∀ c ∈ new, c.1 ∈ (active (done ++ [op])).map (·.1) := by
    intro es ha hc
    refine ⟨_, by rw [hc, putAll_calls es i], ?_⟩
    intro c hc
    rw [ha]
    simp only [List.mem_flatMap, callsFor, List.mem_append, List.mem_map, List.mem_filter] at hc
    obtain ⟨e, _, ⟨a, ⟨ha, _⟩, rfl⟩ | ⟨a, ⟨ha, _⟩, rfl⟩⟩ := hc <;>
      exact List.mem_map.2 ⟨a, ha, rfl⟩
  cases op with
  | param p =>
    simp only [Op.run, Option.some.injEq] at h; subst h
    exact hp [] (active_append _ _) (c41_no_other_calls m p 0).1
  | positional p =>
    simp only [Op.run, Option.some.injEq] at h; subst h
    exact hp [] (active_append _ _) (c41_no_other_calls m p 0).2.1
  | init o =>
    simp only [Op.run] at h
    split at h
    · rename_i r hr
      obtain ⟨b, m1⟩ := r
      obtain ⟨es, ini, rfl⟩ := init_puts hr
      cases h
      exact hp es (active_append _ _) rfl
    · cases h
  | set key v =>
    simp only [Op.run] at h
    split at h
    · rename_i r hr
      obtain ⟨b, m1⟩ := r
      obtain ⟨es, rfl⟩ := set_puts hr
      cases h
      exact hp es (active_append _ _) rfl
    · cases h
  | insert key v =>
    simp only [Op.run, Option.some.injEq] at h; subst h
    exact hp [] (active_append _ _) rfl
  | unreg o =>
    simp only [Op.run, Option.some.injEq] at h; subst h
    exact ⟨[], by simp [unregisterObserver], by simp⟩
  | reg o key =>
    simp only [Op.run, Option.some.injEq, registerObserver] at h; subst h
    have hmem : o ∈ (active (done ++ [.reg o key])).map (·.1) := by rw [active_append]; simp
    split
    · refine ⟨_, rfl, ?_⟩
      intro c hc
      obtain ⟨e, _, rfl⟩ := List.mem_map.1 hc
      exact hmem
    · split
      · refine ⟨_, rfl, ?_⟩
        intro c hc
        rw [List.mem_singleton.1 hc]
        exact hmem
      · exact ⟨[], by simp, by simp⟩

/-- Registrations of `o` in a history. -/
def registers (o : Nat) : Op → Bool
  | .reg o' _ => o' == o
  | _ => false

theorem active_unreg (o : Nat) (ops1 ops2 : List Op) (h : ∀ op ∈ ops2, registers o op = false) :
    o ∉ (active (ops1 ++ .unreg o :: ops2)).map (·.1) := by
  induction ops2 using List.reverseRecOn with
  | nil =>
    rw [active_append]
    simp
  | append_singleton l op ih =>
    have h1 := ih (fun op hop => h op (by simp [hop]))
    have h2 := h op (by simp)
    have e : ops1 ++ .unreg o :: (l ++ [op]) = (ops1 ++ .unreg o :: l) ++ [op] := by simp
    rw [e, active_append]
    cases op with
    | reg o' key =>
      simp only [registers, beq_eq_false_iff_ne] at h2
      simp only [List.map_append, List.mem_append, not_or]
      exact ⟨h1, by simp; exact fun e => h2 e.symm⟩
    | unreg o' =>
      simp only [List.mem_map, List.mem_filter, not_exists, not_and] at h1 ⊢
      exact fun a ha => h1 a ha.1
    | _ => exact h1

/-- C41: after `unregisterObserver(o)` the observer is never called again, whatever happens,
until it is registered again. -/
theorem c41_silent_after_unregister (fs : Files) (k : Nat) (rx : S → S → Bool) (o : Nat)
    (ops1 ops2 : List Op) (m1 m2 : Mgr) (h : ∀ op ∈ ops2, registers o op = false)
    (h1 : runOps fs k rx newMgr (ops1 ++ [.unreg o]) = some m1)
    (h2 : runOps fs k rx m1 ops2 = some m2) :
    m2.calls.filter (fun c => c.1 = o) = m1.calls.filter (fun c => c.1 = o) := by
  have key : ∀ (ops2 mid : List Op) (m : Mgr), (∀ op ∈ mid ++ ops2, registers o op = false) →
      Inv m (ops1 ++ .unreg o :: mid) → runOps fs k rx m ops2 = some m2 →
      m2.calls.filter (fun c => c.1 = o) = m.calls.filter (fun c => c.1 = o) := by
    intro ops2
    induction ops2 with
    | nil => intro mid m _ _ hr; simp [runOps] at hr; rw [hr]
    | cons op ops2 ih =>
      intro mid m hno i hr
      simp only [runOps, Option.bind_eq_some_iff] at hr
      obtain ⟨m', hr1, hr2⟩ := hr
      have i' := i.step hr1
      have e : ops1 ++ .unreg o :: mid ++ [op] = ops1 ++ .unreg o :: (mid ++ [op]) := by simp
      rw [e] at i'
      rw [ih (mid ++ [op]) m' (by simpa using hno) i' hr2]
      obtain ⟨new, hn1, hn2⟩ := run_calls_active i hr1
      rw [hn1, List.filter_append]
      have : new.filter (fun c => c.1 = o) = [] := by
        rw [List.filter_eq_nil_iff]
        intro c hc hco
        have hmem := hn2 c hc
        rw [e] at hmem
        rw [of_decide_eq_true hco] at hmem
        exact active_unreg o ops1 (mid ++ [op]) (fun op' hop => hno op' (by
          simp only [List.mem_append, List.mem_singleton] at hop
          rcases hop with hop | rfl <;> simp [*])) hmem
      rw [this, List.append_nil]
  exact key ops2 [] m1 (by simpa using h) (by simpa using inv_run _ h1) h2

/-- C41: an observer that registers for all keys is at once called for every key, with its
value, in the order of the keys. -/
theorem c41_register_all (rx : S → S → Bool) (fs : Files) (k : Nat) (ops : List Op) (m : Mgr)
    (hm : runOps fs k rx newMgr ops = some m) (o : Nat) :
    (registerObserver rx o [] m).calls = m.calls ++ m.items.map (fun e => (o, e.1, some e.2)) ∧
    ∀ key v, (o, key, some v) ∈ m.items.map (fun e => (o, e.1, some e.2)) ↔
      lookup m.items key = some v := by
  have hs := (inv_run ops hm).items
  have hf : ∀ e ∈ m.items, lookup m.items e.1 = some e.2 := by
    intro e he
    exact (find_eq_some hs e.1 e.2).2 he
  constructor
  · show m.calls ++ m.items.map (fun e => (o, e.1, lookup m.items e.1)) = _
    congr 1
    apply List.map_congr_left
    intro e he
    rw [hf e he]
  · intro key v
    simp only [List.mem_map, Prod.mk.injEq, true_and, Option.some.injEq]
    constructor
    · rintro ⟨e, he, rfl, rfl⟩; exact hf e he
    · intro h; exact ⟨(key, v), (find_eq_some hs key v).1 h, rfl, rfl⟩

/-- C41: an observer that registers for a key is at once called once if some existing key
matches the key as a regular expression, otherwise not at all. -/
theorem c41_register_key (rx : S → S → Bool) (o : Nat) (key : S) (m : Mgr) (hk : key ≠ []) :
    (registerObserver rx o key m).calls = m.calls ++
      if ∃ e ∈ m.items, rx key e.1 = true then [(o, key, lookup m.items key)] else [] := by
  simp only [registerObserver, if_neg hk]
  by_cases h : ∃ e ∈ m.items, rx key e.1 = true
  · have : (m.items.any fun e => rx key e.1) = true := by simpa using h
    simp [this, h]
  · have : (m.items.any fun e => rx key e.1) = false := by simpa using h
    simp [this, h]

/-! ### Findings -/

/-- C41 fails for the key `""`: an observer registered for all keys is called twice. -/
theorem c41_empty_key_notified_twice (fs : Files) (k j : Nat) (rx : S → S → Bool) (v : S) :
    ((runOps fs k rx newMgr [.reg 7 []]).bind fun m =>
      match setValue fs j [] v m with
      | some (.ok r) => some (r.2.calls)
      | _ => none) = some [(7, [], some v), (7, [], some v)] := by
  have : ([] : S) ≠ configfileKey := by simp [configfileKey]
  simp [runOps, Op.run, newMgr, addParameter, configfileKey, registerObserver, setValue, put,
    notify, insert, KeyValue.insert, lookup, find, assign]

/-- C41 fails for `insert` of the base class, which is public: it changes a value and nobody
is told. -/
theorem c41_insert_is_silent (fs : Files) (k : Nat) (rx : S → S → Bool) (ops : List Op) (m : Mgr)
    (hm : runOps fs k rx newMgr ops = some m) (key v : S) :
    (insert key v m).calls = m.calls ∧ lookup (insert key v m).items key = some v := by
  refine ⟨rfl, ?_⟩
  rw [find_insert (inv_run ops hm).items]
  simp

/-- C41: registration reads the key as a regular expression and notification does not: with
`/abc` set, an observer that registers for `/a.c` is called for the key `/a.c`, which has no
value, and is not called when `/abc` changes. -/
theorem c41_registration_key_is_a_pattern (fs : Files) (k j : Nat) (rx : S → S → Bool)
    (hrx : rx "/a.c".toList "/abc".toList = true) :
    ((runOps fs k rx newMgr [.insert "/abc".toList "1".toList, .reg 7 "/a.c".toList]).bind fun m =>
      match setValue fs j "/abc".toList "2".toList m with
      | some (.ok r) => some (r.2.calls)
      | _ => none) = some [(7, "/a.c".toList, none)] := by
  have h1 : runOps fs k rx newMgr [.insert "/abc".toList "1".toList, .reg 7 "/a.c".toList]
      = some { newMgr with
          items := [("/abc".toList, "1".toList)]
          observers := [("/a.c".toList, [7])]
          calls := [(7, "/a.c".toList, none)] } := by
    have a : Cfg.insert "/abc".toList "1".toList newMgr
        = { newMgr with items := [("/abc".toList, "1".toList)] } := by decide +kernel
    have b : ("/a.c".toList : S) ≠ [] := by decide +kernel
    simp only [runOps, Op.run, Option.bind_some, a, registerObserver, if_neg b, List.any_cons, hrx,
      Bool.true_or, if_true]
    have c : lookup ({ newMgr with items := [("/abc".toList, "1".toList)] } : Mgr).items "/a.c".toList
        = none := by decide +kernel
    have d : assign ({ newMgr with items := [("/abc".toList, "1".toList)] } : Mgr).observers
        "/a.c".toList ((lookup ({ newMgr with items := [("/abc".toList, "1".toList)] } : Mgr).observers
          "/a.c".toList).getD [] ++ [7]) = [("/a.c".toList, [7])] := by decide +kernel
    rw [d]
    have e : newMgr.calls = [] := rfl
    simp only [e, List.nil_append]
    congr 3
  rw [h1]
  have hk : ("/abc".toList : S) ≠ configfileKey := by decide +kernel
  simp only [Option.bind_some, setValue, if_neg hk]
  decide +kernel

/-- A history as in the theorems above: two observers, one unregistered. -/
example (fs : Files) (rx : S → S → Bool) :
    ((runOps fs 0 rx newMgr [.reg 1 "/a".toList, .reg 2 [], .reg 3 "/a".toList, .unreg 1]).bind
      fun m => match setValue fs 0 "/a".toList "x".toList m with
      | some (.ok r) => some (r.2.calls)
      | _ => none) = some [(3, "/a".toList, some "x".toList), (2, "/a".toList, some "x".toList)] := by
  have h : runOps fs 0 rx newMgr [.reg 1 "/a".toList, .reg 2 [], .reg 3 "/a".toList, .unreg 1]
      = some { newMgr with observers := [([], [2]), ("/a".toList, [3])] } := by
    have hne : ("/a".toList : S) ≠ [] := by decide +kernel
    have hi : newMgr.items = [] := rfl
    have hc : newMgr.calls = [] := rfl
    simp only [runOps, Op.run, Option.bind_some, registerObserver, if_neg hne, if_true, hi,
      List.any_nil, Bool.false_eq_true, if_false, List.map_nil, List.append_nil, unregisterObserver]
    congr 2
  have hk : ("/a".toList : S) ≠ configfileKey := by decide +kernel
  rw [h]
  simp only [Option.bind_some, setValue, if_neg hk]
  decide +kernel

end Verif.Cfg
