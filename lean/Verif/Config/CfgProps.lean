import Verif.Config.CfgLemmas
import Verif.Config.GetoptProps

/-! # Configuration manager: C40 and C41 -/
namespace Verif.Cfg
open Verif.StdMap

/-! ### Invariants of histories -/

theorem initRest_puts (o : Getopt.Out) (m : Mgr) :
    ∃ es : List (S × S), initRest o m = { es.foldl put m with initialized := true } := by
  obtain ⟨e1, h1⟩ := fillAll_puts o m.params m
  obtain ⟨e2, h2⟩ := fillAll_puts o (e1.foldl put m).positional (e1.foldl put m)
  refine ⟨e1 ++ e2 ++ o.paramPrefixOpt configOptionOpt, ?_⟩
  simp only [initRest, h1, h2, List.foldl_append]

/-- `initialize` and `setValue` are sequences of `insert`/`notify`. -/
theorem init_puts {fs : Files} {k : Nat} {o : Getopt.Out} {m m' : Mgr} {b : Bool}
    (h : init fs k o m = some (.ok (b, m'))) :
    ∃ (es : List (S × S)) (i : Bool), m' = { es.foldl put m with initialized := i } := by
  simp only [init] at h
  split at h
  · cases h; exact ⟨[], m.initialized, rfl⟩
  · split at h
    · split at h
      · rename_i m1 hl
        obtain ⟨es, rfl, _⟩ := load_uniform hl
        obtain ⟨e2, h2⟩ := initRest_puts o (put (es.foldl put m) (configfileKey, o.paramOpt configfileOpt))
        cases h
        refine ⟨es ++ (configfileKey, o.paramOpt configfileOpt) :: e2, true, ?_⟩
        rw [h2]; simp [List.foldl_append]
      · rename_i hne
        have hl : load fs k (o.paramOpt configfileOpt) m = some (.ok (b, m')) := h
        obtain ⟨es, rfl, _⟩ := load_uniform hl
        exact ⟨es, (es.foldl put m).initialized, rfl⟩
    · obtain ⟨e2, h2⟩ := initRest_puts o m
      cases h
      exact ⟨e2, true, h2⟩

theorem set_puts {fs : Files} {k : Nat} {key v : S} {m m' : Mgr} {b : Bool}
    (h : setValue fs k key v m = some (.ok (b, m'))) :
    ∃ es : List (S × S), m' = es.foldl put m := by
  simp only [setValue] at h
  split at h
  · cases hl : load fs k v m with
    | none => rw [hl] at h; cases h
    | some r =>
      rw [hl] at h
      cases r with
      | ok x =>
        obtain ⟨b', m1⟩ := x
        obtain ⟨es, rfl, _⟩ := load_uniform hl
        simp only [Option.map_some, Outcome.map, Option.some.injEq, Outcome.ok.injEq,
          Prod.mk.injEq] at h
        exact ⟨es ++ [(key, v)], by rw [← h.2, List.foldl_append]; rfl⟩
      | throws e => simp [Outcome.map] at h
      | ub => simp [Outcome.map] at h
  · simp only [Option.some.injEq, Outcome.ok.injEq, Prod.mk.injEq] at h
    exact ⟨[(key, v)], h.2.symm⟩

/-- The invariants after a history `done`. -/
structure Inv (m : Mgr) (done : List Op) : Prop where
  items : Sorted m.items
  obsSorted : Sorted m.observers
  obs : ∀ key, (lookup m.observers key).getD [] = ((active done).filter fun a => a.2 = key).map (·.1)

theorem active_append (ops : List Op) (op : Op) :
    active (ops ++ [op]) = match op with
      | .reg o key => active ops ++ [(o, key)]
      | .unreg o => (active ops).filter fun a => a.1 ≠ o
      | _ => active ops := by
  simp only [active, List.foldl_append, List.foldl_cons, List.foldl_nil]
  cases op <;> rfl

theorem lookup_map (m : List (S × List Nat)) (f : List Nat → List Nat) (k : S) :
    lookup (m.map fun e => (e.1, f e.2)) k = (lookup m k).map f := by
  induction m with
  | nil => rfl
  | cons e r ih =>
    simp only [lookup, List.map_cons, find] at ih ⊢
    by_cases h : e.1 = k
    · simp [h]
    · rw [if_neg h, if_neg h, ih]

theorem Inv.step {fs : Files} {k : Nat} {rx : S → S → Bool} {m m' : Mgr} {done : List Op} {op : Op}
    (i : Inv m done) (h : op.run fs k rx m = some m') : Inv m' (done ++ [op]) := by
  have puts : ∀ es : List (S × S), (match op with | .reg _ _ | .unreg _ => False | _ => True) →
      ∀ m'' : Mgr, m''.items = (es.foldl put m).items → m''.observers = m.observers →
      Inv m'' (done ++ [op]) := by
    intro es hop m'' h1 h2
    refine ⟨h1 ▸ (putAll_spec es m i.items).1, h2 ▸ i.obsSorted, fun key => ?_⟩
    rw [h2, i.obs, active_append]
    cases op <;> first | rfl | exact absurd hop (by simp)
  cases op with
  | param p =>
    simp only [Op.run, Option.some.injEq, addParameter] at h
    subst h
    refine puts [] trivial _ ?_ ?_ <;> split <;> rfl
  | positional p =>
    simp only [Op.run, Option.some.injEq, addPositional] at h
    subst h
    refine puts [] trivial _ ?_ ?_ <;> split <;> rfl
  | init o =>
    simp only [Op.run] at h
    split at h
    · rename_i r hr
      obtain ⟨b, m1⟩ := r
      obtain ⟨es, ini, rfl⟩ := init_puts hr
      cases h
      exact puts es trivial _ rfl (putAll_fields es m).2.2.1
    · cases h
  | set key v =>
    simp only [Op.run] at h
    split at h
    · rename_i r hr
      obtain ⟨b, m1⟩ := r
      obtain ⟨es, rfl⟩ := set_puts hr
      cases h
      exact puts es trivial _ rfl (putAll_fields es m).2.2.1
    · cases h
  | insert key v =>
    simp only [Op.run, Option.some.injEq] at h
    subst h
    exact puts [(key, v)] trivial _ rfl rfl
  | reg o key =>
    simp only [Op.run, Option.some.injEq, registerObserver] at h
    have hit : m'.items = m.items := by
      subst h; split
      · rfl
      · split <;> rfl
    have hob : m'.observers = assign m.observers key ((lookup m.observers key).getD [] ++ [o]) := by
      subst h; split
      · rfl
      · split <;> rfl
    refine ⟨hit ▸ i.items, hob ▸ sorted_assign i.obsSorted _ _, fun q => ?_⟩
    rw [hob, lookup_assign i.obsSorted, active_append]
    by_cases hq : q = key
    · subst hq
      simp [i.obs]
    · have hq' : ¬ key = q := fun e => hq e.symm
      simp [hq, hq', i.obs]
  | unreg o =>
    simp only [Op.run, Option.some.injEq, unregisterObserver] at h
    subst h
    refine ⟨i.items, ?_, fun q => ?_⟩
    · have := i.obsSorted
      simp only [Sorted, List.pairwise_map] at this ⊢
      exact this
    · rw [lookup_map, active_append]
      have : ((lookup m.observers q).map (List.filter (· ≠ o))).getD []
          = ((lookup m.observers q).getD []).filter (· ≠ o) := by
        cases lookup m.observers q <;> simp
      rw [this, i.obs, List.filter_map, List.filter_filter, List.filter_filter]
      congr 1
      apply List.filter_congr
      intro a _
      simp only [Function.comp]
      rw [Bool.and_comm]

theorem inv_new : Inv newMgr [] := by
  refine ⟨?_, ?_, ?_⟩
  · simp [newMgr, addParameter, configfileKey, Sorted]
  · simp [newMgr, addParameter, configfileKey, Sorted]
  · intro key; simp [newMgr, addParameter, configfileKey, lookup, find, active]

theorem inv_run {fs : Files} {k : Nat} {rx : S → S → Bool} (ops : List Op) {m : Mgr}
    (h : runOps fs k rx newMgr ops = some m) : Inv m ops := by
  have : ∀ (ops done : List Op) (m0 : Mgr), Inv m0 done → runOps fs k rx m0 ops = some m →
      Inv m (done ++ ops) := by
    intro ops
    induction ops with
    | nil => intro done m0 i h; simp [runOps] at h; subst h; simpa using i
    | cons op ops ih =>
      intro done m0 i h
      simp only [runOps, Option.bind_eq_some_iff] at h
      obtain ⟨m1, h1, h2⟩ := h
      have := ih (done ++ [op]) m1 (i.step h1) h2
      simpa using this
  simpa using this ops [] newMgr inv_new h

/-! ### C40 -/

/-- C40: after a successful first `initialize()`, in any state reached by calls on the
manager, the value of every key is: the last `-o`/`--config-option` value, else the last
command-line value of a parameter registered for the key, else the last value in the
configuration file (and the name of the file for `/configfile`), else the value it had
before, else the first default value of a parameter registered for the key. -/
theorem c40_precedence (fs : Files) (k : Nat) (rx : S → S → Bool) (ops : List Op)
    (o : Getopt.Out) (m m' : Mgr) (hm : runOps fs k rx newMgr ops = some m)
    (hi : m.initialized = false) (h : init fs k o m = some (.ok (true, m'))) :
    ∃ file : List (S × S),
      (if o.paramOptPresent configfileOpt = true
        then ∃ es, file = es ++ [(configfileKey, o.paramOpt configfileOpt)] ∧
          ∀ m0, load fs k (o.paramOpt configfileOpt) m0 = some (.ok (true, es.foldl put m0))
        else file = []) ∧
      ∀ key, lookup m'.items key =
        (lastValue (o.paramPrefixOpt configOptionOpt) key).or
        ((lastValue (fromCommandLine (m.params ++ m.positional) o) key).or
        ((lastValue file key).or
        ((lookup m.items key).or
          (firstValue (defaults (m.params ++ m.positional)) key)))) := by
  have hs := (inv_run ops hm).items
  have rest : ∀ (file : List (S × S)) (key : S),
      lookup (initRest o (file.foldl put m)).items key =
        (lastValue (o.paramPrefixOpt configOptionOpt) key).or
        ((lastValue (fromCommandLine (m.params ++ m.positional) o) key).or
        ((lastValue file key).or
        ((lookup m.items key).or
          (firstValue (defaults (m.params ++ m.positional)) key)))) := by
    intro file key
    have hf := putAll_spec file m hs
    have hfields := putAll_fields file m
    obtain ⟨e1, h1⟩ := fillAll_puts o m.params (file.foldl put m)
    have hpos : (m.params.foldl (fill o) (file.foldl put m)).positional = m.positional := by
      rw [h1, (putAll_fields e1 _).2.1, hfields.2.1]
    have e : initRest o (file.foldl put m)
        = { (o.paramPrefixOpt configOptionOpt).foldl put
            ((m.params ++ m.positional).foldl (fill o) (file.foldl put m)) with
            initialized := true } := by
      simp only [initRest, hfields.1, hpos, List.foldl_append]
    rw [e]
    obtain ⟨e2, h2⟩ := fillAll_puts o (m.params ++ m.positional) (file.foldl put m)
    have hs2 : Sorted ((m.params ++ m.positional).foldl (fill o) (file.foldl put m)).items := by
      rw [h2]; exact (putAll_spec e2 _ hf.1).1
    show lookup (List.foldl put _ _).items key = _
    rw [(putAll_spec _ _ hs2).2, fillAll_find _ _ _ hf.1, hf.2]
    simp only [Option.or_assoc]
  simp only [init, hi, Bool.false_eq_true, if_false] at h
  split at h
  · rename_i hp
    simp only [hp, if_true]
    split at h
    · rename_i m1 hl
      obtain ⟨es, rfl, hu⟩ := load_uniform hl
      cases h
      refine ⟨_, ⟨es, rfl, hu⟩, fun key => ?_⟩
      rw [← rest]
      simp [List.foldl_append]
    · rename_i hne
      exact absurd h (hne m')
  · rename_i hp
    simp only [hp, Bool.false_eq_true, if_false]
    cases h
    exact ⟨[], rfl, fun key => rest [] key⟩

/-- The parameters with a configuration key that a history registers, in order. -/
def registered : List Op → List Param
  | ops => ops.filterMap fun op => match op with
    | .param p => if p.key = [] then none else some p
    | _ => none

/-- The same for positional parameters. -/
def registeredPositional : List Op → List Param
  | ops => ops.filterMap fun op => match op with
    | .positional p => if p.key = [] then none else some p
    | _ => none

/-- C40: the parameters that `c40_precedence` speaks about are exactly those registered by the calls, in
order, besides the `configfile` option registered by the constructor. -/
theorem c40_registered (fs : Files) (k : Nat) (rx : S → S → Bool) (ops : List Op) (m : Mgr)
    (hm : runOps fs k rx newMgr ops = some m) :
    m.params = ⟨configfileOpt, configfileKey, []⟩ :: registered ops ∧ m.positional = registeredPositional ops := by
  have gen : ∀ (ops : List Op) (m0 m : Mgr), runOps fs k rx m0 ops = some m →
      m.params = m0.params ++ registered ops ∧ m.positional = m0.positional ++ registeredPositional ops := by
    intro ops
    induction ops with
    | nil => intro m0 m h; simp [runOps] at h; subst h; simp [registered, registeredPositional]
    | cons op ops ih =>
      intro m0 m h
      simp only [runOps, Option.bind_eq_some_iff] at h
      obtain ⟨m1, h1, h2⟩ := h
      obtain ⟨i1, i2⟩ := ih m1 m h2
      have same : m1.params = m0.params → m1.positional = m0.positional →
          registered (op :: ops) = registered ops → registeredPositional (op :: ops) = registeredPositional ops →
          m.params = m0.params ++ registered (op :: ops) ∧
          m.positional = m0.positional ++ registeredPositional (op :: ops) := by
        intro a b c d; rw [i1, i2, a, b, c, d]; exact ⟨rfl, rfl⟩
      cases op with
      | param p =>
        simp only [Op.run, Option.some.injEq, addParameter] at h1
        subst h1
        by_cases hk : p.key = []
        · refine same ?_ ?_ ?_ ?_ <;> simp [hk, registered, registeredPositional]
        · rw [i1, i2]
          constructor <;> simp [hk, registered, registeredPositional]
      | positional p =>
        simp only [Op.run, Option.some.injEq, addPositional] at h1
        subst h1
        by_cases hk : p.key = []
        · refine same ?_ ?_ ?_ ?_ <;> simp [hk, registered, registeredPositional]
        · rw [i1, i2]
          constructor <;> simp [hk, registered, registeredPositional]
      | init o =>
        simp only [Op.run] at h1
        split at h1
        · rename_i r hr
          obtain ⟨b, m2⟩ := r
          obtain ⟨es, ini, rfl⟩ := init_puts hr
          cases h1
          exact same (putAll_fields es m0).1 (putAll_fields es m0).2.1 rfl rfl
        · cases h1
      | set key v =>
        simp only [Op.run] at h1
        split at h1
        · rename_i r hr
          obtain ⟨b, m2⟩ := r
          obtain ⟨es, rfl⟩ := set_puts hr
          cases h1
          exact same (putAll_fields es m0).1 (putAll_fields es m0).2.1 rfl rfl
        · cases h1
      | insert key v =>
        simp only [Op.run, Option.some.injEq] at h1
        subst h1
        exact same rfl rfl rfl rfl
      | reg o key =>
        simp only [Op.run, Option.some.injEq, registerObserver] at h1
        have a : m1.params = m0.params ∧ m1.positional = m0.positional := by
          subst h1; split
          · exact ⟨rfl, rfl⟩
          · split <;> exact ⟨rfl, rfl⟩
        exact same a.1 a.2 rfl rfl
      | unreg o =>
        simp only [Op.run, Option.some.injEq, unregisterObserver] at h1
        subst h1
        exact same rfl rfl rfl rfl
  have h := gen ops newMgr m hm
  simpa [newMgr, addParameter, configfileKey] using h

/-- C40: reading a value gives the value stored under the key, and leaves the output alone if
there is none. -/
theorem c40_get (m : Mgr) (key out : S) :
    KeyValue.get m.items key out = match lookup m.items key with
      | some v => (true, v)
      | none => (false, out) := by
  have h : KeyValue.get m.items key out = match lookup m.items key with
      | some v => (true, v)
      | none => (false, out) := by
    simp only [KeyValue.get, lookup]
    split <;> simp_all
  exact h

/-- C40: a second `initialize()` changes nothing. -/
theorem c40_initialize_once (fs : Files) (k : Nat) (o o' : Getopt.Out) (m m' : Mgr)
    (h : init fs k o m = some (.ok (true, m'))) :
    init fs k o' m' = some (.ok (true, m')) := by
  have : m'.initialized = true := by
    simp only [init] at h
    split at h
    · rename_i h1; cases h; exact h1
    · split at h
      · split at h
        · cases h; rfl
        · rename_i hne
          exact absurd h (hne m')
      · cases h; rfl
  simp [init, this]

/-- C40, together with the command line: parsing the arguments and then initialising the
configuration gives every key its value by precedence, in terms of the items of the command
line. -/
theorem c40_from_arguments (fs : Files) (k : Nat) (rx : S → S → Bool) (ops : List Op)
    (prx : S → S → Option S) (h : List Getopt.Call) (strict clean : Bool) (prog : S) (args : List S)
    (o : Getopt.Out) (argv : List S) (argc : Nat) (m m' : Mgr)
    (hg : Getopt.init prx (Getopt.reg h) strict clean {} (prog :: args) = some (.ok o argv argc))
    (hm : runOps fs k rx newMgr ops = some m) (hi : m.initialized = false)
    (hinit : init fs k o m = some (.ok (true, m'))) :
    ∃ its, Getopt.Items prx h strict false 0 args its ∧
      ∀ key,
        (∀ v, lastValue (Getopt.prefixValuesOf its configOptionOpt) key = some v →
          lookup m'.items key = some v) ∧
        (lastValue (Getopt.prefixValuesOf its configOptionOpt) key = none →
          ∀ p v, (∀ q ∈ m.params ++ m.positional, q.key = key → q = p) → p ∈ m.params ++ m.positional →
          p.key = key → key ≠ [] → (Getopt.valuesOf its p.option).getLast? = some v →
          lookup m'.items key = some v) := by
  obtain ⟨its, hits, hrep, _⟩ := Getopt.c38_classifies _ _ _ _ _ _ _ _ _ hg
  obtain ⟨file, _, hval⟩ := c40_precedence fs k rx ops o m m' hm hi hinit
  refine ⟨its, hits, fun key => ⟨?_, ?_⟩⟩
  · intro v hv
    rw [hval, hrep.2.2.1, hv]; rfl
  · intro hnone p v huniq hp hkey hne hlast
    rw [hval, hrep.2.2.1, hnone]
    have hpres : o.paramOptPresent p.option = true := by
      rw [hrep.2.1]; intro he; rw [he] at hlast; cases hlast
    have hopt : o.paramOpt p.option = v := by rw [hrep.1, hlast]; rfl
    have : lastValue (fromCommandLine (m.params ++ m.positional) o) key = some v := by
      have hall : ∀ x ∈ ((fromCommandLine (m.params ++ m.positional) o).filter
          fun e => e.1 = key).map (·.2), x = v := by
        intro x hx
        simp only [fromCommandLine, List.mem_map, List.mem_filter] at hx
        obtain ⟨e, ⟨⟨q, ⟨hq1, hq2⟩, rfl⟩, hk⟩, rfl⟩ := hx
        have := huniq q hq1 (by simpa using hk)
        subst this
        exact hopt
      have hmem : v ∈ ((fromCommandLine (m.params ++ m.positional) o).filter
          fun e => e.1 = key).map (·.2) := by
        simp only [fromCommandLine, List.mem_map, List.mem_filter]
        refine ⟨(p.key, o.paramOpt p.option), ⟨⟨p, ⟨hp, ?_⟩, rfl⟩, by simpa using hkey⟩, hopt⟩
        simp [hpres, hkey, hne]
      simp only [lastValue]
      cases hl : (((fromCommandLine (m.params ++ m.positional) o).filter
          fun e => e.1 = key).map (·.2)).getLast? with
      | none => rw [List.getLast?_eq_none_iff] at hl; rw [hl] at hmem; cases hmem
      | some x => rw [hall x (List.mem_of_getLast? hl)]
    rw [this]; rfl

end Verif.Cfg
