import Verif.Plugin.Lemmas

/-! # Plugin manager: C59 -/
namespace Verif.Plugin
open Verif.StrMap

theorem ascending_keys {V : Type u} {m : List (S × V)} (h : Ok m) : Ascending (m.map Prod.fst) := by
  rw [Ascending, List.pairwise_map]; exact h

theorem mem_keys {V : Type u} {m : List (S × V)} (h : Ok m) (id : S) :
    id ∈ m.map Prod.fst ↔ get m id ≠ none := by
  rw [List.mem_map]
  constructor
  · rintro ⟨e, he, rfl⟩
    rw [(mem_iff h e.1 e.2).1 he]; simp
  · intro hne
    cases hg : get m id with
    | none => exact absurd hg hne
    | some v => exact ⟨(id, v), (mem_iff h id v).2 hg, rfl⟩

/-- C59: `availablePlugins()` lists the identifiers of the libraries that were found, and then
those of the plugins added by the program, each group ascending without duplicates, as long
as only known plugins are looked up. -/
theorem c59_available_partial (env : Env) (h : List Op) (hk : KnownOnly env h) :
    ∃ disk static, (availablePlugins env (run env h)).1 = disk ++ static ∧
      Ascending disk ∧ Ascending static ∧
      (∀ id, id ∈ disk ↔ found env.files id ≠ none) ∧ (∀ id, id ∈ static ↔ staticAt id h ≠ none) := by
  have hi := inv_run env h hk
  obtain ⟨hl, hs⟩ := ensure_loaded hi
  refine ⟨_, _, rfl, ?_, ?_, ?_, ?_⟩
  · rw [hl.2.2.1]; exact ascending_keys (handles0_ok env)
  · rw [hs]; exact ascending_keys hi.okStatic
  · intro id
    rw [hl.2.2.1, mem_keys (handles0_ok env), handles0_found]
  · intro id
    rw [hs, mem_keys hi.okStatic, hi.static]
    cases staticAt id h <;> simp

/-- C59: `plugins()` returns exactly the object of each library found (NULL if it makes none),
and the objects added by the program, as long as only known plugins are looked up. -/
theorem c59_plugins_partial (env : Env) (h : List Op) (hk : KnownOnly env h) :
    ∃ (disk : List (S × Option Inst)) (static : List (S × Nat)),
      (plugins env (run env h)).1 = disk.map Prod.snd ++ static.map (fun e => some (.ext e.2)) ∧
      (disk.map Prod.fst).Nodup ∧ (static.map Prod.fst).Nodup ∧
      (∀ id, id ∈ disk.map Prod.fst ↔ found env.files id ≠ none) ∧
      (∀ id i, (id, i) ∈ disk → ∃ l, found env.files id = some l ∧
        (i ≠ none ↔ ∃ k, l = some k ∧ env.creates k = true) ∧
        ∀ j, i = some j → ∃ k s, l = some k ∧ j = .lib k s) ∧
      (∀ id k, (id, k) ∈ static ↔ staticAt id h = some k) := by
  have hi := inv_run env h hk
  obtain ⟨hl, hs⟩ := ensure_loaded hi
  obtain ⟨ho, hf⟩ := full_loaded env
  have hext : ∀ id i, (id, i) ∈ (run env h).static ↔ ∃ k, staticAt id h = some k ∧ i = .ext k := by
    intro id i
    rw [mem_iff hi.okStatic, hi.static]
    cases staticAt id h with
    | none => simp
    | some k => simp [eq_comm]
  let num : Inst → Nat := fun i => match i with | .ext k => k | .lib _ _ => 0
  refine ⟨(full env).loaded, (run env h).static.map (fun e => (e.1, num e.2)), ?_, nodup_keys ho, ?_, ?_, ?_, ?_⟩
  · simp only [plugins, hl.2.2.2.1, hs, List.map_map]
    congr 1
    apply List.map_congr_left
    intro e he
    obtain ⟨k, _, hk⟩ := (hext e.1 e.2).1 he
    simp [num, hk]
  · have := nodup_keys hi.okStatic
    simpa [List.map_map, Function.comp_def] using this
  · intro id
    rw [mem_keys ho]
    have := hf id
    cases hx : found env.files id with
    | none => rw [hx] at this; simp [show get (full env).loaded id = none from this]
    | some l => rw [hx] at this; obtain ⟨i, hg, _⟩ := this; simp [hg]
  · intro id i hm
    have hg := (mem_iff ho id i).1 hm
    have := hf id
    cases hx : found env.files id with
    | none => rw [hx] at this; rw [show get (full env).loaded id = none from this] at hg; cases hg
    | some l =>
      rw [hx] at this
      obtain ⟨i', hg', hmade⟩ := this
      rw [hg] at hg'
      cases hg'
      refine ⟨l, rfl, ?_⟩
      cases l with
      | none => simp [show i = none from hmade]
      | some k =>
        by_cases hc : env.creates k
        · simp only [Made, hc, if_true] at hmade
          obtain ⟨s, _, rfl⟩ := hmade
          simp [hc]
        · simp only [Made, hc, Bool.false_eq_true, if_false] at hmade
          simp [hmade, hc]
  · intro id k
    rw [List.mem_map]
    constructor
    · rintro ⟨e, he, heq⟩
      obtain ⟨k', h1, h2⟩ := (hext e.1 e.2).1 he
      cases heq
      rw [h1]; simp [num, h2]
    · intro hst
      exact ⟨(id, .ext k), (hext id (.ext k)).2 ⟨k, hst, rfl⟩, rfl⟩

/-! ### New objects -/

theorem loadPlugins_serial (env : Env) (m : Mgr) : m.serial ≤ (loadPlugins env m).serial :=
  loadFold_serial env m.handles { m with lazy := false }

theorem init_serial (env : Env) (m : Mgr) (lazy : Bool) : m.serial ≤ (initPlugins env m lazy).serial := by
  have h0 : (initializePlugins env m).serial = m.serial :=
    (loadHandles_same env.files { m with initialized := true }).2.2.2.2
  simp only [initPlugins]
  split
  · exact loadPlugins_serial env m
  · split
    · exact Nat.le_refl _
    · split
      · rw [← h0]; exact loadPlugins_serial env _
      · exact Nat.le_of_eq h0.symm

theorem ensure_serial (env : Env) (m : Mgr) : m.serial ≤ (ensure env m).serial := by
  have h1 : m.serial ≤ (if !m.initialized then initPlugins env m false else m).serial := by
    split
    · exact init_serial env m false
    · exact Nat.le_refl _
  unfold ensure
  generalize (if !m.initialized then initPlugins env m false else m) = m1 at h1
  simp only
  split
  · exact Nat.le_trans h1 (loadPlugins_serial env _)
  · exact h1

theorem create_serial (env : Env) (m : Mgr) (id : S) :
    m.serial ≤ (createPluginInstance env m id).2.serial ∧
    ∀ i, (createPluginInstance env m id).1 = some i → ∃ k s, i = .lib k s ∧ m.serial ≤ s ∧
      s < (createPluginInstance env m id).2.serial := by
  have h1 := ensure_serial env m
  have key : ∀ (hd : Option Nat) (m1 : Mgr), m.serial ≤ m1.serial →
      m.serial ≤ (loadPluginInstance env hd m1).2.serial ∧
      ∀ i, (loadPluginInstance env hd m1).1 = some i → ∃ k s, i = .lib k s ∧ m.serial ≤ s ∧
        s < (loadPluginInstance env hd m1).2.serial := by
    intro hd m1 hm1
    refine ⟨Nat.le_trans hm1 (made_load env hd m1).2.1, ?_⟩
    intro i hi
    cases hd with
    | none => simp [loadPluginInstance] at hi
    | some k =>
      by_cases hc : env.creates k
      · simp only [loadPluginInstance, hc, if_true, Option.some.injEq] at hi ⊢
        exact ⟨k, m1.serial, hi.symm, hm1, Nat.lt_succ_self _⟩
      · simp [loadPluginInstance, hc] at hi
  simp only [createPluginInstance]
  split
  · exact key _ _ h1
  · exact key _ _ h1

theorem step_serial (env : Env) (m : Mgr) (op : Op) : m.serial ≤ (step env m op).serial := by
  cases op with
  | init lazy => exact init_serial env m lazy
  | availablePlugins => exact ensure_serial env m
  | plugins => exact ensure_serial env m
  | plugin id =>
    simp only [step, plugin]
    split
    · exact ensure_serial env m
    · split <;> exact ensure_serial env m
  | create id => exact (create_serial env m id).1
  | addStatic id k => exact Nat.le_refl _
  | removeStatic id => exact Nat.le_refl _

theorem run_serial (env : Env) (hs h : List Op) : (run env h).serial ≤ (run env (hs ++ h)).serial := by
  induction hs with
  | nil => exact Nat.le_refl _
  | cons op hs ih => exact Nat.le_trans ih (step_serial env _ op)

/-- C59: every call of `createPluginInstance` that makes an object makes a new one, in all
histories. -/
theorem c59_create_is_new (env : Env) (h hs : List Op) (id id' : S) (i j : Inst)
    (hi : (createPluginInstance env (run env h) id).1 = some i)
    (hj : (createPluginInstance env (run env (hs ++ .create id :: h)) id').1 = some j) : i ≠ j := by
  obtain ⟨k, s, rfl, _, h1⟩ := (create_serial env (run env h) id).2 i hi
  obtain ⟨k', s', rfl, h2, _⟩ := (create_serial env _ id').2 j hj
  have h3 := run_serial env hs (.create id :: h)
  have h4 : (run env (.create id :: h)).serial = (createPluginInstance env (run env h) id).2.serial := rfl
  intro he
  cases he
  omega

/-- C59: nor is it the object that `plugin` returns. -/
theorem c59_create_is_not_shared (env : Env) (h : List Op) (hk : KnownOnly env h) (id id' : S) (i : Inst)
    (hi : (createPluginInstance env (run env h) id).1 = some i)
    (hx : found env.files id ≠ none) :
    (plugin env (run env (.create id :: h)) id').1 ≠ some i := by
  have hinv := inv_run env h hk
  have hinv' := inv_run env (.create id :: h) ⟨hx, hk⟩
  obtain ⟨hl, hs⟩ := ensure_loaded hinv
  obtain ⟨hl', hs'⟩ := ensure_loaded hinv'
  have hi' : ∃ k s, i = .lib k s ∧ (full env).serial ≤ s := by
    simp only [createPluginInstance] at hi
    have key : ∀ (hd : Option Nat) (m1 : Mgr), (full env).serial ≤ m1.serial →
        (loadPluginInstance env hd m1).1 = some i → ∃ k s, i = .lib k s ∧ (full env).serial ≤ s := by
      intro hd m1 hm1 hh
      cases hd with
      | none => simp [loadPluginInstance] at hh
      | some k =>
        by_cases hc : env.creates k
        · simp only [loadPluginInstance, hc, if_true, Option.some.injEq] at hh
          exact ⟨k, m1.serial, hh.symm, hm1⟩
        · simp [loadPluginInstance, hc] at hh
    split at hi
    · exact key _ _ hl.2.2.2.2 hi
    · simp [loadPluginInstance] at hi
  obtain ⟨k, s, rfl, hs1⟩ := hi'
  have hf := (full_loaded env).2 id'
  intro hp
  simp only [plugin, hs', hinv'.static] at hp
  cases hst : staticAt id' (.create id :: h) with
  | some k' => rw [hst] at hp; simp at hp
  | none =>
    rw [hst] at hp
    simp only [Option.map_none, hl'.2.2.2.1] at hp
    cases hg : get (full env).loaded id' with
    | none => rw [hg] at hp; simp at hp
    | some x =>
      rw [hg] at hp
      simp only at hp
      subst hp
      cases hy : found env.files id' with
      | none => rw [hy] at hf; rw [show get (full env).loaded id' = none from hf] at hg; cases hg
      | some l =>
        rw [hy] at hf
        obtain ⟨y, hg', hmade⟩ := hf
        rw [hg] at hg'
        cases hg'
        cases l with
        | none => cases hmade
        | some k' =>
          by_cases hc : env.creates k'
          · simp only [Made, hc, if_true] at hmade
            obtain ⟨s', hs2, he⟩ := hmade
            cases he
            omega
          · simp only [Made, hc, Bool.false_eq_true, if_false] at hmade
            cases hmade

/-! ### Where it does not hold -/

/-- An example: two libraries. -/
def twoLibs : Env where
  files := [⟨some 1, some ['b'], true⟩, ⟨some 2, some ['c'], true⟩]
  creates := fun _ => true

/-- C59 fails for unknown identifiers: looking one up adds a NULL pointer to `plugins()`. -/
theorem c59_lookup_adds_null :
    (plugins twoLibs (run twoLibs [])).1 = [some (.lib 1 0), some (.lib 2 1)] ∧
    (plugins twoLibs (run twoLibs [.plugin ['a']])).1 = [none, some (.lib 1 0), some (.lib 2 1)] := by
  decide +kernel

/-- C59 fails for unknown identifiers: trying to make an object makes the identifier
available. -/
theorem c59_create_adds_identifier :
    (availablePlugins twoLibs (run twoLibs [.create ['x']])).1 = [['b'], ['c'], ['x']] := by
  decide +kernel

/-- C59: an identifier found in a library and added by the program is listed twice. -/
theorem c59_listed_twice :
    (availablePlugins twoLibs (run twoLibs [.addStatic ['b'] 7])).1 = [['b'], ['c'], ['b']] := by
  decide +kernel

/-- C59: if two files have the same identifier, the library of the first one is dropped
without being closed. -/
theorem c59_duplicate_is_leaked (creates : Nat → Bool) :
    let env : Env := ⟨[⟨some 1, some ['b'], true⟩, ⟨some 2, some ['b'], true⟩], creates⟩
    (run env [.init true]).handles = [(['b'], some 2)] ∧ (run env [.init true]).closed = [] := by
  refine ⟨?_, ?_⟩ <;> rfl

/-- C59 fails for the destructor: whenever the first loaded plugin has a library, the identifier
passed to `closePluginHandle` is freed before its last use. -/
theorem c59_destructor_use_after_free (m : Mgr) (id : S) (i : Option Inst) (r : List (S × Option Inst))
    (k : Nat) (hl : m.loaded = (id, i) :: r) (hh : get m.handles id = some (some k)) (n : Nat) :
    destroy true (n + 1) m = some .ub := by
  have hg : get m.loaded id = some i := by rw [hl]; simp [StrMap.get, StdMap.find]
  have hc : closePluginHandle m id true = .ub := by simp [closePluginHandle, hh, hg]
  have hne : ∃ e t, m.handles = e :: t := by
    cases hm : m.handles with
    | nil => rw [hm] at hh; cases hh
    | cons e t => exact ⟨e, t, rfl⟩
  obtain ⟨e, t, he⟩ := hne
  unfold destroy
  simp only [he, hl, hc]

/-- C59: this is what happens after every history that has looked up or listed plugins, if at
least one library was found and none failed to open. -/
theorem c59_destructor_fails_after_use (env : Env) (h : List Op) (hk : KnownOnly env h)
    (hopen : ∀ id, found env.files id ≠ some none) (hsome : ∃ id, found env.files id ≠ none) (n : Nat) :
    destroy true (n + 1) (run env (.plugins :: h)) = some .ub := by
  have hi := inv_run env h hk
  obtain ⟨hl, _⟩ := ensure_loaded hi
  obtain ⟨ho, hf⟩ := full_loaded env
  obtain ⟨id0, hid0⟩ := hsome
  have hne : (full env).loaded ≠ [] := by
    intro he
    have := hf id0
    cases hx : found env.files id0 with
    | none => exact hid0 hx
    | some l => rw [hx] at this; obtain ⟨i, hg, _⟩ := this; rw [he] at hg; cases hg
  cases hr : (full env).loaded with
  | nil => exact absurd hr hne
  | cons e r =>
    obtain ⟨id, i⟩ := e
    have hg : get (full env).loaded id = some i := (mem_iff ho id i).1 (by rw [hr]; simp)
    have hx : ∃ k, found env.files id = some (some k) := by
      have := hf id
      cases hx : found env.files id with
      | none => rw [hx] at this; rw [show get (full env).loaded id = none from this] at hg; cases hg
      | some l =>
        cases l with
        | none => exact absurd hx (hopen id)
        | some k => exact ⟨k, rfl⟩
    obtain ⟨k, hx⟩ := hx
    refine c59_destructor_use_after_free _ id i r k ?_ ?_ n
    · show (ensure env (run env h)).loaded = _; rw [hl.2.2.2.1, hr]
    · show get (ensure env (run env h)).handles id = _; rw [hl.2.2.1, handles0_found, hx]

/-- C59 fails for the destructor: an unknown identifier that sorts before the libraries makes its
loop run forever. -/
theorem c59_destructor_does_not_end (n : Nat) (aliased : Bool) :
    destroy aliased n (run twoLibs [.plugin ['a']]) = none := by
  have h0 : run twoLibs [.plugin ['a']]
      = { loaded := [(['a'], none), (['b'], some (.lib 1 0)), (['c'], some (.lib 2 1))],
          handles := [(['b'], some 1), (['c'], some 2)], initialized := true, serial := 2 } := by
    decide +kernel
  rw [h0]
  clear h0
  induction n with
  | zero => unfold destroy; rfl
  | succ n ih =>
    unfold destroy
    have : closePluginHandle
        { loaded := [(['a'], none), (['b'], some (.lib 1 0)), (['c'], some (.lib 2 1))],
          handles := [(['b'], some 1), (['c'], some 2)], initialized := true, serial := 2 } ['a'] aliased
        = .ok {
          loaded := [(['a'], none), (['b'], some (.lib 1 0)), (['c'], some (.lib 2 1))],
          handles := [(['b'], some 1), (['c'], some 2)], initialized := true, serial := 2 } := by
      cases aliased <;> decide +kernel
    simp only [this]
    exact ih

/-- C59: a library that could not be opened, but whose identifier was taken from the program itself: the
destructor ends if it is the only one, and forgets it; with a further library behind it, its loop runs forever. -/
theorem c59_destructor_unopened (aliased : Bool) :
    let one : Env := ⟨[⟨none, some ['b'], true⟩], fun _ => true⟩
    (∃ m', destroy aliased 1 (run one [.plugins]) = some (.ok m') ∧ m'.handles = [] ∧ m'.closed = [] ∧
      m'.loaded = [(['b'], none)]) ∧
    let two : Env := ⟨[⟨none, some ['b'], true⟩, ⟨some 2, some ['c'], true⟩], fun _ => true⟩
    ∀ n, destroy aliased n (run two [.plugins]) = none := by
  refine ⟨⟨{ loaded := [(['b'], none)], handles := [], initialized := true, serial := 0 }, ?_, rfl, rfl, rfl⟩, ?_⟩
  · cases aliased <;> decide +kernel
  · intro two n
    have h0 : run ⟨[⟨none, some ['b'], true⟩, ⟨some 2, some ['c'], true⟩], fun _ => true⟩ [.plugins]
        = { loaded := [(['b'], none), (['c'], some (.lib 2 0))],
            handles := [(['b'], none), (['c'], some 2)], initialized := true, serial := 1 } := by
      decide +kernel
    simp only [two]
    rw [h0]
    have step2 : closePluginHandle
        { loaded := [(['b'], none), (['c'], some (.lib 2 0))],
          handles := [(['c'], some 2)], initialized := true, serial := 1 } ['b'] aliased
        = .ok { loaded := [(['b'], none), (['c'], some (.lib 2 0))],
                handles := [(['c'], some 2)], initialized := true, serial := 1 } := by
      cases aliased <;> decide +kernel
    have step1 : closePluginHandle
        { loaded := [(['b'], none), (['c'], some (.lib 2 0))],
          handles := [(['b'], none), (['c'], some 2)], initialized := true, serial := 1 } ['b'] aliased
        = .ok { loaded := [(['b'], none), (['c'], some (.lib 2 0))],
                handles := [(['c'], some 2)], initialized := true, serial := 1 } := by
      cases aliased <;> decide +kernel
    have loop : ∀ n, destroy aliased n
        { loaded := [(['b'], none), (['c'], some (.lib 2 0))], handles := [(['c'], some 2)], initialized := true, serial := 1 }
        = none := by
      intro n
      induction n with
      | zero => unfold destroy; rfl
      | succ n ih => unfold destroy; simp only [step2]; exact ih
    cases n with
    | zero => unfold destroy; rfl
    | succ n => unfold destroy; simp only [step1]; exact loop n

/-! ### The destructor if the identifier were copied -/

theorem destroy_copied (hs : List (S × Option Nat)) : ∀ (ls : List (S × Option Inst)) (m : Mgr) (n : Nat),
    m.handles = hs → m.loaded = ls → hs.map Prod.fst = ls.map Prod.fst →
    (∀ e ∈ hs, e.2 ≠ none) → hs.length ≤ n →
    destroy false n m = some (.ok { m with
      handles := []
      loaded := []
      deleted := m.deleted ++ ls.map Prod.snd
      closed := m.closed ++ hs.filterMap Prod.snd }) := by
  induction hs with
  | nil =>
    intro ls m n hh hl hkeys _ _
    cases ls with
    | cons e l => simp at hkeys
    | nil =>
      unfold destroy
      simp only [hh]
      cases m
      simp only at hh hl
      simp [hh, hl]
  | cons e hs ih =>
    intro ls m n hh hl hkeys hne hn
    cases ls with
    | nil => simp at hkeys
    | cons f ls =>
      obtain ⟨id, o⟩ := e
      obtain ⟨id', i⟩ := f
      simp only [List.map_cons, List.cons.injEq] at hkeys
      obtain ⟨rfl, hkeys⟩ := hkeys
      cases o with
      | none => exact absurd rfl (hne (id, none) (by simp))
      | some k =>
        cases n with
        | zero => simp at hn
        | succ n =>
          have hg : get m.handles id = some (some k) := by rw [hh]; simp [StrMap.get, StdMap.find]
          have hg' : get m.loaded id = some i := by rw [hl]; simp [StrMap.get, StdMap.find]
          have hd : del m.handles id = hs := by rw [hh]; simp [del, StdMap.erase]
          have hd' : del m.loaded id = ls := by rw [hl]; simp [del, StdMap.erase]
          have hc : closePluginHandle m id false = .ok { m with
              loaded := ls, deleted := m.deleted ++ [i], closed := m.closed ++ [k], handles := hs } := by
            simp [closePluginHandle, hg, hg', hd, hd']
          unfold destroy
          simp only [hh, hl, hc]
          rw [ih ls _ n rfl rfl hkeys (fun e he => hne e (by simp [he])) (by simpa using hn)]
          simp

theorem same_keys {V W : Type} {a : List (S × V)} {b : List (S × W)} (ha : Ok a) (hb : Ok b)
    (h : ∀ id, get a id = none ↔ get b id = none) : a.map Prod.fst = b.map Prod.fst := by
  apply List.Perm.eq_of_pairwise (le := (· < ·)) ?_ (ascending_keys ha) (ascending_keys hb)
  · apply (List.perm_ext_iff_of_nodup (nodup_keys ha) (nodup_keys hb)).2
    intro id
    rw [mem_keys ha, mem_keys hb, ne_eq, ne_eq, h]
  · intro x y _ _ hxy hyx
    exact absurd (lt_trans hxy hyx) (lt_irrefl _)

/-- C59, the destructor: if the identifier were passed by value, then, as long as only known
plugins were looked up and no library failed to open, it would end, delete each loaded object
once and close each library once. -/
theorem c59_destructor_partial (env : Env) (h : List Op) (hk : KnownOnly env h)
    (hopen : ∀ id, found env.files id ≠ some none) :
    ∃ m', destroy false (handles0 env).length (run env (.plugins :: h)) = some (.ok m') ∧
      m'.handles = [] ∧ m'.loaded = [] ∧
      m'.closed = (run env (.plugins :: h)).closed ++ (handles0 env).filterMap Prod.snd ∧
      m'.deleted = (run env (.plugins :: h)).deleted ++ (full env).loaded.map Prod.snd ∧
      ((handles0 env).map Prod.fst).Nodup := by
  have hi := inv_run env h hk
  obtain ⟨hl, _⟩ := ensure_loaded hi
  obtain ⟨ho, hf⟩ := full_loaded env
  have hkeys : (handles0 env).map Prod.fst = (full env).loaded.map Prod.fst := by
    apply same_keys (handles0_ok env) ho
    intro id
    rw [handles0_found]
    have := hf id
    cases hx : found env.files id with
    | none => rw [hx] at this; simp [show get (full env).loaded id = none from this]
    | some l => rw [hx] at this; obtain ⟨i, hg, _⟩ := this; simp [hg]
  refine ⟨_, destroy_copied (handles0 env) (full env).loaded (run env (.plugins :: h))
    (handles0 env).length hl.2.2.1 hl.2.2.2.1 hkeys ?_ (Nat.le_refl _), rfl, rfl, rfl, rfl,
    nodup_keys (handles0_ok env)⟩
  intro e he hnone
  have := (mem_iff (handles0_ok env) e.1 e.2).1 he
  rw [handles0_found, hnone] at this
  exact hopen e.1 this

/-- Non-vacuity. -/
example : KnownOnly twoLibs [.create ['b'], .plugin ['s'], .addStatic ['s'] 3, .plugin ['c']] ∧
    found twoLibs.files ['b'] = some (some 1) ∧
    (plugins twoLibs (run twoLibs [.create ['b'], .plugin ['s'], .addStatic ['s'] 3, .plugin ['c']])).1
      = [some (.lib 1 0), some (.lib 2 1), some (.ext 3)] ∧
    (createPluginInstance twoLibs (run twoLibs [.create ['b']]) ['b']).1 = some (.lib 1 3) := by
  refine ⟨⟨by decide +kernel, Or.inl (by decide +kernel), Or.inr (by decide +kernel), trivial⟩, by decide +kernel,
    by decide +kernel, by decide +kernel⟩

end Verif.Plugin
