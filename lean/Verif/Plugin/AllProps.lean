import Verif.Plugin.Props

/-! # Plugin manager: what holds for all histories, unknown lookups included (C59) -/
namespace Verif.Plugin
open Verif.StrMap

/-- The entries are those of `m0`, apart from NULL entries for other identifiers. -/
def UpToNull {V : Type} (m m0 : List (S × Option V)) : Prop :=
  Ok m ∧ ∀ id, (get m0 id ≠ none → get m id = get m0 id) ∧
    (get m0 id = none → get m id = none ∨ get m id = some none)

theorem upToNull_refl {V : Type} {m : List (S × Option V)} (h : Ok m) : UpToNull m m :=
  ⟨h, fun _ => ⟨fun _ => rfl, fun h => Or.inl h⟩⟩

theorem upToNull_put {V : Type} {m m0 : List (S × Option V)} (h : UpToNull m m0) (id : S)
    (hn : get m id = none) : UpToNull (put m id none) m0 := by
  refine ⟨ok_put h.1 _ _, ?_⟩
  intro q
  rw [get_put h.1]
  by_cases hq : q = id
  · subst hq
    refine ⟨?_, by simp⟩
    intro hne
    have := (h.2 q).1 hne
    rw [hn] at this
    exact absurd this.symm hne
  · simp only [hq, if_false]
    exact h.2 q

/-- What the state says about any history. -/
structure InvA (env : Env) (h : List Op) (m : Mgr) : Prop where
  okStatic : Ok m.static
  static : ∀ id, get m.static id = (staticAt id h).map .ext
  state : (m.initialized = false ∧ m.lazy = false ∧ m.handles = [] ∧ m.loaded = [] ∧ m.serial = 0) ∨
    (m.initialized = true ∧ m.lazy = true ∧ m.handles = handles0 env ∧ m.loaded = [] ∧ m.serial = 0) ∨
    (m.initialized = true ∧ m.lazy = false ∧ UpToNull m.handles (handles0 env) ∧
      UpToNull m.loaded (full env).loaded)

/-- Everything is loaded, NULL entries apart. -/
def LoadedA (env : Env) (m : Mgr) : Prop :=
  m.initialized = true ∧ m.lazy = false ∧ UpToNull m.handles (handles0 env) ∧
    UpToNull m.loaded (full env).loaded

theorem loadedA_of {env : Env} {m : Mgr} (h : Loaded env m) : LoadedA env m :=
  ⟨h.1, h.2.1, by rw [h.2.2.1]; exact upToNull_refl (handles0_ok env),
    by rw [h.2.2.2.1]; exact upToNull_refl (full_loaded env).1⟩

theorem ensure_loadedA {env : Env} {h : List Op} {m : Mgr} (hi : InvA env h m) :
    LoadedA env (ensure env m) ∧ (ensure env m).static = m.static := by
  rcases hi.state with hs | hs | hl
  · obtain ⟨a, b⟩ := ensure_loaded (env := env) (h := h) (m := m) ⟨hi.okStatic, hi.static, Or.inl hs⟩
    exact ⟨loadedA_of a, b⟩
  · obtain ⟨a, b⟩ := ensure_loaded (env := env) (h := h) (m := m) ⟨hi.okStatic, hi.static, Or.inr (Or.inl hs)⟩
    exact ⟨loadedA_of a, b⟩
  · have : ensure env m = m := by simp [ensure, hl.1, hl.2.1]
    rw [this]
    exact ⟨hl, rfl⟩

theorem invA_loaded {env : Env} {h : List Op} {op : Op} {m m' : Mgr} (hi : InvA env h m)
    (hl : LoadedA env m') (hs : m'.static = m.static) (hst : ∀ id, staticAt id (op :: h) = staticAt id h) :
    InvA env (op :: h) m' :=
  ⟨by rw [hs]; exact hi.okStatic, fun id => by rw [hs, hst]; exact hi.static id, Or.inr (Or.inr hl)⟩

theorem invA_run (env : Env) (h : List Op) : InvA env h (run env h) := by
  induction h with
  | nil => exact ⟨ok_nil, fun _ => rfl, Or.inl ⟨rfl, rfl, rfl, rfl, rfl⟩⟩
  | cons op h hi =>
    simp only [run]
    cases op with
    | init lazy =>
      generalize run env h = m at hi
      simp only [step, initPlugins]
      rcases hi.state with ⟨h1, h2, h3, h4, h5⟩ | ⟨h1, h2, h3, h4, h5⟩ | hl
      · obtain ⟨a1, a2, a3, a4, a5, a6⟩ := initializePlugins_spec (env := env) h3
        simp only [h1, Bool.false_and, Bool.false_eq_true, if_false]
        cases lazy with
        | false =>
          obtain ⟨b1, b2⟩ := load_loaded (env := env) a4 a1 (a2.trans h4) (a6.trans h5)
          exact invA_loaded hi (loadedA_of b1) (b2.trans a3) (fun _ => rfl)
        | true =>
          exact ⟨(show (initializePlugins env m).static = m.static from a3) ▸ hi.okStatic,
            fun id => (congrArg (fun s => get s id) a3).trans (hi.static id),
            Or.inr (Or.inl ⟨a4, rfl, a1, a2.trans h4, a6.trans h5⟩)⟩
      · cases lazy with
        | false =>
          obtain ⟨b1, b2⟩ := load_loaded (env := env) h1 h3 h4 h5
          simp only [h1, h2, Bool.not_false, Bool.and_self, if_true]
          exact invA_loaded hi (loadedA_of b1) b2 (fun _ => rfl)
        | true =>
          simp only [h1, h2, Bool.not_true, Bool.and_false, Bool.false_eq_true, if_false, if_true]
          exact ⟨hi.okStatic, hi.static, hi.state⟩
      · simp only [hl.1, hl.2.1, Bool.and_false, Bool.false_and, Bool.false_eq_true, if_false, if_true]
        exact ⟨hi.okStatic, hi.static, hi.state⟩
    | availablePlugins =>
      obtain ⟨h1, h2⟩ := ensure_loadedA hi
      exact invA_loaded hi h1 h2 (fun _ => rfl)
    | plugins =>
      obtain ⟨h1, h2⟩ := ensure_loadedA hi
      exact invA_loaded hi h1 h2 (fun _ => rfl)
    | plugin id =>
      obtain ⟨h1, h2⟩ := ensure_loadedA hi
      refine invA_loaded hi (m' := (plugin env (run env h) id).2) ?_ ?_ (fun _ => rfl)
      · simp only [plugin]
        split
        · exact h1
        · split
          · exact h1
          · rename_i hn
            exact ⟨h1.1, h1.2.1, h1.2.2.1, upToNull_put h1.2.2.2 id hn⟩
      · simp only [plugin]
        split
        · exact h2
        · split <;> exact h2
    | create id =>
      obtain ⟨h1, h2⟩ := ensure_loadedA hi
      refine invA_loaded hi (m' := (createPluginInstance env (run env h) id).2) ?_ ?_ (fun _ => rfl)
      · simp only [createPluginInstance]
        split
        · rename_i hh hg
          obtain ⟨_, b2, b3⟩ := made_load env hh (ensure env (run env h))
          rw [b3]
          exact h1
        · rename_i hn
          exact ⟨h1.1, h1.2.1, upToNull_put h1.2.2.1 id hn, h1.2.2.2⟩
      · simp only [createPluginInstance]
        split
        · rename_i hh hg
          obtain ⟨_, b2, b3⟩ := made_load env hh (ensure env (run env h))
          rw [b3]
          exact h2
        · exact h2
    | addStatic id k =>
      refine ⟨ok_put (ok_del hi.okStatic _) _ _, ?_, hi.state⟩
      intro q
      simp only [step, addStatic]
      rw [get_put (ok_del hi.okStatic _), get_del hi.okStatic, hi.static]
      show _ = (if id = q then some k else staticAt q h).map Inst.ext
      by_cases hq : q = id
      · simp [hq]
      · simp [hq, Ne.symm hq]
    | removeStatic id =>
      refine ⟨ok_del hi.okStatic _, ?_, hi.state⟩
      intro q
      simp only [step, removeStatic]
      rw [get_del hi.okStatic, hi.static]
      show _ = (if id = q then none else staticAt q h).map Inst.ext
      by_cases hq : q = id
      · simp [hq]
      · simp [hq, Ne.symm hq]

/-- What a lookup returns, in all histories. -/
theorem plugin_result (env : Env) (h : List Op) (id : S) :
    (plugin env (run env h) id).1 = match staticAt id h with
      | some k => some (.ext k)
      | none => (get (full env).loaded id).join := by
  have hi := invA_run env h
  obtain ⟨hl, hs⟩ := ensure_loadedA hi
  simp only [plugin, hs, hi.static]
  cases staticAt id h with
  | some k => rfl
  | none =>
    have hu := hl.2.2.2.2 id
    simp only [Option.map_none]
    cases hg : get (full env).loaded id with
    | some i =>
      have := hu.1 (by simp [hg])
      rw [hg] at this
      simp [this]
    | none =>
      rcases hu.2 hg with h1 | h1 <;> simp [h1]

/-- C59: in all histories, looking up a plugin gives the object added by the program under this
identifier if there is one; otherwise an object made by the library with this identifier, if it
makes one; otherwise NULL. -/
theorem c59_plugin (env : Env) (h : List Op) (id : S) :
    (∀ k, staticAt id h = some k → (plugin env (run env h) id).1 = some (.ext k)) ∧
    (staticAt id h = none → ∀ k, found env.files id = some (some k) → env.creates k = true →
      ∃ s, (plugin env (run env h) id).1 = some (.lib k s)) ∧
    (staticAt id h = none → (∀ k, found env.files id = some (some k) → env.creates k = false) →
      (plugin env (run env h) id).1 = none) := by
  rw [plugin_result]
  have hf := (full_loaded env).2 id
  refine ⟨fun k hk => by rw [hk], ?_, ?_⟩
  · intro hst k hx hc
    rw [hx] at hf
    obtain ⟨i, hg, hmade⟩ := hf
    simp only [Made, hc, if_true] at hmade
    obtain ⟨s, _, rfl⟩ := hmade
    exact ⟨s, by rw [hst, hg]; rfl⟩
  · intro hst hx
    rw [hst]
    cases hy : found env.files id with
    | none => rw [hy] at hf; rw [show get (full env).loaded id = none from hf]; rfl
    | some l =>
      rw [hy] at hf
      obtain ⟨i, hg, hmade⟩ := hf
      rw [hg]
      cases l with
      | none => rw [show i = none from hmade]; rfl
      | some k =>
        have := hx k hy
        simp only [Made, this, Bool.false_eq_true, if_false] at hmade
        rw [hmade]; rfl

/-- C59: in all histories, a lookup returns the same object as in any other history with the same
object added by the program: repeated lookups give the same object. -/
theorem c59_plugin_stable (env : Env) (h h' : List Op) (id : S) (hst : staticAt id h = staticAt id h') :
    (plugin env (run env h) id).1 = (plugin env (run env h') id).1 := by
  rw [plugin_result, plugin_result, hst]

/-- C59: an object made by `createPluginInstance` comes from the library with this identifier,
in all histories; an unknown identifier gives NULL, also if the program has added a plugin under it. -/
theorem c59_create (env : Env) (h : List Op) (id : S) :
    (∀ k, found env.files id = some (some k) → env.creates k = true →
      ∃ s, (createPluginInstance env (run env h) id).1 = some (.lib k s)) ∧
    ((∀ k, found env.files id = some (some k) → env.creates k = false) →
      (createPluginInstance env (run env h) id).1 = none) := by
  have hi := invA_run env h
  obtain ⟨hl, hs⟩ := ensure_loadedA hi
  have hu := hl.2.2.1.2 id
  rw [handles0_found] at hu
  simp only [createPluginInstance]
  refine ⟨?_, ?_⟩
  · intro k hx hc
    have := hu.1 (by simp [hx])
    rw [hx] at this
    simp only [this, loadPluginInstance, hc, if_true]
    exact ⟨_, rfl⟩
  · intro hx
    cases hy : found env.files id with
    | none => rcases hu.2 hy with h1 | h1 <;> simp [h1, loadPluginInstance]
    | some l =>
      have := hu.1 (by simp [hy])
      rw [hy] at this
      cases l with
      | none => simp [this, loadPluginInstance]
      | some k => simp [this, loadPluginInstance, hx k hy]

/-- C59: in all histories, `availablePlugins()` lists everything found or added. -/
theorem c59_available_complete (env : Env) (h : List Op) (id : S)
    (hid : found env.files id ≠ none ∨ staticAt id h ≠ none) :
    id ∈ (availablePlugins env (run env h)).1 := by
  have hi := invA_run env h
  obtain ⟨hl, hs⟩ := ensure_loadedA hi
  simp only [availablePlugins, List.mem_append]
  rcases hid with hid | hid
  · left
    rw [mem_keys hl.2.2.1.1]
    have hu := hl.2.2.1.2 id
    rw [handles0_found] at hu
    rw [hu.1 hid]; exact hid
  · right
    rw [hs, mem_keys hi.okStatic, hi.static]
    cases hx : staticAt id h with
    | none => exact absurd hx hid
    | some k => simp

/-- Non-vacuity: an unknown lookup first. -/
example : (plugin twoLibs (run twoLibs [.plugin ['a'], .create ['z']]) ['c']).1 = some (.lib 2 1) := by
  decide +kernel

end Verif.Plugin
