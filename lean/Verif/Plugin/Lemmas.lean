import Verif.Plugin.Spec

/-! # Plugin manager: the state after a history -/
namespace Verif.Plugin
open Verif.StrMap

/-! ### Finding libraries -/

theorem loadHandle_same (m : Mgr) (f : File) :
    (loadHandle m f).loaded = m.loaded ∧ (loadHandle m f).static = m.static ∧
    (loadHandle m f).initialized = m.initialized ∧ (loadHandle m f).lazy = m.lazy ∧
    (loadHandle m f).serial = m.serial := by
  unfold loadHandle
  split
  · simp
  · split <;> simp

theorem loadHandles_same (fs : List File) (m : Mgr) :
    (fs.foldl loadHandle m).loaded = m.loaded ∧ (fs.foldl loadHandle m).static = m.static ∧
    (fs.foldl loadHandle m).initialized = m.initialized ∧ (fs.foldl loadHandle m).lazy = m.lazy ∧
    (fs.foldl loadHandle m).serial = m.serial := by
  induction fs generalizing m with
  | nil => simp
  | cons f fs ih =>
    obtain ⟨a1, a2, a3, a4, a5⟩ := loadHandle_same m f
    obtain ⟨b1, b2, b3, b4, b5⟩ := ih (loadHandle m f)
    simp only [List.foldl_cons]
    exact ⟨b1.trans a1, b2.trans a2, b3.trans a3, b4.trans a4, b5.trans a5⟩

theorem loadHandles_handles (fs : List File) (m m' : Mgr) (h : m.handles = m'.handles) :
    (fs.foldl loadHandle m).handles = (fs.foldl loadHandle m').handles := by
  induction fs generalizing m m' with
  | nil => exact h
  | cons f fs ih =>
    simp only [List.foldl_cons]
    apply ih
    unfold loadHandle
    split
    · exact h
    · split
      · simp [h]
      · exact h

theorem ok_loadHandle {m : Mgr} (h : Ok m.handles) (f : File) : Ok (loadHandle m f).handles := by
  unfold loadHandle
  split
  · exact h
  · split
    · exact ok_put h _ _
    · exact h

theorem loadHandles_found (fs : List File) : ∀ (m : Mgr), Ok m.handles →
    Ok (fs.foldl loadHandle m).handles ∧
    ∀ id, get (fs.foldl loadHandle m).handles id
      = match found fs id with
        | some h => some h
        | none => get m.handles id := by
  induction fs with
  | nil => intro m hm; exact ⟨hm, fun id => rfl⟩
  | cons f fs ih =>
    intro m hm
    obtain ⟨h1, h2⟩ := ih (loadHandle m f) (ok_loadHandle hm f)
    refine ⟨h1, ?_⟩
    intro id
    simp only [List.foldl_cons, h2 id]
    simp only [found, List.reverse_cons, List.find?_append, List.find?_cons, List.find?_nil]
    cases hf : fs.reverse.find? (fun f => f.rightType && f.ident == some id) with
    | some g => simp
    | none =>
      simp only [Option.none_or, loadHandle]
      cases hid : f.ident with
      | none => simp
      | some i =>
        cases hr : f.rightType with
        | false => simp
        | true =>
          simp only [Bool.true_and, if_true]
          rw [get_put hm]
          by_cases he : id = i
          · simp [he]
          · have : (i == id) = false := by simpa using Ne.symm he
            simp [he, this]

/-! ### Loading -/

/-- The handles that `initialize` finds. -/
def handles0 (env : Env) : List (S × Option Nat) := (initializePlugins env {}).handles

theorem handles0_found (env : Env) (id : S) : get (handles0 env) id = found env.files id := by
  have := (loadHandles_found env.files { ({} : Mgr) with initialized := true } ok_nil).2 id
  simp only [handles0, initializePlugins]
  rw [this]
  cases found env.files id <;> rfl

theorem handles0_ok (env : Env) : Ok (handles0 env) :=
  (loadHandles_found env.files { ({} : Mgr) with initialized := true } ok_nil).1

/-- What can be said about the object of a library. -/
def Made (env : Env) (h : Option Nat) (i : Option Inst) (bound : Nat) : Prop :=
  match h with
  | some k => if env.creates k then ∃ s, s < bound ∧ i = some (.lib k s) else i = none
  | none => i = none

theorem Made.mono {env : Env} {h : Option Nat} {i : Option Inst} {b b' : Nat} (hb : b ≤ b')
    (hm : Made env h i b) : Made env h i b' := by
  cases h with
  | none => exact hm
  | some k =>
    by_cases hc : env.creates k
    · simp only [Made, hc, if_true] at hm ⊢
      obtain ⟨s, h1, h2⟩ := hm
      exact ⟨s, Nat.lt_of_lt_of_le h1 hb, h2⟩
    · simp only [Made, hc, Bool.false_eq_true, if_false] at hm ⊢
      exact hm

theorem made_load (env : Env) (h : Option Nat) (m : Mgr) :
    Made env h (loadPluginInstance env h m).1 (loadPluginInstance env h m).2.serial ∧
    m.serial ≤ (loadPluginInstance env h m).2.serial ∧
    (loadPluginInstance env h m).2 = { m with serial := (loadPluginInstance env h m).2.serial } := by
  cases h with
  | none => simp [loadPluginInstance, Made]
  | some k =>
    by_cases hc : env.creates k
    · simp [loadPluginInstance, Made, hc]
    · simp [loadPluginInstance, Made, hc]

theorem loadOne_serial (env : Env) (m : Mgr) (e : S × Option Nat) : m.serial ≤ (loadOne env m e).serial := by
  unfold loadOne
  split
  · exact Nat.le_refl _
  · exact (made_load env e.2 m).2.1

theorem loadFold_serial (env : Env) (l : List (S × Option Nat)) : ∀ m : Mgr,
    m.serial ≤ (l.foldl (loadOne env) m).serial := by
  induction l with
  | nil => intro m; exact Nat.le_refl _
  | cons e l ih => intro m; exact Nat.le_trans (loadOne_serial env m e) (ih _)

theorem loadOne_same (env : Env) (m : Mgr) (e : S × Option Nat) :
    (loadOne env m e).handles = m.handles ∧ (loadOne env m e).static = m.static ∧
    (loadOne env m e).initialized = m.initialized ∧ (loadOne env m e).lazy = m.lazy := by
  unfold loadOne
  split
  · simp
  · obtain ⟨_, _, h⟩ := made_load env e.2 m
    simp only
    rw [h]
    simp

theorem loadFold_same (env : Env) (l : List (S × Option Nat)) : ∀ m : Mgr,
    (l.foldl (loadOne env) m).handles = m.handles ∧ (l.foldl (loadOne env) m).static = m.static ∧
    (l.foldl (loadOne env) m).initialized = m.initialized ∧ (l.foldl (loadOne env) m).lazy = m.lazy := by
  induction l with
  | nil => intro m; simp
  | cons e l ih =>
    intro m
    obtain ⟨a1, a2, a3, a4⟩ := loadOne_same env m e
    obtain ⟨b1, b2, b3, b4⟩ := ih (loadOne env m e)
    exact ⟨b1.trans a1, b2.trans a2, b3.trans a3, b4.trans a4⟩

theorem loadPluginInstance_eq (env : Env) (h : Option Nat) (m m' : Mgr) (hs : m.serial = m'.serial) :
    (loadPluginInstance env h m).1 = (loadPluginInstance env h m').1 ∧
    (loadPluginInstance env h m).2.serial = (loadPluginInstance env h m').2.serial := by
  cases h with
  | none => simp [loadPluginInstance, hs]
  | some k => by_cases hc : env.creates k <;> simp [loadPluginInstance, hc, hs]

theorem loadPluginInstance_loaded (env : Env) (h : Option Nat) (m : Mgr) :
    (loadPluginInstance env h m).2.loaded = m.loaded := by
  cases h with
  | none => rfl
  | some k => by_cases hc : env.creates k <;> simp [loadPluginInstance, hc]

theorem loadFold_eq (env : Env) (l : List (S × Option Nat)) : ∀ m m' : Mgr,
    m.loaded = m'.loaded → m.serial = m'.serial →
    (l.foldl (loadOne env) m).loaded = (l.foldl (loadOne env) m').loaded ∧
    (l.foldl (loadOne env) m).serial = (l.foldl (loadOne env) m').serial := by
  induction l with
  | nil => intro m m' h1 h2; exact ⟨h1, h2⟩
  | cons e l ih =>
    intro m m' h1 h2
    simp only [List.foldl_cons]
    obtain ⟨e1, e2⟩ := loadPluginInstance_eq env e.2 m m' h2
    apply ih
    · simp only [loadOne, h1]
      split
      · exact h1
      · simp only [loadPluginInstance_loaded, h1, e1]
    · simp only [loadOne, h1]
      split
      · exact h2
      · exact e2

/-- The entries made by `loadPlugins`. -/
theorem loadFold_loaded (env : Env) (l : List (S × Option Nat)) (hd : (l.map Prod.fst).Nodup) :
    ∀ m : Mgr, Ok m.loaded → (∀ e ∈ l, get m.loaded e.1 = none) →
    Ok (l.foldl (loadOne env) m).loaded ∧
    (∀ id, (∀ e ∈ l, e.1 ≠ id) → get (l.foldl (loadOne env) m).loaded id = get m.loaded id) ∧
    (∀ e ∈ l, ∃ i, get (l.foldl (loadOne env) m).loaded e.1 = some i ∧
      Made env e.2 i (l.foldl (loadOne env) m).serial) := by
  induction l with
  | nil => intro m hm _; exact ⟨hm, fun _ _ => rfl, by simp⟩
  | cons e l ih =>
    intro m hm hn
    simp only [List.map_cons, List.nodup_cons] at hd
    have h0 := hn e (by simp)
    have hl : (loadOne env m e).loaded = put m.loaded e.1 (loadPluginInstance env e.2 m).1 := by
      simp only [loadOne, h0, loadPluginInstance_loaded]
    have hser : (loadOne env m e).serial = (loadPluginInstance env e.2 m).2.serial := by
      simp only [loadOne, h0]
    have hne : ∀ e' ∈ l, e'.1 ≠ e.1 := fun e' he' heq => hd.1 (heq ▸ List.mem_map_of_mem he')
    obtain ⟨i1, i2, i3⟩ := ih hd.2 (loadOne env m e) (by rw [hl]; exact ok_put hm _ _) (by
      intro e' he'
      rw [hl, get_put hm, if_neg (hne e' he')]
      exact hn e' (by simp [he']))
    refine ⟨i1, ?_, ?_⟩
    · intro id hid
      rw [List.foldl_cons, i2 id (fun e' he' => hid e' (by simp [he'])), hl, get_put hm,
        if_neg (Ne.symm (hid e (by simp)))]
    · intro e' he'
      rcases List.mem_cons.1 he' with rfl | he'
      · refine ⟨(loadPluginInstance env e'.2 m).1, ?_, ?_⟩
        · rw [List.foldl_cons, i2 e'.1 hne, hl, get_put hm, if_pos rfl]
        · refine Made.mono ?_ (made_load env e'.2 m).1
          rw [← hser]
          exact loadFold_serial env l _
      · exact i3 e' he'

/-- The state right after everything was loaded. -/
def full (env : Env) : Mgr := loadPlugins env { ({} : Mgr) with handles := handles0 env }

/-- What the state says about the history, if only known plugins were looked up. -/
structure Inv (env : Env) (h : List Op) (m : Mgr) : Prop where
  okStatic : Ok m.static
  static : ∀ id, get m.static id = (staticAt id h).map .ext
  state : (m.initialized = false ∧ m.lazy = false ∧ m.handles = [] ∧ m.loaded = [] ∧ m.serial = 0) ∨
    (m.initialized = true ∧ m.lazy = true ∧ m.handles = handles0 env ∧ m.loaded = [] ∧ m.serial = 0) ∨
    (m.initialized = true ∧ m.lazy = false ∧ m.handles = handles0 env ∧ m.loaded = (full env).loaded ∧
      (full env).serial ≤ m.serial)

/-- Everything is loaded. -/
def Loaded (env : Env) (m : Mgr) : Prop :=
  m.initialized = true ∧ m.lazy = false ∧ m.handles = handles0 env ∧ m.loaded = (full env).loaded ∧
    (full env).serial ≤ m.serial

theorem load_loaded {env : Env} {m : Mgr} (h1 : m.initialized = true) (h2 : m.handles = handles0 env)
    (h3 : m.loaded = []) (h4 : m.serial = 0) :
    Loaded env (loadPlugins env m) ∧ (loadPlugins env m).static = m.static := by
  obtain ⟨a1, a2, a3, a4⟩ := loadFold_same env m.handles { m with lazy := false }
  obtain ⟨b1, b2⟩ := loadFold_eq env (handles0 env) { m with lazy := false }
    { ({ ({} : Mgr) with handles := handles0 env }) with lazy := false } h3 h4
  have e : loadPlugins env m = (handles0 env).foldl (loadOne env) { m with lazy := false } :=
    congrArg (fun l => l.foldl (loadOne env) { m with lazy := false }) h2
  refine ⟨⟨a3.trans h1, a4, a1.trans h2, ?_, ?_⟩, a2⟩
  · rw [e]; exact b1
  · rw [e]; exact Nat.le_of_eq b2.symm

theorem initializePlugins_spec {env : Env} {m : Mgr} (h1 : m.handles = []) :
    (initializePlugins env m).handles = handles0 env ∧ (initializePlugins env m).loaded = m.loaded ∧
    (initializePlugins env m).static = m.static ∧ (initializePlugins env m).initialized = true ∧
    (initializePlugins env m).lazy = m.lazy ∧ (initializePlugins env m).serial = m.serial := by
  obtain ⟨a1, a2, a3, a4, a5⟩ := loadHandles_same env.files { m with initialized := true }
  exact ⟨loadHandles_handles env.files _ _ h1, a1, a2, a3, a4, a5⟩

theorem ensure_loaded {env : Env} {h : List Op} {m : Mgr} (hi : Inv env h m) :
    Loaded env (ensure env m) ∧ (ensure env m).static = m.static := by
  rcases hi.state with ⟨h1, h2, h3, h4, h5⟩ | ⟨h1, h2, h3, h4, h5⟩ | hl
  · obtain ⟨a1, a2, a3, a4, a5, a6⟩ := initializePlugins_spec (env := env) h3
    obtain ⟨b1, b2⟩ := load_loaded (env := env) a4 a1 (a2.trans h4) (a6.trans h5)
    have : ensure env m = loadPlugins env (initializePlugins env m) := by
      simp only [ensure, h1, initPlugins, Bool.not_false, if_true, Bool.false_and, Bool.false_eq_true, if_false,
        b1.2.1]
    rw [this]
    exact ⟨b1, b2.trans a3⟩
  · obtain ⟨b1, b2⟩ := load_loaded (env := env) h1 h3 h4 h5
    have : ensure env m = loadPlugins env m := by simp [ensure, h1, h2]
    rw [this]
    exact ⟨b1, b2⟩
  · have : ensure env m = m := by simp [ensure, hl.1, hl.2.1]
    rw [this]
    exact ⟨hl, rfl⟩

theorem full_loaded (env : Env) :
    Ok (full env).loaded ∧ ∀ id, match found env.files id with
      | some h => ∃ i, get (full env).loaded id = some i ∧ Made env h i (full env).serial
      | none => get (full env).loaded id = none := by
  obtain ⟨h1, h2, h3⟩ := loadFold_loaded env (handles0 env) (nodup_keys (handles0_ok env))
    { ({ ({} : Mgr) with handles := handles0 env }) with lazy := false } ok_nil (by simp)
  refine ⟨h1, ?_⟩
  intro id
  have hf := handles0_found env id
  cases hx : found env.files id with
  | none =>
    show get (full env).loaded id = none
    have : ∀ e ∈ handles0 env, e.1 ≠ id := by
      intro e he heq
      have := (mem_iff (handles0_ok env) e.1 e.2).1 he
      rw [heq, hf, hx] at this
      cases this
    exact h2 id this
  | some hh =>
    show ∃ i, get (full env).loaded id = some i ∧ Made env hh i (full env).serial
    rw [hx] at hf
    exact h3 (id, hh) ((mem_iff (handles0_ok env) id hh).2 hf)

theorem inv_loaded {env : Env} {h : List Op} {op : Op} {m m' : Mgr} (hi : Inv env h m)
    (hl : Loaded env m') (hs : m'.static = m.static) (hst : ∀ id, staticAt id (op :: h) = staticAt id h) :
    Inv env (op :: h) m' :=
  ⟨by rw [hs]; exact hi.okStatic, fun id => by rw [hs, hst]; exact hi.static id, Or.inr (Or.inr hl)⟩

theorem inv_run (env : Env) (h : List Op) (hk : KnownOnly env h) : Inv env h (run env h) := by
  induction h with
  | nil => exact ⟨ok_nil, fun _ => rfl, Or.inl ⟨rfl, rfl, rfl, rfl, rfl⟩⟩
  | cons op h ih =>
    simp only [run]
    cases op with
    | init lazy =>
      have hi := ih hk
      generalize run env h = m at hi
      simp only [step, initPlugins]
      rcases hi.state with ⟨h1, h2, h3, h4, h5⟩ | ⟨h1, h2, h3, h4, h5⟩ | hl
      · obtain ⟨a1, a2, a3, a4, a5, a6⟩ := initializePlugins_spec (env := env) h3
        simp only [h1, Bool.false_and, Bool.false_eq_true, if_false]
        cases lazy with
        | false =>
          obtain ⟨b1, b2⟩ := load_loaded (env := env) a4 a1 (a2.trans h4) (a6.trans h5)
          exact inv_loaded hi b1 (b2.trans a3) (fun _ => rfl)
        | true =>
          exact ⟨(show (initializePlugins env m).static = m.static from a3) ▸ hi.okStatic,
            fun id => (congrArg (fun s => get s id) a3).trans (hi.static id),
            Or.inr (Or.inl ⟨a4, rfl, a1, a2.trans h4, a6.trans h5⟩)⟩
      · cases lazy with
        | false =>
          obtain ⟨b1, b2⟩ := load_loaded (env := env) h1 h3 h4 h5
          simp only [h1, h2, Bool.not_false, Bool.and_self, if_true]
          exact inv_loaded hi b1 b2 (fun _ => rfl)
        | true =>
          simp only [h1, h2, Bool.not_true, Bool.and_false, Bool.false_eq_true, if_false, if_true]
          exact ⟨hi.okStatic, hi.static, hi.state⟩
      · simp only [hl.1, hl.2.1, Bool.and_false, Bool.false_and, Bool.false_eq_true, if_false, if_true]
        exact ⟨hi.okStatic, hi.static, hi.state⟩
    | availablePlugins =>
      obtain ⟨h1, h2⟩ := ensure_loaded (ih hk)
      exact inv_loaded (ih hk) h1 h2 (fun _ => rfl)
    | plugins =>
      obtain ⟨h1, h2⟩ := ensure_loaded (ih hk)
      exact inv_loaded (ih hk) h1 h2 (fun _ => rfl)
    | plugin id =>
      have hi := ih hk.2
      obtain ⟨h1, h2⟩ := ensure_loaded hi
      refine inv_loaded hi (m' := (plugin env (run env h) id).2) ?_ ?_ (fun _ => rfl)
      · simp only [plugin]
        split
        · exact h1
        · split
          · exact h1
          · rename_i hs _ hn
            exfalso
            rw [h2, hi.static] at hs
            have hf := (full_loaded env).2 id
            rw [h1.2.2.2.1] at hn
            rcases hk.1 with hk | hk
            · cases hx : staticAt id h with
              | none => exact hk hx
              | some k => rw [hx] at hs; cases hs
            · cases hx : found env.files id with
              | none => exact hk hx
              | some hh =>
                rw [hx] at hf
                obtain ⟨i, hi', _⟩ := hf
                rw [hn] at hi'
                cases hi'
      · simp only [plugin]
        split
        · exact h2
        · split <;> exact h2
    | create id =>
      have hi := ih hk.2
      obtain ⟨h1, h2⟩ := ensure_loaded hi
      refine inv_loaded hi (m' := (createPluginInstance env (run env h) id).2) ?_ ?_ (fun _ => rfl)
      · simp only [createPluginInstance]
        split
        · rename_i hh hg
          obtain ⟨_, b2, b3⟩ := made_load env hh (ensure env (run env h))
          rw [b3]
          exact ⟨h1.1, h1.2.1, h1.2.2.1, h1.2.2.2.1, Nat.le_trans h1.2.2.2.2 b2⟩
        · rename_i hn
          rw [h1.2.2.1, handles0_found] at hn
          exact absurd hn hk.1
      · simp only [createPluginInstance]
        split
        · rename_i hh hg
          obtain ⟨_, b2, b3⟩ := made_load env hh (ensure env (run env h))
          rw [b3]
          exact h2
        · obtain ⟨_, b2, b3⟩ := made_load env none
            { ensure env (run env h) with handles := put (ensure env (run env h)).handles id none }
          rw [b3]
          exact h2
    | addStatic id k =>
      have hi := ih hk
      refine ⟨ok_put (ok_del hi.okStatic _) _ _, ?_, hi.state⟩
      intro q
      simp only [step, addStatic]
      rw [get_put (ok_del hi.okStatic _), get_del hi.okStatic, hi.static]
      show _ = (if id = q then some k else staticAt q h).map Inst.ext
      by_cases hq : q = id
      · simp [hq]
      · simp [hq, Ne.symm hq]
    | removeStatic id =>
      have hi := ih hk
      refine ⟨ok_del hi.okStatic _, ?_, hi.state⟩
      intro q
      simp only [step, removeStatic]
      rw [get_del hi.okStatic, hi.static]
      show _ = (if id = q then none else staticAt q h).map Inst.ext
      by_cases hq : q = id
      · simp [hq]
      · simp [hq, Ne.symm hq]

end Verif.Plugin
