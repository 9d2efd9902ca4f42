import Verif.Conc.Registry.PluginSpec
import Verif.Conc.Registry.Lemmas

/-!
# The calls of C143 do what the model of C59 does, and which of them only read
-/
namespace Verif.Registry.Plg
open Verif.Plugin Verif.StrMap Race

variable {A : Type}

/-- `X` takes the manager `m` to `m'`, whatever comes after it. -/
def Runs (X : P A → P A) (m : Mgr) (e : Nat) (m' : Mgr) : Prop :=
  ∃ e' tr, ∀ p, alone (X p) (mem m e) m.serial =
    ((alone p (mem m' e') m'.serial).1, (alone p (mem m' e') m'.serial).2.1,
      (alone p (mem m' e') m'.serial).2.2.1, tr ++ (alone p (mem m' e') m'.serial).2.2.2)

theorem Runs.id (m : Mgr) (e : Nat) : Runs (A := A) (fun p => p) m e m := ⟨e, [], fun _ => rfl⟩

theorem Runs.comp {X Y : P A → P A} {m m' m'' : Mgr} {e : Nat} (h1 : Runs X m e m')
    (h2 : ∀ e', Runs Y m' e' m'') : Runs (fun p => X (Y p)) m e m'' := by
  obtain ⟨e', t, h1⟩ := h1
  obtain ⟨e'', t', h2⟩ := h2 e'
  exact ⟨e'', t ++ t', fun p => by rw [h1, h2]; simp⟩

theorem Runs.rd {X : P A → P A} (v : Var) (Y : Val v → P A → P A) {m m' : Mgr} {e : Nat} (h : Runs (Y (mem m e v)) m e m')
    (hX : ∀ p, X p = .rd v fun x => Y x p) : Runs X m e m' := by
  obtain ⟨e', t, h⟩ := h
  exact ⟨e', .rd v :: t, fun p => by rw [hX]; simp only [alone]; rw [h]; rfl⟩

theorem Runs.wr {X : P A → P A} (v : Var) (x : Val v) (Y : P A → P A) {m m₁ m' : Mgr} {e e₁ : Nat} (h : Runs Y m₁ e₁ m')
    (hs : m₁.serial = m.serial) (hm : set (mem m e) v x = mem m₁ e₁)
    (hX : ∀ p, X p = .wr v x (Y p)) : Runs X m e m' := by
  obtain ⟨e', t, h⟩ := h
  exact ⟨e', .wr v :: t, fun p => by rw [hX]; simp only [alone]; rw [hm, ← hs, h]; rfl⟩

theorem set_eq {m : ∀ v, Val v} {m' : ∀ v, Val v} {v : Var} {x : Val v} (h1 : m' v = x) (h2 : ∀ u, u ≠ v → m' u = m u) :
    set m v x = m' := by
  funext u
  by_cases h : u = v
  · subst h; simp [set, h1]
  · simp [set, h, h2 u h]

macro "upd" : tactic => `(tactic| (apply set_eq; rfl; intro u hu; cases u <;> first | rfl | exact absurd rfl hu))

theorem runs_addError (m : Mgr) (e : Nat) : Runs (A := A) addError m e m :=
  .rd .errors (fun (n : Nat) p => .wr .errors (n + 1 : Nat) p)
    (.wr .errors (e + 1 : Nat) (fun p => p) (Runs.id m (e + 1)) rfl (by upd) (fun _ => rfl)) (fun _ => rfl)

theorem runs_loadHandle (f : File) (m : Mgr) (e : Nat) :
    Runs (A := A) (loadHandle f) m e (Plugin.loadHandle m f) := by
  unfold Plugin.loadHandle
  cases hf : f.ident with
  | none =>
    have : (loadHandle f : P A → P A) = addError := by funext p; simp [loadHandle, hf]
    rw [this]; exact runs_addError m e
  | some id =>
    cases hr : f.rightType with
    | false =>
      have : (loadHandle f : P A → P A) = fun p => p := by funext p; simp [loadHandle, hf, hr]
      rw [this]; simpa using Runs.id m e
    | true =>
      refine .rd .handles (fun (h : List (S × Option Nat)) p => .wr .handles (put h id f.handle) p)
        (.wr .handles _ (fun p => p) (Runs.id _ e) (by simp) ?_ (fun _ => rfl)) (fun p => by simp [loadHandle, hf, hr]; rfl)
      simp only [if_true]
      upd

theorem runs_loadHandles (fs : List File) : ∀ (m : Mgr) (e : Nat),
    Runs (A := A) (loadHandles fs) m e (fs.foldl Plugin.loadHandle m) := by
  induction fs with
  | nil => intro m e; exact Runs.id m e
  | cons f fs ih => intro m e; exact (runs_loadHandle f m e).comp fun e' => ih _ e'

theorem runs_initializePlugins (env : Env) (m : Mgr) (e : Nat) :
    Runs (A := A) (initializePlugins env) m e (Plugin.initializePlugins env m) := by
  refine .rd .initialized (fun _ p => .wr .errors (0 : Nat) (.wr .initialized true (loadHandles env.files p))) ?_ (fun _ => rfl)
  refine .wr .errors (0 : Nat) (fun p => .wr .initialized true (loadHandles env.files p)) (m₁ := m) (e₁ := 0) ?_ rfl (by upd) (fun _ => rfl)
  refine .wr .initialized true (loadHandles env.files) (m₁ := { m with initialized := true }) (e₁ := 0) (runs_loadHandles _ _ _) rfl (by upd) (fun _ => rfl)

/-- `loadInstance` returns what the model returns. -/
theorem alone_loadInstance (env : Env) (h : Option Nat) (m : Mgr) (e : Nat) : ∃ e' tr, ∀ k : Option Inst → P A,
    alone (loadInstance env h k) (mem m e) m.serial =
      let r := loadPluginInstance env h m
      let q := alone (k r.1) (mem r.2 e') r.2.serial
      (q.1, q.2.1, q.2.2.1, tr ++ q.2.2.2) := by
  cases h with
  | none => exact ⟨e, [], fun k => rfl⟩
  | some n =>
    by_cases hc : env.creates n = true
    · refine ⟨e, [], fun k => ?_⟩
      simp only [loadInstance, loadPluginInstance, hc, if_true, alone]
      rfl
    · obtain ⟨e', tr, h⟩ := runs_addError (A := A) m e
      refine ⟨e', tr, fun k => ?_⟩
      simp only [loadInstance, loadPluginInstance, hc]
      exact h _

theorem serial_loadOne (env : Env) (m : Mgr) (h : Option Nat) (l) :
    ({ (loadPluginInstance env h m).2 with loaded := l } : Mgr).serial = (loadPluginInstance env h m).2.serial := rfl

theorem runs_loadEach (env : Env) : ∀ (hs : List (S × Option Nat)) (m : Mgr) (e : Nat),
    Runs (A := A) (loadEach env hs) m e (hs.foldl (loadOne env) m) := by
  intro hs
  induction hs with
  | nil => intro m e; exact Runs.id m e
  | cons x r ih =>
    intro m e
    simp only [List.foldl_cons]
    cases hg : get m.loaded x.1 with
    | some i =>
      refine .rd .loaded (fun (l : List (S × Option Inst)) p => match get l x.1 with
        | some _ => loadEach env r p
        | none => .rd .initialized fun _ => .rd .lazy fun _ => .rd .handles fun _ =>
          loadInstance env x.2 fun i => .rd .loaded fun (l : List (S × Option Inst)) =>
            .wr .loaded (put l x.1 i) (loadEach env r p)) ?_ (fun _ => rfl)
      have hl : loadOne env m x = m := by simp [loadOne, hg]
      rw [hl]
      have := ih m e
      simpa [mem, hg] using this
    | none =>
      obtain ⟨e1, t1, h1⟩ := alone_loadInstance (A := A) env x.2 m e
      obtain ⟨e2, t2, h2⟩ := ih (loadOne env m x) e1
      refine ⟨e2, [.rd .loaded, .rd .initialized, .rd .lazy, .rd .handles] ++ t1 ++ [.rd .loaded, .wr .loaded] ++ t2, fun p => ?_⟩
      have hl : loadOne env m x = { (loadPluginInstance env x.2 m).2 with
          loaded := put (loadPluginInstance env x.2 m).2.loaded x.1 (loadPluginInstance env x.2 m).1 } := by
        simp [loadOne, hg]
      have hset : set (mem (loadPluginInstance env x.2 m).2 e1) .loaded
          (put (loadPluginInstance env x.2 m).2.loaded x.1 (loadPluginInstance env x.2 m).1) = mem (loadOne env m x) e1 := by
        rw [hl]; upd
      simp only [loadEach, alone]
      have hg' : get (mem m e .loaded : List (S × Option Inst)) x.1 = none := hg
      rw [hg']
      simp only [alone]
      have := h1 fun i => .rd .loaded fun (l : List (S × Option Inst)) => .wr .loaded (put l x.1 i) (loadEach env r p)
      simp only [alone] at this
      have hs : (loadPluginInstance env x.2 m).2.serial = (loadOne env m x).serial := by rw [hl]
      rw [this]
      have hset' := hset
      change set (mem (loadPluginInstance env x.2 m).2 e1) .loaded
          (put (mem (loadPluginInstance env x.2 m).2 e1 .loaded) x.1 (loadPluginInstance env x.2 m).1) = _ at hset'
      rw [hset', hs, h2]
      simp

theorem runs_loadPlugins (env : Env) (m : Mgr) (e : Nat) :
    Runs (A := A) (loadPlugins env) m e (Plugin.loadPlugins env m) := by
  refine .wr .lazy false (fun p => .rd .handles fun (h : List (S × Option Nat)) => loadEach env h p)
    (m₁ := { m with lazy := false }) (e₁ := e) ?_ rfl (by upd) (fun _ => rfl)
  exact .rd .handles (fun (h : List (S × Option Nat)) p => loadEach env h p) (runs_loadEach env _ _ _) (fun _ => rfl)

theorem runs_initRest (env : Env) (lazy : Bool) (m : Mgr) (e : Nat) :
    Runs (A := A) (initRest env lazy) m e (if m.initialized then m else
      let m1 := Plugin.initializePlugins env m
      if !lazy then Plugin.loadPlugins env m1 else { m1 with lazy := true }) := by
  refine .rd .initialized (fun (i : Bool) p => if i then p
    else initializePlugins env (if lazy then .wr .lazy true p else loadPlugins env p)) ?_ (fun _ => rfl)
  cases hi : m.initialized with
  | true => simpa [mem, hi] using Runs.id m e
  | false =>
    simp only [mem, hi]
    cases lazy with
    | true =>
      refine (runs_initializePlugins env m e).comp fun e' => ?_
      exact .wr .lazy true (fun p => p) (Runs.id _ e') rfl (by upd) (fun _ => rfl)
    | false => exact (runs_initializePlugins env m e).comp fun e' => runs_loadPlugins env _ e'

theorem runs_init (env : Env) (lazy : Bool) (m : Mgr) (e : Nat) :
    Runs (A := A) (init env lazy) m e (initPlugins env m lazy) := by
  refine .rd .initialized (fun (i : Bool) p =>
    if i then .rd .lazy fun (z : Bool) => if z && !lazy then loadPlugins env p else initRest env lazy p
    else initRest env lazy p) ?_ (fun _ => rfl)
  have hr := runs_initRest (A := A) env lazy m e
  cases hi : m.initialized with
  | false => simpa [mem, hi, initPlugins] using hr
  | true =>
    suffices h : Runs (A := A) (fun p : P A => .rd .lazy fun (z : Bool) =>
        if z && !lazy then loadPlugins env p else initRest env lazy p) m e (initPlugins env m lazy) by
      have h2 : (mem m e .initialized : Bool) = true := hi
      rw [h2]; simpa using h
    refine .rd .lazy (fun (z : Bool) p => if z && !lazy then loadPlugins env p else initRest env lazy p) ?_ (fun _ => rfl)
    cases hz : (m.lazy && !lazy) with
    | true => simpa [mem, hz, initPlugins, hi] using runs_loadPlugins env m e
    | false => simpa [mem, hz, initPlugins, hi] using hr

theorem runs_ensureRest (env : Env) (m : Mgr) (e : Nat) :
    Runs (A := A) (ensureRest env) m e (if m.lazy then Plugin.loadPlugins env m else m) := by
  refine .rd .lazy (fun (z : Bool) p => if z then loadPlugins env p else p) ?_ (fun _ => rfl)
  cases hz : m.lazy with
  | true => simpa [mem, hz] using runs_loadPlugins env m e
  | false => simpa [mem, hz] using Runs.id m e

theorem runs_ensure (env : Env) (m : Mgr) (e : Nat) : Runs (A := A) (ensure env) m e (Plugin.ensure env m) := by
  refine .rd .initialized (fun (i : Bool) p => if i then ensureRest env p else init env false (ensureRest env p)) ?_ (fun _ => rfl)
  cases hi : m.initialized with
  | true => simpa [mem, hi, Plugin.ensure] using runs_ensureRest env m e
  | false =>
    have := (runs_init (A := A) env false m e).comp fun e' => runs_ensureRest env _ e'
    simpa [mem, hi, Plugin.ensure] using this

theorem alone_call (env : Env) (op : Op) (m : Mgr) (e : Nat) : ∃ e' tr, alone (call env op) (mem m e) m.serial =
    (answer env m op, mem (Plugin.step env m op) e', (Plugin.step env m op).serial, tr) := by
  cases op with
  | init lazy =>
    obtain ⟨e', tr, h⟩ := runs_init (A := Res) env lazy m e
    exact ⟨e', tr, by simp only [call, h, alone, List.append_nil]; rfl⟩
  | availablePlugins =>
    obtain ⟨e', tr, h⟩ := runs_ensure (A := Res) env m e
    exact ⟨e', tr ++ [.rd .handles, .rd .static], by simp only [call, h, alone]; rfl⟩
  | plugins =>
    obtain ⟨e', tr, h⟩ := runs_ensure (A := Res) env m e
    exact ⟨e', tr ++ [.rd .loaded, .rd .static], by simp only [call, h, alone]; rfl⟩
  | plugin id =>
    obtain ⟨e', tr, h⟩ := runs_ensure (A := Res) env m e
    simp only [call, h, alone, answer, Plugin.step, Plugin.plugin, mem]
    cases get (Plugin.ensure env m).static id with
    | some i => exact ⟨e', _, rfl⟩
    | none =>
      simp only [alone, mem]
      cases get (Plugin.ensure env m).loaded id with
      | some i => exact ⟨e', _, rfl⟩
      | none =>
        refine ⟨e', tr ++ [.rd .static, .rd .loaded, .wr .loaded], ?_⟩
        have : set (mem (Plugin.ensure env m) e') .loaded (put (Plugin.ensure env m).loaded id none) =
          mem { Plugin.ensure env m with loaded := put (Plugin.ensure env m).loaded id none } e' := by upd
        simp only [alone]
        rw [this]
  | create id =>
    obtain ⟨e', tr, h⟩ := runs_ensure (A := Res) env m e
    simp only [call, h, alone, answer, Plugin.step, createPluginInstance, mem]
    cases get (Plugin.ensure env m).handles id with
    | some k =>
      obtain ⟨e2, t2, h2⟩ := alone_loadInstance (A := Res) env k (Plugin.ensure env m) e'
      simp only [h2]
      exact ⟨e2, _, rfl⟩
    | none =>
      refine ⟨e', tr ++ [.rd .handles, .wr .handles], ?_⟩
      have : set (mem (Plugin.ensure env m) e') .handles (put (Plugin.ensure env m).handles id none) =
          mem { Plugin.ensure env m with handles := put (Plugin.ensure env m).handles id none } e' := by upd
      simp only [alone, loadPluginInstance]
      rw [this]
  | addStatic id k =>
    have h1 : set (mem m e) .static (del m.static id) = mem { m with static := del m.static id } e := by upd
    have h2 : set (mem { m with static := del m.static id } e) .static (put (del m.static id) id (.ext k)) =
      mem { m with static := put (del m.static id) id (.ext k) } e := by upd
    refine ⟨e, [.rd .static, .wr .static, .rd .static, .wr .static], ?_⟩
    simp only [call, alone, answer, Plugin.step, addStatic]
    rw [← h2, ← h1]
    rfl
  | removeStatic id =>
    have h1 : set (mem m e) .static (del m.static id) = mem { m with static := del m.static id } e := by upd
    refine ⟨e, [.rd .static, .wr .static], ?_⟩
    simp only [call, alone, answer, Plugin.step, removeStatic]
    rw [← h1]
    rfl

/-! ## Which calls only read -/

theorem quiet_rd {m : ∀ v, Val v} (v : Var) (k : Val v → P A) {x : Val v} (h : m v = x) :
    Quiet m (.rd v k) ↔ Quiet m (k x) := by subst h; rfl

theorem quiet_loadPlugins (env : Env) (p : P A) (x) : ¬ Quiet x (loadPlugins env p) := id

theorem quiet_initRest (env : Env) (lazy : Bool) (p : P A) (m : Mgr) (e : Nat) :
    Quiet (mem m e) (initRest env lazy p) ↔ m.initialized = true ∧ Quiet (mem m e) p := by
  cases hi : m.initialized with
  | true => refine (quiet_rd (m := mem m e) .initialized _ (x := (true : Bool)) hi).trans ?_; simp
  | false => refine (quiet_rd (m := mem m e) .initialized _ (x := (false : Bool)) hi).trans ?_; simp [initializePlugins, Quiet]

theorem quiet_init (env : Env) (lazy : Bool) (p : P A) (m : Mgr) (e : Nat) :
    Quiet (mem m e) (init env lazy p) ↔ (m.initialized = true ∧ (m.lazy = true → lazy = true)) ∧ Quiet (mem m e) p := by
  have h := quiet_initRest env lazy p m e
  cases hi : m.initialized with
  | false => refine (quiet_rd (m := mem m e) .initialized _ (x := (false : Bool)) hi).trans ?_; simp [h, hi]
  | true =>
    refine (quiet_rd (m := mem m e) .initialized _ (x := (true : Bool)) hi).trans ?_
    cases hz : m.lazy with
    | false => refine (quiet_rd (m := mem m e) .lazy _ (x := (false : Bool)) hz).trans ?_; simp [h, hi]
    | true => refine (quiet_rd (m := mem m e) .lazy _ (x := (true : Bool)) hz).trans ?_; cases lazy <;> simp [Quiet, h, hi, loadPlugins]

theorem quiet_ensure (env : Env) (p : P A) (m : Mgr) (e : Nat) :
    Quiet (mem m e) (ensure env p) ↔ Ready m ∧ Quiet (mem m e) p := by
  unfold Ready
  cases hi : m.initialized with
  | false => refine (quiet_rd (m := mem m e) .initialized _ (x := (false : Bool)) hi).trans ?_; simp [quiet_init, hi]
  | true =>
    refine (quiet_rd (m := mem m e) .initialized _ (x := (true : Bool)) hi).trans ?_
    cases hz : m.lazy with
    | false => refine (quiet_rd (m := mem m e) .lazy _ (x := (false : Bool)) hz).trans ?_; simp
    | true => refine (quiet_rd (m := mem m e) .lazy _ (x := (true : Bool)) hz).trans ?_; simp [loadPlugins, Quiet]

theorem quiet_call (env : Env) (op : Op) (m : Mgr) (e : Nat) :
    Quiet (mem m e) (call env op) ↔ OnlyReads env m op := by
  cases op with
  | init lazy => simp [call, quiet_init, OnlyReads, Quiet]
  | availablePlugins => simp [call, quiet_ensure, OnlyReads, Quiet]
  | plugins => simp [call, quiet_ensure, OnlyReads, Quiet]
  | plugin id =>
    simp only [call, quiet_ensure, OnlyReads, Quiet, mem]
    cases get m.static id with
    | some i => simp [Quiet]
    | none =>
      simp only [Quiet, mem]
      cases get m.loaded id <;> simp [Quiet]
  | create id =>
    simp only [call, quiet_ensure, OnlyReads, Quiet, mem]
    cases get m.handles id with
    | none => simp [Quiet]
    | some k =>
      cases k with
      | none => simp [Quiet, loadInstance]
      | some h => by_cases hc : env.creates h = true <;> simp [Quiet, loadInstance, hc, addError]
  | addStatic id k => simp [call, Quiet, OnlyReads]
  | removeStatic id => simp [call, Quiet, OnlyReads]

/-! ## The accesses of a call -/

theorem alone_rd {m : ∀ v, Val v} {n : Nat} (v : Var) (k : Val v → P A) {x : Val v} (h : m v = x) :
    (alone (.rd v k) m n).2.2.2 = .rd v :: (alone (k x) m n).2.2.2 := by subst h; rfl

theorem mem_rd {m : ∀ v, Val v} {n : Nat} (v : Var) (k : Val v → P A) {x : Val v} (h : m v = x) {ev : Ev Empty Var} :
    ev ∈ (alone (.rd v k) m n).2.2.2 ↔ ev = .rd v ∨ ev ∈ (alone (k x) m n).2.2.2 := by
  rw [alone_rd v k h, List.mem_cons]

theorem outs_rd {m : ∀ v, Val v} (v : Var) (k : Val v → P A) {x : Val v} (h : m v = x) {a : A} :
    Outs m (.rd v k) a ↔ Outs m (k x) a := by subst h; rfl

theorem outs_ensure (env : Env) (p : P A) (m : Mgr) (e : Nat) (hr : Ready m) (a : A) :
    Outs (mem m e) (ensure env p) a ↔ Outs (mem m e) p a := by
  refine (outs_rd (m := mem m e) .initialized _ (x := (true : Bool)) hr.1).trans ?_
  refine (outs_rd (m := mem m e) .lazy _ (x := (false : Bool)) hr.2).trans ?_
  simp

theorem outs_init (env : Env) (lazy : Bool) (p : P A) (m : Mgr) (e : Nat) (hi : m.initialized = true)
    (hz : m.lazy = true → lazy = true) (a : A) :
    Outs (mem m e) (init env lazy p) a ↔ Outs (mem m e) p a := by
  have hR : Outs (mem m e) (initRest env lazy p) a ↔ Outs (mem m e) p a := by
    refine (outs_rd (m := mem m e) .initialized _ (x := (true : Bool)) hi).trans ?_
    simp
  refine (outs_rd (m := mem m e) .initialized _ (x := (true : Bool)) hi).trans ?_
  refine (outs_rd (m := mem m e) .lazy _ (x := (m.lazy : Bool)) rfl).trans ?_
  cases h : m.lazy with
  | false => simpa using hR
  | true => simpa [hz h] using hR

theorem ensure_ready (env : Env) (m : Mgr) (hr : Ready m) : Plugin.ensure env m = m := by
  simp [Plugin.ensure, hr.1, hr.2]

theorem outs_call (env : Env) (op : Op) (m : Mgr) (e : Nat) (ho : OnlyReads env m op) (r : Res)
    (h : Outs (mem m e) (call env op) r) : ∃ n, r = answer env (at_ m n) op := by
  have hen : ∀ n, Ready m → Plugin.ensure env (at_ m n) = at_ m n := fun n hr => ensure_ready env _ hr
  cases op with
  | init lazy =>
    rw [call, outs_init env lazy _ m e ho.1 ho.2] at h
    exact ⟨0, by simpa [Outs, answer] using h.symm⟩
  | availablePlugins =>
    rw [call, outs_ensure env _ m e ho] at h
    refine ⟨m.serial, ?_⟩
    simp only [answer, Plugin.availablePlugins, hen _ ho]
    exact h.symm
  | plugins =>
    rw [call, outs_ensure env _ m e ho] at h
    refine ⟨m.serial, ?_⟩
    simp only [answer, Plugin.plugins, hen _ ho]
    exact h.symm
  | plugin id =>
    rw [call, outs_ensure env _ m e ho.1] at h
    refine ⟨m.serial, ?_⟩
    have hs : (at_ m m.serial).static = m.static := rfl
    have hl : (at_ m m.serial).loaded = m.loaded := rfl
    simp only [answer, Plugin.plugin, hen _ ho.1, hs, hl]
    simp only [Outs, mem] at h
    cases hg : get m.static id with
    | some i => rw [hg] at h; exact h.symm
    | none =>
      rw [hg] at h
      simp only [Outs, mem] at h
      cases hg' : get m.loaded id with
      | some i => rw [hg'] at h; exact h.symm
      | none => rw [hg'] at h; exact h.elim
  | create id =>
    rw [call, outs_ensure env _ m e ho.1] at h
    simp only [answer, createPluginInstance, hen _ ho.1]
    have hh : ∀ n, (at_ m n).handles = m.handles := fun _ => rfl
    simp only [hh]
    simp only [Outs, mem] at h
    rcases ho.2 with hg | ⟨k, hg, hc⟩
    · rw [hg] at h ⊢; exact ⟨m.serial, h.symm⟩
    · rw [hg] at h ⊢
      simp only [loadInstance, hc, if_true, Outs] at h
      obtain ⟨n, hn⟩ := h
      exact ⟨n, by simp only [loadPluginInstance, hc, if_true]; exact hn.symm⟩
  | addStatic id k => exact ho.elim
  | removeStatic id => exact ho.elim

/-- The accesses of a call alone. -/
abbrev trace (p : P A) (m : Mgr) (e n : Nat) : List (Ev Empty Var) := (alone p (mem m e) n).2.2.2

theorem trace_ensure_ready (env : Env) (p : P A) (m : Mgr) (e n : Nat) (hr : Ready m) :
    trace (ensure env p) m e n = .rd .initialized :: .rd .lazy :: trace p m e n := by
  refine (alone_rd (m := mem m e) .initialized _ (x := (true : Bool)) hr.1).trans ?_
  refine congrArg _ ((alone_rd (m := mem m e) .lazy _ (x := (false : Bool)) hr.2).trans ?_)
  simp

theorem trace_initRest_new (env : Env) (lazy : Bool) (p : P A) (m : Mgr) (e n : Nat) (hi : m.initialized = false) :
    .wr .initialized ∈ trace (initRest env lazy p) m e n := by
  refine (mem_rd (m := mem m e) .initialized _ (x := (false : Bool)) hi).2 (.inr ?_)
  simp [initializePlugins, alone]

theorem trace_init_new (env : Env) (lazy : Bool) (p : P A) (m : Mgr) (e n : Nat) (hi : m.initialized = false) :
    .wr .initialized ∈ trace (init env lazy p) m e n := by
  refine (mem_rd (m := mem m e) .initialized _ (x := (false : Bool)) hi).2 (.inr ?_)
  exact (trace_initRest_new env lazy p m e n hi)

theorem trace_init_lazy (env : Env) (p : P A) (m : Mgr) (e n : Nat) (hi : m.initialized = true) (hz : m.lazy = true) :
    .wr .lazy ∈ trace (init env false p) m e n := by
  refine (mem_rd (m := mem m e) .initialized _ (x := (true : Bool)) hi).2 (.inr ?_)
  refine (mem_rd (m := mem m e) .lazy _ (x := (true : Bool)) hz).2 (.inr ?_)
  simp [loadPlugins, alone]

theorem trace_init_first (env : Env) (lazy : Bool) (p : P A) (m : Mgr) (e n : Nat) :
    .rd .initialized ∈ trace (init env lazy p) m e n := by
  exact (mem_rd (m := mem m e) .initialized _ rfl).2 (.inl rfl)

theorem trace_init_second (env : Env) (lazy : Bool) (p : P A) (m : Mgr) (e n : Nat) (hi : m.initialized = true) :
    .rd .lazy ∈ trace (init env lazy p) m e n := by
  refine (mem_rd (m := mem m e) .initialized _ (x := (true : Bool)) hi).2 (.inr ?_)
  simp [alone]

theorem trace_ensure_first (env : Env) (p : P A) (m : Mgr) (e n : Nat) :
    .rd .initialized ∈ trace (ensure env p) m e n := by
  exact (mem_rd (m := mem m e) .initialized _ rfl).2 (.inl rfl)

theorem trace_ensure_second (env : Env) (p : P A) (m : Mgr) (e n : Nat) (hi : m.initialized = true) :
    .rd .lazy ∈ trace (ensure env p) m e n := by
  refine (mem_rd (m := mem m e) .initialized _ (x := (true : Bool)) hi).2 (.inr ?_)
  simp [ensureRest, alone]

theorem trace_ensure_new (env : Env) (p : P A) (m : Mgr) (e n : Nat) (hi : m.initialized = false) :
    .wr .initialized ∈ trace (ensure env p) m e n := by
  refine (mem_rd (m := mem m e) .initialized _ (x := (false : Bool)) hi).2 (.inr ?_)
  exact (trace_init_new env false _ m e n hi)

theorem trace_ensure_lazy (env : Env) (p : P A) (m : Mgr) (e n : Nat) (hi : m.initialized = true) (hz : m.lazy = true) :
    .wr .lazy ∈ trace (ensure env p) m e n := by
  refine (mem_rd (m := mem m e) .initialized _ (x := (true : Bool)) hi).2 (.inr ?_)
  refine (mem_rd (m := mem m e) .lazy _ (x := (true : Bool)) hz).2 (.inr ?_)
  simp [loadPlugins, alone]

theorem lookup_ensure (env : Env) {c : Op} (h : Lookup c) : ∃ p, call env c = ensure env p := by
  cases c <;> first | exact ⟨_, rfl⟩ | exact h.elim

theorem loadFold_initialized (env : Env) (l : List (S × Option Nat)) (m : Mgr) :
    (l.foldl (loadOne env) m).initialized = m.initialized := by
  induction l generalizing m with
  | nil => rfl
  | cons x r ih =>
    rw [List.foldl_cons, ih]
    unfold loadOne
    split
    · rfl
    · cases x.2 with
      | none => rfl
      | some k => simp only [loadPluginInstance]; split <;> rfl

theorem loadHandles_initialized (l : List File) (m : Mgr) :
    (l.foldl Plugin.loadHandle m).initialized = m.initialized := by
  induction l generalizing m with
  | nil => rfl
  | cons x r ih =>
    rw [List.foldl_cons, ih]
    unfold Plugin.loadHandle
    split
    · rfl
    · split <;> rfl

theorem init_initialized (env : Env) (m : Mgr) (lazy : Bool) : (initPlugins env m lazy).initialized = true := by
  unfold initPlugins
  cases hi : m.initialized with
  | true =>
    simp only [Bool.true_and, if_true]
    split
    · simp [Plugin.loadPlugins, loadFold_initialized, hi]
    · exact hi
  | false =>
    cases lazy with
    | true => simp [Plugin.initializePlugins, loadHandles_initialized]
    | false => simp [Plugin.loadPlugins, loadFold_initialized, Plugin.initializePlugins, loadHandles_initialized]

theorem ensure_initialized (env : Env) (m : Mgr) : (Plugin.ensure env m).initialized = true := by
  unfold Plugin.ensure
  cases hi : m.initialized with
  | true =>
    simp only [Bool.not_true, Bool.false_eq_true, if_false]
    split
    · simp [Plugin.loadPlugins, loadFold_initialized, hi]
    · exact hi
  | false =>
    simp only [Bool.not_false, if_true]
    split
    · simp [Plugin.loadPlugins, loadFold_initialized, init_initialized]
    · exact init_initialized env m false

theorem lookup_initialized (env : Env) {c : Op} (h : Lookup c) (m : Mgr) : (Plugin.step env m c).initialized = true := by
  have he := ensure_initialized env m
  cases c with
  | availablePlugins => exact he
  | plugins => exact he
  | plugin id =>
    simp only [Plugin.step, Plugin.plugin]
    repeat' split
    all_goals exact he
  | create id =>
    simp only [Plugin.step, createPluginInstance]
    split
    · rename_i h _
      cases h with
      | none => exact he
      | some k => simp only [loadPluginInstance]; split <;> exact he
    · exact he
  | init l => exact h.elim
  | addStatic _ _ => exact h.elim
  | removeStatic _ => exact h.elim

/-- Two calls, one after the other, that access the same variable, one of them writing. -/
theorem canRace {ι : Type} [DecidableEq ι] {env : Env} {m : Mgr} {e : Nat} {calls : ι → List Op} {i j : ι} (hij : i ≠ j)
    {c d : Op} {cs ds : List Op} (hc : calls i = c :: cs) (hd : calls j = d :: ds) (x : Var) {a b : Ev Empty Var}
    (h1 : a ∈ trace (call env c) m e m.serial)
    (h2 : ∀ e', b ∈ trace (call env d) (Plugin.step env m c) e' (Plugin.step env m c).serial)
    (ha : Accesses a x) (hb : Accesses b x) (hw : a = .wr x ∨ b = .wr x) : CanRace env m e calls := by
  obtain ⟨e', tr, h⟩ := alone_call env c m e
  have := race_in_turn (w := start env m e calls) hij (p := call env c) (q := call env d) (x := x) (e := a) (e' := b)
    (by simp only [start, hc]; rfl) (by simp only [start, hd]; rfl) h1
    (by
      simp only [start]
      rw [h]
      exact h2 e') ha hb hw
  obtain ⟨s, t, w, h3, h4⟩ := this
  exact ⟨s, t, w, x, h3, h4⟩

end Verif.Registry.Plg
