import Verif.Conc.Registry.PluginLemmas

/-!
# C143: which calls of a plugin manager may run at the same time
-/
namespace Verif.Registry.Plg
open Verif.Plugin Verif.StrMap Race

/-- The calls, access by access, do what the model of C59 does. -/
theorem c143_plugin_as_alone (env : Env) (op : Op) (m : Mgr) (e : Nat) : ∃ e' tr,
    alone (call env op) (mem m e) m.serial =
      (answer env m op, mem (Plugin.step env m op) e', (Plugin.step env m op).serial, tr) :=
  alone_call env op m e

/-- Any number of threads whose calls only read: no schedule has a data race, the manager stays as it was, and every
call answers what it answers when no other thread runs (objects are numbered in the order in which they are made). -/
theorem c143_plugin_readers {ι : Type} [DecidableEq ι] (env : Env) (m : Mgr) (e : Nat) (calls : ι → List Op)
    (h : ∀ i, ∀ c ∈ calls i, OnlyReads env m c) {sched tr w}
    (hx : (start env m e calls).exec sched = some (tr, w)) :
    (∀ x, ¬ DataRace tr x) ∧ w.mem = mem m e ∧
    ∀ i l, w.prog i = .ret l → List.Forall₂ (fun c r => ∃ n, r = answer env (at_ m n) c) (calls i) l := by
  obtain ⟨h1, h2, -, h4⟩ := exec_quiet sched (w := start env m e calls)
    (fun i => quiet_inOrder _ _ _ fun c hc => (quiet_call env c m e).2 (h i c hc)) hx
  refine ⟨no_race_of_reads h1, h2, fun i l hl => ?_⟩
  have := h4 i l (by rw [hl]; rfl)
  exact forall₂_imp_mem (fun c r hc hr => outs_call env c m e (h i c hc) r hr) (outs_inOrder (mem m e) (call env) _ _ this)

/-- Two threads make the same call: if it does not only read, there is a schedule with a data race. -/
theorem c143_plugin_same_call {ι : Type} [DecidableEq ι] (env : Env) (m : Mgr) (e : Nat) (calls : ι → List Op) {i j : ι}
    (hij : i ≠ j) {c : Op} {cs ds : List Op} (hi : calls i = c :: cs) (hj : calls j = c :: ds)
    (h : ¬ OnlyReads env m c) : CanRace env m e calls := by
  by_cases hr : Ready m
  · have hen := ensure_ready env m hr
    cases c with
    | init lazy => exact absurd ⟨hr.1, fun hz => by rw [hr.2] at hz; cases hz⟩ h
    | availablePlugins => exact absurd hr h
    | plugins => exact absurd hr h
    | plugin id =>
      simp only [OnlyReads, not_and, not_or] at h
      obtain ⟨h1, h2⟩ := h hr
      have g1 : get m.static id = none := by simpa using h1
      have g2 : get m.loaded id = none := by simpa using h2
      have hs : Plugin.step env m (.plugin id) = { m with loaded := put m.loaded id none } := by
        simp [Plugin.step, Plugin.plugin, hen, g1, g2]
      have hr' : Ready { m with loaded := put m.loaded id none } := hr
      refine canRace hij hi hj .loaded (a := .wr .loaded) (b := .rd .loaded) ?_ ?_ (.inr rfl) (.inl rfl) (.inl rfl)
      · rw [call, trace_ensure_ready env _ m e _ hr]
        simp [trace, alone, mem, g1, g2]
      · intro e'
        rw [hs, call, trace_ensure_ready env _ _ e' _ hr']
        simp [trace, alone, mem, g1]
    | create id =>
      simp only [OnlyReads, not_and, not_or, not_exists] at h
      obtain ⟨h1, h2⟩ := h hr
      cases hg : get m.handles id with
      | none =>
        have hs : Plugin.step env m (.create id) = { m with handles := put m.handles id none } := by
          simp [Plugin.step, createPluginInstance, hen, hg, loadPluginInstance]
        have hr' : Ready { m with handles := put m.handles id none } := hr
        refine canRace hij hi hj .handles (a := .wr .handles) (b := .rd .handles) ?_ ?_ (.inr rfl) (.inl rfl) (.inl rfl)
        · rw [call, trace_ensure_ready env _ m e _ hr]
          simp [trace, alone, mem, hg]
        · intro e'
          rw [hs, call, trace_ensure_ready env _ _ e' _ hr']
          simp [trace, alone]
      | some k =>
        cases k with
        | none => exact absurd hg h1
        | some k =>
          have hc : ¬ env.creates k = true := h2 k hg
          have hs : Plugin.step env m (.create id) = m := by
            simp [Plugin.step, createPluginInstance, hen, hg, loadPluginInstance, hc]
          refine canRace hij hi hj .errors (a := .wr .errors) (b := .wr .errors) ?_ ?_ (.inr rfl) (.inr rfl) (.inl rfl)
          · rw [call, trace_ensure_ready env _ m e _ hr]
            simp [trace, alone, mem, hg, loadInstance, hc, addError]
          · intro e'
            rw [hs, call, trace_ensure_ready env _ _ e' _ hr]
            simp [trace, alone, mem, hg, loadInstance, hc, addError]
    | addStatic id k =>
      refine canRace hij hi hj .static (a := .wr .static) (b := .rd .static) ?_ ?_ (.inr rfl) (.inl rfl) (.inl rfl)
      · simp [trace, call, alone]
      · intro e'; simp [trace, call, alone]
    | removeStatic id =>
      refine canRace hij hi hj .static (a := .wr .static) (b := .rd .static) ?_ ?_ (.inr rfl) (.inl rfl) (.inl rfl)
      · simp [trace, call, alone]
      · intro e'; simp [trace, call, alone]
  · by_cases hl : Lookup c
    · obtain ⟨p, hp⟩ := lookup_ensure env hl
      cases hin : m.initialized with
      | false =>
        refine canRace hij hi hj .initialized (a := .wr .initialized) (b := .rd .initialized) ?_ ?_ (.inr rfl) (.inl rfl) (.inl rfl)
        · rw [hp]; exact trace_ensure_new env p m e _ hin
        · intro e'; rw [hp]; exact trace_ensure_first env p _ e' _
      | true =>
        have hz : m.lazy = true := by
          cases hz : m.lazy with
          | true => rfl
          | false => exact absurd ⟨hin, hz⟩ hr
        refine canRace hij hi hj .lazy (a := .wr .lazy) (b := .rd .lazy) ?_ ?_ (.inr rfl) (.inl rfl) (.inl rfl)
        · rw [hp]; exact trace_ensure_lazy env p m e _ hin hz
        · intro e'; rw [hp]; exact trace_ensure_second env p _ e' _ (lookup_initialized env hl m)
    · cases c with
      | init lazy =>
        cases hin : m.initialized with
        | false =>
          refine canRace hij hi hj .initialized (a := .wr .initialized) (b := .rd .initialized) ?_ ?_ (.inr rfl) (.inl rfl) (.inl rfl)
          · exact trace_init_new env lazy _ m e _ hin
          · intro e'; exact trace_init_first env lazy _ _ e' _
        | true =>
          have hz : m.lazy = true := by
            cases hz : m.lazy with
            | true => rfl
            | false => exact absurd ⟨hin, hz⟩ hr
          cases lazy with
          | true => exact absurd ⟨hin, fun _ => rfl⟩ h
          | false =>
            refine canRace hij hi hj .lazy (a := .wr .lazy) (b := .rd .lazy) ?_ ?_ (.inr rfl) (.inl rfl) (.inl rfl)
            · exact trace_init_lazy env _ m e _ hin hz
            · intro e'; exact trace_init_second env false _ _ e' _ (init_initialized env m false)
      | addStatic id k =>
        refine canRace hij hi hj .static (a := .wr .static) (b := .rd .static) ?_ ?_ (.inr rfl) (.inl rfl) (.inl rfl)
        · simp [trace, call, alone]
        · intro e'; simp [trace, call, alone]
      | removeStatic id =>
        refine canRace hij hi hj .static (a := .wr .static) (b := .rd .static) ?_ ?_ (.inr rfl) (.inl rfl) (.inl rfl)
        · simp [trace, call, alone]
        · intro e'; simp [trace, call, alone]
      | availablePlugins => exact absurd trivial hl
      | plugins => exact absurd trivial hl
      | plugin id => exact absurd trivial hl
      | create id => exact absurd trivial hl

/-- Before the plugins are loaded (no call yet, or only `initialize(true)`), any two lookups of two threads can race. -/
theorem c143_plugin_first_use {ι : Type} [DecidableEq ι] (env : Env) (m : Mgr) (e : Nat) (calls : ι → List Op) {i j : ι}
    (hij : i ≠ j) {c d : Op} {cs ds : List Op} (hi : calls i = c :: cs) (hj : calls j = d :: ds)
    (hc : Lookup c) (hd : Lookup d) (h : ¬ Ready m) : CanRace env m e calls := by
  obtain ⟨p, hp⟩ := lookup_ensure env hc
  obtain ⟨q, hq⟩ := lookup_ensure env hd
  cases hin : m.initialized with
  | false =>
    refine canRace hij hi hj .initialized (a := .wr .initialized) (b := .rd .initialized) ?_ ?_ (.inr rfl) (.inl rfl) (.inl rfl)
    · rw [hp]; exact trace_ensure_new env p m e _ hin
    · intro e'; rw [hq]; exact trace_ensure_first env q _ e' _
  | true =>
    have hz : m.lazy = true := by
      cases hz : m.lazy with
      | true => rfl
      | false => exact absurd ⟨hin, hz⟩ h
    refine canRace hij hi hj .lazy (a := .wr .lazy) (b := .rd .lazy) ?_ ?_ (.inr rfl) (.inl rfl) (.inl rfl)
    · rw [hp]; exact trace_ensure_lazy env p m e _ hin hz
    · intro e'; rw [hq]; exact trace_ensure_second env q _ e' _ (lookup_initialized env hc m)

/-- Even when the plugins are loaded, the question for a plugin that does not exist can race with a call of
`plugins()` of another thread. -/
theorem c143_plugin_unknown {ι : Type} [DecidableEq ι] (env : Env) (m : Mgr) (e : Nat) (calls : ι → List Op) {i j : ι}
    (hij : i ≠ j) {id : S} {cs ds : List Op} (hi : calls i = .plugin id :: cs) (hj : calls j = .plugins :: ds)
    (hr : Ready m) (h1 : get m.static id = none) (h2 : get m.loaded id = none) : CanRace env m e calls := by
  have hen := ensure_ready env m hr
  have hs : Plugin.step env m (.plugin id) = { m with loaded := put m.loaded id none } := by
    simp [Plugin.step, Plugin.plugin, hen, h1, h2]
  have hr' : Ready { m with loaded := put m.loaded id none } := hr
  refine canRace hij hi hj .loaded (a := .wr .loaded) (b := .rd .loaded) ?_ ?_ (.inr rfl) (.inl rfl) (.inl rfl)
  · rw [call, trace_ensure_ready env _ m e _ hr]
    simp [trace, alone, mem, h1, h2]
  · intro e'
    rw [hs, call, trace_ensure_ready env _ _ e' _ hr']
    simp [trace, alone]

/-! ## The hypotheses are met -/

/-- A library with the plugin "a" and one with the plugin "b", whose `load_plugin` fails. -/
def exEnv : Env := ⟨[⟨some 7, some ['a'], true⟩, ⟨some 8, some ['b'], true⟩], fun h => h == 7⟩

/-- After `initialize(false)`. -/
def exMgr : Mgr := initPlugins exEnv {} false

example : Ready exMgr ∧ OnlyReads exEnv exMgr .plugins ∧ OnlyReads exEnv exMgr (.plugin ['a']) ∧
    OnlyReads exEnv exMgr (.create ['a']) ∧ ¬ OnlyReads exEnv exMgr (.create ['b']) ∧
    ¬ OnlyReads exEnv exMgr (.plugin ['c']) ∧ ¬ Ready ({} : Mgr) := by
  have hr : Ready exMgr := by unfold Ready; decide +kernel
  refine ⟨hr, hr, ⟨hr, .inr (by decide +kernel)⟩, ⟨hr, .inr ⟨7, by decide +kernel, by decide +kernel⟩⟩, ?_, ?_, fun h => by have := h.1; revert this; decide⟩
  · rintro ⟨-, h | ⟨k, h, h'⟩⟩
    · revert h; decide +kernel
    · have : get exMgr.handles ['b'] = some (some 8) := by decide +kernel
      rw [this] at h
      simp only [Option.some.injEq] at h
      subst h
      revert h'; decide
  · rintro ⟨-, h⟩
    revert h; decide +kernel

/-- Two threads read: every thread gets to its end, one of them in the middle of the other. -/
example : ∃ tr w, (start (ι := Bool) exEnv exMgr 0 fun i => if i then [.plugin ['a']] else [.plugins]).exec
    [true, false, false, true, true, true, false, false] = some (tr, w) ∧ tr.length = 8 ∧
    tr.map Prod.fst = [true, false, false, true, true, true, false, false] := ⟨_, _, rfl, rfl, rfl⟩

end Verif.Registry.Plg
