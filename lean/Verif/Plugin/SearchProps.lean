import Verif.Plugin.Search
import Verif.Plugin.AllProps

/-!
# C117: where plugins are found, and what is reported
-/
namespace Verif.Plugin.Search
open Verif.StrMap Verif.Plugin

/-! ## Specification -/

/-- The entries contain the file `l` below the names `ns` (all directories when `r`, else only directly). -/
inductive Below (r : Bool) : List Entry → List S → Lib → Prop
  | here {ks : List Entry} {n : S} {l : Lib} (h : .file n l ∈ ks) : Below r ks [n] l
  | deeper {ks ks' : List Entry} {n : S} {ns : List S} {l : Lib} (hr : r = true) (h : .dir n ks' ∈ ks) (hb : Below r ks' ns l) :
      Below r ks (n :: ns) l

/-- The file name: all parts joined. -/
def joinAll (p : S) : List S → S
  | [] => p
  | n :: ns => joinAll (join p n) ns

/-- The search paths: the directory of the template, then those added, the oldest first, without empty ones. -/
def pathsOf (dir : S) : List WOp → List S
  | [] => if dir = [] then [] else [dir]
  | .addPath p :: h => pathsOf dir h ++ (if p = [] then [] else [p])
  | _ :: h => pathsOf dir h

/-- A call that does not search. -/
def WOp.Quiet : WOp → Prop
  | .addPath _ | .addStatic _ _ | .removeStatic _ => True
  | _ => False

/-- With the search of directories below: only for `initialize(.., true)`. -/
def WOp.deep : WOp → Bool
  | .init _ r => r
  | _ => false

/-- Both functions are found. -/
def Lib.Complete (l : Lib) : Prop := ∃ i t, l.identifier = .found i ∧ l.basetype = .found t

/-- The file a message is about. -/
def Msg.file : Msg → Option S
  | .cannotLoad f _ => some f
  | .methodMissing f => some f
  | _ => none

/-! ## Lemmas -/

theorem scan_mem (r : Bool) : (∀ (e : Entry) (p : S), (scanEntry r p e).2 = false → ∀ f l, (f, l) ∈ (scanEntry r p e).1 ↔
      ∃ ns, Below r [e] ns l ∧ f = joinAll p ns) ∧
    (∀ (ks : List Entry) (p : S), (scanList r p ks).2 = false → ∀ f l, (f, l) ∈ (scanList r p ks).1 ↔
      ∃ ns, Below r ks ns l ∧ f = joinAll p ns) := by
  have one : ∀ (e : Entry) (es : List Entry) (ns : List S) (l : Lib), Below r (e :: es) ns l ↔ Below r [e] ns l ∨ Below r es ns l := by
    intro e es ns l
    constructor
    · intro h
      cases h with
      | here h =>
        rcases List.mem_cons.1 h with h | h
        · exact Or.inl (.here (by simp [h]))
        · exact Or.inr (.here h)
      | deeper hr h hb =>
        rcases List.mem_cons.1 h with h | h
        · exact Or.inl (.deeper hr (by simp [h]) hb)
        · exact Or.inr (.deeper hr h hb)
    · rintro (h | h)
      · cases h with
        | here h => exact .here (by simp at h; simp [h])
        | deeper hr h hb => exact .deeper hr (by simp at h; simp [← h]) hb
      · cases h with
        | here h => exact .here (List.mem_cons_of_mem _ h)
        | deeper hr h hb => exact .deeper hr (List.mem_cons_of_mem _ h) hb
  have main : ∀ n, (∀ (e : Entry), sizeOf e < n → ∀ (p : S), (scanEntry r p e).2 = false → ∀ f l, (f, l) ∈ (scanEntry r p e).1 ↔
      ∃ ns, Below r [e] ns l ∧ f = joinAll p ns) ∧
    (∀ (ks : List Entry), sizeOf ks < n → ∀ (p : S), (scanList r p ks).2 = false → ∀ f l, (f, l) ∈ (scanList r p ks).1 ↔
      ∃ ns, Below r ks ns l ∧ f = joinAll p ns) := by
    intro n
    induction n with
    | zero => exact ⟨fun e h => absurd h (Nat.not_lt_zero _), fun e h => absurd h (Nat.not_lt_zero _)⟩
    | succ n ih =>
      obtain ⟨ih1, ih2⟩ := ih
      refine ⟨?_, ?_⟩
      · intro e hs p ht f l
        cases e with
        | file m lib =>
          simp only [scanEntry, List.mem_singleton, Prod.mk.injEq]
          constructor
          · rintro ⟨rfl, rfl⟩; exact ⟨[m], .here (by simp), rfl⟩
          · rintro ⟨ns, h, rfl⟩
            cases h with
            | here h => simp at h; simp [joinAll, h]
            | deeper hr h hb => simp at h
        | dir m ks =>
          simp only [Entry.dir.sizeOf_spec] at hs
          cases r with
          | false =>
            simp only [scanEntry]
            constructor
            · intro h; simp at h
            · rintro ⟨ns, h, rfl⟩
              cases h with
              | here h => simp at h
              | deeper hr h hb => cases hr
          | true =>
            simp only [scanEntry, if_true] at ht ⊢
            rw [ih2 ks (by omega) (join p m) ht]
            constructor
            · rintro ⟨ns, h, rfl⟩; exact ⟨m :: ns, .deeper rfl (by simp) h, rfl⟩
            · rintro ⟨ns, h, rfl⟩
              cases h with
              | here h => simp at h
              | deeper hr h hb =>
                simp at h
                obtain ⟨rfl, rfl⟩ := h
                exact ⟨_, hb, rfl⟩
        | locked m =>
          simp only [scanEntry]
          constructor
          · intro h; simp at h
          · rintro ⟨ns, h, rfl⟩
            cases h with
            | here h => simp at h
            | deeper hr h hb => simp at h
        | other m =>
          simp only [scanEntry]
          constructor
          · intro h; simp at h
          · rintro ⟨ns, h, rfl⟩
            cases h with
            | here h => simp at h
            | deeper hr h hb => simp at h
      · intro ks hs p ht f l
        cases ks with
        | nil =>
          simp only [scanList]
          constructor
          · intro h; simp at h
          · rintro ⟨ns, h, rfl⟩
            cases h with
            | here h => simp at h
            | deeper hr h hb => simp at h
        | cons e es =>
          simp only [List.cons.sizeOf_spec] at hs
          simp only [scanList] at ht ⊢
          cases ha : (scanEntry r p e).2 with
          | true => rw [ha] at ht; simp [ha] at ht
          | false =>
            simp only [ha] at ht ⊢
            simp only [Bool.false_eq_true, if_false] at ht ⊢
            rw [List.mem_append, ih1 e (by omega) p ha, ih2 es (by omega) p ht]
            constructor
            · rintro (⟨ns, h, rfl⟩ | ⟨ns, h, rfl⟩)
              · exact ⟨ns, (one e es ns l).2 (Or.inl h), rfl⟩
              · exact ⟨ns, (one e es ns l).2 (Or.inr h), rfl⟩
            · rintro ⟨ns, h, rfl⟩
              rcases (one e es ns l).1 h with h | h
              · exact Or.inl ⟨ns, h, rfl⟩
              · exact Or.inr ⟨ns, h, rfl⟩
  exact ⟨fun e => (main (sizeOf e + 1)).1 e (by omega), fun ks => (main (sizeOf ks + 1)).2 ks (by omega)⟩

theorem loadOne_env (w : World) (fs : List (S × Lib)) : loadOne (envOf w []) = loadOne (envOf w fs) := rfl

theorem loadFoldW (w : World) (fs : List (S × Lib)) : ∀ (l : List (S × Option Nat)) (p : PM),
    (l.foldl (loadOneW w) p).mgr = l.foldl (loadOne (envOf w fs)) p.mgr ∧ (l.foldl (loadOneW w) p).paths = p.paths := by
  intro l
  induction l with
  | nil => intro p; exact ⟨rfl, rfl⟩
  | cons e l ih =>
    intro p
    obtain ⟨i1, i2⟩ := ih (loadOneW w p e)
    have h1 : (loadOneW w p e).mgr = loadOne (envOf w fs) p.mgr e ∧ (loadOneW w p e).paths = p.paths := by
      unfold loadOneW
      split
      · rename_i h
        refine ⟨?_, rfl⟩
        simp [loadOne, h]
      · exact ⟨rfl, rfl⟩
    rw [List.foldl_cons, List.foldl_cons, i1, i2, h1.1, h1.2]
    exact ⟨rfl, rfl⟩

theorem loadPluginsW_mgr (w : World) (fs : List (S × Lib)) (p : PM) :
    (loadPluginsW w p).mgr = loadPlugins (envOf w fs) p.mgr ∧ (loadPluginsW w p).paths = p.paths :=
  loadFoldW w fs p.mgr.handles { p with mgr := { p.mgr with lazy := false } }

theorem loadPlugins_init (env : Env) (m : Mgr) : (loadPlugins env m).initialized = m.initialized ∧ (loadPlugins env m).lazy = false := by
  have := loadFold_same env m.handles { m with lazy := false }
  unfold loadPlugins
  grind

theorem handleFoldW (w : World) : ∀ (fs : List (S × Lib)) (p : PM),
    (fs.foldl (loadHandleW w) p).mgr = (fs.map fun f => toFile w f.2).foldl loadHandle p.mgr ∧
    (fs.foldl (loadHandleW w) p).paths = p.paths ∧
    (fs.foldl (loadHandleW w) p).msgs = p.msgs ++ fs.flatMap fun f => handleMsgs w f.1 f.2 := by
  intro fs
  induction fs with
  | nil => intro p; simp
  | cons f fs ih =>
    intro p
    obtain ⟨i1, i2, i3⟩ := ih (loadHandleW w p f)
    refine ⟨by rw [List.foldl_cons, i1]; rfl, by rw [List.foldl_cons, i2]; rfl, ?_⟩
    rw [List.foldl_cons, i3]
    simp [loadHandleW]

/-- The effect on the manager proper. -/
def erased (env : Env) (m : Mgr) (op : WOp) : Mgr := match op.erase with
  | some o => step env m o
  | none => m

theorem step_later (w : World) (fs : List (S × Lib)) (p : PM) (h : p.mgr.initialized = true) (op : WOp) :
    (stepW w p op).2 = false ∧ (stepW w p op).1.mgr = erased (envOf w fs) p.mgr op ∧ (stepW w p op).1.mgr.initialized = true := by
  have hens : (ensureW w p).2 = false ∧ (ensureW w p).1.mgr = ensure (envOf w fs) p.mgr ∧ (ensureW w p).1.mgr.initialized = true ∧
      (ensureW w p).1.mgr.lazy = false := by
    unfold ensureW ensure
    simp only [h, Bool.not_true, Bool.false_eq_true, if_false]
    cases hl : p.mgr.lazy with
    | false => simp [h, hl]
    | true =>
      obtain ⟨a, b⟩ := loadPluginsW_mgr w fs p
      obtain ⟨c, d⟩ := loadPlugins_init (envOf w fs) p.mgr
      simp only [if_true, Bool.false_eq_true, if_false]
      refine ⟨trivial, a, ?_, ?_⟩
      · rw [a, c, h]
      · rw [a, d]
  obtain ⟨e1, e2, e3, e4⟩ := hens
  have eid : ∀ env : Env, ensure env (ensureW w p).1.mgr = (ensureW w p).1.mgr := by
    intro env; simp [ensure, e3, e4]
  cases op with
  | addPath path =>
    refine ⟨rfl, ?_, ?_⟩ <;> simp only [stepW, addPath] <;> split <;> simp_all [erased, WOp.erase]
  | init lazy r =>
    simp only [stepW, initW, erased, WOp.erase, step, initPlugins, h, Bool.true_and, if_true]
    obtain ⟨a, b⟩ := loadPluginsW_mgr w fs p
    obtain ⟨c, d⟩ := loadPlugins_init (envOf w fs) p.mgr
    split
    · exact ⟨rfl, a, by rw [a, c, h]⟩
    · exact ⟨rfl, rfl, h⟩
  | addStatic id k => exact ⟨rfl, rfl, h⟩
  | removeStatic id => exact ⟨rfl, rfl, h⟩
  | availablePlugins =>
    simp only [stepW, e1, Bool.false_eq_true, if_false, finish]
    exact ⟨trivial, by rw [e2]; rfl, e3⟩
  | plugins =>
    simp only [stepW, e1, Bool.false_eq_true, if_false, finish]
    exact ⟨trivial, by rw [e2]; rfl, e3⟩
  | plugin id =>
    simp only [stepW, e1, Bool.false_eq_true, if_false, finish]
    have key : (plugin (envOf w []) (ensureW w p).1.mgr id).2 = (plugin (envOf w fs) p.mgr id).2 := by
      simp only [plugin, eid]
      rw [← e2]
    refine ⟨trivial, key, ?_⟩
    simp only [plugin, eid]
    repeat' split
    all_goals exact e3
  | create id =>
    simp only [stepW, e1, Bool.false_eq_true, if_false, finish]
    have key : (createPluginInstance (envOf w []) (ensureW w p).1.mgr id).2 = (createPluginInstance (envOf w fs) p.mgr id).2 := by
      simp only [createPluginInstance, eid]
      rw [← e2]
      rfl
    refine ⟨trivial, key, ?_⟩
    simp only [createPluginInstance, eid, loadPluginInstance]
    repeat' split
    all_goals exact e3

theorem run_later (w : World) (dir : S) (fs : List (S × Lib)) (h0 : List WOp) (hi : (runW w dir h0).mgr.initialized = true) :
    ∀ h : List WOp, (runW w dir (h ++ h0)).mgr.initialized = true ∧
      (runW w dir (h ++ h0)).mgr = h.foldr (fun op m => erased (envOf w fs) m op) (runW w dir h0).mgr := by
  intro h
  induction h with
  | nil => exact ⟨hi, rfl⟩
  | cons op h ih =>
    obtain ⟨a, b, c⟩ := step_later w fs _ ih.1 op
    refine ⟨c, ?_⟩
    show (stepW w (runW w dir (h ++ h0)) op).1.mgr = _
    rw [b, ih.2]; rfl

theorem run_erase (env : Env) : ∀ h : List WOp, run env (h.filterMap WOp.erase) = h.foldr (fun op m => erased env m op) {} := by
  intro h
  induction h with
  | nil => rfl
  | cons op h ih =>
    rw [List.foldr_cons, ← ih]
    cases op <;> rfl

theorem quiet_run (w : World) (dir : S) (env : Env) : ∀ h : List WOp, (∀ o ∈ h, o.Quiet) →
    (runW w dir h).mgr = run env (h.filterMap WOp.erase) ∧ (runW w dir h).paths = pathsOf dir h ∧ (runW w dir h).msgs = [] ∧
      (runW w dir h).mgr.initialized = false ∧ (runW w dir h).mgr.lazy = false ∧ (runW w dir h).mgr.handles = [] ∧ (runW w dir h).mgr.loaded = [] := by
  intro h
  induction h with
  | nil =>
    intro _
    simp only [runW, PM.new, addPath]
    split <;> simp_all [pathsOf, run, runW]
  | cons op h ih =>
    intro hq
    obtain ⟨i1, i2, i3, i4, i5, i6, i7⟩ := ih fun o ho => hq o (List.mem_cons_of_mem _ ho)
    have hop := hq op List.mem_cons_self
    cases op with
    | addPath p =>
      simp only [runW, stepW, addPath]
      by_cases hp : p = []
      · simp [hp, pathsOf, i2, i3, i4, i5, i6, i7, List.filterMap_cons, WOp.erase, i1]
        exact ⟨i1 ▸ i4, i1 ▸ i5, i1 ▸ i6, i1 ▸ i7⟩
      · simp [hp, pathsOf, i2, i3, i4, i5, i6, i7, List.filterMap_cons, WOp.erase, i1]
        exact ⟨i1 ▸ i4, i1 ▸ i5, i1 ▸ i6, i1 ▸ i7⟩
    | addStatic id k =>
      refine ⟨?_, i2, i3, i4, i5, i6, i7⟩
      show addStatic (runW w dir h).mgr id k = _
      rw [i1]; rfl
    | removeStatic id =>
      refine ⟨?_, i2, i3, i4, i5, i6, i7⟩
      show removeStatic (runW w dir h).mgr id = _
      rw [i1]; rfl
    | init _ _ => exact absurd hop (by simp [WOp.Quiet])
    | availablePlugins => exact absurd hop (by simp [WOp.Quiet])
    | plugins => exact absurd hop (by simp [WOp.Quiet])
    | plugin _ => exact absurd hop (by simp [WOp.Quiet])
    | create _ => exact absurd hop (by simp [WOp.Quiet])

theorem initialize_first (w : World) (p : PM) (r : Bool) (fs : List (S × Lib)) (thr : Bool) (hs : scanPaths w r p.paths = (fs, thr)) :
    (initializePluginsW w r p).2 = thr ∧ (initializePluginsW w r p).1.mgr = initializePlugins (envOf w fs) p.mgr ∧
    (initializePluginsW w r p).1.msgs = fs.flatMap (fun f => handleMsgs w f.1 f.2) ∧ (initializePluginsW w r p).1.paths = p.paths := by
  obtain ⟨a, b, c⟩ := handleFoldW w fs { p with msgs := [], mgr := { p.mgr with initialized := true } }
  simp only [initializePluginsW, hs]
  exact ⟨trivial, a, by simpa using c, b⟩

theorem initializePlugins_init (env : Env) (m : Mgr) : (initializePlugins env m).initialized = true ∧ (initializePlugins env m).lazy = m.lazy := by
  have := loadHandles_same env.files { m with initialized := true }
  unfold initializePlugins
  exact ⟨this.2.2.1, this.2.2.2.1⟩

theorem initW_first (w : World) (p : PM) (lazy r : Bool) (fs : List (S × Lib)) (hs : scanPaths w r p.paths = (fs, false))
    (hi : p.mgr.initialized = false) :
    (initW w lazy r p).2 = false ∧ (initW w lazy r p).1.mgr = initPlugins (envOf w fs) p.mgr lazy ∧
      (initW w lazy r p).1.mgr.initialized = true ∧ (lazy = false → (initW w lazy r p).1.mgr.lazy = false) := by
  obtain ⟨a, b, c, d⟩ := initialize_first w p r fs false hs
  obtain ⟨i1, i2⟩ := initializePlugins_init (envOf w fs) p.mgr
  simp only [initW, initPlugins, hi, Bool.false_and, Bool.false_eq_true, if_false, a]
  cases lazy with
  | false =>
    obtain ⟨e1, e2⟩ := loadPluginsW_mgr w fs (initializePluginsW w r p).1
    obtain ⟨f1, f2⟩ := loadPlugins_init (envOf w fs) (initializePluginsW w r p).1.mgr
    simp only [Bool.not_false, if_true]
    refine ⟨trivial, by rw [e1, b], by rw [e1, f1, b, i1], fun _ => by rw [e1, f2]⟩
  | true =>
    simp only [Bool.not_true, Bool.false_eq_true, if_false]
    refine ⟨trivial, by rw [b], by rw [b, i1], fun h => by cases h⟩

theorem step_first (w : World) (p : PM) (op : WOp) (hq : ¬ op.Quiet) (fs : List (S × Lib)) (hs : scanPaths w op.deep p.paths = (fs, false))
    (hi : p.mgr.initialized = false) :
    (stepW w p op).2 = false ∧ (stepW w p op).1.mgr = erased (envOf w fs) p.mgr op ∧ (stepW w p op).1.mgr.initialized = true := by
  have hens : op.deep = false → (ensureW w p).2 = false ∧ (ensureW w p).1.mgr = ensure (envOf w fs) p.mgr ∧
      (ensureW w p).1.mgr.initialized = true ∧ (ensureW w p).1.mgr.lazy = false := by
    intro hd
    rw [hd] at hs
    obtain ⟨a, b, c, d⟩ := initW_first w p false false fs hs hi
    have hl : (initPlugins (envOf w fs) p.mgr false).lazy = false := by rw [← b]; exact d rfl
    simp only [ensureW, ensure, hi, Bool.not_false, if_true, a, d rfl, hl, Bool.false_eq_true, if_false]
    exact ⟨trivial, b, c, trivial⟩
  cases op with
  | addPath _ => exact absurd trivial hq
  | addStatic _ _ => exact absurd trivial hq
  | removeStatic _ => exact absurd trivial hq
  | init lazy r =>
    obtain ⟨a, b, c, d⟩ := initW_first w p lazy r fs hs hi
    exact ⟨a, b, c⟩
  | availablePlugins =>
    obtain ⟨e1, e2, e3, e4⟩ := hens rfl
    simp only [stepW, e1, Bool.false_eq_true, if_false, finish]
    exact ⟨trivial, by rw [e2]; rfl, e3⟩
  | plugins =>
    obtain ⟨e1, e2, e3, e4⟩ := hens rfl
    simp only [stepW, e1, Bool.false_eq_true, if_false, finish]
    exact ⟨trivial, by rw [e2]; rfl, e3⟩
  | plugin id =>
    obtain ⟨e1, e2, e3, e4⟩ := hens rfl
    have eid : ∀ env : Env, ensure env (ensureW w p).1.mgr = (ensureW w p).1.mgr := by
      intro env; simp [ensure, e3, e4]
    simp only [stepW, e1, Bool.false_eq_true, if_false, finish]
    have key : (plugin (envOf w []) (ensureW w p).1.mgr id).2 = (plugin (envOf w fs) p.mgr id).2 := by
      simp only [plugin, eid]
      rw [← e2]
    refine ⟨trivial, key, ?_⟩
    simp only [plugin, eid]
    repeat' split
    all_goals exact e3
  | create id =>
    obtain ⟨e1, e2, e3, e4⟩ := hens rfl
    have eid : ∀ env : Env, ensure env (ensureW w p).1.mgr = (ensureW w p).1.mgr := by
      intro env; simp [ensure, e3, e4]
    simp only [stepW, e1, Bool.false_eq_true, if_false, finish]
    have key : (createPluginInstance (envOf w []) (ensureW w p).1.mgr id).2 = (createPluginInstance (envOf w fs) p.mgr id).2 := by
      simp only [createPluginInstance, eid]
      rw [← e2]
      rfl
    refine ⟨trivial, key, ?_⟩
    simp only [createPluginInstance, eid, loadPluginInstance]
    repeat' split
    all_goals exact e3

theorem run_found (w : World) (dir : S) (h0 h : List WOp) (op : WOp) (hq0 : ∀ o ∈ h0, o.Quiet) (hq : ¬ op.Quiet) (fs : List (S × Lib))
    (hs : scanPaths w op.deep (pathsOf dir h0) = (fs, false)) :
    (runW w dir (h ++ op :: h0)).mgr = run (envOf w fs) ((h ++ op :: h0).filterMap WOp.erase) := by
  obtain ⟨q1, q2, q3, q4, q5, q6, q7⟩ := quiet_run w dir (envOf w fs) h0 hq0
  obtain ⟨a, b, c⟩ := step_first w (runW w dir h0) op hq fs (by rw [q2]; exact hs) q4
  have hi : (runW w dir (op :: h0)).mgr.initialized = true := c
  obtain ⟨_, r2⟩ := run_later w dir fs (op :: h0) hi h
  rw [r2, run_erase, List.foldr_append]
  congr 1
  show (stepW w (runW w dir h0) op).1.mgr = _
  rw [b, q1, run_erase]
  rfl

theorem scanPaths_append (w : World) (r : Bool) : ∀ (ps qs : List S), (scanPaths w r ps).2 = false →
    scanPaths w r (ps ++ qs) = ((scanPaths w r ps).1 ++ (scanPaths w r qs).1, (scanPaths w r qs).2) := by
  intro ps qs
  induction ps with
  | nil => intro _; simp [scanPaths]
  | cons p ps ih =>
    intro h
    rw [List.cons_append]
    cases hx : w.lookup p with
    | none => simp only [scanPaths, hx] at h ⊢; exact ih h
    | some e =>
      cases e with
      | dir n0 ks0 =>
        simp only [scanPaths, hx] at h ⊢
        cases ha : (scanList r p ks0).2 with
        | true => simp [ha] at h
        | false =>
          simp only [ha, Bool.false_eq_true, if_false] at h ⊢
          rw [ih h]; simp
      | _ => simp [scanPaths, hx] at h

theorem scanPaths_mem (w : World) (r : Bool) : ∀ (ps : List S), (scanPaths w r ps).2 = false → ∀ f l, (f, l) ∈ (scanPaths w r ps).1 ↔
    ∃ p n ks ns, p ∈ ps ∧ w.lookup p = some (.dir n ks) ∧ Below r ks ns l ∧ f = joinAll p ns := by
  intro ps
  induction ps with
  | nil => intro _ f l; simp [scanPaths]
  | cons p ps ih =>
    intro h f l
    cases hx : w.lookup p with
    | none =>
      simp only [scanPaths, hx] at h ⊢
      rw [ih h]
      constructor
      · rintro ⟨q, n, ks, ns, h1, h2, h3, h4⟩
        exact ⟨q, n, ks, ns, List.mem_cons_of_mem _ h1, h2, h3, h4⟩
      · rintro ⟨q, n, ks, ns, h1, h2, h3, h4⟩
        rcases List.mem_cons.1 h1 with rfl | h1
        · rw [hx] at h2; cases h2
        · exact ⟨q, n, ks, ns, h1, h2, h3, h4⟩
    | some e =>
      cases e with
      | dir n0 ks0 =>
        simp only [scanPaths, hx] at h ⊢
        cases ha : (scanList r p ks0).2 with
        | true => simp [ha] at h
        | false =>
          simp only [ha, Bool.false_eq_true, if_false] at h ⊢
          rw [List.mem_append, (scan_mem r).2 ks0 p ha, ih h]
          constructor
          · rintro (⟨ns, h1, h2⟩ | ⟨q, n, ks, ns, h1, h2, h3, h4⟩)
            · exact ⟨p, n0, ks0, ns, List.mem_cons_self, hx, h1, h2⟩
            · exact ⟨q, n, ks, ns, List.mem_cons_of_mem _ h1, h2, h3, h4⟩
          · rintro ⟨q, n, ks, ns, h1, h2, h3, h4⟩
            rcases List.mem_cons.1 h1 with rfl | h1
            · rw [hx] at h2; cases h2; exact Or.inl ⟨ns, h3, h4⟩
            · exact Or.inr ⟨q, n, ks, ns, h1, h2, h3, h4⟩
      | _ => simp [scanPaths, hx] at h

/-! ## The theorems -/

/-- C117: the files searched are exactly the regular files in the plugin paths that exist: directly in them, or
with `recursive_search` at any depth. -/
theorem c117_files (w : World) (r : Bool) (ps : List S) (h : (scanPaths w r ps).2 = false) (f : S) (l : Lib) :
    (f, l) ∈ (scanPaths w r ps).1 ↔ ∃ p n ks ns, p ∈ ps ∧ w.lookup p = some (.dir n ks) ∧ Below r ks ns l ∧ f = joinAll p ns :=
  scanPaths_mem w r ps h f l

/-- C117: the paths are searched in the order in which they were added. -/
theorem c117_path_order (w : World) (r : Bool) (ps qs : List S) (h : (scanPaths w r (ps ++ qs)).2 = false) :
    ∃ fs gs, scanPaths w r ps = (fs, false) ∧ scanPaths w r qs = (gs, false) ∧ scanPaths w r (ps ++ qs) = (fs ++ gs, false) := by
  have key : ∀ ps : List S, (scanPaths w r (ps ++ qs)).2 = false → (scanPaths w r ps).2 = false := by
    intro ps
    induction ps with
    | nil => intro _; rfl
    | cons p ps ih =>
      intro h
      rw [List.cons_append] at h
      cases hx : w.lookup p with
      | none => simp only [scanPaths, hx] at h ⊢; exact ih h
      | some e =>
        cases e with
        | dir n0 ks0 =>
          simp only [scanPaths, hx] at h ⊢
          cases ha : (scanList r p ks0).2 with
          | true => simp [ha] at h
          | false => simp only [ha, Bool.false_eq_true, if_false] at h ⊢; exact ih h
        | _ => simp [scanPaths, hx] at h
  have h1 := key ps h
  have h2 := scanPaths_append w r ps qs h1
  rw [h2] at h
  exact ⟨_, _, Prod.ext rfl h1, Prod.ext rfl h, by rw [h2, show (scanPaths w r qs).2 = false from h]⟩

/-- C117: a plugin is looked up in the last file, in search order, with its identifier and the right type; only
paths added before the first use count. For every history of calls before and after the first use. -/
theorem c117_plugin (w : World) (dir : S) (h0 h : List WOp) (op : WOp) (hq0 : ∀ o ∈ h0, o.Quiet) (hq : ¬ op.Quiet) (fs : List (S × Lib))
    (hs : scanPaths w op.deep (pathsOf dir h0) = (fs, false)) (id : S)
    (hst : staticAt id ((h ++ op :: h0).filterMap WOp.erase) = none) :
    (∀ a f l b k, fs = a ++ (f, l) :: b → l.identifier = .found id → l.basetype = .found w.typeName → l.handle = some k → w.made k = .object →
      (∀ g l', (g, l') ∈ b → l'.identifier = .found id → l'.basetype ≠ .found w.typeName) →
      ∃ s, (plugin (envOf w fs) (runW w dir (h ++ op :: h0)).mgr id).1 = some (.lib k s)) ∧
    ((∀ f l, (f, l) ∈ fs → l.identifier = .found id → l.basetype ≠ .found w.typeName) →
      (plugin (envOf w fs) (runW w dir (h ++ op :: h0)).mgr id).1 = none) := by
  rw [run_found w dir h0 h op hq0 hq fs hs]
  obtain ⟨_, c2, c3⟩ := c59_plugin (envOf w fs) ((h ++ op :: h0).filterMap WOp.erase) id
  have good : ∀ l : Lib, ((toFile w l).rightType && (toFile w l).ident == some id) = true ↔
      l.identifier = .found id ∧ l.basetype = .found w.typeName := by
    intro l
    rcases l with ⟨hd, oe, i, b⟩
    cases i <;> cases b <;> simp [toFile, and_comm]
  refine ⟨?_, ?_⟩
  · intro a f l b k hfs h1 h2 h3 h4 h5
    refine c2 hst k ?_ (by simp [envOf, h4])
    have hno : (b.map fun f => toFile w f.2).reverse.find? (fun f => f.rightType && f.ident == some id) = none := by
      rw [List.find?_eq_none]
      intro x hx
      rw [List.mem_reverse, List.mem_map] at hx
      obtain ⟨⟨g, l'⟩, hg, rfl⟩ := hx
      intro hc
      obtain ⟨d1, d2⟩ := (good l').1 hc
      exact h5 g l' hg d1 d2
    have hyes : ((toFile w l).rightType && (toFile w l).ident == some id) = true := (good l).2 ⟨h1, h2⟩
    show found (fs.map fun f => toFile w f.2) id = some (some k)
    have hh : (toFile w l).handle = some k := h3
    rw [hfs, List.map_append, List.map_cons, found, List.reverse_append, List.reverse_cons, List.append_assoc, List.find?_append, hno]
    simp [hyes, hh]
  · intro hno
    refine c3 hst fun k hk => ?_
    have : (fs.map fun f => toFile w f.2).reverse.find? (fun f => f.rightType && f.ident == some id) = none := by
      rw [List.find?_eq_none]
      intro x hx
      rw [List.mem_reverse, List.mem_map] at hx
      obtain ⟨⟨g, l'⟩, hg, rfl⟩ := hx
      intro hc
      obtain ⟨d1, d2⟩ := (good l').1 hc
      exact hno g l' hg d1 d2
    simp [envOf, found, this] at hk

/-- C117: a path that is added after the first use is never searched: it changes no result of any later call. -/
theorem c117_late_path (w : World) (dir : S) (h0 h1 h2 : List WOp) (op : WOp) (path : S) (hq0 : ∀ o ∈ h0, o.Quiet) (hq : ¬ op.Quiet)
    (hs : (scanPaths w op.deep (pathsOf dir h0)).2 = false) :
    (runW w dir (h2 ++ .addPath path :: (h1 ++ op :: h0))).mgr = (runW w dir (h2 ++ (h1 ++ op :: h0))).mgr := by
  have hs' : scanPaths w op.deep (pathsOf dir h0) = ((scanPaths w op.deep (pathsOf dir h0)).1, false) := Prod.ext rfl hs
  have e1 := run_found w dir h0 (h2 ++ .addPath path :: h1) op hq0 hq _ hs'
  have e2 := run_found w dir h0 (h2 ++ h1) op hq0 hq _ hs'
  simp only [List.append_assoc, List.cons_append] at e1 e2
  rw [e1, e2, List.filterMap_append, List.filterMap_append]
  rfl

/-! ### Messages -/

/-- C117: after the search there is exactly one message for each file without the two functions, naming it, in the order of the
search, and no other message. Its text is the error of the function that is missing, as far as `dlerror` still has it. -/
theorem c117_search_messages (w : World) (dir : S) (h0 : List WOp) (r : Bool) (hq0 : ∀ o ∈ h0, o.Quiet) (fs : List (S × Lib))
    (hs : scanPaths w r (pathsOf dir h0) = (fs, false)) :
    ∃ rep : S × Lib → List Msg, (runW w dir (.init true r :: h0)).msgs = fs.flatMap rep ∧
      ∀ f l, (l.Complete → rep (f, l) = []) ∧ (¬ l.Complete → ∃ m, rep (f, l) = [m] ∧ m.file = some f) ∧
        (∀ e, l.basetype = .missing e → rep (f, l) = [.cannotLoad f e]) ∧
        (∀ e t, l.identifier = .missing e → l.basetype = .found t → rep (f, l) = [if w.sticky then .cannotLoad f e else .methodMissing f]) := by
  refine ⟨fun f => handleMsgs w f.1 f.2, ?_, ?_⟩
  · obtain ⟨q1, q2, q3, q4, q5, q6, q7⟩ := quiet_run w dir (envOf w fs) h0 hq0
    obtain ⟨a, b, c, d⟩ := initialize_first w (runW w dir h0) r fs false (by rw [q2]; exact hs)
    show (initW w true r (runW w dir h0)).1.msgs = _
    simp only [initW, q4, Bool.false_and, Bool.false_eq_true, if_false, a, Bool.not_true]
    exact c
  · intro f l
    rcases l with ⟨hd, oe, i, b⟩
    cases i with
    | missing e =>
      cases b with
      | missing e' => simp [Lib.Complete, handleMsgs, Msg.file]
      | found t => cases hw : w.sticky <;> simp [Lib.Complete, handleMsgs, Msg.file, hw]
    | found s =>
      cases b with
      | missing e' => simp [Lib.Complete, handleMsgs, Msg.file]
      | found t => simp [Lib.Complete, handleMsgs]

theorem loadFold_msgs (w : World) : ∀ (l : List (S × Option Nat)) (p : PM), (l.map Prod.fst).Nodup → Ok p.mgr.loaded →
    (∀ e ∈ l, get p.mgr.loaded e.1 = none) →
    (l.foldl (loadOneW w) p).msgs = p.msgs ++ l.flatMap fun e => createMsgs w e.1 e.2 := by
  intro l
  induction l with
  | nil => intro p _ _ _; simp
  | cons e l ih =>
    intro p hd hok hn
    have h1 : get p.mgr.loaded e.1 = none := hn e List.mem_cons_self
    have hstep : loadOneW w p e = { p with mgr := loadOne (envOf w []) p.mgr e, msgs := p.msgs ++ createMsgs w e.1 e.2 } := by
      simp [loadOneW, h1]
    have hload : (loadOne (envOf w []) p.mgr e).loaded =
        put p.mgr.loaded e.1 (loadPluginInstance (envOf w []) e.2 p.mgr).1 := by
      simp only [loadOne, h1]
      rw [loadPluginInstance_loaded]
    simp only [List.map_cons, List.nodup_cons] at hd
    rw [List.foldl_cons, hstep, ih _ hd.2]
    · simp
    · show Ok (loadOne (envOf w []) p.mgr e).loaded
      rw [hload]; exact ok_put hok _ _
    · intro x hx
      show get (loadOne (envOf w []) p.mgr e).loaded x.1 = none
      rw [hload, get_put hok]
      have hne : x.1 ≠ e.1 := by
        intro he; exact hd.1 (he ▸ List.mem_map_of_mem hx)
      simp [hne, hn x (List.mem_cons_of_mem _ hx)]

/-- C117: when the plugins are loaded, there is in addition one message for each plugin found whose library does not make an
object, naming its identifier. -/
theorem c117_load_messages (w : World) (dir : S) (h0 : List WOp) (r : Bool) (hq0 : ∀ o ∈ h0, o.Quiet) (fs : List (S × Lib))
    (hs : scanPaths w r (pathsOf dir h0) = (fs, false)) (m : Msg) :
    m ∈ (runW w dir (.init false r :: h0)).msgs ↔ m ∈ (runW w dir (.init true r :: h0)).msgs ∨
      ∃ id k, found (envOf w fs).files id = some (some k) ∧
        ((∃ e, w.made k = .noSymbol e ∧ m = .cannotCreate id e) ∨ (w.made k = .null ∧ m = .cannotCast id)) := by
  obtain ⟨q1, q2, q3, q4, q5, q6, q7⟩ := quiet_run w dir (envOf w fs) h0 hq0
  obtain ⟨a, b, c, d⟩ := initialize_first w (runW w dir h0) r fs false (by rw [q2]; exact hs)
  have e1 : (runW w dir (.init true r :: h0)).msgs = (initializePluginsW w r (runW w dir h0)).1.msgs := by
    show (initW w true r (runW w dir h0)).1.msgs = _
    simp only [initW, q4, Bool.false_and, Bool.false_eq_true, if_false, a, Bool.not_true]
  have e2 : (runW w dir (.init false r :: h0)).msgs = (loadPluginsW w (initializePluginsW w r (runW w dir h0)).1).msgs := by
    show (initW w false r (runW w dir h0)).1.msgs = _
    simp only [initW, q4, Bool.false_and, Bool.false_eq_true, if_false, a, Bool.not_false, if_true]
  have hh : (initializePluginsW w r (runW w dir h0)).1.mgr.handles = handles0 (envOf w fs) ∧
      (initializePluginsW w r (runW w dir h0)).1.mgr.loaded = [] := by
    rw [b]
    refine ⟨loadHandles_handles _ _ _ q6, ?_⟩
    have := (loadHandles_same (envOf w fs).files { (runW w dir h0).mgr with initialized := true }).1
    exact this.trans q7
  rw [e1, e2, loadPluginsW, loadFold_msgs w _ _ (by rw [hh.1]; exact nodup_keys (handles0_ok _)) (by rw [hh.2]; exact ok_nil) (by
    intro e _; rw [hh.2]; rfl)]
  rw [List.mem_append, List.mem_flatMap, hh.1]
  refine or_congr Iff.rfl ?_
  constructor
  · rintro ⟨⟨id, hd⟩, he, hm⟩
    rw [mem_iff (handles0_ok _), handles0_found] at he
    cases hd with
    | none => simp [createMsgs] at hm
    | some k =>
      refine ⟨id, k, he, ?_⟩
      simp only [createMsgs] at hm
      cases hmk : w.made k with
      | noSymbol e => rw [hmk] at hm; simp at hm; exact Or.inl ⟨e, rfl, hm⟩
      | null => rw [hmk] at hm; simp at hm; exact Or.inr ⟨rfl, hm⟩
      | object => rw [hmk] at hm; simp at hm
  · rintro ⟨id, k, he, hm⟩
    refine ⟨(id, some k), ?_, ?_⟩
    · rw [mem_iff (handles0_ok _), handles0_found]; exact he
    · rcases hm with ⟨e, h1, rfl⟩ | ⟨h1, rfl⟩ <;> simp [createMsgs, h1]

/-- C117: with lazy loading the same messages are there after the first access, whatever was registered in between. -/
theorem c117_lazy_messages (w : World) (dir : S) (h0 h : List WOp) (r : Bool) (op : WOp) (hq0 : ∀ o ∈ h0, o.Quiet) (hq : ∀ o ∈ h, o.Quiet)
    (hop : op = .init false r ∨ op = .availablePlugins ∨ op = .plugins ∨ ∃ id, op = .plugin id) (fs : List (S × Lib))
    (hs : scanPaths w r (pathsOf dir h0) = (fs, false)) :
    (runW w dir (op :: (h ++ .init true r :: h0))).msgs = (runW w dir (.init false r :: h0)).msgs := by
  obtain ⟨q1, q2, q3, q4, q5, q6, q7⟩ := quiet_run w dir (envOf w fs) h0 hq0
  obtain ⟨a, b, c, d⟩ := initialize_first w (runW w dir h0) r fs false (by rw [q2]; exact hs)
  have hh : (initializePluginsW w r (runW w dir h0)).1.mgr.loaded = [] := by
    rw [b]
    exact (loadHandles_same (envOf w fs).files { (runW w dir h0).mgr with initialized := true }).1.trans q7
  have hok : Ok (initializePluginsW w r (runW w dir h0)).1.mgr.handles := by
    rw [b, show (initializePlugins (envOf w fs) (runW w dir h0).mgr).handles = handles0 (envOf w fs) from loadHandles_handles _ _ _ q6]
    exact handles0_ok _
  have hini : (initializePluginsW w r (runW w dir h0)).1.mgr.initialized = true := by
    rw [b]; exact (initializePlugins_init (envOf w fs) (runW w dir h0).mgr).1
  have e2 : (runW w dir (.init false r :: h0)).msgs = (loadPluginsW w (initializePluginsW w r (runW w dir h0)).1).msgs := by
    show (initW w false r (runW w dir h0)).1.msgs = _
    simp only [initW, q4, Bool.false_and, Bool.false_eq_true, if_false, a, Bool.not_false, if_true]
  have mid : ∀ h : List WOp, (∀ o ∈ h, o.Quiet) → let p := runW w dir (h ++ .init true r :: h0)
      p.msgs = (initializePluginsW w r (runW w dir h0)).1.msgs ∧ p.mgr.handles = (initializePluginsW w r (runW w dir h0)).1.mgr.handles ∧
      p.mgr.loaded = [] ∧ p.mgr.initialized = true ∧ p.mgr.lazy = true := by
    intro h
    induction h with
    | nil =>
      intro _
      have e1 : runW w dir (.init true r :: h0) = { (initializePluginsW w r (runW w dir h0)).1 with
          mgr := { (initializePluginsW w r (runW w dir h0)).1.mgr with lazy := true } } := by
        show (initW w true r (runW w dir h0)).1 = _
        simp only [initW, q4, Bool.false_and, Bool.false_eq_true, if_false, a, Bool.not_true]
      simp only [List.nil_append]
      rw [e1]
      exact ⟨rfl, rfl, hh, hini, rfl⟩
    | cons o h ih =>
      intro hqs
      obtain ⟨i1, i2, i3, i4, i5⟩ := ih fun x hx => hqs x (List.mem_cons_of_mem _ hx)
      have ho := hqs o List.mem_cons_self
      simp only [List.cons_append, runW]
      generalize runW w dir (h ++ .init true r :: h0) = p at *
      cases o with
      | addPath x => simp only [stepW, addPath]; split <;> exact ⟨i1, i2, i3, i4, i5⟩
      | addStatic x k => simp only [stepW, addStatic]; exact ⟨i1, i2, i3, i4, i5⟩
      | removeStatic x => simp only [stepW, removeStatic]; exact ⟨i1, i2, i3, i4, i5⟩
      | _ => exact absurd ho id
  obtain ⟨i1, i2, i3, i4, i5⟩ := mid h hq
  have hl : (runW w dir (op :: (h ++ .init true r :: h0))).msgs = (loadPluginsW w (runW w dir (h ++ .init true r :: h0))).msgs := by
    show (stepW w _ op).1.msgs = _
    generalize runW w dir (h ++ .init true r :: h0) = p at *
    rcases hop with rfl | rfl | rfl | ⟨id, rfl⟩
    · simp [stepW, initW, i4, i5]
    · simp [stepW, ensureW, i4, i5, finish]
    · simp [stepW, ensureW, i4, i5, finish]
    · simp [stepW, ensureW, i4, i5, finish]
  rw [hl, e2, loadPluginsW, loadPluginsW, loadFold_msgs w _ _ (by rw [i2]; exact nodup_keys hok) (by rw [i3]; exact ok_nil) (by
    intro e _; rw [i3]; rfl), loadFold_msgs w _ _ (nodup_keys hok) (by rw [hh]; exact ok_nil) (by intro e _; rw [hh]; rfl), i1, i2]

/-- C117: once the plugins are loaded, only `createPluginInstance` adds messages: one if the library does not make an object. -/
theorem c117_later_messages (w : World) (p : PM) (hi : p.mgr.initialized = true) (hl : p.mgr.lazy = false) (op : WOp) :
    ((∀ id, op ≠ .create id) → (stepW w p op).1.msgs = p.msgs) ∧
    ∀ id, (stepW w p (.create id)).1.msgs = p.msgs ++ (match get p.mgr.handles id with
      | some (some k) => (match w.made k with | .noSymbol e => [.cannotCreate id e] | .null => [.cannotCast id] | .object => [])
      | _ => []) := by
  refine ⟨fun hc => ?_, fun id => ?_⟩
  · cases op with
    | addPath x => simp only [stepW, addPath]; split <;> rfl
    | create id => exact absurd rfl (hc id)
    | _ => simp [stepW, initW, ensureW, finish, hi, hl]
  · simp only [stepW, ensureW, hi, hl, finish, Bool.not_true, Bool.false_eq_true, if_false]
    cases get p.mgr.handles id with
    | none => rfl
    | some o => cases o <;> rfl

/-! ### Findings -/

/-- Finding: the reason why a library could not be opened is in no message. -/
theorem c117_open_error_lost (w : World) (f : S) (l : Lib) (e : S) : handleMsgs w f { l with openErr := e } = handleMsgs w f l := rfl

/-- Finding: a plugin of the wrong type, and a plugin whose library could not be opened while the program itself has functions of
these names, are not reported at all: the list of messages is empty although no object is made. -/
theorem c117_silent_failures (w : World) (f i t : S) (l : Lib) (h1 : l.identifier = .found i) (h2 : l.basetype = .found t) :
    handleMsgs w f l = [] ∧ createMsgs w i none = [] := by
  simp [handleMsgs, h1, h2, createMsgs]

/-- Finding: if a plugin path is not a readable directory, the first use throws an exception; every later call then works without
exception, but `plugin` returns NULL for every plugin of every library, also of those found before. -/
theorem c117_exception_disables (w : World) (dir : S) (h0 h : List WOp) (op : WOp) (hq0 : ∀ o ∈ h0, o.Quiet) (hq : ¬ op.Quiet)
    (hs : (scanPaths w op.deep (pathsOf dir h0)).2 = true) (env : Env) (id : S)
    (hst : staticAt id ((h ++ op :: h0).filterMap WOp.erase) = none) :
    (stepW w (runW w dir h0) op).2 = true ∧ (∀ op', (stepW w (runW w dir (h ++ op :: h0)) op').2 = false) ∧
    (plugin env (runW w dir (h ++ op :: h0)).mgr id).1 = none := by
  obtain ⟨q1, q2, q3, q4, q5, q6, q7⟩ := quiet_run w dir (envOf w []) h0 hq0
  obtain ⟨fs, hfs⟩ : ∃ fs, scanPaths w op.deep (runW w dir h0).paths = (fs, true) := ⟨_, Prod.ext rfl (by rw [q2]; exact hs)⟩
  obtain ⟨a, b, c, d⟩ := initialize_first w (runW w dir h0) op.deep fs true hfs
  have hres : (stepW w (runW w dir h0) op) = initializePluginsW w op.deep (runW w dir h0) := by
    have hin : ∀ lazy, initW w lazy op.deep (runW w dir h0) = initializePluginsW w op.deep (runW w dir h0) := by
      intro lazy
      simp only [initW, q4, Bool.false_and, Bool.false_eq_true, if_false, a, if_true]
    have hen : op.deep = false → ensureW w (runW w dir h0) = initializePluginsW w op.deep (runW w dir h0) := by
      intro hd
      have := hin false
      rw [hd] at this ⊢
      simp only [ensureW, q4, Bool.not_false, if_true, this]
      rw [hd] at a
      simp [a]
    cases op with
    | addPath _ => exact absurd trivial hq
    | addStatic _ _ => exact absurd trivial hq
    | removeStatic _ => exact absurd trivial hq
    | init lazy r => exact hin lazy
    | availablePlugins => simp only [stepW, hen rfl, a, if_true]
    | plugins => simp only [stepW, hen rfl, a, if_true]
    | plugin id => simp only [stepW, hen rfl, a, if_true]
    | create id => simp only [stepW, hen rfl, a, if_true]
  have hm0 : (runW w dir (op :: h0)).mgr = initializePlugins (envOf w fs) (runW w dir h0).mgr := by
    show (stepW w (runW w dir h0) op).1.mgr = _
    rw [hres, b]
  obtain ⟨j1, j2⟩ := initializePlugins_init (envOf w fs) (runW w dir h0).mgr
  have hi : (runW w dir (op :: h0)).mgr.initialized = true := by rw [hm0, j1]
  -- all loaded entries are NULL and nothing is loaded later
  have inv : ∀ h : List WOp, (runW w dir (h ++ op :: h0)).mgr.initialized = true ∧ (runW w dir (h ++ op :: h0)).mgr.lazy = false ∧
      Ok (runW w dir (h ++ op :: h0)).mgr.loaded ∧ (∀ x i, get (runW w dir (h ++ op :: h0)).mgr.loaded x = some i → i = none) ∧
      Ok (runW w dir (h ++ op :: h0)).mgr.static ∧
      ∀ x, get (runW w dir (h ++ op :: h0)).mgr.static x = (staticAt x ((h ++ op :: h0).filterMap WOp.erase)).map .ext := by
    intro h
    induction h with
    | nil =>
      have hsame := loadHandles_same (envOf w fs).files { (runW w dir h0).mgr with initialized := true }
      have hld : (runW w dir (op :: h0)).mgr.loaded = [] := by rw [hm0]; exact hsame.1.trans q7
      have hstat : (runW w dir (op :: h0)).mgr.static = (runW w dir h0).mgr.static := by rw [hm0]; exact hsame.2.1
      refine ⟨hi, by rw [List.nil_append, hm0, j2, q5], by rw [List.nil_append, hld]; exact ok_nil, ?_, ?_, ?_⟩
      · intro x i hx
        rw [List.nil_append, hld] at hx; cases hx
      · rw [List.nil_append, hstat, q1]
        exact (invA_run (envOf w []) _).okStatic
      · intro x
        rw [List.nil_append, hstat, q1, (invA_run (envOf w []) _).static]
        have : staticAt x ((op :: h0).filterMap WOp.erase) = staticAt x (h0.filterMap WOp.erase) := by
          cases op <;> simp [WOp.erase, staticAt, WOp.Quiet] at hq ⊢
        rw [this]
    | cons o h ih =>
      obtain ⟨i1, i2, i3, i4, i5, i6⟩ := ih
      obtain ⟨s1, s2, s3⟩ := step_later w fs _ i1 o
      show (stepW w (runW w dir (h ++ op :: h0)) o).1.mgr.initialized = true ∧ (stepW w (runW w dir (h ++ op :: h0)) o).1.mgr.lazy = false ∧
        Ok (stepW w (runW w dir (h ++ op :: h0)) o).1.mgr.loaded ∧
        (∀ x i, get (stepW w (runW w dir (h ++ op :: h0)) o).1.mgr.loaded x = some i → i = none) ∧
        Ok (stepW w (runW w dir (h ++ op :: h0)) o).1.mgr.static ∧
        ∀ x, get (stepW w (runW w dir (h ++ op :: h0)) o).1.mgr.static x = (staticAt x ((o :: (h ++ op :: h0)).filterMap WOp.erase)).map .ext
      have hen : ensure (envOf w fs) (runW w dir (h ++ op :: h0)).mgr = (runW w dir (h ++ op :: h0)).mgr := by
        simp [ensure, i1, i2]
      rw [s2]
      generalize (runW w dir (h ++ op :: h0)).mgr = m at *
      refine ⟨by rw [← s2]; exact s3, ?_⟩
      cases o with
      | addPath p =>
        have : erased (envOf w fs) m (.addPath p) = m := rfl
        rw [this]; exact ⟨i2, i3, i4, i5, i6⟩
      | init lazy r =>
        have : erased (envOf w fs) m (.init lazy r) = m := by
          simp [erased, WOp.erase, step, initPlugins, i1, i2]
        rw [this]; exact ⟨i2, i3, i4, i5, by simpa [WOp.erase, List.filterMap_cons, staticAt] using i6⟩
      | availablePlugins =>
        have : erased (envOf w fs) m .availablePlugins = m := by
          simp [erased, WOp.erase, step, availablePlugins, hen]
        rw [this]; exact ⟨i2, i3, i4, i5, by simpa [WOp.erase, List.filterMap_cons, staticAt] using i6⟩
      | plugins =>
        have : erased (envOf w fs) m .plugins = m := by
          simp [erased, WOp.erase, step, plugins, hen]
        rw [this]; exact ⟨i2, i3, i4, i5, by simpa [WOp.erase, List.filterMap_cons, staticAt] using i6⟩
      | plugin x =>
        simp only [erased, WOp.erase, step, plugin, hen, List.filterMap_cons, staticAt]
        split
        · exact ⟨i2, i3, i4, i5, i6⟩
        · split
          · exact ⟨i2, i3, i4, i5, i6⟩
          · refine ⟨i2, ok_put i3 _ _, ?_, i5, i6⟩
            intro y i hy
            rw [get_put i3] at hy
            split at hy
            · cases hy; rfl
            · exact i4 y i hy
      | create x =>
        simp only [erased, WOp.erase, step, createPluginInstance, hen, List.filterMap_cons, staticAt, loadPluginInstance]
        repeat' split
        all_goals exact ⟨i2, i3, i4, i5, i6⟩
      | addStatic x k =>
        simp only [erased, WOp.erase, step, addStatic, List.filterMap_cons, staticAt]
        refine ⟨i2, i3, i4, ok_put (ok_del i5 _) _ _, ?_⟩
        intro y
        rw [get_put (ok_del i5 _), get_del i5, i6]
        by_cases hy : y = x
        · simp [hy]
        · simp [hy, Ne.symm hy]
      | removeStatic x =>
        simp only [erased, WOp.erase, step, removeStatic, List.filterMap_cons, staticAt]
        refine ⟨i2, i3, i4, ok_del i5 _, ?_⟩
        intro y
        rw [get_del i5, i6]
        by_cases hy : y = x
        · simp [hy]
        · simp [hy, Ne.symm hy]
  obtain ⟨i1, i2, i3, i4, i5, i6⟩ := inv h
  refine ⟨by rw [hres]; exact a, fun op' => (step_later w fs _ i1 op').1, ?_⟩
  have hen : ensure env (runW w dir (h ++ op :: h0)).mgr = (runW w dir (h ++ op :: h0)).mgr := by
    simp [ensure, i1, i2]
  simp only [plugin, hen]
  rw [i6, hst]
  simp only [Option.map_none]
  split
  · rename_i i hx; exact i4 id i hx
  · rfl

/-! ### Examples -/

/-- A good library, one of the wrong type, one without functions. -/
def goodLib : Lib := ⟨some 1, [], .found ['a'], .found ['T']⟩
/-- A second library for the same plugin. -/
def otherLib : Lib := ⟨some 2, [], .found ['a'], .found ['T']⟩
/-- A library of another plugin type. -/
def wrongLib : Lib := ⟨some 3, [], .found ['b'], .found ['U']⟩
/-- No library. -/
def noLib : Lib := ⟨none, ['x'], .missing ['i'], .missing ['t']⟩
/-- `/p` with files and a directory, `/q` with another version of the plugin, `/r` not a directory. -/
def exWorld : World where
  lookup s := if s = ['/', 'p'] then some (.dir ['p'] [.file ['n'] noLib, .dir ['d'] [.file ['w'] wrongLib], .other ['o'], .file ['g'] goodLib])
    else if s = ['/', 'q'] then some (.dir ['q'] [.file ['h'] otherLib])
    else if s = ['/', 'r'] then some (.file ['r'] noLib)
    else none
  typeName := ['T']
  made _ := .object
  sticky := false

example : (scanPaths exWorld true [['/', 'p'], ['/', 'z'], ['/', 'q']]) =
    ([(['/', 'p', '/', 'n'], noLib), (['/', 'p', '/', 'd', '/', 'w'], wrongLib), (['/', 'p', '/', 'g'], goodLib), (['/', 'q', '/', 'h'], otherLib)],
      false) := by decide +kernel
example : (plugin (envOf exWorld []) (runW exWorld ['/', 'p'] [.plugins, .addPath ['/', 'q']]).mgr ['a']).1 = some (.lib 2 0) := by decide +kernel
example : (plugin (envOf exWorld []) (runW exWorld ['/', 'p'] [.addPath ['/', 'q'], .plugins]).mgr ['a']).1 = some (.lib 1 0) := by decide +kernel
example : (runW exWorld ['/', 'p'] [.plugins]).msgs = [.cannotLoad ['/', 'p', '/', 'n'] ['t']] := by decide +kernel
example : (stepW exWorld (runW exWorld ['/', 'p'] [.addPath ['/', 'r']]) (.init true false)).2 = true ∧
    (plugin (envOf exWorld []) (runW exWorld ['/', 'p'] [.init false false, .init true false, .addPath ['/', 'r']]).mgr ['a']).1 = none := by
  decide +kernel

end Verif.Plugin.Search
