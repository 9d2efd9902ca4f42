import Verif.Startup.Lemmas

/-! # Start of a program: the default output, and a start without configuration -/
namespace Verif.Logging.Manager

theorem dflt_foldl {α : Type} (f : M → α → M) (hf : ∀ m a, (f m a).dflt = m.dflt) (l : List α) (m : M) :
    (l.foldl f m).dflt = m.dflt := by
  induction l generalizing m with
  | nil => rfl
  | cons a l ih => rw [List.foldl_cons, ih, hf]

theorem dflt_createStreams (fs : List S) : ∀ m m' : M, fs.foldlM createStream m = some m' → m'.dflt = m.dflt := by
  induction fs with
  | nil => intro m m' h; cases h; rfl
  | cons f fs ih =>
    intro m m' h
    rw [List.foldlM_cons] at h
    cases hc : createStream m f with
    | none => rw [hc] at h; cases h
    | some m1 =>
      rw [hc] at h
      rw [ih m1 m' h]
      simp only [createStream] at hc
      split at hc
      · cases hc; rfl
      · split at hc <;> cases hc; rfl

theorem dflt_configOutput (m : M) (e : S × OutCfg) : (configOutput m e).dflt = m.dflt := by
  simp only [configOutput]
  split
  · rfl
  · split <;> rfl

/-- Without a level on the command line a default output is the one from before, or a new one of level Info. -/
theorem dflt_initialize {env : Env} {m m' : M} (hl : optLevel env = none) (h : initialize' env m = some m') {g : Nat}
    {x : Output} (hd : m'.dflt = some (g, x)) : m.dflt = some (g, x) ∨ x.level = 2 := by
  simp only [initialize', Option.map_eq_some_iff, configure] at h
  obtain ⟨a, ⟨b, hb, rfl⟩, rfl⟩ := h
  have e1 : (quickDebug env (applyLogLevel env (configStreams (configOutputs (deleteDefault b))))).dflt
      = (deleteDefault b).dflt := by
    have q : ∀ m, (quickDebug env m).dflt = m.dflt := by
      intro m; simp only [quickDebug]; split <;> rfl
    have l : ∀ m, applyLogLevel env m = m := by
      intro m
      simp only [applyLogLevel]
      simp only [optLevel] at hl
      cases ht : env.logLevel with
      | none => rfl
      | some t =>
        rw [ht] at hl
        have := option_level t
        simp only [Option.bind_some] at hl
        rw [hl] at this
        simp only [this]
    rw [q, l]
    simp only [configStreams, configOutputs]
    refine Eq.trans (dflt_foldl _ ?_ _ _) (dflt_foldl _ dflt_configOutput _ _)
    intro _ _; rfl
  rw [e1] at hd
  have e2 : b.dflt = some (g, x) := by
    simp only [deleteDefault] at hd
    split at hd
    · exact hd
    · split at hd
      · exact hd
      · cases hd
  rw [dflt_createStreams _ _ _ hb] at e2
  have e3 : (readConfig env m).dflt = m.dflt := by simp only [readConfig]; split <;> rfl
  simp only [defaultIfNeeded] at e2
  split at e2
  · simp only [createDefault] at e2
    split at e2
    · rw [← e3]; exact .inl e2
    · cases e2; exact .inr rfl
  · rw [← e3]; exact .inl e2

end Verif.Logging.Manager

namespace Verif.Startup
open Verif.Logging.Manager

/-- What the logging looks like without any configuration: every declared stream writes to the standard output and
nowhere else, the messages of level `l` and above. -/
def Plainly (ds : List Decl) (log : M) (l : Nat) : Prop :=
  log.outputs = [] ∧ ∃ g, ∀ n, .stream n ∈ ds → ∀ l', reached log n l' = if l ≤ l' then [.dflt g] else []

theorem only_dflt {outs : List OutId} {g : Nat} (hn : outs.Nodup) (h1 : .dflt g ∈ outs)
    (h2 : ∀ o, o ∈ outs → o = .dflt g) : outs = [.dflt g] := by
  match outs, hn, h1, h2 with
  | [], _, h1, _ => cases h1
  | [a], _, _, h2 => rw [h2 a (by simp)]
  | a :: b :: r, hn, _, h2 =>
    have ha := h2 a (by simp)
    have hb := h2 b (by simp)
    rw [ha, hb] at hn
    simp at hn

theorem no_outEntry (e : S) : ¬ OutEntry [] e := by
  rintro ⟨-, v, -, h⟩; simp at h

/-- `initialize` without configuration. -/
theorem plainly_of {ds : List Decl} {ops : List Op} {env : Env} {m log : M} (hi : env.items = []) (hq : env.quickDebug = false)
    (inv : Inv env ops m) (hfac : ∀ n, .regStr n ∈ ops ↔ .stream n ∈ ds) (hout : m.outputs = [])
    (hlev : ∀ n s, StrMap.get m.streams n = some s → s.level = 2) (hd : ∀ g x, m.dflt = some (g, x) → x.level = 2)
    (h : initialize' env m = some log) : Plainly ds log ((optLevel env).getD 2) := by
  obtain ⟨m1, -, e2, p⟩ := initialize_post inv
  have : log = m1 := by
    rw [e2] at h
    have hqd : quickDebug env m1 = m1 := by simp [quickDebug, hq]
    rw [hqd] at h
    exact (Option.some.inj h).symm
  subst this
  obtain ⟨i1, -, hc, hsc, q1, q2, -, q4⟩ := inv_readConfig inv
  rw [hi] at hc hsc
  have hc' : named (readConfig env m).outCfg = [] := hc
  have hc0 : (readConfig env m).outCfg = [] := (named_nil _).1 hc'
  have hsc' : (readConfig env m).strCfg = [] := hsc
  have i2 := inv_configure inv p
  have houts : ∀ o, StrMap.get log.outputs o = none := by
    intro o
    rw [p.outs o, hc', q2, hout]; rfl
  have hnil : log.outputs = [] := by
    apply StrMap.ext p.okO StrMap.ok_nil
    intro k; rw [houts]; rfl
  refine ⟨hnil, ?_⟩
  obtain ⟨⟨g, x⟩, hgx⟩ := Option.isSome_iff_exists.1 (p.dflt.2 (.inl hc0))
  have hx : x.level = (optLevel env).getD 2 := by
    cases hl : optLevel env with
    | none =>
      rcases dflt_initialize hl h hgx with h1 | h1
      · exact hd g x h1
      · exact h1
    | some l => exact p.dfltLevel l hl g x hgx
  refine ⟨g, fun n hn l' => ?_⟩
  have hsome : (StrMap.get log.streams n).isSome := by
    rw [p.streams n, q4]; right; rw [inv.facS, hfac]; exact hn
  obtain ⟨s, hs⟩ := Option.isSome_iff_exists.1 hsome
  obtain ⟨p1, p2, p3, -, -, -⟩ := p.stream n s hs
  have hs1 : s.outs = [.dflt g] := by
    apply only_dflt p2
    · exact (p3 g).2 ⟨x, hgx⟩
    · intro o ho
      cases o with
      | dflt g' =>
        obtain ⟨x', hx'⟩ := (p3 g').1 ho
        rw [hgx] at hx'; cases hx'; rfl
      | named o =>
        have := i2.live n s o hs ho
        rw [houts] at this; cases this
  have hs2 : s.level = (optLevel env).getD 2 := by
    rw [p1, hsc']
    congr 1
    simp only [lastLevel, List.foldl_nil, before, q1]
    cases hg : StrMap.get m.streams n with
    | none => rfl
    | some t => exact hlev n t hg
  simp only [reached, hs, hs2, hs1]
  split
  · rename_i hle
    simp [hgx, hx, hle]
  · rfl

/-- The logging manager before `initialize`, if no stream has been used. -/
theorem app_untouched (ds : List Decl) :
    (app ds).log.dflt = none ∧ (app ds).log.outputs = [] ∧ (app ds).log.streams = [] ∧ (app ds).log.initialized = false := by
  have : ∀ (ds : List Decl) (a : App), (ds.foldl declare a).log.dflt = a.log.dflt ∧
      (ds.foldl declare a).log.outputs = a.log.outputs ∧ (ds.foldl declare a).log.streams = a.log.streams ∧
      (ds.foldl declare a).log.initialized = a.log.initialized := by
    intro ds
    induction ds with
    | nil => intro a; exact ⟨rfl, rfl, rfl, rfl⟩
    | cons d ds ih =>
      intro a
      have i := ih (declare a d)
      rw [List.foldl_cons]
      cases d <;> exact i
  exact this _ _

/-- A start without configuration. -/
theorem plainly {ds : List Decl} {env : Env} {log : M} (hi : env.items = []) (hq : env.quickDebug = false)
    (h : run env (logOps (builtins ++ ds) ++ [.init]) = some log) :
    Plainly (builtins ++ ds) log ((optLevel env).getD 2) := by
  obtain ⟨hns, -⟩ := mem_logOps_init (builtins ++ ds)
  obtain ⟨m0, hr0, i0, e0⟩ := run_init h hns
  rw [app_log] at hr0
  cases hr0
  obtain ⟨a1, a2, a3, -⟩ := app_untouched ds
  refine plainly_of hi hq i0 (fun n => mem_logOps_str _ n) a2 ?_ ?_ e0
  · intro n s hs; rw [a3] at hs; cases hs
  · intro g x hx; rw [a1] at hx; cases hx

theorem inv_items {env env' : Env} {ops : List Op} {m : M} (h : env.items = env'.items) (i : Inv env ops m) :
    Inv env' ops m :=
  ⟨i.freed, i.okS, i.okO, i.facO, i.facS, i.dOk, i.dNone, i.live, i.strs, by rw [← h]; exact i.cfg⟩

/-- What the logging manager finds when a stream is used before `initialize`: no configuration and no command line. -/
def noEnv : Env := ⟨[], none, false⟩

/-- A stream is used before `initialize`: the configuration read later does not matter. -/
theorem early {ds : List Decl} {env : Env} {m0 log : M} {n : S} (hn : .stream n ∈ builtins ++ ds) (hq : env.quickDebug = false)
    (h0 : run noEnv (logOps (builtins ++ ds) ++ [.use n]) = some m0) (h : initialize' env m0 = some log) :
    Plainly (builtins ++ ds) log ((optLevel env).getD 2) := by
  obtain ⟨hns, -⟩ := mem_logOps_init (builtins ++ ds)
  have h1 : run noEnv (logOps (builtins ++ ds) ++ [.init]) = some m0 := by
    rw [run_snoc, app_log, Option.bind_some] at h0 ⊢
    obtain ⟨-, -, a3, -⟩ := app_untouched ds
    have i := inv_run hns (app_log noEnv ds)
    have hf : n ∉ (app ds).log.freed := by rw [i.freed]; simp
    have hg : StrMap.get (app ds).log.streams n = none := by rw [a3]; rfl
    simp only [step, hg, Option.isSome_none, Bool.false_eq_true, if_false, hf] at h0
    simp only [step]
    cases hx : initialize' noEnv (app ds).log with
    | none => rw [hx] at h0; cases h0
    | some m1 =>
      rw [hx, Option.bind_some] at h0
      split at h0
      · exact h0
      · cases h0
  have hns' : .shutdown ∉ logOps (builtins ++ ds) ++ [.init] := by simp [hns]
  have hset' : ∀ l, .setLevel l ∉ logOps (builtins ++ ds) ++ [.init] := by
    intro l; simp [(mem_logOps_init (builtins ++ ds)).2]
  have i0 := inv_run hns' h1
  have hp := plainly (ds := ds) (env := noEnv) rfl rfl h1
  have snd := sound_run (env := noEnv) StrMap.ok_nil rfl hns' h1
  have hinit : m0.initialized = true := by
    rcases i0.cfg with c | c
    · exact c.1
    · have := (c73_streams noEnv _ hns h1 n).2 ((mem_logOps_str _ n).2 hn)
      rw [c.2.2.2.1] at this; cases this
  have he : initialize' { env with items := [] } m0 = some log := by
    rw [← h]
    simp only [initialize', readConfig, hinit, if_true]
    rfl
  have i1 : Inv { env with items := [] } (logOps (builtins ++ ds) ++ [.init]) m0 := inv_items (env := noEnv) rfl i0
  refine plainly_of (env := { env with items := [] }) rfl hq i1 ?_ hp.1 ?_ ?_ he
  · intro n; rw [← mem_logOps_str]; simp
  · intro n s hs
    exact snd.level n s hs hset'
  · intro g x hx
    obtain ⟨m00, hr0, -, e0⟩ := run_init h1 hns
    rw [app_log] at hr0
    cases hr0
    rcases dflt_initialize (env := noEnv) rfl e0 hx with h2 | h2
    · rw [(app_untouched ds).1] at h2; cases h2
    · exact h2

theorem app_dflt (env : Env) (ds : List Decl) (m0 : M) (h : run env (logOps (builtins ++ ds)) = some m0) :
    m0.dflt = none := by
  rw [app_log] at h
  cases h
  exact (app_untouched ds).1

end Verif.Startup
