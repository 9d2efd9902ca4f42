import Verif.Startup.DfltLemmas
import Verif.Logging.Manager.Exact

/-! # C122: the start of a program -/
namespace Verif.Startup
open Verif.Logging.Manager

/-- All declarations. -/
abbrev all (ds : List Decl) : List Decl := builtins ++ ds

/-- An accepted command line. -/
theorem start_accepted {rx : S → S → Option S} {fs : Cfg.Files} {k : Nat} {ds : List Decl} {strict clean : Bool}
    {prog : S} {args : List S} {its : List Getopt.Item} (hI : Getopt.Items rx (calls (all ds)) strict false 0 args its)
    {r : Bool} {argv : List S} {argc : Nat} {cfg : Cfg.Mgr} {log : M}
    (h : start rx fs k (app ds) strict clean (prog :: args) = some (.ok (.up r argv argc cfg log))) :
    ∃ o, Getopt.Reports o its ∧ Cfg.init fs k o (app ds).cfg = some (.ok (r, cfg)) ∧
      run (envOf cfg.items o) (logOps (all ds) ++ [.init]) = some log := by
  simp only [start, app_reg] at h
  cases hg : Getopt.init rx (Getopt.reg (calls (builtins ++ ds))) strict clean {} (prog :: args) with
  | none => rw [hg] at h; cases h
  | some res =>
    rw [hg] at h
    cases res with
    | exit => cases h
    | fail => exact absurd ⟨its, hI⟩ ((Getopt.c38_fails_iff _ _ _ _ _ _).1 hg)
    | ok o argv' argc' =>
      obtain ⟨its', hI', hrep, -⟩ := Getopt.c38_classifies _ _ _ _ _ _ _ _ _ hg
      obtain rfl := Getopt.c38_unique _ _ _ _ _ _ _ _ hI hI'
      simp only at h
      cases hc : Cfg.init fs k o (app ds).cfg with
      | none => rw [hc] at h; cases h
      | some x =>
        rw [hc] at h
        match x, h with
        | .throws e, h => cases h
        | .ub, h => cases h
        | .ok (r', m), h =>
          obtain ⟨rfl, -, -, rfl, hrun⟩ := finish_run h
          exact ⟨o, hrep, hc, hrun⟩

theorem ok_items {fs : Cfg.Files} {k : Nat} {o : Getopt.Out} {ds : List Decl} {r : Bool} {cfg : Cfg.Mgr}
    (h : Cfg.init fs k o (app ds).cfg = some (.ok (r, cfg))) : StrMap.Ok cfg.items := by
  obtain ⟨es, i, rfl⟩ := Cfg.init_puts h
  refine (Cfg.putAll_spec es (app ds).cfg ?_).1
  rw [(app_cfg_fresh ds).1]
  exact StdMap.sorted_nil

/-! ### The configuration -/

theorem given_eq {ds : List Decl} {o : Getopt.Out} {its : List Getopt.Item} (h : Getopt.Reports o its) :
    Cfg.fromCommandLine (keyed ds) o = given ds its := by
  have hk : ∀ p ∈ keyed ds, p.key ≠ [] := by
    intro p hp
    simp only [keyed, List.mem_append, List.mem_filterMap] at hp
    rcases hp with ⟨d, -, hd⟩ | ⟨d, -, hd⟩ <;> cases d <;> simp at hd
    all_goals obtain ⟨h1, rfl⟩ := hd; exact h1
  simp only [Cfg.fromCommandLine, given]
  generalize keyed ds = ps at hk
  induction ps with
  | nil => rfl
  | cons p ps ih =>
    have ih := ih fun q hq => hk q (by simp [hq])
    have hp := hk p (by simp)
    by_cases hv : o.paramOptPresent p.option = true
    · have h1 := (h.2.1 _).1 hv
      cases hl : (Getopt.valuesOf its p.option).getLast? with
      | none => exact absurd (List.getLast?_eq_none_iff.1 hl) h1
      | some v =>
        have h2 := h.1 p.option
        rw [hl, Option.getD_some] at h2
        rw [List.filter_cons_of_pos (by simp [hp, hv]), List.map_cons, ih, List.filterMap_cons, hl, h2]
        rfl
    · have h1 : Getopt.valuesOf its p.option = [] :=
        Decidable.byContradiction fun hne => hv ((h.2.1 _).2 hne)
      rw [List.filter_cons_of_neg (by simp [hv]), ih, List.filterMap_cons, h1]
      rfl

theorem defaults_eq (ds : List Decl) : Cfg.defaults (keyed ds) = defaults ds := by
  have hk : ∀ p ∈ keyed ds, p.key ≠ [] := by
    intro p hp
    simp only [keyed, List.mem_append, List.mem_filterMap] at hp
    rcases hp with ⟨d, -, hd⟩ | ⟨d, -, hd⟩ <;> cases d <;> simp at hd
    all_goals obtain ⟨h1, rfl⟩ := hd; exact h1
  simp only [Cfg.defaults, defaults]
  generalize keyed ds = ps at hk
  induction ps with
  | nil => rfl
  | cons p ps ih =>
    have ih := ih fun q hq => hk q (by simp [hq])
    have hp := hk p (by simp)
    by_cases hv : p.dflt = []
    · rw [List.filter_cons_of_neg (by simp [hv]), ih, List.filterMap_cons, if_pos hv]
    · rw [List.filter_cons_of_pos (by simp [hp, hv]), List.map_cons, ih, List.filterMap_cons, if_neg hv]

theorem last_of_present {o : Getopt.Out} {its : List Getopt.Item} (h : Getopt.Reports o its) (n : S) :
    (Getopt.valuesOf its n).getLast? = if o.paramOptPresent n = true then some (o.paramOpt n) else none := by
  by_cases hv : o.paramOptPresent n = true
  · have h1 := (h.2.1 _).1 hv
    rw [if_pos hv, h.1 n]
    cases hl : (Getopt.valuesOf its n).getLast? with
    | none => exact absurd (List.getLast?_eq_none_iff.1 hl) h1
    | some v => rfl
  · have h1 : Getopt.valuesOf its n = [] :=
      Decidable.byContradiction fun hne => hv ((h.2.1 _).2 hne)
    rw [if_neg hv, h1]; rfl

theorem cfOpt : Cfg.configfileOpt = "configfile".toList := rfl
theorem cfKey : Cfg.configfileKey = "/configfile".toList := rfl
theorem coOpt : Cfg.configOptionOpt = "config-option".toList := rfl

/-- C122: if the start succeeds, the command line has been split into items, and every configuration key has its value
by precedence: the last `-o` option, else the command line parameter declared for it, else the configuration file
named on the command line, else the declared default. -/
theorem c122_settings (rx : S → S → Option S) (fs : Cfg.Files) (k : Nat) (ds : List Decl) (strict clean : Bool)
    (prog : S) (args argv : List S) (argc : Nat) (cfg : Cfg.Mgr) (log : M)
    (h : start rx fs k (app ds) strict clean (prog :: args) = some (.ok (.up true argv argc cfg log))) :
    ∃ its file, Getopt.Items rx (calls (all ds)) strict false 0 args its ∧ FileEntries fs k its file ∧
      ∀ key, StrMap.get cfg.items key = setting (all ds) its file key := by
  have hI : ∃ its, Getopt.Items rx (calls (all ds)) strict false 0 args its := by
    refine Classical.byContradiction fun hno => ?_
    have hf := (Getopt.c38_fails_iff rx (calls (all ds)) strict clean prog args).2 hno
    simp only [start, app_reg, hf] at h
    have := finish_run h
    exact absurd this.1 (by decide)
  obtain ⟨its, hI⟩ := hI
  obtain ⟨o, hrep, hc, -⟩ := start_accepted hI h
  obtain ⟨file, hfile, hval⟩ := Cfg.c40_precedence fs k (fun _ _ => false) _ o _ cfg (app_cfg fs k _ ds)
    (app_cfg_fresh ds).2 hc
  refine ⟨its, file, hI, ?_, fun key => ?_⟩
  · simp only [FileEntries]
    rw [← cfOpt, ← cfKey, last_of_present hrep]
    by_cases hp : o.paramOptPresent Cfg.configfileOpt = true
    · rw [if_pos hp] at hfile ⊢
      exact hfile
    · rw [if_neg hp] at hfile ⊢
      exact hfile
  · have h1 := hval key
    rw [app_params, given_eq hrep, defaults_eq, hrep.2.2.1, (app_cfg_fresh ds).1] at h1
    rw [setting, ← coOpt]
    exact h1

/-! ### The logging -/

/-- C122: after every start, whether it succeeds or not, the log streams are the declared ones. -/
theorem c122_streams (rx : S → S → Option S) (fs : Cfg.Files) (k : Nat) (ds : List Decl) (strict clean : Bool)
    (av argv : List S) (argc : Nat) (r : Bool) (cfg : Cfg.Mgr) (log : M)
    (h : start rx fs k (app ds) strict clean av = some (.ok (.up r argv argc cfg log))) (n : S) :
    (StrMap.get log.streams n).isSome ↔ .stream n ∈ all ds := by
  have : ∃ env, run env (logOps (all ds) ++ [.init]) = some log := by
    simp only [start] at h
    split at h
    · cases h
    · cases h
    · exact ⟨_, (finish_run h).2.2.2.2⟩
    · split at h
      · cases h
      · cases h
      · cases h
      · exact ⟨_, (finish_run h).2.2.2.2⟩
  obtain ⟨env, hrun⟩ := this
  rw [c73_streams env _ (mem_logOps_init _).1 hrun, mem_logOps_str]

/-- C122: with a legal level given by `--log-level` or `-l` on an accepted command line, every stream writes the
messages of this level and above to the standard output, and every output gets those of its streams, whatever
the configuration says. -/
theorem c122_command_line_level (rx : S → S → Option S) (fs : Cfg.Files) (k : Nat) (ds : List Decl)
    (strict clean : Bool) (prog : S) (args argv : List S) (argc : Nat) (r : Bool) (cfg : Cfg.Mgr) (log : M)
    (h : start rx fs k (app ds) strict clean (prog :: args) = some (.ok (.up r argv argc cfg log)))
    (its : List Getopt.Item) (hI : Getopt.Items rx (calls (all ds)) strict false 0 args its)
    (hq : Getopt.valuesOf its "quick-debug".toList = []) (l : Nat) (hl : cmdLevel its = some l) (n : S)
    (hn : .stream n ∈ all ds) (l' : Nat) :
    ((∃ g, .dflt g ∈ reached log n l') ↔ l ≤ l') ∧
    ∀ s, StrMap.get log.streams n = some s → ∀ o, .named o ∈ s.outs → (.named o ∈ reached log n l' ↔ l ≤ l') := by
  obtain ⟨o, hrep, hc, hrun⟩ := start_accepted hI h
  have hns := (mem_logOps_init (all ds)).1
  have hok := ok_items hc
  have hq' : (envOf cfg.items o).quickDebug = false := by
    rw [Bool.eq_false_iff]; intro hq1; exact (env_quick hrep).1 hq1 hq
  have hl' : optLevel (envOf cfg.items o) = some l := by rw [env_level hrep]; exact hl
  obtain ⟨v1, v2, g, x, v3, v4⟩ := c74_command_line _ _ hns hq' hl' hrun
  obtain ⟨s, hs⟩ := Option.isSome_iff_exists.1 ((c122_streams _ _ _ _ _ _ _ _ _ _ _ _ h n).2 hn)
  have inv := inv_run (by simp [hns]) hrun
  have hd := (c73_default_output _ _ hns hok hq' hrun hs).2 (.inr (by rw [hl']; rfl))
  refine ⟨?_, ?_⟩
  · simp only [reached, hs, v1 n s hs]
    by_cases hle : l ≤ l'
    · rw [if_pos hle]
      obtain ⟨g', hg'⟩ := hd
      obtain ⟨x', hx'⟩ := ((inv.dOk n s hs).2 g').1 hg'
      rw [v3] at hx'; cases hx'
      refine ⟨fun _ => hle, fun _ => ⟨g, ?_⟩⟩
      rw [List.mem_filter]
      exact ⟨hg', by simp [v3, v4, hle]⟩
    · rw [if_neg hle]; simp [hle]
  · intro s' hs' o ho
    rw [hs] at hs'; cases hs'
    simp only [reached, hs, v1 n s hs]
    by_cases hle : l ≤ l'
    · rw [if_pos hle, List.mem_filter]
      obtain ⟨x', hx'⟩ := Option.isSome_iff_exists.1 (inv.live n s o hs ho)
      refine ⟨fun _ => hle, fun _ => ⟨ho, ?_⟩⟩
      simp [hx', v2 o x' hx', hle]
    · rw [if_neg hle]; simp [hle]

/-- The level of stream `n` by the configuration: Info without an entry for it, else that of the last of its entries in
the order of the keys; an entry without a legal level counts as Trace. -/
def StreamLevel (items : List (S × S)) (n : S) (l : Nat) : Prop :=
  ((∀ e, StrEntry items e → strName items e ≠ n) ∧ l = 2) ∨
  ∃ e, Last items e n ∧ l = (cfgLevel items e).getD 0

/-- `e` is the configuration entry that makes output `o`: of those with this name and a declared class the first in the
order of the keys. -/
def Makes (items : List (S × S)) (ds : List Decl) (e o : S) : Prop :=
  (OutEntry items e ∧ outName items e = o ∧ .out (outKind items e) ∈ ds) ∧
  ∀ e', OutEntry items e' → outName items e' = o → .out (outKind items e') ∈ ds → e ≤ e'

/-- C122: whatever is configured, a stream has one level. -/
theorem c122_one_level (items : List (S × S)) (hok : StrMap.Ok items) (n : S) :
    (∃ l, StreamLevel items n l) ∧ ∀ l l', StreamLevel items n l → StreamLevel items n l' → l = l' := by
  constructor
  · rcases c74_last_exists items hok n with h | ⟨e, h⟩
    · exact ⟨2, .inl ⟨h, rfl⟩⟩
    · exact ⟨_, .inr ⟨e, h, rfl⟩⟩
  · rintro l l' (⟨h, rfl⟩ | ⟨e, h, rfl⟩) (⟨h', rfl⟩ | ⟨e', h', rfl⟩)
    · rfl
    · exact absurd h'.1.2 (h e' h'.1.1)
    · exact absurd h.1.2 (h' e h.1.1)
    · have : e = e' := le_antisymm (h'.2 e h.1.1 h.1.2) (h.2 e' h'.1.1 h'.1.2)
      rw [this]

theorem stream_level {env : Env} {ops : List Op} (hns : .shutdown ∉ ops) (hok : StrMap.Ok env.items)
    (hq : env.quickDebug = false) (hl : optLevel env = none) (hset : ∀ l, .setLevel l ∉ ops) {m : M}
    (h : run env ops = some m) {n : S} {s : Stream} (hs : StrMap.get m.streams n = some s) {sl : Nat}
    (hsl : StreamLevel env.items n sl) : s.level = sl := by
  obtain ⟨a, b⟩ := c74_stream_level_last env ops hns hok hq hl hset h hs
  rcases hsl with ⟨c, rfl⟩ | ⟨e, c, rfl⟩
  · exact b c
  · exact a e c

theorem logOps_creates (ds : List Decl) : ∀ op ∈ logOps ds, ¬ Creates op := by
  intro op hop
  simp only [logOps, List.mem_filterMap] at hop
  obtain ⟨d, -, hd⟩ := hop
  cases d <;> simp at hd
  all_goals subst hd; rintro (h | ⟨n, h⟩) <;> cases h

/-- C122: after a start with an accepted command line without `--log-level` and `--quick-debug`, a message of level `l`
reaches output `o` iff the level of its stream is not above it, and output `o` is made by an entry `f` whose level is
not above it, and this or a later entry with the name `o` is for the stream.  This holds for every configuration, also one
in which names occur several times. -/
theorem c122_delivery (rx : S → S → Option S) (fs : Cfg.Files) (k : Nat) (ds : List Decl)
    (strict clean : Bool) (prog : S) (args argv : List S) (argc : Nat) (r : Bool) (cfg : Cfg.Mgr) (log : M)
    (h : start rx fs k (app ds) strict clean (prog :: args) = some (.ok (.up r argv argc cfg log)))
    (its : List Getopt.Item) (hI : Getopt.Items rx (calls (all ds)) strict false 0 args its)
    (hq : Getopt.valuesOf its "quick-debug".toList = []) (hl : cmdLevel its = none)
    (n : S) (hn : .stream n ∈ all ds) (sl : Nat) (hsl : StreamLevel cfg.items n sl) (l : Nat) (o : S) :
    .named o ∈ reached log n l ↔ sl ≤ l ∧ ∃ f, Makes cfg.items (all ds) f o ∧ (cfgLevel cfg.items f).getD 0 ≤ l ∧
      ∃ e, OutEntry cfg.items e ∧ outName cfg.items e = o ∧ For cfg.items e n ∧ f ≤ e := by
  obtain ⟨q, hrep, hc, hrun⟩ := start_accepted hI h
  obtain ⟨hns, hset⟩ := mem_logOps_init (all ds)
  have hok := ok_items hc
  have hq' : (envOf cfg.items q).quickDebug = false := by
    rw [Bool.eq_false_iff]; intro hq1; exact (env_quick hrep).1 hq1 hq
  have hl' : optLevel (envOf cfg.items q) = none := by rw [env_level hrep]; exact hl
  have hns' : .shutdown ∉ logOps (all ds) ++ [.init] := by simp [hns]
  have hset' : ∀ l, .setLevel l ∉ logOps (all ds) ++ [.init] := by intro l; simp [hset]
  obtain ⟨s, hs⟩ := Option.isSome_iff_exists.1 ((c122_streams _ _ _ _ _ _ _ _ _ _ _ _ h n).2 hn)
  have inv := inv_run hns' hrun
  have hlev : s.level = sl := stream_level hns' hok hq' hl' hset' hrun hs hsl
  have hw : ∀ e o, Wanted cfg.items (logOps (all ds)) e o ↔
      OutEntry cfg.items e ∧ outName cfg.items e = o ∧ .out (outKind cfg.items e) ∈ all ds := by
    intro e o; rw [Wanted, mem_logOps_out]
  have hf : ∀ f, First cfg.items (logOps (all ds)) f o ↔ Makes cfg.items (all ds) f o := by
    intro f
    simp only [First, hw, Makes]
    constructor
    · rintro ⟨a, b⟩; exact ⟨a, fun e' x y z => b e' ⟨x, y, z⟩⟩
    · rintro ⟨a, b⟩; exact ⟨a, fun e' ⟨x, y, z⟩ => b e' x y z⟩
  have hcon : .named o ∈ s.outs ↔ ∃ e, OutEntry cfg.items e ∧ outName cfg.items e = o ∧ For cfg.items e n ∧
      ∃ e', Wanted cfg.items (logOps (all ds)) e' o ∧ e' ≤ e :=
    c73_connections_exact _ _ hns (logOps_creates _) hok hq' hrun hs o
  have hout : ∀ x, StrMap.get log.outputs o = some x → ∃ f, Makes cfg.items (all ds) f o ∧
      x.level = (cfgLevel cfg.items f).getD 0 := by
    intro x hx
    obtain ⟨f, h1, h2⟩ := c73_output_exact _ _ hns (logOps_creates _) hok hq' hrun o hx
    refine ⟨f, (hf f).1 h1, ?_⟩
    rw [h2, hl']; rfl
  simp only [reached, hs, hlev]
  by_cases hle : sl ≤ l
  · rw [if_pos hle, List.mem_filter]
    simp only [hle, true_and]
    constructor
    · rintro ⟨ho, hx⟩
      obtain ⟨x, hgx⟩ := Option.isSome_iff_exists.1 (inv.live n s o hs ho)
      obtain ⟨e, a1, a2, a3, e', a4, a5⟩ := hcon.1 ho
      obtain ⟨f, b1, b2⟩ := hout x hgx
      simp only [hgx, decide_eq_true_eq] at hx
      refine ⟨f, b1, by omega, e, a1, a2, a3, le_trans ?_ a5⟩
      obtain ⟨c1, c2, c3⟩ := (hw e' o).1 a4
      exact b1.2 e' c1 c2 c3
    · rintro ⟨f, h1, h2, e, h3, h4, h5, h6⟩
      have ho := hcon.2 ⟨e, h3, h4, h5, f, (hw f o).2 h1.1, h6⟩
      refine ⟨ho, ?_⟩
      obtain ⟨x, hgx⟩ := Option.isSome_iff_exists.1 (inv.live n s o hs ho)
      obtain ⟨f', b1, b2⟩ := hout x hgx
      have : f = f' := le_antisymm (h1.2 f' b1.1.1 b1.1.2.1 b1.1.2.2) (b1.2 f h1.1.1 h1.1.2.1 h1.1.2.2)
      subst this
      simp only [hgx, decide_eq_true_eq]
      omega
  · rw [if_neg hle]; simp [hle]

/-- C122: the same in the case that no two entries configure outputs of the same name. -/
theorem c122_delivery_distinct (rx : S → S → Option S) (fs : Cfg.Files) (k : Nat) (ds : List Decl)
    (strict clean : Bool) (prog : S) (args argv : List S) (argc : Nat) (r : Bool) (cfg : Cfg.Mgr) (log : M)
    (h : start rx fs k (app ds) strict clean (prog :: args) = some (.ok (.up r argv argc cfg log)))
    (its : List Getopt.Item) (hI : Getopt.Items rx (calls (all ds)) strict false 0 args its)
    (hq : Getopt.valuesOf its "quick-debug".toList = []) (hl : cmdLevel its = none)
    (hd : NamesDiffer cfg.items) (n : S) (hn : .stream n ∈ all ds) (sl : Nat) (hsl : StreamLevel cfg.items n sl)
    (l : Nat) (o : S) :
    .named o ∈ reached log n l ↔ sl ≤ l ∧ ∃ e, OutEntry cfg.items e ∧ outName cfg.items e = o ∧
      .out (outKind cfg.items e) ∈ all ds ∧ For cfg.items e n ∧ (cfgLevel cfg.items e).getD 0 ≤ l := by
  rw [c122_delivery rx fs k ds strict clean prog args argv argc r cfg log h its hI hq hl n hn sl hsl]
  constructor
  · rintro ⟨h0, f, h1, h2, e, h3, h4, h5, -⟩
    obtain rfl := hd f e h1.1.1 h3 (h1.1.2.1.trans h4.symm)
    exact ⟨h0, f, h3, h4, h1.1.2.2, h5, h2⟩
  · rintro ⟨h0, e, h1, h2, h3, h4, h5⟩
    refine ⟨h0, e, ⟨⟨h1, h2, h3⟩, fun e' a b _ => ?_⟩, h5, e, h1, h2, h4, le_refl _⟩
    rw [hd e e' h1 a (h2.trans b.symm)]

/-- C122: a level given with `-o` for the entry of a stream is its level, whatever the configuration file says (if no
later entry is for the stream). -/
theorem c122_option_level (rx : S → S → Option S) (fs : Cfg.Files) (k : Nat) (ds : List Decl)
    (strict clean : Bool) (prog : S) (args argv : List S) (argc : Nat) (cfg : Cfg.Mgr) (log : M)
    (h : start rx fs k (app ds) strict clean (prog :: args) = some (.ok (.up true argv argc cfg log)))
    (its : List Getopt.Item) (hI : Getopt.Items rx (calls (all ds)) strict false 0 args its)
    (e n t : S) (l : Nat) (he : "LogStream".toList <+: e)
    (hname : Cfg.lastValue (Getopt.prefixValuesOf its "config-option".toList) (key e "Name".toList) = some n)
    (hlevel : Cfg.lastValue (Getopt.prefixValuesOf its "config-option".toList) (key e "LogLevel".toList) = some t)
    (ht : levelOf t = some l) (hlast : ∀ e', StrEntry cfg.items e' → strName cfg.items e' = n → e' ≤ e) :
    StreamLevel cfg.items n l := by
  obtain ⟨its', file, hI', -, hset⟩ := c122_settings _ _ _ _ _ _ _ _ _ _ _ _ h
  obtain rfl := Getopt.c38_unique _ _ _ _ _ _ _ _ hI hI'
  have h1 : StrMap.get cfg.items (key e "Name".toList) = some n := by
    rw [hset, setting, hname]; rfl
  have h2 : StrMap.get cfg.items (key e "LogLevel".toList) = some t := by
    rw [hset, setting, hlevel]; rfl
  right
  refine ⟨e, ⟨⟨⟨he, _, .inl rfl, by rw [h1]; rfl⟩, by rw [strName, h1]; rfl⟩, hlast⟩, ?_⟩
  rw [cfgLevel, h2, Option.bind_some, ht]; rfl

/-- C122: if a log stream is used before `initialize`, the configuration read by `initialize` has no effect on the
logging: every stream writes to the standard output only, the messages of the level given by `--log-level`, else of Info,
and above. -/
theorem c122_early_use (rx : S → S → Option S) (fs : Cfg.Files) (k : Nat) (ds : List Decl)
    (strict clean : Bool) (prog : S) (args argv : List S) (argc : Nat) (r : Bool) (cfg : Cfg.Mgr) (m0 log : M) (n : S)
    (hn : .stream n ∈ all ds) (h0 : run noEnv (logOps (all ds) ++ [.use n]) = some m0)
    (h : start rx fs k { app ds with log := m0 } strict clean (prog :: args) = some (.ok (.up r argv argc cfg log)))
    (its : List Getopt.Item) (hI : Getopt.Items rx (calls (all ds)) strict false 0 args its)
    (hq : Getopt.valuesOf its "quick-debug".toList = []) : Plainly (all ds) log ((cmdLevel its).getD 2) := by
  simp only [start, app_reg] at h
  cases hg : Getopt.init rx (Getopt.reg (calls (builtins ++ ds))) strict clean {} (prog :: args) with
  | none => rw [hg] at h; cases h
  | some res =>
    rw [hg] at h
    cases res with
    | exit => cases h
    | fail => exact absurd ⟨its, hI⟩ ((Getopt.c38_fails_iff _ _ _ _ _ _).1 hg)
    | ok o argv' argc' =>
      obtain ⟨its', hI', hrep, -⟩ := Getopt.c38_classifies _ _ _ _ _ _ _ _ _ hg
      obtain rfl := Getopt.c38_unique _ _ _ _ _ _ _ _ hI hI'
      simp only at h
      cases hc : Cfg.init fs k o (app ds).cfg with
      | none => rw [hc] at h; cases h
      | some x =>
        rw [hc] at h
        match x, h with
        | .throws e, h => cases h
        | .ub, h => cases h
        | .ok (r', m), h =>
          simp only [finish] at h
          cases hi : initialize' (envOf m.items o) m0 with
          | none => rw [hi] at h; cases h
          | some l =>
            rw [hi] at h
            cases h
            have hq' : (envOf cfg.items o).quickDebug = false := by
              rw [Bool.eq_false_iff]; intro hq1; exact (env_quick hrep).1 hq1 hq
            have := early hn hq' h0 hi
            rw [env_level hrep] at this
            exact this

/-- C122: after a successful start without a configured output and without `--log-level` and `--quick-debug`, messages
of the level of the stream and at least Info go to the standard output, and nowhere else. -/
theorem c122_standard_output (rx : S → S → Option S) (fs : Cfg.Files) (k : Nat) (ds : List Decl)
    (strict clean : Bool) (prog : S) (args argv : List S) (argc : Nat) (r : Bool) (cfg : Cfg.Mgr) (log : M)
    (h : start rx fs k (app ds) strict clean (prog :: args) = some (.ok (.up r argv argc cfg log)))
    (its : List Getopt.Item) (hI : Getopt.Items rx (calls (all ds)) strict false 0 args its)
    (hq : Getopt.valuesOf its "quick-debug".toList = []) (hl : cmdLevel its = none)
    (n : S) (hn : .stream n ∈ all ds) (sl : Nat) (hsl : StreamLevel cfg.items n sl) (l : Nat) :
    (∃ g, .dflt g ∈ reached log n l) ↔ (∀ e, ¬ OutEntry cfg.items e) ∧ sl ≤ l ∧ 2 ≤ l := by
  obtain ⟨q, hrep, hc, hrun⟩ := start_accepted hI h
  obtain ⟨hns, hset⟩ := mem_logOps_init (all ds)
  have hok := ok_items hc
  have hq' : (envOf cfg.items q).quickDebug = false := by
    rw [Bool.eq_false_iff]; intro hq1; exact (env_quick hrep).1 hq1 hq
  have hl' : optLevel (envOf cfg.items q) = none := by rw [env_level hrep]; exact hl
  have hns' : .shutdown ∉ logOps (all ds) ++ [.init] := by simp [hns]
  have hset' : ∀ l, .setLevel l ∉ logOps (all ds) ++ [.init] := by intro l; simp [hset]
  obtain ⟨s, hs⟩ := Option.isSome_iff_exists.1 ((c122_streams _ _ _ _ _ _ _ _ _ _ _ _ h n).2 hn)
  have inv := inv_run hns' hrun
  have hlev : s.level = sl := stream_level hns' hok hq' hl' hset' hrun hs hsl
  have hdef := c73_default_output _ _ hns hok hq' hrun hs
  rw [hl'] at hdef
  simp only [Option.isSome_none, Bool.false_eq_true, or_false] at hdef
  have hx2 : ∀ g x, log.dflt = some (g, x) → x.level = 2 := by
    intro g x hd
    obtain ⟨m0, hr0, -, e0⟩ := run_init hrun hns
    rcases dflt_initialize hl' e0 hd with h1 | h1
    · rw [app_dflt _ ds m0 hr0] at h1; cases h1
    · exact h1
  simp only [reached, hs, hlev]
  by_cases hle : sl ≤ l
  · rw [if_pos hle]
    simp only [List.mem_filter, hle, true_and]
    constructor
    · rintro ⟨g, ho, hx⟩
      obtain ⟨x, hgx⟩ := ((inv.dOk n s hs).2 g).1 ho
      refine ⟨hdef.1 ⟨g, ho⟩, ?_⟩
      simpa [hgx, hx2 g x hgx] using hx
    · rintro ⟨ho, h2⟩
      obtain ⟨g, hg⟩ := hdef.2 ho
      obtain ⟨x, hgx⟩ := ((inv.dOk n s hs).2 g).1 hg
      exact ⟨g, hg, by simp [hgx, hx2 g x hgx, h2]⟩
  · rw [if_neg hle]; simp [hle]

/-! ### Failed starts -/

theorem init_false {fs : Cfg.Files} {k : Nat} {o : Getopt.Out} {m m' : Cfg.Mgr} (hi : m.initialized = false)
    (h : Cfg.init fs k o m = some (.ok (false, m'))) : m' = m ∧ o.paramOptPresent Cfg.configfileOpt = true ∧
      ∀ m0, Cfg.load fs k (o.paramOpt Cfg.configfileOpt) m0 = some (.ok (false, m0)) := by
  simp only [Cfg.init, hi, Bool.false_eq_true, if_false] at h
  split at h
  · rename_i hp
    split at h
    · cases h
    · have key : ∀ m0 m1, Cfg.load fs k (o.paramOpt Cfg.configfileOpt) m0 = some (.ok (false, m1)) → m1 = m0 := by
        intro m0 m1 hl
        cases k with
        | zero => cases hl
        | succ k =>
          simp only [Cfg.load] at hl
          split at hl
          · cases hl
          · split at hl
            · cases hl
            · cases hl
            · split at hl
              · split at hl
                · cases hl
                · cases hl; rfl
              · split at hl
                · rename_i kids _
                  generalize Cfg.readKids _ _ _ kids m0 = z at hl
                  match z, hl with
                  | none, hl => cases hl
                  | some (.ok _), hl => cases hl
                  | some (.throws _), hl => cases hl
                  | some .ub, hl => cases hl
                · cases hl
                · cases hl; rfl
      obtain rfl := key _ _ h
      refine ⟨rfl, hp, fun m0 => ?_⟩
      obtain ⟨es, -, hu⟩ := Cfg.load_uniform h
      have := hu m0
      rw [key _ _ this] at this
      exact this
  · cases h

/-- C122: when the start fails, either the configuration file could not be loaded, or the command line was refused
at some argument.  Then no configuration key is set, and every stream writes to the standard output and nowhere
else, with the level given by `--log-level` before that argument, else Info (unless `--quick-debug` was given there). -/
theorem c122_failed_start (rx : S → S → Option S) (fs : Cfg.Files) (k : Nat) (ds : List Decl) (strict clean : Bool)
    (prog : S) (args argv : List S) (argc : Nat) (cfg : Cfg.Mgr) (log : M)
    (h : start rx fs k (app ds) strict clean (prog :: args) = some (.ok (.up false argv argc cfg log))) :
    (∀ key, StrMap.get cfg.items key = none) ∧
    ∃ pre its, Getopt.Items rx (calls (all ds)) strict false 0 pre its ∧
      ((args = pre ∧ ∃ f, (Getopt.valuesOf its "configfile".toList).getLast? = some f ∧
          ∀ m, Cfg.load fs k f m = some (.ok (false, m))) ∨
        ∃ a r, args = pre ++ a :: r ∧ Stops rx (calls (all ds)) strict a r) ∧
      (Getopt.valuesOf its "quick-debug".toList = [] → Plainly (all ds) log ((cmdLevel its).getD 2)) := by
  by_cases hI : ∃ its, Getopt.Items rx (calls (all ds)) strict false 0 args its
  · obtain ⟨its, hI⟩ := hI
    obtain ⟨o, hrep, hc, hrun⟩ := start_accepted hI h
    obtain ⟨rfl, hp, hload⟩ := init_false (app_cfg_fresh ds).2 hc
    refine ⟨fun key => by rw [(app_cfg_fresh ds).1]; rfl, args, its, hI, .inl ⟨rfl, _, ?_, hload⟩, fun hq => ?_⟩
    · rw [← cfOpt, last_of_present hrep, if_pos hp]
    · have hq' : (envOf (app ds).cfg.items o).quickDebug = false := by
        rw [Bool.eq_false_iff]; intro hq1; exact (env_quick hrep).1 hq1 hq
      have := plainly (ds := ds) (app_cfg_fresh ds).1 hq' hrun
      rw [env_level hrep] at this
      exact this
  · have hf := (Getopt.c38_fails_iff rx (calls (all ds)) strict clean prog args).2 hI
    simp only [start, app_reg, hf] at h
    obtain ⟨-, -, -, rfl, hrun⟩ := finish_run h
    refine ⟨fun key => by rw [(app_cfg_fresh ds).1]; rfl, ?_⟩
    obtain ⟨pre, its, h1, h2, h3⟩ := left_sound rx (calls (all ds)) strict args.length false {} args (Nat.le_refl _)
    refine ⟨pre, its, h1, .inr ?_, fun hq => ?_⟩
    · rcases h3 with rfl | h3
      · exact absurd ⟨its, h1⟩ hI
      · exact h3
    · have hrep := Getopt.reports_foldl its
      rw [← h2] at hrep
      have hq' : (envOf (app ds).cfg.items (left rx (Getopt.reg (calls (all ds))) strict false {} args)).quickDebug = false := by
        rw [Bool.eq_false_iff]; intro hq1; exact (env_quick hrep).1 hq1 hq
      have := plainly (ds := ds) (app_cfg_fresh ds).1 hq' hrun
      rw [env_level hrep] at this
      exact this

/-- C122: without a configuration file on the command line `initialize` always comes to an end, without undefined
behaviour and without an exception: it ends the process if help is asked for or a positional parameter is missing, it fails on the
command lines that cannot be split into items, and else it succeeds. -/
theorem c122_without_file (rx : S → S → Option S) (fs : Cfg.Files) (k : Nat) (ds : List Decl) (strict clean : Bool)
    (prog : S) (args : List S) :
    ((∃ its, Getopt.Items rx (calls (all ds)) strict false 0 args its ∧
        (Getopt.positionalCount its < (Getopt.requiredNames (calls (all ds))).length ∨
          Getopt.valuesOf its "help".toList ≠ [])) →
      start rx fs k (app ds) strict clean (prog :: args) = some (.ok .exit)) ∧
    ((¬ ∃ its, Getopt.Items rx (calls (all ds)) strict false 0 args its) →
      ∃ argv argc cfg log, start rx fs k (app ds) strict clean (prog :: args) = some (.ok (.up false argv argc cfg log))) ∧
    (∀ its, Getopt.Items rx (calls (all ds)) strict false 0 args its →
      (Getopt.requiredNames (calls (all ds))).length ≤ Getopt.positionalCount its →
      Getopt.valuesOf its "help".toList = [] → Getopt.valuesOf its "configfile".toList = [] →
      ∃ argv argc cfg log, start rx fs k (app ds) strict clean (prog :: args) = some (.ok (.up true argv argc cfg log))) := by
  have fin : ∀ env r argv argc cfg, ∃ log, finish env (app ds).log r argv argc cfg = some (.ok (.up r argv argc cfg log)) := by
    intro env r argv argc cfg
    have inv := inv_run (mem_logOps_init (all ds)).1 (app_log env ds)
    obtain ⟨m', e, -⟩ := inv_initialize inv
    exact ⟨m', by simp only [finish, e]⟩
  refine ⟨fun hex => ?_, fun hno => ?_, fun its hI hr hh hcf => ?_⟩
  · have := (Getopt.c38_exits_iff rx (calls (all ds)) strict clean prog args).2 hex
    simp only [start, app_reg, this]
  · have hf := (Getopt.c38_fails_iff rx (calls (all ds)) strict clean prog args).2 hno
    obtain ⟨log, hlog⟩ := fin (envOf (app ds).cfg.items (left rx (Getopt.reg (calls (all ds))) strict false {} args)) false
      (prog :: args) (prog :: args).length (app ds).cfg
    refine ⟨prog :: args, (prog :: args).length, (app ds).cfg, log, ?_⟩
    simp only [start, app_reg, hf]
    exact hlog
  · obtain ⟨res, hres⟩ := Getopt.c39_cleanup_terminates rx (calls (all ds)) strict clean (prog :: args)
    cases res with
    | fail => exact absurd ⟨its, hI⟩ ((Getopt.c38_fails_iff _ _ _ _ _ _).1 hres)
    | exit =>
      obtain ⟨its', hI', hc⟩ := (Getopt.c38_exits_iff _ _ _ _ _ _).1 hres
      obtain rfl := Getopt.c38_unique _ _ _ _ _ _ _ _ hI hI'
      rcases hc with hc | hc
      · omega
      · exact absurd hh hc
    | ok o argv argc =>
      obtain ⟨its', hI', hrep, -⟩ := Getopt.c38_classifies _ _ _ _ _ _ _ _ _ hres
      obtain rfl := Getopt.c38_unique _ _ _ _ _ _ _ _ hI hI'
      have hp : ¬ o.paramOptPresent Cfg.configfileOpt = true := fun hp => (hrep.2.1 _).1 hp hcf
      have hc : Cfg.init fs k o (app ds).cfg = some (.ok (true, Cfg.initRest o (app ds).cfg)) := by
        simp only [Cfg.init, (app_cfg_fresh ds).2, Bool.false_eq_true, if_false, hp]
      obtain ⟨log, hlog⟩ := fin (envOf (Cfg.initRest o (app ds).cfg).items o) true argv argc (Cfg.initRest o (app ds).cfg)
      refine ⟨argv, argc, Cfg.initRest o (app ds).cfg, log, ?_⟩
      simp only [start, app_reg, hres, hc]
      exact hlog

/-! ### The options of the libraries -/

theorem short_builtin (ds : List Decl) (n : S) (p : Getopt.Param)
    (h : ((Getopt.registered (calls builtins)).find? fun p => !p.isPrefix && p.short == n) = some p) :
    Getopt.shortParam (calls (all ds)) n = some p := by
  have e : Getopt.registered (calls (all ds)) = Getopt.registered (calls builtins) ++ (Getopt.registered (calls ds)).tail := by
    simp only [Getopt.registered, calls, List.filterMap_append, List.cons_append, List.tail_cons]
  rw [Getopt.shortParam, e, List.find?_append, h]; rfl

theorem long_builtin (ds : List Decl) (n : S) (p : Getopt.Param)
    (h : ((Getopt.registered (calls builtins)).find? fun p => !p.isPrefix && p.option == n) = some p) :
    Getopt.longParam (calls (all ds)) n = some p := by
  have e : Getopt.registered (calls (all ds)) = Getopt.registered (calls builtins) ++ (Getopt.registered (calls ds)).tail := by
    simp only [Getopt.registered, calls, List.filterMap_append, List.cons_append, List.tail_cons]
  rw [Getopt.longParam, e, List.find?_append, h]; rfl

theorem short_items (rx : S → S → Option S) (ds : List Decl) (strict : Bool) (c : Char) (hc : c ≠ '-') (opt : S)
    (h : ((Getopt.registered (calls builtins)).find? fun p => !p.isPrefix && p.short == [c]) =
      some ⟨opt, [c], true, false⟩) {n : Nat} {r : List S} {its : List Getopt.Item} (t : S)
    (hr : Getopt.Items rx (calls (all ds)) strict false n r its) :
    Getopt.Items rx (calls (all ds)) strict false n (['-', c] :: t :: r) (.opt [['-', c], t] opt t :: its) :=
  Getopt.Items.shortValue (p := ⟨opt, [c], true, false⟩) ⟨c, [], rfl, hc, rfl⟩ (short_builtin ds [c] _ h) rfl hr

theorem long_items (rx : S → S → Option S) (ds : List Decl) (strict : Bool) (c : Char) (m short : S) (hc : c ≠ '-') (hm : '=' ∉ m)
    (h : ((Getopt.registered (calls builtins)).find? fun p => !p.isPrefix && p.option == c :: m) =
      some ⟨c :: m, short, true, false⟩) {n : Nat} {r : List S} {its : List Getopt.Item} (t : S)
    (hr : Getopt.Items rx (calls (all ds)) strict false n r its) :
    Getopt.Items rx (calls (all ds)) strict false n (('-' :: '-' :: (c :: m) ++ '=' :: t) :: r)
      (.opt ['-' :: '-' :: (c :: m) ++ '=' :: t] (c :: m) t :: its) :=
  Getopt.Items.long (v := some t) (p := ⟨c :: m, short, true, false⟩) ⟨c, m, rfl, hc, hm, rfl⟩ (long_builtin ds (c :: m) _ h) hr

/-- C122: in every program `-l t` and `--log-level=t` give the value `t` for the log level, `-c f` and `--configfile=f`
the configuration file `f`, `-qd f` and `--quick-debug=f` the file of the quick debug output. -/
theorem c122_builtin_options (rx : S → S → Option S) (ds : List Decl) (strict : Bool) (n : Nat) (r : List S)
    (its : List Getopt.Item) (hr : Getopt.Items rx (calls (all ds)) strict false n r its) (t : S) :
    (∃ i, Getopt.Items rx (calls (all ds)) strict false n ("-l".toList :: t :: r) (.opt i "log-level".toList t :: its)) ∧
    (∃ i, Getopt.Items rx (calls (all ds)) strict false n (("--log-level=".toList ++ t) :: r)
      (.opt i "log-level".toList t :: its)) ∧
    (∃ i, Getopt.Items rx (calls (all ds)) strict false n ("-c".toList :: t :: r) (.opt i "configfile".toList t :: its)) ∧
    (∃ i, Getopt.Items rx (calls (all ds)) strict false n (("--configfile=".toList ++ t) :: r)
      (.opt i "configfile".toList t :: its)) ∧
    (∃ i, Getopt.Items rx (calls (all ds)) strict false n ("-qd".toList :: t :: r) (.opt i "quick-debug".toList t :: its)) ∧
    (∃ i, Getopt.Items rx (calls (all ds)) strict false n (("--quick-debug=".toList ++ t) :: r)
      (.opt i "quick-debug".toList t :: its)) := by
  refine ⟨⟨_, short_items rx ds strict 'l' (by decide) _ (by decide +kernel) t hr⟩,
    ⟨_, long_items rx ds strict 'l' "og-level".toList "l".toList (by decide) (by decide) (by decide +kernel) t hr⟩,
    ⟨_, short_items rx ds strict 'c' (by decide) _ (by decide +kernel) t hr⟩,
    ⟨_, long_items rx ds strict 'c' "onfigfile".toList "c".toList (by decide) (by decide) (by decide +kernel) t hr⟩,
    ⟨["-qd".toList, t], ?_⟩,
    ⟨_, long_items rx ds strict 'q' "uick-debug".toList "qd".toList (by decide) (by decide) (by decide +kernel) t hr⟩⟩
  exact Getopt.Items.shortValue (p := ⟨"quick-debug".toList, "qd".toList, true, false⟩) ⟨'q', ['d'], rfl, by decide, rfl⟩
    (short_builtin ds _ _ (by decide +kernel)) rfl hr

/-- C122: `-o` followed by a key sets this key, if the program declares no other prefix option that matches. -/
theorem c122_dash_o (ds : List Decl) (strict : Bool) (n : Nat) (r : List S)
    (its : List Getopt.Item) (hr : Getopt.Items Getopt.literalRx (calls (all ds)) strict false n r its) (k v : S)
    (hs : Getopt.shortParam (calls (all ds)) ('o' :: k) = none)
    (hp : ∀ o s, .opt o s true ∈ ds → s = [] ∨ ¬ s <+: 'o' :: k) :
    ∃ i, Getopt.Items Getopt.literalRx (calls (all ds)) strict false n (('-' :: 'o' :: k) :: v :: r)
      (.pre i "config-option".toList k v :: its) := by
  refine ⟨_, Getopt.Items.shortPrefixValue (p := ⟨"config-option".toList, "o".toList, true, true⟩) (sfx := k)
    ⟨'o', k, rfl, by decide, rfl⟩ hs ⟨?_, by decide, ?_, ?_⟩ rfl hr⟩
  · have e : Getopt.registered (calls (all ds)) = Getopt.registered (calls builtins) ++ (Getopt.registered (calls ds)).tail := by
      simp only [Getopt.registered, calls, List.filterMap_append, List.cons_append, List.tail_cons]
    have f : ((Getopt.registered (calls builtins)).find? fun q => q.isPrefix && q.short == "o".toList) =
        some ⟨"config-option".toList, "o".toList, true, true⟩ := by decide +kernel
    rw [e, List.find?_append, f]; rfl
  · rfl
  · intro q hq h1 h2 h3
    have e : Getopt.registered (calls (all ds)) = Getopt.registered (calls builtins) ++ (Getopt.registered (calls ds)).tail := by
      simp only [Getopt.registered, calls, List.filterMap_append, List.cons_append, List.tail_cons]
    rw [e, List.mem_append] at hq
    rcases hq with hq | hq
    · have : ∀ q ∈ Getopt.registered (calls builtins), q.isPrefix = true → ¬ Getopt.slt q.short "o".toList = true := by
        decide +kernel
      exact absurd h3 (this q hq h1)
    · simp only [Getopt.registered, List.tail_cons, List.mem_filterMap, calls] at hq
      obtain ⟨c, ⟨d, hd, hc⟩, hq⟩ := hq
      cases d with
      | opt o s b =>
        simp only [Option.some.injEq] at hc
        subst hc
        simp only [Option.some.injEq] at hq
        subst hq
        have hb : b = true := by
          simp only [Getopt.mkParam] at h1
          split at h1 <;> exact h1
        subst hb
        have hsh : (Getopt.mkParam o s true).short = s := by simp only [Getopt.mkParam]; split <;> rfl
        rw [hsh] at h2 ⊢
        rcases hp o s hd with h4 | h4
        · exact absurd h4 h2
        · simp only [Getopt.literalRx]
          rw [if_neg]
          intro h5; exact h4 (List.isPrefixOf_iff_prefix.1 h5)
      | cfg o s key dflt =>
        simp only [Option.some.injEq] at hc
        subst hc
        simp only [Option.some.injEq] at hq
        subst hq
        simp only [Getopt.mkParam] at h1
        split at h1 <;> cases h1
      | pos n b => simp only [Option.some.injEq] at hc; subst hc; cases hq
      | cfgPos n k' d b => simp only [Option.some.injEq] at hc; subst hc; cases hq
      | activate d => simp only [Option.some.injEq] at hc; subst hc; cases hq
      | out n => cases hc
      | stream n => cases hc

/-! ### Examples -/

/-- A program with one stream and an option with a configuration key. -/
def exDecls : List Decl := [.stream "A".toList, .cfg "speed:".toList "s".toList "/speed".toList "5".toList]

/-- No files. -/
def exFiles : Cfg.Files := ⟨fun _ => none, fun _ => none, fun _ => none⟩

/-- What is observed of a start: the result, the value of a key, and the outputs reached by a message. -/
def exView (k : S) (n : S) (l : Nat) : Option (Outcome Started) → Option (Bool × Option S × List OutId)
  | some (.ok (.up r _ _ cfg log)) => some (r, StrMap.get cfg.items k, reached log n l)
  | _ => none

/-- A start of this program. -/
def exStart (args : List String) : Option (Outcome Started) :=
  start Getopt.literalRx exFiles 3 (app exDecls) true true (("prog" :: args).map String.toList)

/-- The default value of the key; a message of level Debug is not written. -/
example : exView "/speed".toList "A".toList 1 (exStart []) = some (true, some "5".toList, []) := by decide +kernel

/-- Level and key from the command line. -/
example : exView "/speed".toList "A".toList 1 (exStart ["-l", "Debug", "--speed=7"]) =
    some (true, some "7".toList, [.dflt 0]) := by decide +kernel

/-- Configuration from the command line: a file for the stream `A`, of level Warning, and the stream itself of level Debug. -/
def exOptions : List String :=
  ["-o/IclCore/Logging/OutputStream1/OutputStreamName", "File", "-o/IclCore/Logging/OutputStream1/LogLevel", "Warning",
   "-o/IclCore/Logging/OutputStream1/LogStream1", "A",
   "-o/IclCore/Logging/LogStream1/Name", "A", "-o/IclCore/Logging/LogStream1/LogLevel", "Debug"]

example : exView "/speed".toList "A".toList 3 (exStart exOptions) =
    some (true, some "5".toList, [.named "File".toList]) := by decide +kernel
example : exView "/speed".toList "A".toList 2 (exStart exOptions) = some (true, some "5".toList, []) := by decide +kernel
example : exView "/speed".toList "Default".toList 3 (exStart exOptions) = some (true, some "5".toList, []) := by
  decide +kernel

/-- An unknown option: no key is set, but the level given before is. -/
example : exView "/speed".toList "A".toList 1 (exStart ["-l", "Debug", "--unknown", "-l", "Error"]) =
    some (false, none, [.dflt 0]) := by decide +kernel

/-- A configuration file that cannot be loaded. -/
example : exView "/speed".toList "A".toList 2 (exStart ["-c", "a.xml"]) = some (false, none, [.dflt 0]) := by decide +kernel

/-- With the stream used before, the same configuration is without effect. -/
example : ((run noEnv (logOps (all exDecls) ++ [.use "A".toList])).bind fun m0 =>
    exView "/speed".toList "A".toList 2 (start Getopt.literalRx exFiles 3 { app exDecls with log := m0 } true true
      (("prog" :: exOptions).map String.toList))) = some (true, some "5".toList, [.dflt 0]) := by decide +kernel

end Verif.Startup
