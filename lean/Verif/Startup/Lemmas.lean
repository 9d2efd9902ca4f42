import Verif.Startup.Spec
import Verif.Config.CfgProps
import Verif.Logging.Manager.Props

/-! # Start of a program: lemmas -/
namespace Verif.Startup
open Verif.Logging (stringToLogLevel)

/-! ### The declarations -/

/-- The registrations with the configuration manager. -/
def cfgOps (ds : List Decl) : List Cfg.Op :=
  ds.filterMap fun d => match d with
    | .cfg o s key dflt => some (.param ⟨(Getopt.mkParam o s false).option, key, dflt⟩)
    | .cfgPos n key dflt _ => some (.positional ⟨n, key, dflt⟩)
    | _ => none

theorem foldl_reg (ds : List Decl) : ∀ a : App,
    (ds.foldl declare a).reg = (calls ds).foldl Getopt.Call.run a.reg := by
  induction ds with
  | nil => intro a; rfl
  | cons d ds ih => intro a; rw [List.foldl_cons, ih]; cases d <;> rfl

theorem app_reg (ds : List Decl) : (app ds).reg = Getopt.reg (calls (builtins ++ ds)) := foldl_reg _ _

theorem foldl_cfg (fs : Cfg.Files) (k : Nat) (rx : S → S → Bool) (ds : List Decl) : ∀ a : App,
    Cfg.runOps fs k rx a.cfg (cfgOps ds) = some (ds.foldl declare a).cfg := by
  induction ds with
  | nil => intro a; rfl
  | cons d ds ih =>
    intro a
    rw [List.foldl_cons]
    have i := ih (declare a d)
    cases d <;> exact i

/-- The first declaration. -/
def first : Decl := .cfg "configfile:".toList "c".toList "/configfile".toList []

theorem builtins_eq : builtins = first :: builtins.tail := rfl

theorem first_cfg (r : Getopt.Reg) (l : Logging.Manager.M) : (declare ⟨r, {}, l⟩ first).cfg = Cfg.newMgr := by
  simp only [declare, first]
  decide +kernel

/-- The declarations after those of the constructor of the configuration manager. -/
theorem app_cfg (fs : Cfg.Files) (k : Nat) (rx : S → S → Bool) (ds : List Decl) :
    Cfg.runOps fs k rx Cfg.newMgr (cfgOps (builtins.tail ++ ds)) = some (app ds).cfg := by
  have h := foldl_cfg fs k rx (builtins.tail ++ ds) (declare ⟨Getopt.newReg, {}, Logging.Manager.M.init⟩ first)
  rw [first_cfg] at h
  have e : app ds = (builtins.tail ++ ds).foldl declare (declare ⟨Getopt.newReg, {}, Logging.Manager.M.init⟩ first) := by
    rw [app, builtins_eq, List.cons_append, List.foldl_cons]; rfl
  rw [e]
  exact h

theorem run_cfgOps (fs : Cfg.Files) (k : Nat) (rx : S → S → Bool) (ds : List Decl) : ∀ m m' : Cfg.Mgr,
    Cfg.runOps fs k rx m (cfgOps ds) = some m' → m'.items = m.items ∧ m'.initialized = m.initialized := by
  induction ds with
  | nil => intro m m' h; cases h; exact ⟨rfl, rfl⟩
  | cons d ds ih =>
    intro m m' h
    cases d with
    | cfg o s key dflt =>
      have := ih (Cfg.addParameter ⟨(Getopt.mkParam o s false).option, key, dflt⟩ m) m' h
      simp only [Cfg.addParameter] at this
      split at this <;> exact this
    | cfgPos n key dflt b =>
      have := ih (Cfg.addPositional ⟨n, key, dflt⟩ m) m' h
      simp only [Cfg.addPositional] at this
      split at this <;> exact this
    | _ => exact ih m m' h

theorem app_cfg_fresh (ds : List Decl) : (app ds).cfg.items = [] ∧ (app ds).cfg.initialized = false :=
  run_cfgOps ⟨fun _ => none, fun _ => none, fun _ => none⟩ 0 (fun _ _ => false) _ _ _ (app_cfg _ _ _ ds)

theorem optName_eq (o s : S) (b : Bool) : (Getopt.mkParam o s b).option = optName o := by
  simp only [Getopt.mkParam, optName]; split <;> rfl

theorem registered_cfgOps (ds : List Decl) :
    Cfg.registered (cfgOps ds) ++ Cfg.registeredPositional (cfgOps ds) = keyed ds := by
  have h1 : Cfg.registered (cfgOps ds) = ds.filterMap fun d => match d with
      | .cfg o _ key dflt => if key = [] then none else some ⟨optName o, key, dflt⟩
      | _ => none := by
    simp only [Cfg.registered, cfgOps, List.filterMap_filterMap]
    congr 1; funext d
    cases d <;> simp [optName_eq]
  have h2 : Cfg.registeredPositional (cfgOps ds) = ds.filterMap fun d => match d with
      | .cfgPos n key dflt _ => if key = [] then none else some ⟨n, key, dflt⟩
      | _ => none := by
    simp only [Cfg.registeredPositional, cfgOps, List.filterMap_filterMap]
    congr 1; funext d
    cases d <;> simp
  rw [h1, h2]; rfl

theorem app_params (ds : List Decl) :
    (app ds).cfg.params ++ (app ds).cfg.positional = keyed (builtins ++ ds) := by
  obtain ⟨h1, h2⟩ := Cfg.c40_registered ⟨fun _ => none, fun _ => none, fun _ => none⟩ 0 (fun _ _ => false) _ _
    (app_cfg _ _ _ ds)
  rw [h1, h2, List.cons_append, registered_cfgOps]
  rfl

theorem foldl_log (env : Logging.Manager.Env) (ds : List Decl) : ∀ a : App,
    (logOps ds).foldlM (Logging.Manager.step env) a.log = some (ds.foldl declare a).log := by
  induction ds with
  | nil => intro a; rfl
  | cons d ds ih =>
    intro a
    rw [List.foldl_cons]
    have i := ih (declare a d)
    cases d <;> exact i

theorem app_log (env : Logging.Manager.Env) (ds : List Decl) :
    Logging.Manager.run env (logOps (builtins ++ ds)) = some (app ds).log :=
  foldl_log env (builtins ++ ds) ⟨Getopt.newReg, {}, Logging.Manager.M.init⟩

theorem mem_logOps_init (ds : List Decl) : .shutdown ∉ logOps ds ∧ ∀ l, .setLevel l ∉ logOps ds := by
  constructor
  · intro h
    simp only [logOps, List.mem_filterMap] at h
    obtain ⟨d, -, hd⟩ := h
    cases d <;> simp at hd
  · intro l h
    simp only [logOps, List.mem_filterMap] at h
    obtain ⟨d, -, hd⟩ := h
    cases d <;> simp at hd

theorem mem_logOps_str (ds : List Decl) (n : S) : .regStr n ∈ logOps ds ↔ .stream n ∈ ds := by
  simp only [logOps, List.mem_filterMap]
  constructor
  · rintro ⟨d, h, hd⟩
    cases d <;> simp at hd
    subst hd; exact h
  · intro h; exact ⟨_, h, rfl⟩

theorem mem_logOps_out (ds : List Decl) (n : S) : .regOut n ∈ logOps ds ↔ .out n ∈ ds := by
  simp only [logOps, List.mem_filterMap]
  constructor
  · rintro ⟨d, h, hd⟩
    cases d <;> simp at hd
    subst hd; exact h
  · intro h; exact ⟨_, h, rfl⟩

/-! ### The command line -/

theorem left_sound (rx : S → S → Option S) (h : List Getopt.Call) (strict : Bool) (N : Nat) :
    ∀ (b : Bool) (o : Getopt.Out) (args : List S), args.length ≤ N →
      ∃ pre its, Getopt.Items rx h strict b o.count pre its ∧
        left rx (Getopt.reg h) strict b o args = its.foldl Getopt.applyItem o ∧
        (args = pre ∨ ∃ a r, args = pre ++ a :: r ∧ Stops rx h strict a r) := by
  have lift : ∀ {b b' : Bool} {o o' : Getopt.Out} {hd r : List S} {it : Getopt.Item},
      (∀ pre its, Getopt.Items rx h strict b' o'.count pre its →
        Getopt.Items rx h strict b o.count (hd ++ pre) (it :: its)) →
      Getopt.applyItem o it = o' →
      (∃ pre its, Getopt.Items rx h strict b' o'.count pre its ∧
        left rx (Getopt.reg h) strict b' o' r = its.foldl Getopt.applyItem o' ∧
        (r = pre ∨ ∃ a r', r = pre ++ a :: r' ∧ Stops rx h strict a r')) →
      ∃ pre its, Getopt.Items rx h strict b o.count pre its ∧
        left rx (Getopt.reg h) strict b' o' r = its.foldl Getopt.applyItem o ∧
        (hd ++ r = pre ∨ ∃ a r', hd ++ r = pre ++ a :: r' ∧ Stops rx h strict a r') := by
    rintro b b' o o' hd r it hI rfl ⟨pre, its, h1, h2, h3⟩
    refine ⟨hd ++ pre, it :: its, hI _ _ h1, h2, ?_⟩
    rcases h3 with rfl | ⟨a, r', rfl, hs⟩
    · exact .inl rfl
    · exact .inr ⟨a, r', by simp, hs⟩
  have stop : ∀ {b : Bool} {o : Getopt.Out} {a : S} {r : List S}, Stops rx h strict a r →
      ∃ pre its, Getopt.Items rx h strict b o.count pre its ∧ o = its.foldl Getopt.applyItem o ∧
        (a :: r = pre ∨ ∃ a' r', a :: r = pre ++ a' :: r' ∧ Stops rx h strict a' r') :=
    fun hs => ⟨[], [], .nil, rfl, .inr ⟨_, _, rfl, hs⟩⟩
  induction N with
  | zero =>
    intro b o args hl
    have : args = [] := List.eq_nil_of_length_eq_zero (by omega)
    subst this
    exact ⟨[], [], .nil, by cases b <;> simp [left], .inl rfl⟩
  | succ N ih =>
    intro b o args hl
    cases args with
    | nil => exact ⟨[], [], .nil, by cases b <;> simp [left], .inl rfl⟩
    | cons a r =>
      have hr : r.length ≤ N := by simp at hl; omega
      cases b with
      | true =>
        simp only [left]
        exact lift (hd := [a]) (it := .extra a) (fun _ _ h1 => .extra h1) rfl (ih _ _ _ hr)
      | false =>
        rw [left.eq_def]
        simp only
        split
        · rename_i name val hlong
          obtain ⟨v, hv, rfl⟩ := (Getopt.longOpt_iff _ _ _).1 hlong
          rw [Getopt.get_params]
          split
          · rename_i p hp
            exact lift (hd := [a]) (it := .opt [a] name _) (fun _ _ h1 => .long hv hp h1) rfl (ih _ _ _ hr)
          · rename_i hp
            split
            · rename_i k p sfx hf
              obtain ⟨rfl, hc⟩ := ((Getopt.findPrefix_long rx h name).2 k p sfx).1 hf
              exact lift (hd := [a]) (it := .pre [a] p.option sfx _) (fun _ _ h1 => .longPrefix hv hp hc h1) rfl (ih _ _ _ hr)
            · rename_i hf
              have hc := (Getopt.findPrefix_long rx h name).1.1 hf
              split
              · rename_i hst
                exact stop (.long (by simpa using hst) hv hp hc)
              · rename_i hst
                exact lift (hd := [a]) (it := .non a) (fun _ _ h1 => .longUnknown (by simpa using hst) hv hp hc h1) rfl
                  (ih _ _ _ hr)
        · rename_i hlong
          split
          · rename_i name hshort
            have hv := (Getopt.shortOpt_iff _ _).1 hshort
            have hn : name ≠ [] := by obtain ⟨c, t, rfl, _⟩ := hv; simp
            rw [Getopt.get_shorts h name hn]
            split
            · rename_i p hp
              split
              · rename_i hval
                split
                · exact stop (.value rfl hv hp hval)
                · rename_i w r'
                  exact lift (hd := [a, w]) (it := .opt [a, w] p.option w) (fun _ _ h1 => .shortValue hv hp hval h1) rfl
                    (ih _ _ _ (by simp at hr; omega))
              · rename_i hval
                exact lift (hd := [a]) (it := .opt [a] p.option Getopt.yes)
                  (fun _ _ h1 => .shortFlag hv hp (by simpa using hval) h1) rfl (ih _ _ _ hr)
            · rename_i hp
              split
              · rename_i k p sfx hf
                have hc := ((Getopt.findPrefix_short rx h name).2 p sfx).1 ⟨k, hf⟩
                split
                · rename_i hval
                  split
                  · exact stop (.prefixValue rfl hv hp hc hval)
                  · rename_i w r'
                    exact lift (hd := [a, w]) (it := .pre [a, w] p.option sfx w)
                      (fun _ _ h1 => .shortPrefixValue hv hp hc hval h1) rfl (ih _ _ _ (by simp at hr; omega))
                · rename_i hval
                  exact lift (hd := [a]) (it := .pre [a] p.option sfx Getopt.yes)
                    (fun _ _ h1 => .shortPrefixFlag hv hp hc (by simpa using hval) h1) rfl (ih _ _ _ hr)
              · rename_i hf
                have hc := (Getopt.findPrefix_short rx h name).1.1 hf
                split
                · rename_i hst
                  exact stop (.short (by simpa using hst) hv hp hc)
                · rename_i hst
                  exact lift (hd := [a]) (it := .non a) (fun _ _ h1 => .shortUnknown (by simpa using hst) hv hp hc h1) rfl
                    (ih _ _ _ hr)
          · rename_i hshort
            have hpl := (Getopt.plain_iff a).2 ⟨hlong, hshort⟩
            rw [(Getopt.regInv h).delim]
            split
            · rename_i hd
              exact lift (hd := [a]) (it := .delim a) (fun _ _ h1 => .delim hpl hd h1) rfl (ih _ _ _ hr)
            · rename_i hd
              obtain ⟨q1, q2, q3⟩ := Getopt.posi_get h o.count
              split
              · rename_i hc
                exact lift (hd := [a]) (it := .pos _ a) (fun _ _ h1 => .pos hpl hd (q1 hc) h1) rfl (ih _ _ _ hr)
              · rename_i hc
                split
                · rename_i hc2
                  exact lift (hd := [a]) (it := .pos _ a) (fun _ _ h1 => .pos hpl hd (q2 hc hc2) h1) rfl (ih _ _ _ hr)
                · rename_i hc2
                  exact lift (hd := [a]) (it := .non a) (fun _ _ h1 => .non hpl hd (by omega) h1) rfl (ih _ _ _ hr)

/-! ### The logging manager -/

theorem env_level {items : List (S × S)} {o : Getopt.Out} {its : List Getopt.Item} (h : Getopt.Reports o its) :
    Logging.Manager.optLevel (envOf items o) = cmdLevel its := by
  have hv : "log-level".toList = logLevelOpt := rfl
  simp only [Logging.Manager.optLevel, cmdLevel, envOf, hv]
  by_cases hp : o.paramOptPresent logLevelOpt = true
  · have h1 := (h.2.1 _).1 hp
    have h2 := h.1 logLevelOpt
    cases hl : (Getopt.valuesOf its logLevelOpt).getLast? with
    | none => exact absurd (List.getLast?_eq_none_iff.1 hl) h1
    | some t => rw [if_pos hp, h2, hl]; rfl
  · have : Getopt.valuesOf its logLevelOpt = [] := by
      refine Decidable.byContradiction fun hne => hp ((h.2.1 _).2 hne)
    rw [if_neg hp, this]; rfl

theorem env_quick {items : List (S × S)} {o : Getopt.Out} {its : List Getopt.Item} (h : Getopt.Reports o its) :
    (envOf items o).quickDebug = true ↔ Getopt.valuesOf its "quick-debug".toList ≠ [] := h.2.1 _

theorem finish_run {env : Logging.Manager.Env} {ds : List Decl} {r r' : Bool} {argv argv' : List S} {argc argc' : Nat}
    {cfg cfg' : Cfg.Mgr} {log : Logging.Manager.M}
    (h : finish env (app ds).log r argv argc cfg = some (.ok (.up r' argv' argc' cfg' log))) :
    r = r' ∧ argv = argv' ∧ argc = argc' ∧ cfg = cfg' ∧
      Logging.Manager.run env (logOps (builtins ++ ds) ++ [.init]) = some log := by
  simp only [finish] at h
  cases hi : Logging.Manager.initialize' env (app ds).log with
  | none => rw [hi] at h; cases h
  | some l =>
    rw [hi] at h
    cases h
    refine ⟨rfl, rfl, rfl, rfl, ?_⟩
    rw [Logging.Manager.run_snoc, app_log]
    exact hi

end Verif.Startup
