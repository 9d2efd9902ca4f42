import Verif.Conc.Registry.GetoptSpec
import Verif.Conc.Registry.Foot

/-!
# C148: which calls of the command line parser may run at the same time
-/
namespace Verif.Registry.Opt
open Verif.Getopt Race

theorem mkParam_short (o s : S) (b : Bool) : (mkParam o s b).short = s ∧ (mkParam o s b).isPrefix = b := by
  unfold mkParam; split <;> exact ⟨rfl, rfl⟩

theorem mkShort (o s : S) (b : Bool) : (mkParam o s b).short = s := (mkParam_short o s b).1
theorem mkPrefix (o s : S) (b : Bool) : (mkParam o s b).isPrefix = b := (mkParam_short o s b).2

/-- The calls, access by access, do what the models of C32 and of the help text do. -/
theorem c148_as_alone (op : Op) (m : State) :
    ∃ tr, ∀ n, alone (call op) (mem m) n = (answer m op, mem (after m op), n, tr) := by
  refine ⟨(alone (call op) (mem m) 0).2.2.2, fun n => ?_⟩
  cases op with
  | addParameter o s t b =>
    cases b <;> by_cases hs : s = [] <;>
    · simp only [call, mkShort, mkPrefix, hs, if_true, if_false, alone, ne_eq, not_true, not_false_eq_true, Bool.false_eq_true]
      refine Prod.ext rfl (Prod.ext (funext fun v => ?_) rfl)
      cases v <;> simp [set, mem, after, Call.run, HCall.run, Getopt.addParameter, mkShort, mkPrefix, hs] <;> rfl
  | addPositional nm t b =>
    cases b <;>
    · simp only [call, if_true, if_false, alone, Bool.false_eq_true]
      refine Prod.ext rfl (Prod.ext (funext fun v => ?_) rfl)
      cases v <;> simp [set, mem, after, Call.run, HCall.run, Getopt.addPositional] <;> rfl
  | _ =>
    simp only [call, ask, alone]
    refine Prod.ext rfl (Prod.ext (funext fun v => ?_) rfl)
    cases v <;> rfl

theorem alone_inOrder : ∀ (cs : List Op) (m : State) (n : Nat), (alone (inOrder call cs) (mem m) n).1 = answers m cs
  | [], m, n => rfl
  | c :: cs, m, n => by
    obtain ⟨tr, h⟩ := c148_as_alone c m
    simp only [inOrder, alone_bind, h, answers, alone_inOrder cs (after m c)]
    rfl

/-- The variable that stands for a part. -/
def var : Part → Var
  | .longOptions => .params
  | .longPrefixes => .prefixes
  | .shortOptions => .shorts
  | .shortPrefixes => .shortPrefixes
  | .requiredNames => .required
  | .optionalNames => .optional
  | .delimiter => .delim
  | .argc => .argc
  | .version => .version
  | .description => .descr

/-- The variables that calls may write. -/
def writes (cs : List Op) (v : Var) : Prop := ∃ c ∈ cs, ∃ p, var p = v ∧ Changes c p

/-- The variables that calls may read. -/
def reads (cs : List Op) (v : Var) : Prop := v = .parsed ∨ ∃ c ∈ cs, ∃ p, var p = v ∧ (Asks c p ∨ Changes c p)

theorem within_call {cs : List Op} : ∀ c ∈ cs, Within (reads cs) (writes cs) (call c) := by
  intro c hc
  have rd : ∀ p, (Asks c p ∨ Changes c p) → reads cs (var p) := fun p h => .inr ⟨c, hc, p, rfl, h⟩
  have wr : ∀ p, Changes c p → writes cs (var p) := fun p h => ⟨c, hc, p, rfl, h⟩
  cases c with
  | addParameter o s t b =>
    cases b <;> by_cases hs : s = [] <;>
    simp only [call, mkShort, mkPrefix, hs, if_true, if_false, ne_eq, not_true, not_false_eq_true, Bool.false_eq_true]
    · exact ⟨rd .longOptions (.inr rfl), fun _ => ⟨wr .longOptions rfl, trivial⟩⟩
    · exact ⟨rd .longOptions (.inr rfl), fun _ => ⟨wr .longOptions rfl, rd .shortOptions (.inr ⟨rfl, hs⟩), fun _ =>
        ⟨wr .shortOptions ⟨rfl, hs⟩, trivial⟩⟩⟩
    · exact ⟨rd .longPrefixes (.inr rfl), fun _ => ⟨wr .longPrefixes rfl, trivial⟩⟩
    · exact ⟨rd .longPrefixes (.inr rfl), fun _ => ⟨wr .longPrefixes rfl, rd .shortPrefixes (.inr ⟨rfl, hs⟩), fun _ =>
        ⟨wr .shortPrefixes ⟨rfl, hs⟩, trivial⟩⟩⟩
  | addPositional nm t b =>
    cases b
    · exact ⟨rd .requiredNames (.inr rfl), fun _ => ⟨wr .requiredNames rfl, trivial⟩⟩
    · exact ⟨rd .optionalNames (.inr rfl), fun _ => ⟨wr .optionalNames rfl, trivial⟩⟩
  | setArgc x => exact ⟨wr .argc trivial, trivial⟩
  | setProgramVersion t => exact ⟨wr .version trivial, trivial⟩
  | setProgramDescription t => exact ⟨wr .description trivial, trivial⟩
  | activateExtraCmdParams d => exact ⟨wr .delimiter trivial, trivial⟩
  | programVersion => exact ⟨rd .version (.inl trivial), fun _ => trivial⟩
  | programDescription => exact ⟨rd .description (.inl trivial), fun _ => trivial⟩
  | getArgc => exact ⟨rd .argc (.inl trivial), fun _ => trivial⟩
  | printHelp =>
    exact ⟨rd .requiredNames (.inl trivial), fun _ => ⟨rd .optionalNames (.inl trivial), fun _ => ⟨.inl rfl, fun _ =>
      ⟨rd .version (.inl trivial), fun _ => ⟨rd .description (.inl trivial), fun _ =>
      ⟨rd .longOptions (.inl trivial), fun _ => trivial⟩⟩⟩⟩⟩⟩
  | _ => exact ⟨.inl rfl, fun _ => trivial⟩

theorem var_inj {p q : Part} (h : var p = var q) : p = q := by cases p <;> cases q <;> first | rfl | cases h

theorem no_disturbance {ι : Type} {calls : ι → List Op}
    (hn : ∀ i j, i ≠ j → ∀ c ∈ calls i, ∀ d ∈ calls j, ¬ Disturbs c d) (i j : ι) (hij : i ≠ j) (v : Var)
    (hw : writes (calls j) v) : ¬ (reads (calls i) v ∨ writes (calls i) v) := by
  obtain ⟨c, hc, p, rfl, h1⟩ := hw
  have key : ∀ d ∈ calls i, ∀ q, var q = var p → ¬ (Asks d q ∨ Changes d q) := fun d hd q hq h =>
    hn j i (Ne.symm hij) c hc d hd ⟨p, h1, var_inj hq ▸ h⟩
  rintro ((h | ⟨d, hd, q, hq, h⟩) | ⟨d, hd, q, hq, h⟩)
  · cases p <;> cases h
  · exact key d hd q hq h
  · exact key d hd q hq (.inr h)

/-- Any number of threads, none of which uses what another one changes: no schedule has a data race, and whatever the
schedule, the calls of each thread answer what they would if no other thread ran. -/
theorem c148_no_race {ι : Type} [DecidableEq ι] (m : State) (calls : ι → List Op)
    (hn : ∀ i j, i ≠ j → ∀ c ∈ calls i, ∀ d ∈ calls j, ¬ Disturbs c d) {sched tr w}
    (hx : (threads m calls).exec sched = some (tr, w)) :
    (∀ x, ¬ DataRace tr x) ∧ ∀ i l, w.prog i = .ret l → l = answers m (calls i) := by
  have hd := no_disturbance hn
  obtain ⟨h1, h2⟩ := exec_within (F := fun i => reads (calls i)) (G := fun i => writes (calls i)) hd sched
    (w := threads m calls) (fun i => within_inOrder _ _ within_call) hx
  constructor
  · rintro x ⟨a, b, i, j, e, f, ha, hb, hij, -, he, hf, hw, -⟩
    have acc : ∀ {i : ι} {g : Ev Empty Var}, (i, g) ∈ tr → Accesses g x → reads (calls i) x ∨ writes (calls i) x := by
      intro i g hm hg
      obtain ⟨v, ⟨h3, h4⟩ | ⟨h3, h4⟩⟩ := h1 _ hm
      · simp only at h3; subst h3
        rcases hg with hg | hg <;> cases hg
        exact .inl h4
      · simp only at h3; subst h3
        rcases hg with hg | hg <;> cases hg
        exact .inr h4
    have wrt : ∀ {i : ι} {g : Ev Empty Var}, (i, g) ∈ tr → g = .wr x → writes (calls i) x := by
      intro i g hm hg
      obtain ⟨v, ⟨h3, h4⟩ | ⟨h3, h4⟩⟩ := h1 _ hm
      · simp only at h3; rw [h3] at hg; cases hg
      · simp only at h3; rw [h3] at hg; cases hg; exact h4
    have ma := List.mem_of_getElem? ha
    have mb := List.mem_of_getElem? hb
    rcases hw with hw | hw
    · exact hd j i (Ne.symm hij) x (wrt ma hw) (acc mb hf)
    · exact hd i j hij x (wrt mb hw) (acc ma he)
  · intro i l hl
    obtain ⟨g, -⟩ := h2 i 0 0
    rw [hl] at g
    exact g.trans (alone_inOrder (calls i) m 0)

theorem sure_wr {c : Op} {p : Part} (h : Changes c p) : Sure (.wr (var p)) (call c) := by
  cases c with
  | addParameter o s t b =>
    intro m n
    obtain ⟨h1, h2⟩ := mkParam_short o s b
    cases p <;> first | exact h.elim | skip
    · cases h; simp [call, h2, alone, var]
    · cases h; simp [call, h2, alone, var]
    · obtain ⟨rfl, hs⟩ := h
      simp only [call, h1, h2, hs, if_true, if_false, ne_eq, not_false_eq_true, Bool.false_eq_true, alone]
      simp [var]
    · obtain ⟨rfl, hs⟩ := h
      simp only [call, h1, h2, hs, if_true, ne_eq, not_false_eq_true, alone]
      simp [var]
  | addPositional nm t b =>
    intro m n
    cases p <;> first | exact h.elim | (cases h; simp [call, alone, var])
  | _ =>
    intro m n
    cases p <;> first | exact h.elim | exact List.mem_cons_self

theorem sure_acc {d : Op} {p : Part} (h : Asks d p ∨ Changes d p) :
    ∃ e, Accesses e (var p) ∧ Sure e (call d) := by
  rcases h with h | h
  · refine ⟨.rd (var p), .inl rfl, fun m n => ?_⟩
    cases d with
    | printHelp => cases p <;> first | exact h.elim | simp [call, alone, var]
    | _ => cases p <;> first | exact h.elim | exact List.mem_cons_self
  · exact ⟨.wr (var p), .inr rfl, sure_wr h⟩

/-- If one thread uses what another one changes, there is a schedule with a data race, wherever the two calls are among the calls
of their threads, and whatever the names of the options (also if they are different ones). -/
theorem c148_race {ι : Type} [DecidableEq ι] (m : State) (calls : ι → List Op) {i j : ι} (hij : i ≠ j)
    {c d : Op} (hc : c ∈ calls i) (hd : d ∈ calls j) (h : Disturbs c d) : CanRace m calls := by
  obtain ⟨p, h1, h2⟩ := h
  obtain ⟨e, he, hs⟩ := sure_acc h2
  obtain ⟨s, tr, w, h3, h4⟩ := race_of_sure (w := threads m calls) hij (x := var p)
    (sure_inOrder _ hc (sure_wr h1)) (sure_inOrder _ hd hs) (.inr rfl) he (.inl rfl)
  exact ⟨s, tr, w, _, h3, h4⟩

/-- So there can be a data race exactly if one thread uses what another one changes. -/
theorem c148_race_iff {ι : Type} [DecidableEq ι] (m : State) (calls : ι → List Op) :
    CanRace m calls ↔ ∃ i j, i ≠ j ∧ ∃ c ∈ calls i, ∃ d ∈ calls j, Disturbs c d := by
  constructor
  · rintro ⟨sched, tr, w, x, hx, hr⟩
    refine Classical.byContradiction fun hno => (c148_no_race m calls (fun i j hij c hc d hd h => hno ?_) hx).1 x hr
    exact ⟨i, j, hij, c, hc, d, hd, h⟩
  · rintro ⟨i, j, hij, c, hc, d, hd, h⟩
    exact c148_race m calls hij hc hd h

/-- In particular: threads that only read what was given on the command line can run with any other calls. -/
theorem c148_readers {ι : Type} [DecidableEq ι] (m : State) (calls : ι → List Op) (i : ι)
    (hr : ∀ j, j ≠ i → ∀ d ∈ calls j, ∀ p, ¬ Asks d p ∧ ¬ Changes d p) : ¬ CanRace m calls := by
  rw [c148_race_iff]
  rintro ⟨a, b, hab, c, hc, d, hd, p, h1, h2⟩
  by_cases ha : a = i
  · have := hr b (fun hb => hab (ha.trans hb.symm)) d hd p
    exact h2.elim this.1 this.2
  · exact (hr a ha c hc p).2 h1

/-! ## The hypotheses are met -/

/-- Thread 0 registers an option and sets the version, thread 1 a prefix option, all others read. -/
def exCalls : Nat → List Op
  | 0 => [.addParameter ['x'] ['y'] ['t'] false, .setProgramVersion ['2'], .paramOpt ['x']]
  | 1 => [.addParameter ['x'] ['y'] ['t'] true, .activateExtraCmdParams ['-', '-']]
  | _ => [.paramOpt ['x'], .paramNonOpt 2, .programDescription, .getArgc]

example : ∀ i j, i ≠ j → ∀ c ∈ exCalls i, ∀ d ∈ exCalls j, ¬ Disturbs c d := by
  intro i j hij c hc d hd
  rcases i with _ | _ | i <;> rcases j with _ | _ | j <;> first | exact absurd rfl hij | skip
  all_goals
    simp only [exCalls, List.mem_cons, List.not_mem_nil, or_false] at hc hd
    rcases hc with rfl | rfl | rfl | rfl <;> rcases hd with rfl | rfl | rfl | rfl <;> rintro ⟨p, h1, h2⟩ <;> cases p <;>
      simp [Changes, Asks] at h1 h2

example : Disturbs (.addParameter ['x'] [] ['t'] false) .printHelp ∧
    Disturbs (.addParameter ['x'] [] ['t'] false) (.addParameter ['z'] [] ['t'] false) ∧
    ¬ Disturbs (.addParameter ['x'] [] ['t'] false) (.addParameter ['x'] [] ['t'] true) := by
  refine ⟨⟨.longOptions, rfl, .inl trivial⟩, ⟨.longOptions, rfl, .inr rfl⟩, ?_⟩
  rintro ⟨p, h1, h2⟩
  cases p <;> simp [Changes, Asks] at h1 h2

example : answers { name := ['p'] } [.programVersion, .setProgramVersion ['3'], .programVersion, .addPositional ['f'] [] false,
    .setArgc 2, .getArgc, .programName] =
    [.text [], .none, .text ['3'], .none, .none, .number 2, .text ['p']] := by decide +kernel

end Verif.Registry.Opt
