import Verif.Config.ParamModel
import Verif.Config.ReadProps
import Verif.Config.GetoptProps

/-! # Typed access to command line and configuration (C93) -/
namespace Verif.Cfg
open Verif.Getopt (Items Reports valuesOf nonOptions Call reg)

theorem present_of {o : Getopt.Out} {its : List Getopt.Item} (hr : Reports o its) {name v : S}
    (h : (valuesOf its name).getLast? = some v) : o.paramOptPresent name = true ∧ o.paramOpt name = v := by
  constructor
  · rw [hr.2.1]; intro e; rw [e] at h; cases h
  · rw [hr.1, h]; rfl

theorem absent_of {o : Getopt.Out} {its : List Getopt.Item} (hr : Reports o its) {name : S}
    (h : valuesOf its name = []) : o.paramOptPresent name = false := by
  cases hp : o.paramOptPresent name with
  | false => rfl
  | true => exact absurd h ((hr.2.1 name).1 hp)

/-- C93 (integers). For every command line that is accepted: an option whose last value is the
decimal text of an integer of the type is read as this integer, with and without a default,
and likewise a non-option argument; if the option or argument was not given, this is reported,
the variable keeps its value and the default is returned. -/
theorem c93_integers (rx : S → S → Option S) (h : List Call) (strict clean : Bool) (prog : S)
    (args : List S) (o : Getopt.Out) (argv : List S) (argc : Nat)
    (hr : Getopt.init rx (reg h) strict clean {} (prog :: args) = some (.ok o argv argc)) (bound : Nat) :
    ∃ its, Items rx h strict false 0 args its ∧
      (∀ name n old, (valuesOf its name).getLast? = some (intText n) → -(bound : Int) - 1 ≤ n → n ≤ bound →
        paramOpt (intCast bound) o name old = .ok (true, n) ∧
        paramOptDefault (intCast bound) o name old = .ok n) ∧
      (∀ name old, valuesOf its name = [] →
        paramOpt (intCast bound) o name old = .ok (false, old) ∧
        paramOptDefault (intCast bound) o name old = .ok old) ∧
      (∀ i n old, (nonOptions its)[i]? = some (intText n) → -(bound : Int) - 1 ≤ n → n ≤ bound →
        paramNonOptT (intCast bound) o i old = .ok (true, n)) ∧
      (∀ i old, (nonOptions its)[i]? = none → paramNonOptT (intCast bound) o i old = .ok (false, old)) := by
  obtain ⟨its, hi, hrep, _⟩ := Getopt.c38_classifies rx h strict clean prog args o argv argc hr
  refine ⟨its, hi, ?_, ?_, ?_, ?_⟩
  · intro name n old hl h1 h2
    obtain ⟨hp, hv⟩ := present_of hrep hl
    simp only [paramOpt, paramOptDefault, hp, if_true, hv, c67_decimal bound n h1 h2, and_self]
  · intro name old hl
    simp only [paramOpt, paramOptDefault, absent_of hrep hl, Bool.false_eq_true, if_false, and_self]
  · intro i n old hl h1 h2
    have hlt : i < o.nonOpt.length := by
      rw [hrep.2.2.2.2.1]; exact (List.getElem?_eq_some_iff.1 hl).1
    have hv : o.paramNonOpt i = intText n := by rw [hrep.2.2.2.1, hl]; rfl
    simp only [paramNonOptT, hlt, if_true, hv, c67_decimal bound n h1 h2]
  · intro i old hl
    have hlt : ¬ i < o.nonOpt.length := by
      rw [hrep.2.2.2.2.1]; exact Nat.not_lt.2 (List.getElem?_eq_none_iff.1 hl)
    simp only [paramNonOptT, hlt, if_false]

theorem takeWhile_noWs (s : S) : ∀ c ∈ s.takeWhile (fun c => !isWs c), isWs c = false := by
  induction s with
  | nil => intro c hc; cases hc
  | cons a t ih =>
    intro c hc
    rw [List.takeWhile_cons] at hc
    split at hc
    · rename_i ha
      rcases List.mem_cons.1 hc with rfl | h
      · simpa using ha
      · exact ih c h
    · cases hc

theorem firstWord_eq_iff (s : S) : firstWord s = s ↔ ∀ c ∈ s, isWs c = false := by
  constructor
  · intro h c hc
    rw [← h] at hc
    exact takeWhile_noWs _ c hc
  · exact firstWord_id s

/-- C93 (strings, partial). `paramOpt<String>` gives the last value of an option unchanged
exactly if it contains no white space; in any case it gives the first word of the value. -/
theorem c93_strings_partial (rx : S → S → Option S) (h : List Call) (strict clean : Bool) (prog : S)
    (args : List S) (o : Getopt.Out) (argv : List S) (argc : Nat)
    (hr : Getopt.init rx (reg h) strict clean {} (prog :: args) = some (.ok o argv argc)) :
    ∃ its, Items rx h strict false 0 args its ∧
      ∀ name v old, (valuesOf its name).getLast? = some v →
        paramOpt stringCast o name old = .ok (true, firstWord v) ∧
        paramOptDefault stringCast o name old = .ok (firstWord v) ∧
        (paramOpt stringCast o name old = .ok (true, v) ↔ ∀ c ∈ v, isWs c = false) := by
  obtain ⟨its, hi, hrep, _⟩ := Getopt.c38_classifies rx h strict clean prog args o argv argc hr
  refine ⟨its, hi, ?_⟩
  intro name v old hl
  obtain ⟨hp, hv⟩ := present_of hrep hl
  have e : paramOpt stringCast o name old = .ok (true, firstWord v) := by
    simp only [paramOpt, hp, if_true, hv, stringCast]
  refine ⟨e, by simp only [paramOptDefault, hp, if_true, hv, stringCast], ?_⟩
  rw [e, ← firstWord_eq_iff]
  simp

/-- C93 (violation: strings). `--title="a b"` is read as `a`, although the configuration value
`a b` is read completely. -/
theorem c93_string_cut :
    (match Getopt.init Getopt.literalRx (reg [.param "title:".toList [] false]) true false {}
        ["p".toList, "--title=a b".toList] with
      | some (.ok o _ _) => (o.paramOpt "title".toList, paramOpt stringCast o "title".toList [])
      | _ => ([], .ub)) = ("a b".toList, .ok (true, "a".toList)) ∧
    getString [("/title".toList, "a b".toList)] "/title".toList [] = (true, "a b".toList) := by
  decide +kernel

/-- C93 (violation: defaults). If an option is given with a value that is not blank, the
default of `paramOptDefault` is never used, even if the value is no number at all. -/
theorem c93_default_never_used (bound : Nat) (o : Getopt.Out) (name : S)
    (hp : o.paramOptPresent name = true) (hs : ∃ c ∈ o.paramOpt name, isWs c = false) :
    ∃ n, ∀ dflt, paramOptDefault (intCast bound) o name dflt = .ok n ∧
      paramOpt (intCast bound) o name dflt = .ok (true, n) := by
  have hne : (o.paramOpt name).dropWhile isWs ≠ [] := by
    intro he
    obtain ⟨c, hc, hw⟩ := hs
    rw [(dropWhile_nil _).1 he c hc] at hw; cases hw
  have : ∃ n, intCast bound (o.paramOpt name) = .ok n := by
    simp only [intCast]
    split
    · contradiction
    · exact ⟨_, rfl⟩
    · exact ⟨_, rfl⟩
    · exact ⟨_, rfl⟩
  obtain ⟨n, hn⟩ := this
  exact ⟨n, fun dflt => by simp only [paramOptDefault, paramOpt, hp, if_true, hn, and_self]⟩

/-- C93: concretely, `--speed=fast` gives 0 and not the default, and `--speed=` is undefined. -/
theorem c93_not_a_number :
    (match Getopt.init Getopt.literalRx (reg [.param "speed:".toList [] false]) true false {}
        ["p".toList, "--speed=fast".toList] with
      | some (.ok o _ _) => paramOptDefault (intCast 32767) o "speed".toList 7
      | _ => .ub) = .ok 0 ∧
    (match Getopt.init Getopt.literalRx (reg [.param "speed:".toList [] false]) true false {}
        ["p".toList, "--speed=".toList] with
      | some (.ok o _ _) => paramOptDefault (intCast 32767) o "speed".toList 7
      | _ => .ok 1) = .ub := by
  decide +kernel

/-- The hypotheses of `c93_integers` are met. -/
example : (match Getopt.init Getopt.literalRx (reg [.param "speed:".toList ['s'] false]) true false {}
        ["p".toList, "-s".toList, "5".toList, "--speed=-12".toList, "33".toList] with
      | some (.ok o _ _) => (paramOptDefault (intCast 32767) o "speed".toList 7, paramNonOptT (intCast 32767) o 0 7)
      | _ => (.ub, .ub)) = (.ok (-12), .ok (true, 33)) := by
  decide +kernel

/-- C93 (defaults of configuration values). `getDefault` returns the configured value, and the
default if there is none; for booleans also if the text is not a boolean. -/
theorem c93_get_default (items : List (S × S)) (key : S) :
    (∀ d, lookup items key = none →
      getDefault (fun v => .ok (getString items key v)) d = .ok d ∧
      (∀ bound n, getDefault (getInt bound items key) n = .ok n) ∧
      ∀ b, getDefault (fun v => .ok (getBool items key v)) b = .ok b) ∧
    (∀ d s, lookup items key = some s → getDefault (fun v => .ok (getString items key v)) d = .ok s) ∧
    (∀ (bound : Nat) d n, lookup items key = some (intText n) → -(bound : Int) - 1 ≤ n → n ≤ bound →
      getDefault (getInt bound items key) d = .ok n) ∧
    (∀ d b s, lookup items key = some s → Truth s b →
      getDefault (fun v => .ok (getBool items key v)) d = .ok b) ∧
    (∀ d s, lookup items key = some s → (∀ b, ¬ Truth s b) →
      getDefault (fun v => .ok (getBool items key v)) d = .ok d) := by
  refine ⟨?_, ?_, ?_, ?_, ?_⟩
  · intro d hl
    simp [getDefault, getString, getInt, getBool, hl, Outcome.map]
  · intro d s hl
    simp [getDefault, getString, hl, Outcome.map]
  · intro bound d n hl h1 h2
    simp only [getDefault, getInt, hl, c67_decimal bound n h1 h2, Outcome.map]
  · intro d b s hl ht
    have := ((c42_get_bool items key d).1 b).2 ⟨s, hl, ht⟩
    simp only [getDefault, Outcome.map, this]
  · intro d s hl ht
    have := (c42_get_bool items key d).2 (by
      rintro ⟨s', b, h1, h2⟩
      rw [hl] at h1
      cases h1
      exact ht b h2)
    simp only [getDefault, Outcome.map, this]

/-- C93, for a value type whose conversion can fail: a text that cannot be converted is reported, the variable keeps its
value and the default is returned, for options and for non-option arguments. -/
theorem c93_conversion_fails {V : Type} (conv : S → Outcome V) (o : Getopt.Out) (name : S) (i : Nat) (old : V) (e e' : Exc)
    (hp : o.paramOptPresent name = true) (hi : i < o.nonOpt.length)
    (hc : conv (o.paramOpt name) = .throws e) (hc' : conv (o.paramNonOpt i) = .throws e') :
    paramOpt conv o name old = .ok (false, old) ∧ paramOptDefault conv o name old = .ok old ∧
      paramNonOptT conv o i old = .ok (false, old) := by
  simp [paramOpt, paramOptDefault, paramNonOptT, hp, hi, hc, hc']

/-- C93: reading a string of the configuration. -/
theorem c93_get_string (items : List (S × S)) (key old : S) :
    (∀ s, lookup items key = some s → getString items key old = (true, s)) ∧
    (lookup items key = none → getString items key old = (false, old)) := by
  constructor <;> intros <;> simp_all [getString]

/-- C42: an absent option is reported by `paramOpt<bool>`, and the variable keeps its value. -/
theorem c42_param_opt_bool_absent (o : Getopt.Out) (name : S) (old : Bool) (h : o.paramOptPresent name = false) :
    paramOptBool o name old = .ok (false, old) := by
  simp [paramOptBool, h]

example : ∃ o : Getopt.Out, o.paramOptPresent "v".toList = false ∧ paramOptBool o "v".toList true = .ok (false, true) :=
  ⟨{ opt := fun _ => none }, by decide, by decide⟩

end Verif.Cfg
