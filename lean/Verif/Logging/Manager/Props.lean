import Verif.Logging.Manager.InvLemmas
import Verif.Config.ReadProps
import Mathlib.Data.List.Nodup
import Mathlib.Data.List.Perm.Subperm

/-! # C73-C75: the log streams and outputs set up by the logging manager -/
namespace Verif.Logging.Manager

/-- The state after a history that ends with `initialize`. -/
theorem run_init {env : Env} {ops : List Op} {m : M} (h : run env (ops ++ [.init]) = some m) (hns : .shutdown ∉ ops) :
    ∃ m0, run env ops = some m0 ∧ Inv env ops m0 ∧ initialize' env m0 = some m := by
  rw [run_snoc] at h
  cases hr : run env ops with
  | none => rw [hr] at h; cases h
  | some m0 =>
    rw [hr, Option.bind_some] at h
    exact ⟨m0, rfl, inv_run hns hr, h⟩

/-! ## Examples -/

/-- A configuration with two outputs, one for all streams and one for the stream `A`, and a level for
`A`. -/
def exItems : List (S × S) :=
  StrMap.put (StrMap.put (StrMap.put (StrMap.put (StrMap.put (StrMap.put (StrMap.put []
    (key "OutputStream1".toList "OutputStreamName".toList) "File".toList)
    (key "OutputStream1".toList "LogLevel".toList) "Debug".toList)
    (key "OutputStream2".toList "OutputStreamName".toList) "Udp".toList)
    (key "OutputStream2".toList "Name".toList) "net".toList)
    (key "OutputStream2".toList "LogStream1".toList) "A".toList)
    (key "LogStream1".toList "Name".toList) "A".toList)
    (key "LogStream1".toList "LogLevel".toList) "Warning".toList

/-- Start with these items and no options. -/
def exEnv : Env := ⟨exItems, none, false⟩

/-- Start of a program with the streams `A` and `B`. -/
def exOps : List Op :=
  [.regOut "File".toList, .regOut "Udp".toList, .regStr "A".toList, .regStr "B".toList]

theorem ok_exItems : StrMap.Ok exItems :=
  StrMap.ok_put (StrMap.ok_put (StrMap.ok_put (StrMap.ok_put (StrMap.ok_put (StrMap.ok_put (StrMap.ok_put
    StrMap.ok_nil _ _) _ _) _ _) _ _) _ _) _ _) _ _

/-- What can be seen of a state. -/
structure View where
  streams : List (S × Stream)
  outputs : List (S × Output)
  dflt : Option (Nat × Output)
  deriving DecidableEq

/-- What can be seen of a state. -/
def view (m : M) : View := ⟨m.streams, m.outputs, m.dflt⟩

/-- The hypotheses of the theorems of C73 and C74 are met, and the outcome is as expected: `File`
gets all messages, `net` those of `A`. -/
example : (run exEnv (exOps ++ [.init])).map view = some
    ⟨[("A".toList, ⟨3, [.named "File".toList, .named "net".toList]⟩), ("B".toList, ⟨2, [.named "File".toList]⟩)],
      [("File".toList, ⟨"File".toList, "/IclCore/Logging/OutputStream1".toList, 1⟩),
        ("net".toList, ⟨"Udp".toList, "/IclCore/Logging/OutputStream2".toList, 0⟩)], none⟩ := by decide +kernel

/-! ## C73 -/

/-- C73: after `initialize` the streams are the registered ones. -/
theorem c73_streams (env : Env) (ops : List Op) (hns : .shutdown ∉ ops) {m : M}
    (h : run env (ops ++ [.init]) = some m) (n : S) :
    (StrMap.get m.streams n).isSome ↔ .regStr n ∈ ops := by
  obtain ⟨m0, -, i, e⟩ := run_init h hns
  obtain ⟨m', e', -, hs⟩ := inv_initialize i
  rw [e] at e'
  cases e'
  exact hs n

/-- C73: after `initialize` there is an output `o` iff it is configured and its class is registered. -/
theorem c73_outputs (env : Env) (ops : List Op) (hns : .shutdown ∉ ops) (hok : StrMap.Ok env.items)
    (hq : env.quickDebug = false) {m : M} (h : run env (ops ++ [.init]) = some m) (o : S) :
    (StrMap.get m.outputs o).isSome ↔ ∃ e, Wanted env.items ops e o := by
  obtain ⟨m0, hr, i, e⟩ := run_init h hns
  have s0 := sound_run hok hq hns hr
  have s1 := sound_initialize hok hq i s0 e
  constructor
  · intro ho
    obtain ⟨x, hx⟩ := Option.isSome_iff_exists.1 ho
    obtain ⟨e, a, -⟩ := s1.outs o x hx
    exact ⟨e, a⟩
  · rintro ⟨k, a1, a2, a3⟩
    obtain ⟨m1, -, e2, p⟩ := initialize_post i
    have : m = m1 := by
      rw [e2] at e
      have hqd : quickDebug env m1 = m1 := by simp [quickDebug, hq]
      rw [hqd] at e
      exact (Option.some.inj e).symm
    subst this
    obtain ⟨h0, -, hc, -⟩ := inv_readConfig i
    rw [p.outs o, hc]
    obtain ⟨c, hm⟩ := entry_named hok a1
    obtain ⟨-, b2, b3, -, -⟩ := mem_named hok hm
    cases StrMap.get (readConfig env m0).outputs o with
    | some x => simp [outAfter]
    | none =>
      simp only [outAfter, Option.isSome_map, List.find?_isSome]
      exact ⟨(k, c), hm, by simp only [decide_eq_true_eq]; exact ⟨b3.trans a2, by rw [b2, h0.facO]; exact a3⟩⟩

/-- C73: an output has the class of a configured entry with its name, and it is set up with the keys
of this entry. -/
theorem c73_output_class (env : Env) (ops : List Op) (hns : .shutdown ∉ ops) (hok : StrMap.Ok env.items)
    (hq : env.quickDebug = false) {m : M} (h : run env ops = some m) (o : S) {x : Output}
    (hx : StrMap.get m.outputs o = some x) :
    ∃ e, Wanted env.items ops e o ∧ x.kind = outKind env.items e ∧ x.pre = "/IclCore/Logging/".toList ++ e := by
  obtain ⟨e, a, b, c, -⟩ := (sound_run hok hq hns h).outs o x hx
  exact ⟨e, a, b, c⟩

/-- C73, partial: if the names of the outputs are different, then after `initialize` a stream writes to
output `o` iff `o` is configured, its class is registered and its entry is for the stream.  (Missing: entries with the same name,
see `c73_same_name`.) -/
theorem c73_connections_partial (env : Env) (ops : List Op) (hns : .shutdown ∉ ops) (hok : StrMap.Ok env.items)
    (hq : env.quickDebug = false) (hd : NamesDiffer env.items) {m : M} (h : run env (ops ++ [.init]) = some m)
    {n : S} {s : Stream} (hs : StrMap.get m.streams n = some s) (o : S) :
    .named o ∈ s.outs ↔ ∃ e, Wanted env.items ops e o ∧ For env.items e n := by
  have ho := c73_outputs env ops hns hok hq h
  have hall := h
  obtain ⟨m0, hr, i, e⟩ := run_init h hns
  have s0 := sound_run hok hq hns hr
  have s1 := sound_initialize hok hq i s0 e
  constructor
  · intro hm
    obtain ⟨k, a1, a2, a3⟩ := s1.conn n s o hs hm
    have hns' : .shutdown ∉ ops ++ [.init] := by simp [hns]
    obtain ⟨k', w⟩ := (ho o).1 ((inv_run hns' hall).live n s o hs hm)
    have : k = k' := hd k k' a1 w.1 (a2.trans w.2.1.symm)
    subst this
    exact ⟨k, w, a3⟩
  · rintro ⟨k, ⟨a1, a2, a3⟩, a4⟩
    obtain ⟨m1, -, e2, p⟩ := initialize_post i
    have : m = m1 := by
      rw [e2] at e
      have hqd : quickDebug env m1 = m1 := by simp [quickDebug, hq]
      rw [hqd] at e
      exact (Option.some.inj e).symm
    subst this
    obtain ⟨h0, -, hc, -⟩ := inv_readConfig i
    obtain ⟨c, hm⟩ := entry_named hok a1
    obtain ⟨-, b2, b3, -, b5⟩ := mem_named hok hm
    have := (p.stream n s hs).2.2.2.2.2 (k, c) (by rw [hc]; exact hm) (Or.inr (by rw [b2, h0.facO]; exact a3))
      ((b5 n).2 a4)
    simp only at b3 this
    rw [b3, a2] at this
    exact this

/-- The names in the example are different. -/
theorem exItems_differ : NamesDiffer exItems := by
  have hl : (named (exItems.foldl readOut [])).map (fun e => (e.1, e.2.name)) =
      [("OutputStream1".toList, "File".toList), ("OutputStream2".toList, "net".toList)] := by decide +kernel
  have key : ∀ e, OutEntry exItems e → (e, outName exItems e) ∈
      [("OutputStream1".toList, "File".toList), ("OutputStream2".toList, "net".toList)] := by
    intro e he
    obtain ⟨c, hc⟩ := entry_named ok_exItems he
    obtain ⟨-, -, h3, -⟩ := mem_named ok_exItems hc
    rw [← hl, List.mem_map]
    exact ⟨(e, c), hc, by simp only at h3; rw [h3]⟩
  intro e e' he he' hn
  have h1 := key e he
  have h2 := key e' he'
  have hne : "File".toList ≠ "net".toList := by decide +kernel
  simp only [List.mem_cons, Prod.mk.injEq, List.not_mem_nil, or_false] at h1 h2
  rcases h1 with ⟨a, b⟩ | ⟨a, b⟩ <;> rcases h2 with ⟨a', b'⟩ | ⟨a', b'⟩
  · rw [a, a']
  · rw [b, b'] at hn; exact absurd hn hne
  · rw [b, b'] at hn; exact absurd hn.symm hne
  · rw [a, a']

/-- C73: in every history a stream writes only to outputs which are configured for it, also if names
are equal; and to each of them once. -/
theorem c73_only_configured (env : Env) (ops : List Op) (hns : .shutdown ∉ ops) (hok : StrMap.Ok env.items)
    (hq : env.quickDebug = false) {m : M} (h : run env ops = some m)
    {n : S} {s : Stream} (hs : StrMap.get m.streams n = some s) :
    s.outs.Nodup ∧ ∀ o, .named o ∈ s.outs → ∃ e, OutEntry env.items e ∧ outName env.items e = o ∧ For env.items e n :=
  ⟨((inv_run hns h).dOk n s hs).1, fun o ho => (sound_run hok hq hns h).conn n s o hs ho⟩

/-- C73: after `initialize` the streams write to the standard output iff no output is configured or a
level is given on the command line. -/
theorem c73_default_output (env : Env) (ops : List Op) (hns : .shutdown ∉ ops) (hok : StrMap.Ok env.items)
    (hq : env.quickDebug = false) {m : M} (h : run env (ops ++ [.init]) = some m)
    {n : S} {s : Stream} (hs : StrMap.get m.streams n = some s) :
    (∃ g, .dflt g ∈ s.outs) ↔ (∀ e, ¬ OutEntry env.items e) ∨ (optLevel env).isSome := by
  obtain ⟨m0, -, i, e⟩ := run_init h hns
  obtain ⟨m1, -, e2, p⟩ := initialize_post i
  have : m = m1 := by
    rw [e2] at e
    have hqd : quickDebug env m1 = m1 := by simp [quickDebug, hq]
    rw [hqd] at e
    exact (Option.some.inj e).symm
  subst this
  obtain ⟨h0, -, hc, -⟩ := inv_readConfig i
  have hd := p.dflt
  rw [← named_nil, hc, no_entries hok] at hd
  rw [← hd]
  constructor
  · rintro ⟨g, hg⟩
    obtain ⟨o, ho⟩ := ((p.stream n s hs).2.2.1 g).1 hg
    simp [ho]
  · intro h
    obtain ⟨⟨g, o⟩, hgo⟩ := Option.isSome_iff_exists.1 h
    exact ⟨g, ((p.stream n s hs).2.2.1 g).2 ⟨o, hgo⟩⟩

/-- The start with no configuration: everything goes to the standard output. -/
example : (run ⟨[], none, false⟩ (exOps ++ [.init])).map view = some
    ⟨[("A".toList, ⟨2, [.dflt 0]⟩), ("B".toList, ⟨2, [.dflt 0]⟩)], [],
      some (0, ⟨"Stdout".toList, "/IclCore/Logging/Default".toList, 2⟩)⟩ := by decide +kernel

/-- Two outputs of the same class without names. -/
def sameItems : List (S × S) :=
  StrMap.put (StrMap.put (StrMap.put (StrMap.put (StrMap.put (StrMap.put []
    (key "OutputStream1".toList "OutputStreamName".toList) "File".toList)
    (key "OutputStream1".toList "LogLevel".toList) "Error".toList)
    (key "OutputStream1".toList "LogStream1".toList) "A".toList)
    (key "OutputStream2".toList "OutputStreamName".toList) "File".toList)
    (key "OutputStream2".toList "LogLevel".toList) "Debug".toList)
    (key "OutputStream2".toList "LogStream1".toList) "B".toList

/-- C73, the missing part: if two outputs of one class have no name, there is only one output, set up
like the first, and the messages of stream `B` go to the output that is configured for `A` only. -/
theorem c73_same_name :
    (run ⟨sameItems, none, false⟩ (exOps ++ [.init])).map view = some
      ⟨[("A".toList, ⟨2, [.named "File".toList]⟩), ("B".toList, ⟨2, [.named "File".toList]⟩)],
        [("File".toList, ⟨"File".toList, "/IclCore/Logging/OutputStream1".toList, 4⟩)], none⟩ := by decide +kernel

/-! ### The name of the quick debug output -/

theorem isSome_mem {V : Type} (m : List (S × V)) (n : S) (h : (StrMap.get m n).isSome) : n ∈ m.map Prod.fst := by
  induction m with
  | nil => cases h
  | cons e m ih =>
    by_cases he : e.1 = n
    · simp [he]
    · have : StrMap.get (e :: m) n = StrMap.get m n := by
        unfold StrMap.get
        simp only [StdMap.find, he, if_false]
      rw [this] at h
      simp [ih h]

/-- The candidates are different. -/
def cand (k : Nat) : S := quickName ++ Nat.toDigits 10 k

theorem cand_inj {i j : Nat} (h : cand i = cand j) : i = j := by
  have h1 := List.append_cancel_left h
  have h2 := congrArg Cfg.magnitude h1
  rwa [Cfg.magnitude_toDigits, Cfg.magnitude_toDigits] at h2

theorem searchName_spec (outputs : List (S × Output)) : ∀ n c,
    ∃ k, searchName outputs n c = cand (c + k) ∧ k ≤ n ∧
      (∀ j < k, (StrMap.get outputs (cand (c + j))).isSome) ∧
      (k < n → StrMap.get outputs (cand (c + k)) = none) := by
  intro n
  induction n with
  | zero => intro c; exact ⟨0, rfl, by omega, by simp, by simp⟩
  | succ n ih =>
    intro c
    simp only [searchName]
    split
    · next hs =>
      obtain ⟨k, h1, h2, h3, h4⟩ := ih (c + 1)
      refine ⟨k + 1, by rw [h1]; congr 1; omega, by omega, fun j hj => ?_, fun hk => ?_⟩
      · cases j with
        | zero => exact hs
        | succ j =>
          have := h3 j (by omega)
          rwa [show c + 1 + j = c + (j + 1) by omega] at this
      · have := h4 (by omega)
        rwa [show c + 1 + k = c + (k + 1) by omega] at this
    · next hs =>
      refine ⟨0, rfl, by omega, by simp, fun _ => ?_⟩
      simpa [cand] using hs

theorem quickName_ne (k : Nat) : quickName ≠ cand k := by
  intro h
  unfold cand at h
  generalize quickName = q at h
  have := congrArg List.length h
  rw [List.length_append] at this
  have h2 : (Nat.toDigits 10 k).length = 0 := by omega
  have h3 := List.eq_nil_of_length_eq_zero h2
  have h4 := Cfg.magnitude_toDigits k
  obtain ⟨c, r, h5, -⟩ := Cfg.toDigits_head k
  rw [h3] at h5
  cases h5

/-- C73: the output of `--quick-debug` gets a name that no other output has, and the search for it
ends: the name is `QuickDebug`, or `QuickDebug` with the least number from 1 on that is not in use. -/
theorem c73_quick_debug_name (outputs : List (S × Output)) :
    StrMap.get outputs (freshName outputs) = none ∧
    (freshName outputs = "QuickDebug".toList ∨
      ((StrMap.get outputs "QuickDebug".toList).isSome ∧
      ∃ k ≥ 1, freshName outputs = "QuickDebug".toList ++ Nat.toDigits 10 k ∧
        ∀ j, 1 ≤ j → j < k → (StrMap.get outputs ("QuickDebug".toList ++ Nat.toDigits 10 j)).isSome)) := by
  change StrMap.get outputs (freshName outputs) = none ∧
    (freshName outputs = quickName ∨ ((StrMap.get outputs quickName).isSome ∧
      ∃ k ≥ 1, freshName outputs = cand k ∧ ∀ j, 1 ≤ j → j < k → (StrMap.get outputs (cand j)).isSome))
  unfold freshName
  split
  · next hs =>
    obtain ⟨k, h1, h2, h3, h4⟩ := searchName_spec outputs outputs.length 1
    refine ⟨?_, Or.inr ⟨hs, 1 + k, by omega, h1, fun j hj hjk => ?_⟩⟩
    · rw [h1]
      by_cases hk : k < outputs.length
      · exact h4 hk
      · -- all names in use would be one more than there are outputs
        cases hg : StrMap.get outputs (cand (1 + k)) with
        | none => rfl
        | some v =>
          exfalso
          have hsub : (quickName :: (List.range k).map fun j => cand (1 + j)) ⊆ outputs.map Prod.fst := by
            intro x hx
            rcases List.mem_cons.1 hx with rfl | hx
            · exact isSome_mem _ _ hs
            · obtain ⟨j, hj, rfl⟩ := List.mem_map.1 hx
              exact isSome_mem _ _ (h3 j (List.mem_range.1 hj))
          have hnd : (quickName :: (List.range k).map fun j => cand (1 + j)).Nodup := by
            rw [List.nodup_cons]
            constructor
            · rw [List.mem_map]
              rintro ⟨j, -, hj⟩
              exact quickName_ne _ hj.symm
            · refine List.Nodup.map (fun (i j : Nat) (hij : cand (1 + i) = cand (1 + j)) => ?_) List.nodup_range
              have := cand_inj hij
              omega
          have := (List.subperm_of_subset hnd hsub).length_le
          simp only [List.length_cons, List.length_map, List.length_range] at this
          omega
    · have := h3 (j - 1) (by omega)
      rwa [show 1 + (j - 1) = j by omega] at this
  · next hs =>
    exact ⟨by simpa using hs, Or.inl rfl⟩

/-- Names in use are skipped. -/
example : freshName [("QuickDebug".toList, ⟨[], [], 0⟩), ("QuickDebug1".toList, ⟨[], [], 0⟩)] = "QuickDebug2".toList := by
  decide +kernel

/-- C73: with `--quick-debug` a second `initialize` creates a second output: every message of the
stream is then written twice. -/
theorem c73_quick_debug_twice :
    (run ⟨[], none, true⟩ [.regStr "QuickDebug".toList, .init, .init]).map (fun m => m.streams) =
      some [("QuickDebug".toList, ⟨0, [.dflt 0, .named "QuickDebug".toList, .named "QuickDebug1".toList]⟩)] := by
  decide +kernel

/-- C73: with `--quick-debug`, after `initialize` there is a file output of level Trace (0), with a name that no output had
before, and the stream QuickDebug writes to it and has the level Trace; the other streams do not write to it. -/
theorem c73_quick_debug (env : Env) (ops : List Op) (hns : .shutdown ∉ ops) (hq : env.quickDebug = true)
    (hreg : .regStr "QuickDebug".toList ∈ ops) {m : M} (h : run env (ops ++ [.init]) = some m) :
    ∃ o s, StrMap.get m.outputs o = some ⟨"File".toList, [], 0⟩ ∧
      StrMap.get m.streams "QuickDebug".toList = some s ∧ s.level = 0 ∧ .named o ∈ s.outs ∧
      ∀ n s', n ≠ "QuickDebug".toList → StrMap.get m.streams n = some s' → .named o ∉ s'.outs := by
  obtain ⟨m0, -, i, e⟩ := run_init h hns
  obtain ⟨m1, -, e2, p⟩ := initialize_post i
  have h1 := inv_configure i p
  obtain ⟨m', e', -, hs⟩ := inv_initialize i
  rw [e] at e'
  cases e'
  rw [e2] at e
  have hm : m = quickDebug env m1 := (Option.some.inj e).symm
  have hk : (StrMap.get m.streams quickName).isSome := (hs quickName).2 hreg
  obtain ⟨s, hs'⟩ := Option.isSome_iff_exists.1 hk
  have hfresh : StrMap.get m1.outputs (freshName m1.outputs) = none := (c73_quick_debug_name m1.outputs).1
  subst hm
  simp only [quickDebug, hq, if_true] at hs' ⊢
  rw [get_onStream] at hs'
  obtain ⟨s0, hs0, hs1⟩ := Option.map_eq_some_iff.1 hs'
  simp only [if_true] at hs1
  refine ⟨freshName m1.outputs, s, ?_, ?_, ?_, ?_, ?_⟩
  · rw [StrMap.get_put h1.okO, if_pos rfl]
  · rw [get_onStream]; exact hs'
  · rw [← hs1]
  · rw [← hs1]; exact (mem_add _ _ _).2 (Or.inl rfl)
  · intro n s' hn hs2 hmem
    rw [get_onStream, if_neg (show ¬ n = quickName from hn)] at hs2
    simp only [Option.map_id, id] at hs2
    have := h1.live n s' _ hs2 hmem
    rw [hfresh] at this
    cases this

/-- The stream exists and another output already has the name. -/
example : (run ⟨[("/IclCore/Logging/OutputStream1/OutputStreamName".toList, "Udp".toList),
      ("/IclCore/Logging/OutputStream1/Name".toList, "QuickDebug".toList)], none, true⟩
      [.regOut "Udp".toList, .regStr "QuickDebug".toList, .init]).map (fun m => m.outputs.map (·.1)) =
    some ["QuickDebug".toList, "QuickDebug1".toList] := by decide +kernel

/-! ## C74 -/

/-- C74: with a level on the command line, all streams and outputs and the default output have this level after
`initialize`. -/
theorem c74_command_line (env : Env) (ops : List Op) (hns : .shutdown ∉ ops)
    (hq : env.quickDebug = false) {l : Nat} (hl : optLevel env = some l) {m : M}
    (h : run env (ops ++ [.init]) = some m) :
    (∀ n s, StrMap.get m.streams n = some s → s.level = l) ∧
    (∀ o x, StrMap.get m.outputs o = some x → x.level = l) ∧
    (∃ g x, m.dflt = some (g, x) ∧ x.level = l) := by
  obtain ⟨m0, -, i, e⟩ := run_init h hns
  obtain ⟨m1, -, e2, p⟩ := initialize_post i
  have : m = m1 := by
    rw [e2] at e
    have hqd : quickDebug env m1 = m1 := by simp [quickDebug, hq]
    rw [hqd] at e
    exact (Option.some.inj e).symm
  subst this
  refine ⟨fun n s hs => ?_, fun o x hx => ?_, ?_⟩
  · rw [(p.stream n s hs).1, hl, Option.getD_some]
  · rw [p.outs o, Option.map_eq_some_iff] at hx
    obtain ⟨y, -, rfl⟩ := hx
    simp [hl]
  · have hd := p.dflt.2 (Or.inr (by simp [hl]))
    obtain ⟨⟨g, o⟩, hgo⟩ := Option.isSome_iff_exists.1 hd
    exact ⟨g, o, hgo, p.dfltLevel l hl g o hgo⟩

example : optLevel ⟨exItems, some "Debug".toList, false⟩ = some 1 ∧
    (run ⟨exItems, some "Debug".toList, false⟩ (exOps ++ [.init])).map (fun m => m.streams.map fun e => e.2.level) =
      some [1, 1] := by decide +kernel

theorem lastLevel_none {L : List (S × StrCfg)} {n : S} (c : Nat) (h : ∀ e ∈ L, e.2.name ≠ n) : lastLevel L n c = c := by
  induction L generalizing c with
  | nil => rfl
  | cons e L ih =>
    simp only [lastLevel, List.foldl_cons, if_neg (h e (by simp))] at ih ⊢
    exact ih c fun e he => h e (by simp [he])

theorem lastLevel_mem {L : List (S × StrCfg)} {n : S} (c l : Nat) (h : ∃ e ∈ L, e.2.name = n)
    (hl : ∀ e ∈ L, e.2.name = n → e.2.level = l) : lastLevel L n c = l := by
  induction L generalizing c with
  | nil => obtain ⟨e, he, -⟩ := h; cases he
  | cons e L ih =>
    by_cases hL : ∃ e ∈ L, e.2.name = n
    · have := ih (if e.2.name = n then e.2.level else c) hL fun e he => hl e (by simp [he])
      simpa only [lastLevel, List.foldl_cons] using this
    · have hn : ∀ e ∈ L, e.2.name ≠ n := fun e he h' => hL ⟨e, he, h'⟩
      obtain ⟨e', he', hn'⟩ := h
      rcases List.mem_cons.1 he' with rfl | he'
      · have := lastLevel_none e'.2.level hn
        simp only [lastLevel, List.foldl_cons, if_pos hn'] at this ⊢
        rw [this]
        exact hl e' (by simp) hn'
      · exact absurd hn' (hn e' he')

/-- C74, what the code does: without a level on the command line and without `setLogLevel`, the level of a stream is Info (2)
without an entry, and the one of the entries for it if they agree; an entry without a legal level counts as Trace (0). -/
theorem c74_stream_level_exact (env : Env) (ops : List Op) (hns : .shutdown ∉ ops) (hok : StrMap.Ok env.items)
    (hq : env.quickDebug = false) (hl : optLevel env = none) (hset : ∀ l, .setLevel l ∉ ops) {m : M}
    (h : run env ops = some m) {n : S} {s : Stream} (hs : StrMap.get m.streams n = some s) :
    ((∀ e, StrEntry env.items e → strName env.items e ≠ n) → s.level = 2) ∧
    (∀ l, (∃ e, StrEntry env.items e ∧ strName env.items e = n) →
      (∀ e, StrEntry env.items e → strName env.items e = n → (cfgLevel env.items e).getD 0 = l) → s.level = l) := by
  have hv := (sound_run hok hq hns h).level n s hs hset
  rw [hl, Option.getD_none] at hv
  have r := strRead env.items hok
  have key : ∀ e ∈ env.items.foldl readStr [], StrEntry env.items e.1 ∧ strName env.items e.1 = e.2.name ∧
      e.2.level = (cfgLevel env.items e.1).getD 0 := by
    intro e he
    have hg := (StrMap.mem_iff r.ok e.1 e.2).1 he
    have hse : StrEntry env.items e.1 := (r.dom e.1).1 (by simp [hg])
    have := r.val e.1 hse.1
    rw [hg, Option.getD_some] at this
    exact ⟨hse, this.name.symm, this.level⟩
  refine ⟨fun hno => ?_, fun l hex hall => ?_⟩
  · rw [hv]
    apply lastLevel_none
    intro e he hn
    obtain ⟨a, b, -⟩ := key e he
    exact hno e.1 a (b.trans hn)
  · rw [hv]
    apply lastLevel_mem
    · obtain ⟨k, a, b⟩ := hex
      obtain ⟨c, hc⟩ := Option.isSome_iff_exists.1 ((r.dom k).2 a)
      have hm := (StrMap.mem_iff r.ok k c).2 hc
      exact ⟨(k, c), hm, (key _ hm).2.1.symm.trans b⟩
    · intro e he hn
      obtain ⟨a, b, c⟩ := key e he
      rw [c, hall e.1 a (b.trans hn)]

/-- C74, partial: without a level on the command line and without `setLogLevel`, the level of a stream
is the one of the entry for it, and Info (2) without an entry; if several entries are for it, this
holds if they say the same.  (Missing: an entry without a legal level counts as Trace, see
`c74_stream_default`.) -/
theorem c74_stream_level_partial (env : Env) (ops : List Op) (hns : .shutdown ∉ ops) (hok : StrMap.Ok env.items)
    (hq : env.quickDebug = false) (hl : optLevel env = none) (hset : ∀ l, .setLevel l ∉ ops) {m : M}
    (h : run env ops = some m) {n : S} {s : Stream} (hs : StrMap.get m.streams n = some s) :
    ((∀ e, StrEntry env.items e → strName env.items e ≠ n) → s.level = 2) ∧
    (∀ l, (∃ e, StrEntry env.items e ∧ strName env.items e = n) →
      (∀ e, StrEntry env.items e → strName env.items e = n → cfgLevel env.items e = some l) → s.level = l) := by
  obtain ⟨h1, h2⟩ := c74_stream_level_exact env ops hns hok hq hl hset h hs
  exact ⟨h1, fun l hex hall => h2 l hex fun e a b => by rw [hall e a b]; rfl⟩

/-- C74, what the code does: without a level on the command line and without `setLogLevel`, an output has the level of an
entry with its name and a registered class; without a legal level this is Trace (0). -/
theorem c74_output_level_exact (env : Env) (ops : List Op) (hns : .shutdown ∉ ops) (hok : StrMap.Ok env.items)
    (hq : env.quickDebug = false) (hl : optLevel env = none) (hset : ∀ l, .setLevel l ∉ ops) {m : M}
    (h : run env ops = some m) {o : S} {x : Output} (hx : StrMap.get m.outputs o = some x) :
    ∃ e, Wanted env.items ops e o ∧ x.kind = outKind env.items e ∧ x.level = (cfgLevel env.items e).getD 0 := by
  obtain ⟨e, a, b, -, d⟩ := (sound_run hok hq hns h).outs o x hx
  exact ⟨e, a, b, by rw [d hset, hl, Option.getD_none]⟩

/-- C74, partial: without a level on the command line and without `setLogLevel`, an output has the
level of its entry.  (Missing: the level of an entry that gives none, see `c74_output_default`.) -/
theorem c74_output_level_partial (env : Env) (ops : List Op) (hns : .shutdown ∉ ops) (hok : StrMap.Ok env.items)
    (hq : env.quickDebug = false) (hl : optLevel env = none) (hset : ∀ l, .setLevel l ∉ ops) {m : M}
    (h : run env ops = some m) {o : S} {x : Output} (hx : StrMap.get m.outputs o = some x) {l : Nat}
    (he : ∀ e, Wanted env.items ops e o → cfgLevel env.items e = some l) : x.level = l := by
  obtain ⟨e, a, -, -, d⟩ := (sound_run hok hq hns h).outs o x hx
  rw [d hset, hl, Option.getD_none, he e a, Option.getD_some]

/-- C74: `setLogLevel` sets the level of all streams and all configured outputs. -/
theorem c74_set_level (env : Env) (ops : List Op) (l : Nat) {m : M} (h : run env (ops ++ [.setLevel l]) = some m) :
    (∀ n s, StrMap.get m.streams n = some s → s.level = l) ∧
    (∀ o x, StrMap.get m.outputs o = some x → x.level = l) := by
  rw [run_snoc] at h
  cases hr : run env ops with
  | none => rw [hr] at h; cases h
  | some m0 =>
    rw [hr, Option.bind_some] at h
    simp only [step, Option.some.injEq] at h
    subst h
    unfold setLogLevel
    refine ⟨fun n s hs => ?_, fun o x hx => ?_⟩
    · simp only [get_onAll, Option.map_eq_some_iff] at hs
      obtain ⟨y, -, rfl⟩ := hs
      rfl
    · simp only [get_setOutLevels, Option.map_eq_some_iff] at hx
      obtain ⟨y, -, rfl⟩ := hx
      rfl

/-- C74, the missing part: a stream that is named without a level, or with a misspelt one, gets the
level Trace (0), although the default level is Info (2). -/
theorem c74_stream_default :
    (run ⟨StrMap.put [] (key "LogStream1".toList "Name".toList) "A".toList, none, false⟩
      (exOps ++ [.init])).map (fun m => m.streams.map fun e => (e.1, e.2.level)) =
      some [("A".toList, 0), ("B".toList, 2)] ∧
    (run ⟨StrMap.put (StrMap.put [] (key "LogStream1".toList "Name".toList) "A".toList)
        (key "LogStream1".toList "LogLevel".toList) "error".toList, none, false⟩
      (exOps ++ [.init])).map (fun m => m.streams.map fun e => (e.1, e.2.level)) =
      some [("A".toList, 0), ("B".toList, 2)] := by decide +kernel

/-- C74, the missing part: an output without a level gets the level Trace. -/
theorem c74_output_default :
    (run ⟨StrMap.put [] (key "OutputStream1".toList "OutputStreamName".toList) "File".toList, none, false⟩
      (exOps ++ [.init])).map (fun m => m.outputs.map fun e => (e.1, e.2.level)) = some [("File".toList, 0)] := by
  decide +kernel

/-- C74: `setLogLevel` does not change the default output: messages below its level stay hidden. -/
theorem c74_set_level_default_output :
    (run ⟨[], none, false⟩ (exOps ++ [.init, .setLevel 0])).map (fun m => (m.streams.map fun e => e.2.level, m.dflt)) =
      some ([0, 0], some (0, ⟨"Stdout".toList, "/IclCore/Logging/Default".toList, 2⟩)) := by decide +kernel

/-! ## C75 -/

/-- Every stream that is used has been registered before. -/
def UsesRegistered : List Op → Prop
  | ops => ∀ pre post n, ops = pre ++ .use n :: post → .regStr n ∈ pre

/-- C75, partial: without `shutdown`, a history in which only registered streams are used never touches a
deleted object and never fails: each call can be completed.  (Missing: `shutdown` before the end, see `c75_use_after_shutdown`.) -/
theorem c75_no_dangling_partial (env : Env) (ops : List Op) (hns : .shutdown ∉ ops) (hu : UsesRegistered ops) :
    (run env ops).isSome := by
  induction ops using List.reverseRecOn with
  | nil => rfl
  | append_singleton ops op ih =>
    have hns' : .shutdown ∉ ops := fun h => hns (by simp [h])
    have hu' : UsesRegistered ops := fun pre post n h => hu pre (post ++ [op]) n (by simp [h])
    obtain ⟨m, hm⟩ := Option.isSome_iff_exists.1 (ih hns' hu')
    have i := inv_run hns' hm
    rw [run_snoc, hm, Option.bind_some]
    cases op with
    | regOut k => rfl
    | regStr k => rfl
    | init =>
      obtain ⟨m', e, -, -⟩ := inv_initialize i
      simp only [step, e, Option.isSome_some]
    | use k =>
      obtain ⟨m', e, -, hs⟩ := inv_initialize i
      have hk := hu ops [] k rfl
      simp only [step, i.freed, e, Option.bind_some, (hs k).2 hk, List.not_mem_nil]
      split <;> simp
    | setLevel l => rfl
    | shutdown => exact absurd (by simp) hns

/-- C75, partial: without `shutdown`, all outputs a stream writes to exist. -/
theorem c75_outputs_alive_partial (env : Env) (ops : List Op) (hns : .shutdown ∉ ops) {m : M} (h : run env ops = some m)
    {n : S} {s : Stream} (hs : StrMap.get m.streams n = some s) :
    ∀ o ∈ s.outs, match o with
      | .named k => (StrMap.get m.outputs k).isSome
      | .dflt g => ∃ x, m.dflt = some (g, x) := by
  have i := inv_run hns h
  intro o ho
  cases o with
  | named k => exact i.live n s k hs ho
  | dflt g => exact ((i.dOk n s hs).2 g).1 ho

example : UsesRegistered (exOps ++ [.use "A".toList, .init, .use "B".toList]) := by
  intro pre post n h
  have hlen : pre.length < 7 := by
    have := congrArg List.length h
    simp [exOps] at this
    omega
  have hget : (exOps ++ [Op.use "A".toList, .init, .use "B".toList])[pre.length]? = some (.use n) := by rw [h]; simp
  have hpre : pre = (exOps ++ [Op.use "A".toList, .init, .use "B".toList]).take pre.length := by rw [h]; simp
  generalize pre.length = k at *
  rw [hpre]
  match k, hlen with
  | 0, _ | 1, _ | 2, _ | 3, _ | 5, _ => cases hget
  | 4, _ => cases hget; simp [exOps]
  | 6, _ => cases hget; simp [exOps]

/-- C75: the first use of a stream initializes the logging. -/
theorem c75_first_use (env : Env) (ops : List Op) (n : S) (hns : .shutdown ∉ ops) (hr : .regStr n ∈ ops) {m m' : M}
    (h : run env ops = some m) (h' : run env (ops ++ [.use n]) = some m')
    (hfirst : StrMap.get m.streams n = none) : initialize' env m = some m' := by
  have i := inv_run hns h
  obtain ⟨m1, e, -, hs⟩ := inv_initialize i
  rw [run_snoc, h, Option.bind_some] at h'
  simp only [step, hfirst, i.freed, e, Option.bind_some, (hs n).2 hr] at h'
  simp only [Option.isSome_none, List.not_mem_nil, if_false, if_true, reduceCtorEq] at h'
  rw [e]
  exact h'

/-- C75: a program may shut down at its end, also several times; nothing is left then. -/
theorem c75_shutdown_at_end (env : Env) (ops : List Op) (hns : .shutdown ∉ ops) (hu : UsesRegistered ops) (k : Nat) :
    ∃ m, run env (ops ++ .shutdown :: List.replicate k .shutdown) = some m ∧ m.streams = [] ∧ m.outputs = [] ∧ m.dflt = none := by
  obtain ⟨m0, hm0⟩ := Option.isSome_iff_exists.1 (c75_no_dangling_partial env ops hns hu)
  induction k with
  | zero =>
    refine ⟨shutdown m0, ?_, rfl, rfl, rfl⟩
    rw [List.replicate_zero, run_snoc, hm0, Option.bind_some]
    rfl
  | succ k ih =>
    obtain ⟨m, hm, -⟩ := ih
    refine ⟨shutdown m, ?_, rfl, rfl, rfl⟩
    rw [List.replicate_succ', ← List.cons_append, ← List.append_assoc, run_snoc, hm, Option.bind_some]
    rfl

/-- C75: after `shutdown` every access to a stream that was alive touches a deleted object: the
address of the stream is kept. -/
theorem c75_use_after_shutdown (env : Env) (ops : List Op) {m : M} (h : run env ops = some m) {n : S}
    (hs : (StrMap.get m.streams n).isSome) : run env (ops ++ [.shutdown] ++ [.use n]) = none := by
  rw [run_snoc, run_snoc, h, Option.bind_some]
  simp only [step, Option.bind_some]
  have : n ∈ (shutdown m).freed := by
    simp only [shutdown, List.mem_append]
    exact Or.inr (isSome_mem _ _ hs)
  rw [if_neg (by simp [shutdown]), if_pos this]

theorem foldlM_none {fs : List S} {n : S} (hn : n ∈ fs) : ∀ m : M, n ∈ m.freed → StrMap.Ok m.streams → StrMap.get m.streams n = none →
    fs.foldlM createStream m = none := by
  induction fs with
  | nil => cases hn
  | cons f fs ih =>
    intro m hf hok hg
    rw [List.foldlM_cons]
    by_cases hfn : f = n
    · subst hfn
      simp [createStream, hg, hf]
    · have hn' : n ∈ fs := by
        rcases List.mem_cons.1 hn with rfl | h
        · exact absurd rfl hfn
        · exact h
      unfold createStream
      split
      · exact ih hn' m hf hok hg
      · split
        · rfl
        · refine ih hn' _ hf (StrMap.ok_put hok _ _) ?_
          simp only [StrMap.get_put hok]
          rw [if_neg (fun h => hfn h.symm)]
          exact hg

/-- C75: the logging cannot be initialized again after `shutdown`: the streams of the first time are deleted, but used again. -/
theorem c75_init_after_shutdown (env : Env) (ops : List Op) (hns : .shutdown ∉ ops) {m : M} (h : run env ops = some m) {n : S}
    (hs : (StrMap.get m.streams n).isSome) : run env (ops ++ [.shutdown] ++ [.init]) = none := by
  have i := inv_run hns h
  have hn : n ∈ m.strFactories := i.strs n hs
  have hf : n ∈ m.streams.map Prod.fst := isSome_mem _ _ hs
  rw [run_snoc, run_snoc, h, Option.bind_some]
  simp only [step, Option.bind_some]
  unfold initialize' configure
  have key : ∀ m0 : M, m0.streams = [] → n ∈ m0.freed → n ∈ m0.strFactories →
      (defaultIfNeeded m0).strFactories.foldlM createStream (defaultIfNeeded m0) = none := by
    intro m0 h1 h2 h3
    have hd : (defaultIfNeeded m0).streams = [] ∧ n ∈ (defaultIfNeeded m0).freed ∧ n ∈ (defaultIfNeeded m0).strFactories := by
      unfold defaultIfNeeded createDefault
      split
      · split <;> exact ⟨h1, h2, h3⟩
      · exact ⟨h1, h2, h3⟩
    exact foldlM_none hd.2.2 _ hd.2.1 (by rw [hd.1]; exact StrMap.ok_nil) (by rw [hd.1]; rfl)
  rw [key]
  · rfl
  · rfl
  · simp only [readConfig, shutdown]
    simp only [Bool.false_eq_true, if_false, List.mem_append]
    exact Or.inr hf
  · exact hn

/-- The hypotheses are met by an ordinary program. -/
example : ((run exEnv (exOps ++ [.init])).map fun m => (StrMap.get m.streams "A".toList).isSome) = some true ∧
    (run exEnv (exOps ++ [.init] ++ [.shutdown] ++ [.use "A".toList])).isNone ∧
    (run exEnv (exOps ++ [.init] ++ [.shutdown] ++ [.init])).isNone := by decide +kernel

end Verif.Logging.Manager
