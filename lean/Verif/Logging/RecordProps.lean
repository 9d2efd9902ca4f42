import Verif.Logging.Record

/-! # C76: a log record carries the names of its own message -/
namespace Verif.Logging.Record

/-! ## Lemmas -/

/-- A C string. -/
def CStr (s : S) : Prop := '\x00' ∉ s

theorem cstr_self {s : S} (h : CStr s) : cstr s = s := by
  unfold cstr
  rw [List.takeWhile_eq_self_iff]
  intro c hc
  simp only [decide_not, Bool.not_eq_eq_eq_not, Bool.not_true, decide_eq_false_iff_not]
  exact fun e => h (e ▸ hc)

theorem cstr_term {s : S} (h : CStr s) (r : Mem) : cstr (s ++ '\x00' :: r) = s := by
  rw [cstr_append, cstr_self h]

theorem cstr_no {m : Mem} (h : '\x00' ∉ m) : cstr m = m := cstr_self h

theorem cstr_cstr (m : Mem) : CStr (cstr m) := by
  unfold CStr cstr
  intro h
  have := List.mem_takeWhile_imp h
  simp at this

/-- The C string that starts a piece of memory of `n` characters or less. -/
theorem cstr_take_lit {s : S} (h : CStr s) (n : Nat) : cstr ((lit s).take n) = s.take n := by
  unfold lit
  by_cases hn : n ≤ s.length
  · rw [List.take_append_of_le_length hn]
    exact cstr_self fun hm => h (List.mem_of_mem_take hm)
  · rw [List.take_of_length_le (by simp; omega), List.take_of_length_le (by omega)]
    exact cstr_term h []

/-- The memory after copying name `s`: the first `n` characters hold `s`. -/
def Holds (m : Mem) (n : Nat) (s : S) : Prop := m.length = n + 1 ∧ cstr (m.take n) = s.take n

theorem strncpy_lit {dst : Mem} {s : S} {n : Nat} (hs : CStr s) (hd : dst.length = n + 1) :
    ∃ m, strncpy dst (lit s) n = some m ∧ Holds m n s ∧ m[n]? = dst[n]? := by
  have hc := cstr_take_lit hs n
  refine ⟨_, if_pos ⟨by omega, Or.inl (by simp [lit])⟩, ⟨?_, ?_⟩, ?_⟩
  · rw [hc]; simp; omega
  · rw [hc]
    rw [List.take_append_of_le_length (by simp)]
    by_cases hn : n ≤ s.length
    · have : n - (s.take n).length = 0 := by simp; omega
      rw [this]
      simp only [List.replicate_zero, List.append_nil]
      rw [List.take_take, min_self]
      exact cstr_self fun hm => hs (List.mem_of_mem_take hm)
    · have hl : (s.take n).length = s.length := by simp; omega
      rw [hl, List.take_of_length_le (by omega : s.length ≤ n)]
      obtain ⟨k, hk⟩ : ∃ k, n - s.length = k + 1 := ⟨n - s.length - 1, by omega⟩
      rw [hk, List.replicate_succ, List.take_of_length_le (by simp; omega)]
      exact cstr_term hs _
  · rw [hc, List.getElem?_append_right (by simp)]
    have : n - (s.take n ++ List.replicate (n - (s.take n).length) '\x00').length = 0 := by simp
    rw [this, List.getElem?_drop]
    simp

/-- Copying from the thread stream to the message and reading it there. -/
theorem read_copy {src : Mem} {n k : Nat} {s : S} {g : Nat → Char} (h : Holds src n s) (hk : k + 1 ≤ n) (hs : CStr s) :
    ∃ m, strncpy (array (k + 1) g) src (k + 1) = some m ∧
      readC m = if s.length ≤ k then some s else none := by
  obtain ⟨hl, hc⟩ := h
  have ht : cstr (src.take (k + 1)) = s.take (k + 1) := by
    have h1 : src.take (k + 1) = (src.take n).take (k + 1) := by rw [List.take_take, min_eq_left hk]
    rw [h1]
    have key : ∀ (m : Mem) j, cstr (m.take j) = (cstr m).take j := by
      intro m
      induction m with
      | nil => intro j; simp [cstr]
      | cons c m ih =>
        intro j
        cases j with
        | zero => simp [cstr]
        | succ j =>
          unfold cstr at ih ⊢
          simp only [List.take_succ_cons, List.takeWhile_cons]
          split
          · rw [List.take_succ_cons, ih]
          · simp
    rw [key, hc, List.take_take, min_eq_left hk]
  refine ⟨_, if_pos ⟨by simp [array], Or.inr (by omega)⟩, ?_⟩
  rw [ht]
  have hd : List.drop (k + 1) (array (k + 1) g) = [] := List.drop_of_length_le (by simp [array])
  rw [hd, List.append_nil]
  unfold readC
  by_cases hle : s.length ≤ k
  · rw [List.take_of_length_le (by omega), if_pos hle]
    obtain ⟨j, hj⟩ : ∃ j, k + 1 - s.length = j + 1 := ⟨k - s.length, by omega⟩
    rw [hj, List.replicate_succ, if_pos (by simp), cstr_term hs]
  · have hz : k + 1 - (s.take (k + 1)).length = 0 := by simp; omega
    rw [hz, List.replicate_zero, List.append_nil, if_neg hle, if_neg fun hm => hs (List.mem_of_mem_take hm)]

/-- The same for the name of the stream. -/
theorem read_lit {k : Nat} {s : S} {g : Nat → Char} (hs : CStr s) :
    ∃ m, strncpy (array (k + 1) g) (lit s) (k + 1) = some m ∧ readC m = if s.length ≤ k then some s else none := by
  have ht := cstr_take_lit hs (k + 1)
  refine ⟨_, if_pos ⟨by simp [array], Or.inl (by simp [lit])⟩, ?_⟩
  rw [ht]
  have hd : List.drop (k + 1) (array (k + 1) g) = [] := List.drop_of_length_le (by simp [array])
  rw [hd, List.append_nil]
  unfold readC
  by_cases hle : s.length ≤ k
  · rw [List.take_of_length_le (by omega), if_pos hle]
    obtain ⟨j, hj⟩ : ∃ j, k + 1 - s.length = j + 1 := ⟨k - s.length, by omega⟩
    rw [hj, List.replicate_succ, if_pos (by simp), cstr_term hs]
  · have hz : k + 1 - (s.take (k + 1)).length = 0 := by simp; omega
    rw [hz, List.replicate_zero, List.append_nil, if_neg hle, if_neg fun hm => hs (List.mem_of_mem_take hm)]

/-- The arrays of a thread stream never change their size. -/
structure Sized (t : TS) : Prop where
  file : t.file.length = logSize + 1
  cls : t.cls.length = logSize + 1
  obj : t.obj.length = logSize + 1
  fn : t.fn.length = logSize + 1

theorem sized_new (l : Nat) (g g' : Nat → Char) : Sized (TS.new l g g') := by
  constructor <;> simp [TS.new, array]

/-- The names a setter is called with are C strings. -/
def Set.Legal : Set → Prop
  | .file s | .cls s | .obj s | .fn s => CStr s
  | .line _ | .level _ => True

theorem set_ok {t : TS} (h : Sized t) (x : Set) (hx : x.Legal) : ∃ t', t.set x = some t' ∧ Sized t' := by
  cases x with
  | file s =>
    obtain ⟨m, e, ⟨hl, -⟩, -⟩ := strncpy_lit (n := logSize) hx h.file
    exact ⟨{ t with file := m }, by simp only [TS.set, e]; rfl, ⟨hl, h.cls, h.obj, h.fn⟩⟩
  | line n => exact ⟨_, rfl, ⟨h.file, h.cls, h.obj, h.fn⟩⟩
  | cls s =>
    obtain ⟨m, e, ⟨hl, -⟩, -⟩ := strncpy_lit (n := logSize) hx h.cls
    exact ⟨{ t with cls := m }, by simp only [TS.set, e]; rfl, ⟨h.file, hl, h.obj, h.fn⟩⟩
  | obj s =>
    obtain ⟨m, e, ⟨hl, -⟩, -⟩ := strncpy_lit (n := logSize) hx h.obj
    exact ⟨{ t with obj := m }, by simp only [TS.set, e]; rfl, ⟨h.file, h.cls, hl, h.fn⟩⟩
  | fn s =>
    obtain ⟨m, e, ⟨hl, -⟩, -⟩ := strncpy_lit (n := logSize) hx h.fn
    exact ⟨{ t with fn := m }, by simp only [TS.set, e]; rfl, ⟨h.file, h.cls, h.obj, hl⟩⟩
  | level l => exact ⟨_, rfl, ⟨h.file, h.cls, h.obj, h.fn⟩⟩

theorem sets_ok {t : TS} (h : Sized t) (l : List Set) (hl : ∀ x ∈ l, x.Legal) :
    ∃ t', t.sets l = some t' ∧ Sized t' := by
  induction l generalizing t with
  | nil => exact ⟨t, rfl, h⟩
  | cons x l ih =>
    obtain ⟨t1, e1, h1⟩ := set_ok h x (hl x (by simp))
    obtain ⟨t2, e2, h2⟩ := ih h1 fun y hy => hl y (by simp [hy])
    refine ⟨t2, ?_, h2⟩
    unfold TS.sets at e2 ⊢
    rw [List.foldlM_cons, e1]
    exact e2

theorem macro_ok {t : TS} (h : Sized t) (level : Nat) (file : S) (line : Nat) (cls obj fn : S)
    (h1 : CStr file) (h2 : CStr cls) (h3 : CStr obj) (h4 : CStr fn) :
    ∃ t', t.sets (macroSets level file line cls obj fn) = some t' ∧ t'.lineLevel = level ∧ t'.line = line ∧
      Holds t'.file logSize file ∧ Holds t'.cls logSize cls ∧ Holds t'.obj logSize obj ∧ Holds t'.fn logSize fn := by
  obtain ⟨m1, e1, i1, -⟩ := strncpy_lit (n := logSize) h1 h.file
  obtain ⟨m2, e2, i2, -⟩ := strncpy_lit (n := logSize) h2 h.cls
  obtain ⟨m3, e3, i3, -⟩ := strncpy_lit (n := logSize) h3 h.obj
  obtain ⟨m4, e4, i4, -⟩ := strncpy_lit (n := logSize) h4 h.fn
  refine ⟨⟨level, m1, line, m2, m3, m4⟩, ?_, rfl, rfl, i1, i2, i3, i4⟩
  simp only [TS.sets, macroSets, List.foldlM_cons, List.foldlM_nil, TS.set, e1, e2, e3, e4, Option.map_some,
    Option.bind_eq_bind, Option.bind_some, Option.pure_def]

theorem flush_ok {t : TS} {stream file cls obj fn : S} (g : Nat → Nat → Char) (h0 : CStr stream)
    (h1 : CStr file) (h2 : CStr cls) (h3 : CStr obj) (h4 : CStr fn)
    (i1 : Holds t.file logSize file) (i2 : Holds t.cls logSize cls) (i3 : Holds t.obj logSize obj)
    (i4 : Holds t.fn logSize fn) :
    t.flush stream g =
      if stream.length ≤ 256 ∧ file.length ≤ 1024 ∧ cls.length ≤ 256 ∧ obj.length ≤ 1024 ∧ fn.length ≤ 256 then
        some ⟨t.lineLevel, stream, file, t.line, cls, obj, fn⟩
      else none := by
  obtain ⟨m0, e0, r0⟩ := read_lit (k := maxId) (g := g 0) h0
  obtain ⟨m1, e1, r1⟩ := read_copy (k := maxDesc) (g := g 1) i1 (by decide) h1
  obtain ⟨m2, e2, r2⟩ := read_copy (k := maxId) (g := g 2) i2 (by decide) h2
  obtain ⟨m3, e3, r3⟩ := read_copy (k := maxDesc) (g := g 3) i3 (by decide) h3
  obtain ⟨m4, e4, r4⟩ := read_copy (k := maxId) (g := g 4) i4 (by decide) h4
  unfold maxId at r0 r2 r4
  unfold maxDesc at r1 r3
  unfold TS.flush LogMessage.new
  simp only [e0, e1, e2, e3, e4, Option.bind_eq_bind, Option.bind_some, Option.pure_def, LogMessage.read, r0, r1, r2, r3, r4]
  by_cases a0 : stream.length ≤ 256
  · by_cases a1 : file.length ≤ 1024
    · by_cases a2 : cls.length ≤ 256
      · by_cases a3 : obj.length ≤ 1024
        · by_cases a4 : fn.length ≤ 256 <;> simp [a0, a1, a2, a3, a4]
        · simp [a0, a1, a2, a3]
      · simp [a0, a1, a2]
    · simp [a0, a1]
  · simp [a0]

/-! ## The property -/

/-- C76, partial: whatever has been logged before with this thread stream, and whatever the memory contained, the
record of a log statement carries the level, stream, file, line, class, object and function of this
statement, if the stream, class and function names have at most 256 characters and the file and
object names at most 1024.  (Missing: longer names, which the program reads beyond the end of the array, see
`c76_long_names`.) -/
theorem c76_record_partial (l0 : Nat) (g1 g2 : Nat → Char) (before : List Set) (hb : ∀ x ∈ before, x.Legal)
    (stream : S) (level : Nat) (file : S) (line : Nat) (cls obj fn : S) (g : Nat → Nat → Char)
    (h0 : CStr stream) (h1 : CStr file) (h2 : CStr cls) (h3 : CStr obj) (h4 : CStr fn)
    (b0 : stream.length ≤ 256) (b1 : file.length ≤ 1024) (b2 : cls.length ≤ 256) (b3 : obj.length ≤ 1024)
    (b4 : fn.length ≤ 256) :
    ((TS.new l0 g1 g2).sets (before ++ macroSets level file line cls obj fn)).bind (·.flush stream g) =
      some ⟨level, stream, file, line, cls, obj, fn⟩ := by
  obtain ⟨t, e, s⟩ := sets_ok (sized_new l0 g1 g2) before hb
  obtain ⟨t', e', a1, a2, i1, i2, i3, i4⟩ := macro_ok s level file line cls obj fn h1 h2 h3 h4
  unfold TS.sets at e e' ⊢
  rw [List.foldlM_append, e]
  simp only [Option.bind_eq_bind, Option.bind_some]
  rw [e', Option.bind_some, flush_ok g h0 h1 h2 h3 h4 i1 i2 i3 i4, if_pos ⟨b0, b1, b2, b3, b4⟩, a1, a2]

/-- C76, the missing part: if one of the names is longer, the program reads beyond the end of the
array of this name: the name in the message has no terminator. -/
theorem c76_long_names (l0 : Nat) (g1 g2 : Nat → Char) (before : List Set) (hb : ∀ x ∈ before, x.Legal)
    (stream : S) (level : Nat) (file : S) (line : Nat) (cls obj fn : S) (g : Nat → Nat → Char)
    (h0 : CStr stream) (h1 : CStr file) (h2 : CStr cls) (h3 : CStr obj) (h4 : CStr fn)
    (hl : stream.length > 256 ∨ file.length > 1024 ∨ cls.length > 256 ∨ obj.length > 1024 ∨ fn.length > 256) :
    ((TS.new l0 g1 g2).sets (before ++ macroSets level file line cls obj fn)).bind (·.flush stream g) = none := by
  obtain ⟨t, e, s⟩ := sets_ok (sized_new l0 g1 g2) before hb
  obtain ⟨t', e', a1, a2, i1, i2, i3, i4⟩ := macro_ok s level file line cls obj fn h1 h2 h3 h4
  unfold TS.sets at e e' ⊢
  rw [List.foldlM_append, e]
  simp only [Option.bind_eq_bind, Option.bind_some]
  rw [e', Option.bind_some, flush_ok g h0 h1 h2 h3 h4 i1 i2 i3 i4, if_neg (by omega)]

/-- The setters never write outside their arrays, for names of any length. -/
theorem c76_setters_safe (l0 : Nat) (g1 g2 : Nat → Char) (l : List Set) (hl : ∀ x ∈ l, x.Legal) :
    ((TS.new l0 g1 g2).sets l).isSome := by
  obtain ⟨t, e, -⟩ := sets_ok (sized_new l0 g1 g2) l hl
  rw [e]
  rfl

theorem legal_macro {level : Nat} {file : S} {line : Nat} {cls obj fn : S} (h1 : CStr file) (h2 : CStr cls) (h3 : CStr obj)
    (h4 : CStr fn) : ∀ x ∈ macroSets level file line cls obj fn, x.Legal := by
  intro x hx
  simp only [macroSets, List.mem_cons, List.not_mem_nil, or_false] at hx
  rcases hx with rfl | rfl | rfl | rfl | rfl | rfl
  · trivial
  · exact h1
  · trivial
  · exact h2
  · exact h3
  · exact h4

/-- C76: the names are not reset by `flush`, against the documentation of the setters: a second message on the same thread stream
for which nothing is set carries the names of the first one. -/
theorem c76_not_reset (l0 : Nat) (g1 g2 : Nat → Char)
    (stream : S) (level : Nat) (file : S) (line : Nat) (cls obj fn : S) (g : Nat → Nat → Char)
    (h0 : CStr stream) (h1 : CStr file) (h2 : CStr cls) (h3 : CStr obj) (h4 : CStr fn)
    (b0 : stream.length ≤ 256) (b1 : file.length ≤ 1024) (b2 : cls.length ≤ 256) (b3 : obj.length ≤ 1024)
    (b4 : fn.length ≤ 256) (level2 line2 : Nat) :
    ((TS.new l0 g1 g2).sets (macroSets level file line cls obj fn ++ [.level level2, .line line2])).bind (·.flush stream g) =
      some ⟨level2, stream, file, line2, cls, obj, fn⟩ := by
  obtain ⟨t', e', a1, a2, i1, i2, i3, i4⟩ := macro_ok (sized_new l0 g1 g2) level file line cls obj fn h1 h2 h3 h4
  unfold TS.sets at e' ⊢
  rw [List.foldlM_append, e']
  simp only [Option.bind_eq_bind, Option.bind_some, List.foldlM_cons, List.foldlM_nil, TS.set, Option.pure_def]
  rw [flush_ok (t := { t' with lineLevel := level2, line := line2 }) g h0 h1 h2 h3 h4 i1 i2 i3 i4,
    if_pos ⟨b0, b1, b2, b3, b4⟩]

theorem array_zero (n : Nat) : array n (fun _ => '\x00') = List.replicate n '\x00' := by
  unfold array
  rw [List.map_const', List.length_range]

theorem holds_zero (n : Nat) (hn : n ≠ 0) : Holds (List.replicate (n + 1) '\x00') n [] := by
  obtain ⟨k, rfl⟩ := Nat.exists_eq_succ_of_ne_zero hn
  refine ⟨by simp, ?_⟩
  rw [List.take_replicate]
  simp [cstr, List.replicate_succ]

theorem holds_x (n : Nat) (hn : 2 ≤ n) : Holds (array (n + 1) (fun i => if i = 0 then 'x' else '\x00')) n ['x'] := by
  obtain ⟨k, rfl⟩ : ∃ k, n = k + 2 := ⟨n - 2, by omega⟩
  refine ⟨by simp [array], ?_⟩
  have h2 : array (k + 2 + 1) (fun i => if i = 0 then 'x' else '\x00') = 'x' :: List.replicate (k + 2) '\x00' := by
    unfold array
    rw [List.range_succ_eq_map, List.map_cons, List.map_map]
    simp only [if_true]
    congr 1
    rw [show ((fun i => if i = 0 then 'x' else '\x00') ∘ Nat.succ) = fun _ => '\x00' from rfl, List.map_const',
      List.length_range]
  rw [h2]
  simp [cstr, List.replicate_succ]

/-- C76: a message for which no file name has been set carries what was in the memory before. -/
theorem c76_uninitialised (g : Nat → Nat → Char) :
    ((TS.new 2 (fun i => if i = 0 then 'x' else '\x00') (fun _ => '\x00')).flush "A".toList g).map (·.file) = some ['x'] := by
  have hz := holds_zero logSize (by decide)
  have hn := array_zero (logSize + 1)
  have hf := holds_x logSize (by decide)
  have ho : Holds (TS.new 2 (fun i => if i = 0 then 'x' else '\x00') (fun _ => '\x00')).obj logSize [] := by
    unfold TS.new
    generalize logSize = n at hz hn ⊢
    simp only
    rw [hn]
    exact hz
  have hf' : Holds (TS.new 2 (fun i => if i = 0 then 'x' else '\x00') (fun _ => '\x00')).file logSize ['x'] := by
    unfold TS.new
    generalize logSize = n at hf ⊢
    exact hf
  have hc : Holds (TS.new 2 (fun i => if i = 0 then 'x' else '\x00') (fun _ => '\x00')).cls logSize [] := by
    unfold TS.new
    generalize logSize = n at hz ⊢
    exact hz
  have hfn : Holds (TS.new 2 (fun i => if i = 0 then 'x' else '\x00') (fun _ => '\x00')).fn logSize [] := by
    unfold TS.new
    generalize logSize = n at hz ⊢
    exact hz
  rw [flush_ok (stream := "A".toList) (file := ['x']) (cls := []) (obj := []) (fn := []) g
    (by unfold CStr; decide +kernel) (by unfold CStr; decide) (by unfold CStr; decide)
    (by unfold CStr; decide) (by unfold CStr; decide) hf' hc ho hfn, if_pos (by decide +kernel)]
  rfl

/-- C76: a message for which no line has been set carries line 0 and the level of the stream, whatever the memory was. -/
theorem c76_no_line (level : Nat) (stream : S) (g g' : Nat → Char) (h : Nat → Nat → Char) (r : Rec)
    (hr : (TS.new level g g').flush stream h = some r) : r.line = 0 ∧ r.level = level := by
  unfold TS.flush at hr
  obtain ⟨m, hm, hr⟩ := Option.bind_eq_some_iff.1 hr
  unfold LogMessage.new at hm
  unfold LogMessage.read at hr
  obtain ⟨_, -, hm⟩ := Option.bind_eq_some_iff.1 hm
  obtain ⟨_, -, hm⟩ := Option.bind_eq_some_iff.1 hm
  obtain ⟨_, -, hm⟩ := Option.bind_eq_some_iff.1 hm
  obtain ⟨_, -, hm⟩ := Option.bind_eq_some_iff.1 hm
  obtain ⟨_, -, hm⟩ := Option.bind_eq_some_iff.1 hm
  obtain ⟨_, -, hr⟩ := Option.bind_eq_some_iff.1 hr
  obtain ⟨_, -, hr⟩ := Option.bind_eq_some_iff.1 hr
  obtain ⟨_, -, hr⟩ := Option.bind_eq_some_iff.1 hr
  obtain ⟨_, -, hr⟩ := Option.bind_eq_some_iff.1 hr
  obtain ⟨_, -, hr⟩ := Option.bind_eq_some_iff.1 hr
  have hm' := Option.some.inj hm
  have hr' := Option.some.inj hr
  rw [← hr', ← hm']
  exact ⟨rfl, rfl⟩

/-- An ordinary log statement meets the hypotheses; the memory and the statement before it have other names. -/
example : ((TS.new 2 (fun _ => 'g') (fun _ => 'g')).sets
      (macroSets 4 "main.cpp".toList 7 "Foo".toList "foo1".toList "run".toList ++
        macroSets 3 "b.cpp".toList 12 [] [] "main".toList)).bind (·.flush "Default".toList fun _ _ => 'g') =
    some ⟨3, "Default".toList, "b.cpp".toList, 12, [], [], "main".toList⟩ := by
  refine c76_record_partial _ _ _ _ (legal_macro ?_ ?_ ?_ ?_) _ _ _ _ _ _ _ _ ?_ ?_ ?_ ?_ ?_ ?_ ?_ ?_ ?_ ?_
  all_goals first | (unfold CStr; decide +kernel) | decide +kernel

end Verif.Logging.Record
