import Verif.Config.FilePathProps

/-! # C37: which file a `FilePath` means -/
namespace Verif.FP

/-- The text of a relative name: the directories, each followed by a slash, and the last component. -/
def relText (cs : List S) (last : S) : S := cs.flatMap (· ++ ['/']) ++ last

theorem relText_render (cs : List S) (last : S) : '/' :: relText cs last = render cs ++ '/' :: last := by
  induction cs with
  | nil => rfl
  | cons c cs ih =>
    have : relText (c :: cs) last = c ++ '/' :: relText cs last := by simp [relText]
    rw [this, ih]; simp [render]

theorem relText_relative (cs : List S) (last : S) (hcs : ∀ c ∈ cs, Comp c) (hl : '/' ∉ last) :
    isRelative (relText cs last) = true := by
  cases cs with
  | nil =>
    cases last with
    | nil => rfl
    | cons x xs =>
      have : x ≠ '/' := fun h => hl (by simp [h])
      simp [relText, isRelative, this]
  | cons c cs =>
    obtain ⟨h1, h2, _, _⟩ := hcs c (by simp)
    cases c with
    | nil => exact absurd rfl h1
    | cons x xs =>
      have : x ≠ '/' := fun h => h2 (by simp [h])
      simp [relText, isRelative, this]

theorem resolve_plain : ∀ (cs st : List S), (∀ c ∈ cs, c ≠ ['.'] ∧ c ≠ ['.', '.']) →
    resolve st cs = st ++ cs ∧ StaysBelowRoot st cs
  | [], st, _ => by simp [resolve, StaysBelowRoot]
  | c :: cs, st, h => by
    obtain ⟨c1, c2⟩ := h c (by simp)
    have := resolve_plain cs (st ++ [c]) (fun x hx => h x (by simp [hx]))
    simp only [resolve, StaysBelowRoot, c1, c2, if_false]
    simpa using this

theorem split_file (env : Env) (k : Nat) (f : S) (p : FilePath) (h : init env k f = some p) (d : List S) (last : S)
    (hl : '/' ∉ last) (hf : p.file = render d ++ '/' :: last) :
    p.absoluteName = render d ++ '/' :: last ∧ p.path = render d ++ ['/'] ∧ p.name = last := by
  have hs := (init_split h).1
  have hr : rfind '/' p.file = some (render d).length := by rw [hf]; exact rfind_append '/' _ _ hl
  rw [hr] at hs
  have e : p.file = (render d ++ ['/']) ++ last := by rw [hf]; simp
  have e2 : p.nameSplit = (render d ++ ['/']).length := by rw [hs]; simp
  refine ⟨hf, ?_, ?_⟩
  · rw [FilePath.path, e2, e, List.take_left]
  · rw [FilePath.name, e2, e, List.drop_left]

/-- C37: an absolute name of proper components that stays below the root means the file its components say, whatever the working
directory.  (Missing for other names: see the counterexamples of C37.) -/
theorem c37_absolute_file_partial (env : Env) (k : Nat) (cs : List S) (last : S) (hcs : ∀ c ∈ cs, Comp c)
    (hl : '/' ∉ last ∧ '\\' ∉ last) (hsafe : StaysBelowRoot [] cs) (hk : cs.length ≤ k)
    (hpwd : ((env ['P', 'W', 'D']).getD []).length < k) :
    ∃ p, init env k (render cs ++ '/' :: last) = some p ∧
      p.absoluteName = render (resolve [] cs) ++ '/' :: last ∧ p.path = render (resolve [] cs) ++ ['/'] ∧ p.name = last := by
  obtain ⟨pw, hpw⟩ := c37_normalize_terminates ((env ['P', 'W', 'D']).getD []) k hpwd
  have hn := c37_normalize_resolves_partial cs last k hcs hl hsafe hk
  have hi := c37_normalize_idempotent_partial cs last _ k hcs hl hsafe hk hn
  have hb : '\\' ∉ render cs ++ '/' :: last := by
    simp only [List.mem_append, List.mem_cons, not_or]
    exact ⟨render_back cs (fun c hc => (hcs c hc).back), by decide, hl.2⟩
  have hrel : isRelative (render cs ++ '/' :: last) = false := by cases cs <;> simp [render, isRelative]
  have h : ∃ p, init env k (render cs ++ '/' :: last) = some p ∧ p.file = render (resolve [] cs) ++ '/' :: last := by
    simp only [init, hpw, Option.bind_eq_bind, Option.bind_some, exchange_id _ hb, absolutePath, hrel, Bool.false_eq_true, if_false, hn, hi]
    exact ⟨_, rfl, rfl⟩
  obtain ⟨p, h1, h2⟩ := h
  exact ⟨p, h1, split_file env k _ p h1 _ _ hl.1 h2⟩

/-- C37: a relative name means the file its components say, starting at the working directory.  `ws` and `w` are the
components of the working directory, as the shell sets them (no `.`, no `..`, not the root). -/
theorem c37_relative_file_partial (env : Env) (k : Nat) (ws : List S) (w : S) (cs : List S) (last : S)
    (hpwd : env ['P', 'W', 'D'] = some (render (ws ++ [w])))
    (hws : ∀ c ∈ ws ++ [w], Comp c ∧ c ≠ ['.'] ∧ c ≠ ['.', '.'])
    (hcs : ∀ c ∈ cs, Comp c) (hl : '/' ∉ last ∧ '\\' ∉ last) (hsafe : StaysBelowRoot [] (ws ++ [w] ++ cs))
    (hk : ws.length + cs.length + 1 ≤ k) :
    ∃ p, init env k (relText cs last) = some p ∧
      p.absoluteName = render (resolve [] (ws ++ [w] ++ cs)) ++ '/' :: last ∧
      p.path = render (resolve [] (ws ++ [w] ++ cs)) ++ ['/'] ∧ p.name = last := by
  have hall : ∀ c ∈ ws ++ [w] ++ cs, Comp c := by
    intro c hc
    rcases List.mem_append.1 hc with hc | hc
    · exact (hws c hc).1
    · exact hcs c hc
  have hw := hws w (by simp)
  have hp1 := resolve_plain ws [] (fun c hc => (hws c (by simp [hc])).2)
  have hpw : normalize k (render (ws ++ [w])) = some (render (ws ++ [w])) := by
    have := c37_normalize_resolves_partial ws w k (fun c hc => (hws c (by simp [hc])).1) ⟨hw.1.slash, hw.1.back⟩ hp1.2 (by omega)
    rw [hp1.1] at this
    have e : render (ws ++ [w]) = render ws ++ '/' :: w := by rw [render_append]; simp [render]
    rw [e]; simpa using this
  have hlen : (ws ++ [w] ++ cs).length ≤ k := by simp; omega
  have hn := c37_normalize_resolves_partial (ws ++ [w] ++ cs) last k hall hl hsafe hlen
  have hi := c37_normalize_idempotent_partial (ws ++ [w] ++ cs) last _ k hall hl hsafe hlen hn
  have hb : '\\' ∉ relText cs last := by
    have h1 : '\\' ∉ '/' :: relText cs last := by
      rw [relText_render]
      simp only [List.mem_append, List.mem_cons, not_or]
      exact ⟨render_back cs (fun c hc => (hcs c hc).back), by decide, hl.2⟩
    intro h; exact h1 (List.mem_cons_of_mem _ h)
  have hrel := relText_relative cs last hcs hl.1
  have hcat : render (ws ++ [w]) ++ '/' :: relText cs last = render (ws ++ [w] ++ cs) ++ '/' :: last := by
    rw [relText_render, render_append (ws ++ [w]) cs, List.append_assoc]
  have h : ∃ p, init env k (relText cs last) = some p ∧ p.file = render (resolve [] (ws ++ [w] ++ cs)) ++ '/' :: last := by
    simp only [init, hpwd, Option.getD_some, hpw, Option.bind_eq_bind, Option.bind_some, exchange_id _ hb, absolutePath, hrel,
      if_true, hcat, hn, hi]
    exact ⟨_, rfl, rfl⟩
  obtain ⟨p, h1, h2⟩ := h
  exact ⟨p, h1, split_file env k _ p h1 _ _ hl.1 h2⟩

/-- C37: backslashes are separators too. -/
theorem c37_backslashes (env : Env) (k : Nat) (f : S) : init env k f = init env k (exchange f) := by
  have h : exchange (exchange f) = exchange f := by
    unfold exchange
    rw [List.map_map]
    congr 1
    funext c
    simp only [Function.comp]
    split
    · decide
    · rfl
  simp only [init, h]

/-- C37: in the root directory, relative names get a second leading slash. -/
theorem c37_root_double_slash :
    (init (fun n => if n = "PWD".toList then some ['/'] else none) 40 "a.conf".toList).map FilePath.absoluteName
      = some "//a.conf".toList := by decide +kernel

example : relText ["..".toList, "v".toList] "a.b.conf".toList = "../v/a.b.conf".toList ∧
    render (["home".toList] ++ ["u".toList]) = "/home/u".toList ∧
    render (resolve [] (["home".toList] ++ ["u".toList] ++ ["..".toList, "v".toList])) = "/home/v".toList ∧
    StaysBelowRoot [] (["home".toList] ++ ["u".toList] ++ ["..".toList, "v".toList]) := by
  refine ⟨by decide +kernel, by decide +kernel, by decide +kernel, ?_⟩
  simp [StaysBelowRoot]

end Verif.FP
