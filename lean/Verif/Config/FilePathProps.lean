import Verif.Config.FilePathModel
import Mathlib.Data.List.Basic

/-!
# Property C37: `FilePath`
-/
namespace Verif.FP

/-! ## Specification: absolute paths as lists of components -/

/-- The text of an absolute path: every component preceded by a slash. -/
def render (cs : List S) : S := cs.flatMap ('/' :: ·)

/-- What a list of components means: `.` stays, `..` goes up. The first argument is the
directory reached so far, innermost last. -/
def resolve : List S → List S → List S
  | st, [] => st
  | st, c :: cs =>
    if c = ['.'] then resolve st cs
    else if c = ['.', '.'] then resolve st.dropLast cs
    else resolve (st ++ [c]) cs

/-- `..` is never applied to the root directory. -/
def StaysBelowRoot : List S → List S → Prop
  | _, [] => True
  | st, c :: cs =>
    if c = ['.'] then StaysBelowRoot st cs
    else if c = ['.', '.'] then st ≠ [] ∧ StaysBelowRoot st.dropLast cs
    else StaysBelowRoot (st ++ [c]) cs

/-- A component of a path: not empty, no separator, and not ending in a colon (which the
code takes for a drive letter). -/
structure Comp (c : S) : Prop where
  ne : c ≠ []
  slash : '/' ∉ c
  back : '\\' ∉ c
  colon : c.getLast? ≠ some ':'

/-! ## Helper lemmas -/

theorem rfind_none (ch : Char) (s : S) (h : ch ∉ s) : rfind ch s = none := by
  induction s with
  | nil => rfl
  | cons c cs ih =>
    simp only [List.mem_cons, not_or] at h
    have hc : ¬ c = ch := fun e => h.1 e.symm
    simp [rfind, ih h.2, hc]

theorem rfind_append (ch : Char) (a b : S) (h : ch ∉ b) : rfind ch (a ++ ch :: b) = some a.length := by
  induction a with
  | nil => simp [rfind, rfind_none ch b h]
  | cons c cs ih => simp [rfind, ih]

theorem rfind_some {ch : Char} {s : S} {i : Nat} (h : rfind ch s = some i) :
    ∃ a b, s = a ++ ch :: b ∧ a.length = i ∧ ch ∉ b := by
  induction s generalizing i with
  | nil => simp [rfind] at h
  | cons c cs ih =>
    simp only [rfind] at h
    split at h
    · rename_i j hj
      cases h
      obtain ⟨a, b, h1, h2, h3⟩ := ih hj
      exact ⟨c :: a, b, by rw [h1]; rfl, by simp [h2], h3⟩
    · rename_i hj
      split at h
      · rename_i hc
        cases h
        refine ⟨[], cs, by rw [hc]; rfl, rfl, ?_⟩
        intro hm
        obtain ⟨a, b, hab⟩ := List.append_of_mem hm
        have : ∀ s : S, ch ∈ s → rfind ch s ≠ none := by
          intro s
          induction s with
          | nil => simp
          | cons x xs ihx =>
            intro hx
            simp only [rfind]
            split
            · simp
            · rename_i hn
              split
              · simp
              · rename_i hxc
                rcases List.mem_cons.1 hx with rfl | hx
                · exact absurd rfl hxc
                · exact absurd hn (ihx hx)
        exact this cs hm hj
      · cases h

theorem rfind_eq_none {ch : Char} {s : S} (h : rfind ch s = none) : ch ∉ s := by
  intro hm
  induction s with
  | nil => simp at hm
  | cons c cs ih =>
    simp only [rfind] at h
    split at h
    · cases h
    · rename_i hj
      split at h
      · cases h
      · rename_i hc
        rcases List.mem_cons.1 hm with rfl | hm
        · exact hc rfl
        · exact ih hj hm

theorem find_some {n s : S} {i : Nat} (h : find n s = some i) :
    ∃ a b, s = a ++ n ++ b ∧ a.length = i := by
  induction s generalizing i with
  | nil =>
    simp only [find] at h
    split at h
    · rename_i hp
      cases h
      obtain ⟨b, hb⟩ := List.isPrefixOf_iff_prefix.1 hp
      exact ⟨[], b, by simp [hb], rfl⟩
    · cases h
  | cons c cs ih =>
    simp only [find] at h
    split at h
    · rename_i hp
      cases h
      obtain ⟨b, hb⟩ := List.isPrefixOf_iff_prefix.1 hp
      exact ⟨[], b, by simp [hb], rfl⟩
    · simp only [Option.map_eq_some_iff] at h
      obtain ⟨j, hj, rfl⟩ := h
      obtain ⟨a, b, h1, h2⟩ := ih hj
      exact ⟨c :: a, b, by rw [h1]; rfl, by simp [h2]⟩

theorem findFrom_some {n s : S} {st i : Nat} (h : findFrom n s st = some i) :
    ∃ a b, s = a ++ n ++ b ∧ a.length = i ∧ st ≤ i ∨ (s.length < st ∧ n = []) := by
  simp only [findFrom, Option.map_eq_some_iff] at h
  obtain ⟨j, hj, rfl⟩ := h
  obtain ⟨a, b, h1, h2⟩ := find_some hj
  by_cases hl : st ≤ s.length
  · refine ⟨s.take st ++ a, b, .inl ⟨?_, ?_, by omega⟩⟩
    · have : s = s.take st ++ s.drop st := (List.take_append_drop st s).symm
      rw [h1] at this
      simpa using this
    · simp [h2, Nat.min_eq_left hl, Nat.add_comm]
  · refine ⟨[], [], .inr ⟨by omega, ?_⟩⟩
    have : s.drop st = [] := List.drop_eq_nil_of_le (by omega)
    rw [this] at h1
    have := congrArg List.length h1
    simp at this
    exact List.eq_nil_of_length_eq_zero (by omega)

/-- The part of the string from the position found. -/
theorem findFrom_drop {n s : S} {st i : Nat} (hn : n ≠ []) (h : findFrom n s st = some i) :
    n.isPrefixOf (s.drop i) ∧ st ≤ i ∧ i + n.length ≤ s.length := by
  obtain ⟨a, b, ⟨h1, h2, h3⟩ | ⟨_, h4⟩⟩ := findFrom_some h
  · subst h2
    refine ⟨?_, h3, ?_⟩
    · rw [h1]
      simp only [List.append_assoc, List.drop_left]
      exact List.isPrefixOf_iff_prefix.2 (List.prefix_append n b)
    · rw [h1]; simp
  · exact absurd h4 hn

/-! ## Termination -/

theorem dotLoop_terminates (k : Nat) (f : S) (d : Option Nat)
    (h : ∀ i, d = some i → i + 3 ≤ f.length ∧ f.length - i < k) :
    ∃ g, dotLoop k f d = some g := by
  induction k generalizing f d with
  | zero =>
    cases d with
    | none => exact ⟨f, by simp [dotLoop]⟩
    | some i => exact absurd (h i rfl).2 (by omega)
  | succ k ih =>
    cases d with
    | none => exact ⟨f, by simp [dotLoop]⟩
    | some i =>
      simp only [dotLoop]
      apply ih
      intro j hj
      obtain ⟨h1, h2, h3⟩ := findFrom_drop (by simp) hj
      obtain ⟨h4, h5⟩ := h i rfl
      simp only [List.length_append, List.length_take, List.length_drop, List.length_cons,
        List.length_nil] at h3 ⊢
      omega

theorem slashBefore_lt {f : S} {d sl : Nat} (h : slashBefore f d = some sl) :
    sl < f.length := by
  simp only [slashBefore] at h
  split at h
  · obtain ⟨a, b, h1, h2, _⟩ := rfind_some h
    rw [h1]; simp; omega
  · obtain ⟨a, b, h1, h2, _⟩ := rfind_some h
    have := congrArg List.length h1
    simp at this; omega

theorem upLoop_terminates (k : Nat) (f : S) (d : Option Nat)
    (h : ∀ i, d = some i → i + 4 ≤ f.length ∧ f.length - i < k) :
    ∃ g, upLoop k f d = some g := by
  induction k generalizing f d with
  | zero =>
    cases d with
    | none => exact ⟨f, by simp [upLoop]⟩
    | some i => exact absurd (h i rfl).2 (by omega)
  | succ k ih =>
    cases d with
    | none => exact ⟨f, by simp [upLoop]⟩
    | some i =>
      obtain ⟨h4, h5⟩ := h i rfl
      simp only [upLoop]
      split
      · rename_i sl hsl
        have hlt := slashBefore_lt hsl
        split
        · apply ih
          intro j hj
          obtain ⟨h1, h2, h3⟩ := findFrom_drop (by simp) hj
          simp only [List.length_append, List.length_take, List.length_drop, List.length_cons,
            List.length_nil] at h3 ⊢
          omega
        · exact ⟨_, rfl⟩
      · split
        · apply ih
          intro j hj
          obtain ⟨h1, h2, h3⟩ := findFrom_drop (by simp) hj
          simp only [List.length_drop, List.length_cons, List.length_nil] at h3 ⊢
          omega
        · exact ⟨_, rfl⟩

theorem dotLoop_length {k : Nat} {f g : S} {d : Option Nat} (h : dotLoop k f d = some g) :
    g.length ≤ f.length := by
  induction k generalizing f d with
  | zero =>
    cases d with
    | none => simp [dotLoop] at h; rw [h]; exact Nat.le_refl _
    | some i => simp [dotLoop] at h
  | succ k ih =>
    cases d with
    | none => simp [dotLoop] at h; rw [h]; exact Nat.le_refl _
    | some i =>
      simp only [dotLoop] at h
      have := ih h
      simp at this; omega

theorem stripDot_length (s : S) : (stripDot s).length ≤ s.length := by
  fun_induction stripDot s with
  | case1 r ih => simp; omega
  | case2 => exact Nat.le_refl _

/-- C37: `normalizePath` terminates on every string, within as many iterations of each
loop as the string has characters (plus one). -/
theorem c37_normalize_terminates (f : S) (k : Nat) (hk : f.length < k) :
    ∃ g, normalize k f = some g := by
  simp only [normalize]
  split
  · exact ⟨_, rfl⟩
  · have hl : (stripDot (exchange f)).length ≤ f.length := by
      have := stripDot_length (exchange f)
      simpa [exchange] using this
    obtain ⟨g, hg⟩ := dotLoop_terminates k (stripDot (exchange f))
      (findFrom ['/', '.', '/'] (stripDot (exchange f)) 0) (by
        intro i hi
        obtain ⟨h1, h2, h3⟩ := findFrom_drop (by simp) hi
        simp at h3; omega)
    simp only [hg]
    have hgl := dotLoop_length hg
    obtain ⟨g2, hg2⟩ := upLoop_terminates k g (findFrom ['/', '.', '.', '/'] g 0) (by
        intro i hi
        obtain ⟨h1, h2, h3⟩ := findFrom_drop (by simp) hi
        simp at h3; omega)
    exact ⟨stripDot g2, by simp [hg2]⟩

theorem slashBefore_lt' {f : S} {d sl : Nat} (hd : d ≠ 0) (h : slashBefore f d = some sl) :
    sl < d := by
  simp only [slashBefore, if_neg hd] at h
  obtain ⟨a, b, h1, h2, _⟩ := rfind_some h
  have := congrArg List.length h1
  simp at this; omega

theorem upLoop_length {k : Nat} {f g : S} {d : Option Nat} {N : Nat} (h : upLoop k f d = some g)
    (hf : f.length ≤ 2 * N) (hd : ∀ i, d = some i → i + 4 ≤ f.length ∧ f.length - i ≤ N) :
    g.length ≤ 2 * N := by
  induction k generalizing f d with
  | zero =>
    cases d with
    | none => simp [upLoop] at h; rw [← h]; exact hf
    | some i => simp [upLoop] at h
  | succ k ih =>
    cases d with
    | none => simp [upLoop] at h; rw [← h]; exact hf
    | some i =>
      obtain ⟨h4, h5⟩ := hd i rfl
      simp only [upLoop] at h
      split at h
      · rename_i sl hsl
        have hlt := slashBefore_lt hsl
        split at h
        · refine ih h ?_ ?_
          · by_cases hi : i = 0
            · subst hi; simp; omega
            · have := slashBefore_lt' hi hsl
              simp; omega
          · intro j hj
            obtain ⟨h1, h2, h3⟩ := findFrom_drop (by simp) hj
            simp only [List.length_append, List.length_take, List.length_drop, List.length_cons,
              List.length_nil] at h3 ⊢
            omega
        · simp at h; rw [← h]; exact hf
      · split at h
        · refine ih h (by simp; omega) ?_
          intro j hj
          obtain ⟨h1, h2, h3⟩ := findFrom_drop (by simp) hj
          simp only [List.length_drop, List.length_cons, List.length_nil] at h3 ⊢
          omega
        · simp at h; rw [← h]; exact hf

/-- C37: normalising never makes a path more than twice as long. -/
theorem c37_normalize_length (k : Nat) (f g : S) (h : normalize k f = some g) :
    g.length ≤ 2 * f.length := by
  simp only [normalize] at h
  split at h
  · simp at h; rw [← h]; omega
  · have hl : (stripDot (exchange f)).length ≤ f.length := by
      have := stripDot_length (exchange f)
      simpa [exchange] using this
    split at h
    · cases h
    · rename_i f2 hf2
      have hl2 := dotLoop_length hf2
      simp only [Option.map_eq_some_iff] at h
      obtain ⟨g2, hg2, rfl⟩ := h
      refine Nat.le_trans (stripDot_length _) (upLoop_length (N := f.length) hg2 (by omega) ?_)
      intro i hi
      obtain ⟨h1, h2, h3⟩ := findFrom_drop (by simp) hi
      simp at h3; omega

/-- C37: constructing a `FilePath` terminates for every name and environment. -/
theorem c37_init_terminates (env : Env) (filename : S) (k : Nat) (hk : initBudget env filename ≤ k) :
    ∃ p, init env k filename = some p := by
  simp only [initBudget] at hk
  obtain ⟨pwd, h1⟩ := c37_normalize_terminates ((env ['P', 'W', 'D']).getD []) k (by omega)
  have l1 := c37_normalize_length _ _ _ h1
  have le : (exchange filename).length = filename.length := by simp [exchange]
  have h2 : ∃ a, absolutePath k pwd (exchange filename) = some a ∧
      a.length ≤ 2 * (pwd.length + 1 + filename.length) := by
    simp only [absolutePath]
    split
    · obtain ⟨a, ha⟩ := c37_normalize_terminates (pwd ++ '/' :: exchange filename) k
        (by simp [le]; omega)
      have := c37_normalize_length _ _ _ ha
      simp [le] at this
      exact ⟨a, ha, by omega⟩
    · obtain ⟨a, ha⟩ := c37_normalize_terminates (exchange filename) k (by omega)
      have := c37_normalize_length _ _ _ ha
      exact ⟨a, ha, by omega⟩
  obtain ⟨a, ha, hal⟩ := h2
  obtain ⟨b, hb⟩ := c37_normalize_terminates a k (by omega)
  exact ⟨_, by simp [init, h1, ha, hb]; rfl⟩

/-! ## An absolute path stays absolute -/

theorem dotLoop_head {k : Nat} {f g : S} {d : Option Nat} (hf : f.head? = some '/')
    (hd : ∀ i, d = some i → ['/', '.', '/'].isPrefixOf (f.drop i)) (h : dotLoop k f d = some g) :
    g.head? = some '/' := by
  induction k generalizing f d with
  | zero =>
    cases d with
    | none => simp [dotLoop] at h; rw [← h]; exact hf
    | some i => simp [dotLoop] at h
  | succ k ih =>
    cases d with
    | none => simp [dotLoop] at h; rw [← h]; exact hf
    | some i =>
      simp only [dotLoop] at h
      refine ih ?_ ?_ h
      · cases i with
        | zero =>
          obtain ⟨b, hb⟩ := List.isPrefixOf_iff_prefix.1 (hd 0 rfl)
          simp only [List.drop_zero] at hb
          rw [← hb]; rfl
        | succ i =>
          cases f with
          | nil => cases hf
          | cons c cs => simpa using hf
      · intro j hj; exact (findFrom_drop (by simp) hj).1

theorem upLoop_head {k : Nat} {f g : S} {d : Option Nat} (hf : f.head? = some '/')
    (hd : ∀ i, d = some i → ['/', '.', '.', '/'].isPrefixOf (f.drop i)) (h : upLoop k f d = some g) :
    g.head? = some '/' := by
  induction k generalizing f d with
  | zero =>
    cases d with
    | none => simp [upLoop] at h; rw [← h]; exact hf
    | some i => simp [upLoop] at h
  | succ k ih =>
    cases d with
    | none => simp [upLoop] at h; rw [← h]; exact hf
    | some i =>
      simp only [upLoop] at h
      split at h
      · rename_i sl hsl
        split at h
        · refine ih ?_ ?_ h
          · cases sl with
            | zero =>
              obtain ⟨b, hb⟩ := List.isPrefixOf_iff_prefix.1 (hd i rfl)
              have : f.drop (i + 3) = '/' :: b := by
                rw [← List.drop_drop, ← hb]; rfl
              simp [this]
            | succ sl =>
              cases f with
              | nil => cases hf
              | cons c cs => simpa using hf
          · intro j hj; exact (findFrom_drop (by simp) hj).1
        · cases h; exact hf
      · rename_i hsl
        -- there is a slash at the front
        exfalso
        cases f with
        | nil => cases hf
        | cons c cs =>
          simp only [List.head?_cons, Option.some.injEq] at hf
          subst hf
          simp only [slashBefore] at hsl
          split at hsl
          · exact rfind_eq_none hsl (by simp)
          · rename_i h0
            refine rfind_eq_none hsl ?_
            cases i with
            | zero => exact absurd rfl h0
            | succ i => simp

theorem stripDot_abs {f : S} (h : f.head? = some '/') : stripDot f = f := by
  cases f with
  | nil => rfl
  | cons c cs =>
    simp only [List.head?_cons, Option.some.injEq] at h
    subst h
    simp [stripDot]

/-- C37: normalising an absolute path gives an absolute path, for every string. -/
theorem c37_stays_absolute (k : Nat) (f g : S) (hf : isRelative (exchange f) = false)
    (h : normalize k f = some g) : isRelative g = false := by
  have hh : (exchange f).head? = some '/' := by
    cases he : exchange f with
    | nil => rw [he] at hf; simp [isRelative] at hf
    | cons c cs => rw [he] at hf; simpa [isRelative] using hf
  have hres : ∀ x : S, x.head? = some '/' → isRelative x = false := by
    intro x hx
    cases x with
    | nil => cases hx
    | cons c cs => simpa [isRelative] using hx
  simp only [normalize] at h
  split at h
  · rename_i h0; subst h0; simp [exchange] at hh
  · rw [stripDot_abs hh] at h
    split at h
    · cases h
    · rename_i f2 h2
      have hh2 := dotLoop_head hh (fun i hi => (findFrom_drop (by simp) hi).1) h2
      simp only [Option.map_eq_some_iff] at h
      obtain ⟨f3, h3, rfl⟩ := h
      have hh3 := upLoop_head hh2 (fun i hi => (findFrom_drop (by simp) hi).1) h3
      rw [stripDot_abs hh3]
      exact hres _ hh3

/-! ## Meaning of the normalised path -/

theorem render_append (a b : List S) : render (a ++ b) = render a ++ render b := by
  simp [render]

/-- Searching `/w/` in a path finds the first component equal to `w`. -/
theorem find_comp (w : S) (hw : '/' ∉ w) (pre : List S) (hpre : ∀ c ∈ pre, '/' ∉ c ∧ c ≠ w)
    (rest : S) : find ('/' :: w ++ ['/']) (render pre ++ '/' :: rest)
      = (find ('/' :: w ++ ['/']) ('/' :: rest)).map (· + (render pre).length) := by
  have skip : ∀ (c : S) (r : S), '/' ∉ c → find ('/' :: w ++ ['/']) (c ++ r)
      = (find ('/' :: w ++ ['/']) r).map (· + c.length) := by
    intro c r hc
    induction c with
    | nil => simp
    | cons x xs ih =>
      simp only [List.mem_cons, not_or] at hc
      have hx : ('/' == x) = false := by simpa using hc.1
      simp only [List.cons_append, find]
      have : List.isPrefixOf ('/' :: (w ++ ['/'])) (x :: (xs ++ r)) = false := by
        simp [List.isPrefixOf, hx]
      have ih' := ih hc.2
      simp only [List.cons_append] at ih'
      rw [if_neg (by simp [this]), ih']
      cases find ('/' :: (w ++ ['/'])) r with
      | none => rfl
      | some i => simp; omega
  induction pre with
  | nil => simp [render]
  | cons c cs ih =>
    obtain ⟨hc1, hc2⟩ := hpre c (by simp)
    have ih' := ih (fun x hx => hpre x (by simp [hx]))
    have e : render (c :: cs) ++ '/' :: rest = '/' :: (c ++ (render cs ++ '/' :: rest)) := by
      simp [render]
    rw [e]
    have hnp : List.isPrefixOf ('/' :: w ++ ['/']) ('/' :: (c ++ (render cs ++ '/' :: rest))) = false := by
      cases hp : List.isPrefixOf ('/' :: w ++ ['/']) ('/' :: (c ++ (render cs ++ '/' :: rest))) with
      | false => rfl
      | true =>
        exfalso
        obtain ⟨b, hb⟩ := List.isPrefixOf_iff_prefix.1 hp
        obtain ⟨z, hz⟩ : ∃ z, render cs ++ '/' :: rest = '/' :: z := by
          cases cs with
          | nil => exact ⟨rest, rfl⟩
          | cons y ys => exact ⟨y ++ render ys ++ '/' :: rest, by simp [render]⟩
        rw [hz] at hb
        simp only [List.cons_append, List.cons.injEq, true_and, List.append_assoc,
          List.singleton_append] at hb
        -- w ++ '/' :: b = c ++ '/' :: z with no slash in w, c
        have : w = c := by
          have h1 := congrArg (List.takeWhile (· != '/')) hb
          have tw : ∀ (x y : S), '/' ∉ x → (x ++ '/' :: y).takeWhile (· != '/') = x := by
            intro x y hx
            induction x with
            | nil => simp
            | cons u us ihu =>
              simp only [List.mem_cons, not_or] at hx
              have : (u != '/') = true := by simpa using fun h => hx.1 h.symm
              simp [List.takeWhile_cons, this, ihu hx.2]
          simp only [List.nil_append] at h1
          rwa [tw w b hw, tw c z hc1] at h1
        exact hc2 this.symm
    have hstep : find ('/' :: w ++ ['/']) ('/' :: (c ++ (render cs ++ '/' :: rest)))
        = (find ('/' :: w ++ ['/']) (c ++ (render cs ++ '/' :: rest))).map (· + 1) := by
      rw [find.eq_def]
      simp only [hnp, Bool.false_eq_true, if_false]
    rw [hstep, skip c _ hc1, ih']
    cases find ('/' :: w ++ ['/']) ('/' :: rest) with
    | none => rfl
    | some i => simp [render]; omega

theorem find_prefix (n r : S) : find n (n ++ r) = some 0 := by
  cases h : n ++ r with
  | nil =>
    simp only [List.append_eq_nil_iff] at h
    simp [find, h.1]
  | cons c cs =>
    have : n.isPrefixOf (c :: cs) = true := by
      rw [← h]; exact List.isPrefixOf_iff_prefix.2 (List.prefix_append n r)
    simp [find, this]

/-- no component equal to `w` before the last one -/
theorem find_comp_none (w : S) (hw : '/' ∉ w) (cs : List S) (hcs : ∀ c ∈ cs, '/' ∉ c ∧ c ≠ w)
    (last : S) (hl : '/' ∉ last) : find ('/' :: w ++ ['/']) (render cs ++ '/' :: last) = none := by
  rw [find_comp w hw cs hcs last]
  have : ∀ s : S, '/' ∉ s → find ('/' :: w ++ ['/']) s = none := by
    intro s
    induction s with
    | nil => intro _; simp [find, List.isPrefixOf]
    | cons x xs ih =>
      intro hx
      simp only [List.mem_cons, not_or] at hx
      have h1 : ('/' == x) = false := by simpa using hx.1
      have := ih hx.2
      simp only [List.cons_append] at this
      simp [find, List.isPrefixOf, h1, this]
  rw [find.eq_def]
  simp only
  have hp : List.isPrefixOf ('/' :: w ++ ['/']) ('/' :: last) = false := by
    cases hp : List.isPrefixOf ('/' :: w ++ ['/']) ('/' :: last) with
    | false => rfl
    | true =>
      exfalso
      obtain ⟨b, hb⟩ := List.isPrefixOf_iff_prefix.1 hp
      simp only [List.cons_append, List.cons.injEq, true_and, List.append_assoc] at hb
      exact hl (by rw [← hb]; simp)
  simp only [hp, Bool.false_eq_true, if_false, this last hl]
  rfl

/-- the first component equal to `w` -/
theorem find_comp_some (w : S) (hw : '/' ∉ w) (pre : List S) (hpre : ∀ c ∈ pre, '/' ∉ c ∧ c ≠ w)
    (post : List S) (last : S) :
    find ('/' :: w ++ ['/']) (render (pre ++ w :: post) ++ '/' :: last) = some (render pre).length := by
  obtain ⟨z, hz⟩ : ∃ z, render post ++ '/' :: last = '/' :: z := by
    cases post with
    | nil => exact ⟨last, rfl⟩
    | cons y ys => exact ⟨y ++ render ys ++ '/' :: last, by simp [render]⟩
  have e : render (pre ++ w :: post) ++ '/' :: last = render pre ++ '/' :: (w ++ '/' :: z) := by
    rw [← hz]; simp [render]
  rw [e, find_comp w hw pre hpre]
  have : '/' :: (w ++ '/' :: z) = ('/' :: w ++ ['/']) ++ z := by simp
  rw [this, find_prefix]
  simp

/-- `find` from the end of a rendered prefix. -/
theorem findFrom_render (n : S) (a : List S) (r : S) :
    findFrom n (render a ++ r) (render a).length = (find n r).map (· + (render a).length) := by
  simp [findFrom]

theorem split_at_first (w : S) (cs : List S) (h : w ∈ cs) :
    ∃ pre post, cs = pre ++ w :: post ∧ ∀ c ∈ pre, c ≠ w := by
  induction cs with
  | nil => simp at h
  | cons c cs ih =>
    by_cases hc : c = w
    · exact ⟨[], cs, by simp [hc], by simp⟩
    · have : w ∈ cs := by
        rcases List.mem_cons.1 h with rfl | h
        · exact absurd rfl hc
        · exact h
      obtain ⟨pre, post, h1, h2⟩ := ih this
      refine ⟨c :: pre, post, by rw [h1]; rfl, ?_⟩
      intro x hx
      rcases List.mem_cons.1 hx with rfl | hx
      · exact hc
      · exact h2 x hx

/-- The `/./` loop removes exactly the components `.`. -/
theorem dotLoop_render (k : Nat) (done cs : List S) (last : S) (hk : cs.length ≤ k)
    (hcs : ∀ c ∈ cs, '/' ∉ c) (hl : '/' ∉ last) :
    dotLoop k (render (done ++ cs) ++ '/' :: last)
      (findFrom ['/', '.', '/'] (render (done ++ cs) ++ '/' :: last) (render done).length)
      = some (render (done ++ cs.filter (· ≠ ['.'])) ++ '/' :: last) := by
  induction k generalizing done cs with
  | zero =>
    have : cs = [] := List.eq_nil_of_length_eq_zero (by omega)
    subst this
    have hf := find_comp_none ['.'] (by decide) [] (by simp) last hl
    simp only [List.append_nil]
    rw [findFrom_render]
    simp only [List.cons_append, List.nil_append, render, List.flatMap_nil] at hf
    simp [hf, dotLoop]
  | succ k ih =>
    by_cases hm : ['.'] ∈ cs
    · obtain ⟨pre, post, h1, h2⟩ := split_at_first _ _ hm
      have hp : ∀ c ∈ pre, '/' ∉ c ∧ c ≠ ['.'] := fun c hc => ⟨hcs c (by simp [h1, hc]), h2 c hc⟩
      have hf := find_comp_some ['.'] (by decide) pre hp post last
      rw [h1, render_append, List.append_assoc, findFrom_render]
      simp only [List.cons_append, List.nil_append] at hf
      rw [hf]
      simp only [Option.map_some, dotLoop]
      have hlen : (render pre).length + (render done).length = (render (done ++ pre)).length := by
        rw [render_append, List.length_append]; omega
      have hsplit : render done ++ (render (pre ++ ['.'] :: post) ++ '/' :: last)
          = render (done ++ pre) ++ ('/' :: '.' :: (render post ++ '/' :: last)) := by
        simp [render]
      rw [hlen, hsplit, List.take_left' rfl]
      have hdrop : (render (done ++ pre) ++ ('/' :: '.' :: (render post ++ '/' :: last))).drop
          ((render (done ++ pre)).length + 2) = render post ++ '/' :: last := by
        rw [← List.drop_drop, List.drop_left' rfl]; rfl
      rw [hdrop, ← List.append_assoc, ← render_append]
      have hlc : cs.length = pre.length + (post.length + 1) := by rw [h1]; simp
      have := ih (done ++ pre) post (by omega) (fun c hc => hcs c (by simp [h1, hc]))
      rw [this]
      congr 1
      have hfp : pre.filter (· ≠ ['.']) = pre := by
        rw [List.filter_eq_self]; intro c hc; simpa using h2 c hc
      simp only [List.filter_append, List.filter_cons, hfp, render_append]
      simp [render]
    · have hp : ∀ c ∈ cs, '/' ∉ c ∧ c ≠ ['.'] := fun c hc => ⟨hcs c hc, fun h => hm (h ▸ hc)⟩
      have hf := find_comp_none ['.'] (by decide) cs hp last hl
      have hfl : cs.filter (· ≠ ['.']) = cs := by
        rw [List.filter_eq_self]; intro c hc; simpa using (hp c hc).2
      rw [hfl]
      have e : render (done ++ cs) ++ '/' :: last = render done ++ (render cs ++ '/' :: last) := by
        simp [render]
      rw [e, findFrom_render]
      simp only [List.cons_append, List.nil_append] at hf
      simp [hf, dotLoop]

theorem okToShorten_render (A : List S) (x : S) (hx : '/' ∉ x) (hA : ∀ c ∈ A, Comp c) (r : S) :
    okToShorten (render A ++ '/' :: x ++ '/' :: r) (render A).length = true := by
  simp only [okToShorten]
  split
  · rename_i h
    simp only [Bool.and_eq_true, decide_eq_true_eq] at h
    have hA0 : A ≠ [] := by rintro rfl; simp [render] at h
    obtain ⟨B, c, rfl⟩ : ∃ B c, A = B ++ [c] := ⟨A.dropLast, A.getLast hA0, (List.dropLast_concat_getLast hA0).symm⟩
    have hc := hA c (by simp)
    obtain ⟨d, y, hy⟩ : ∃ d y, c = d ++ [y] := ⟨c.dropLast, c.getLast hc.ne, (List.dropLast_concat_getLast hc.ne).symm⟩
    have hy' : y ≠ ':' := by
      have := hc.colon
      rw [hy] at this
      simpa using this
    have e : render (B ++ [c]) ++ '/' :: x ++ '/' :: r = (render B ++ '/' :: d) ++ (y :: ('/' :: x ++ '/' :: r)) := by
      rw [hy]; simp [render]
    have hlen : (render (B ++ [c])).length - 1 = (render B ++ '/' :: d).length := by
      rw [hy]; simp [render]
    rw [hlen, e, List.getD_eq_getElem?_getD, List.getElem?_append_right (by simp)]
    simpa using hy'
  · rfl

/-- The `/../` loop resolves `..` components as long as it stays below the root. -/
theorem upLoop_render (k : Nat) (st cs : List S) (last : S) (hk : cs.length ≤ k)
    (hst : ∀ c ∈ st, Comp c ∧ c ≠ ['.', '.']) (hcs : ∀ c ∈ cs, Comp c ∧ c ≠ ['.'])
    (hl : '/' ∉ last) (hsafe : StaysBelowRoot st cs) :
    upLoop k (render (st ++ cs) ++ '/' :: last)
      (findFrom ['/', '.', '.', '/'] (render (st ++ cs) ++ '/' :: last) (render st).length)
      = some (render (resolve st cs) ++ '/' :: last) := by
  induction k generalizing st cs with
  | zero =>
    have : cs = [] := List.eq_nil_of_length_eq_zero (by omega)
    subst this
    have hf := find_comp_none ['.', '.'] (by decide) [] (by simp) last hl
    simp only [List.append_nil]
    rw [findFrom_render]
    simp only [List.cons_append, List.nil_append, render, List.flatMap_nil] at hf
    simp [hf, upLoop, resolve]
  | succ k ih =>
    by_cases hm : ['.', '.'] ∈ cs
    · obtain ⟨pre, post, h1, h2⟩ := split_at_first _ _ hm
      have hp : ∀ c ∈ pre, '/' ∉ c ∧ c ≠ ['.', '.'] :=
        fun c hc => ⟨(hcs c (by simp [h1, hc])).1.slash, h2 c hc⟩
      -- names before the `..` are pushed
      have push : ∀ (pre st post : List S), (∀ c ∈ pre, c ≠ ['.'] ∧ c ≠ ['.', '.']) →
          resolve st (pre ++ post) = resolve (st ++ pre) post ∧
          (StaysBelowRoot st (pre ++ post) ↔ StaysBelowRoot (st ++ pre) post) := by
        intro pre
        induction pre with
        | nil => intro st post _; simp
        | cons c cs ihp =>
          intro st post h
          obtain ⟨c1, c2⟩ := h c (by simp)
          have := ihp (st ++ [c]) post (fun x hx => h x (by simp [hx]))
          simp only [List.cons_append, resolve, StaysBelowRoot, c1, c2, if_false]
          simpa using this
      have hpd : ∀ c ∈ pre, c ≠ ['.'] ∧ c ≠ ['.', '.'] :=
        fun c hc => ⟨(hcs c (by simp [h1, hc])).2, h2 c hc⟩
      obtain ⟨hr, hs⟩ := push pre st (['.', '.'] :: post) hpd
      have hdd : ¬ (['.', '.'] : S) = ['.'] := by decide
      rw [h1] at hsafe
      have hsafe' := hs.1 hsafe
      simp only [StaysBelowRoot, hdd, if_false, if_true] at hsafe'
      obtain ⟨hne, hsafe''⟩ := hsafe'
      obtain ⟨A, x, hA⟩ : ∃ A x, st ++ pre = A ++ [x] :=
        ⟨(st ++ pre).dropLast, (st ++ pre).getLast hne, (List.dropLast_concat_getLast hne).symm⟩
      have hmem : ∀ c ∈ A ++ [x], Comp c ∧ c ≠ ['.', '.'] := by
        intro c hc
        rw [← hA] at hc
        rcases List.mem_append.1 hc with hc | hc
        · exact hst c hc
        · exact ⟨(hcs c (by simp [h1, hc])).1, h2 c hc⟩
      have hx := (hmem x (by simp)).1
      have hf := find_comp_some ['.', '.'] (by decide) pre hp post last
      have e0 : render (st ++ cs) ++ '/' :: last = render st ++ (render cs ++ '/' :: last) := by
        simp [render]
      rw [e0, findFrom_render, h1]
      simp only [List.cons_append, List.nil_append] at hf
      rw [hf]
      have hlen : (render pre).length + (render st).length = (render (A ++ [x])).length := by
        rw [← hA, render_append, List.length_append]; omega
      obtain ⟨z, hz⟩ : ∃ z, render post ++ '/' :: last = '/' :: z := by
        cases post with
        | nil => exact ⟨last, rfl⟩
        | cons y ys => exact ⟨y ++ render ys ++ '/' :: last, by simp [render]⟩
      have hsplit : render st ++ (render (pre ++ ['.', '.'] :: post) ++ '/' :: last)
          = render (A ++ [x]) ++ ('/' :: '.' :: '.' :: (render post ++ '/' :: last)) := by
        rw [← hA]; simp [render]
      have hsplit2 : render (A ++ [x]) ++ ('/' :: '.' :: '.' :: (render post ++ '/' :: last))
          = render A ++ '/' :: x ++ '/' :: ('.' :: '.' :: (render post ++ '/' :: last)) := by
        simp [render]
      have hd0 : (render (A ++ [x])).length ≠ 0 := by simp [render]
      have hsb : slashBefore (render (A ++ [x]) ++ ('/' :: '.' :: '.' :: (render post ++ '/' :: last)))
          (render (A ++ [x])).length = some (render A).length := by
        simp only [slashBefore, hd0, if_false, List.take_left' rfl]
        have : render (A ++ [x]) = render A ++ '/' :: x := by simp [render]
        rw [this, rfind_append '/' _ _ hx.slash]
      simp only [Option.map_some, hlen, hsplit, upLoop, hsb]
      have hok : okToShorten (render (A ++ [x]) ++ ('/' :: '.' :: '.' :: (render post ++ '/' :: last)))
          (render A).length = true := by
        rw [hsplit2]
        exact okToShorten_render A x hx.slash (fun c hc => (hmem c (by simp [hc])).1) _
      rw [if_pos hok]
      have htake : (render (A ++ [x]) ++ ('/' :: '.' :: '.' :: (render post ++ '/' :: last))).take
          (render A).length = render A := by
        rw [hsplit2, List.append_assoc, List.take_left' rfl]
      have hdrop : (render (A ++ [x]) ++ ('/' :: '.' :: '.' :: (render post ++ '/' :: last))).drop
          ((render (A ++ [x])).length + 3) = render post ++ '/' :: last := by
        rw [← List.drop_drop, List.drop_left' rfl]; rfl
      rw [htake, hdrop, ← List.append_assoc, ← render_append]
      have hlc : cs.length = pre.length + (post.length + 1) := by rw [h1]; simp
      have := ih A post (by omega) (fun c hc => hmem c (by simp [hc]))
        (fun c hc => hcs c (by simp [h1, hc])) (by
          rw [hA] at hsafe''; simpa using hsafe'')
      rw [this, hr]
      simp only [resolve, hdd, if_false, if_true]
      rw [hA]; simp
    · have hp : ∀ c ∈ cs, '/' ∉ c ∧ c ≠ ['.', '.'] :=
        fun c hc => ⟨(hcs c hc).1.slash, fun h => hm (h ▸ hc)⟩
      have hf := find_comp_none ['.', '.'] (by decide) cs hp last hl
      have e : render (st ++ cs) ++ '/' :: last = render st ++ (render cs ++ '/' :: last) := by
        simp [render]
      have hres : resolve st cs = st ++ cs := by
        have : ∀ (cs st : List S), (∀ c ∈ cs, c ≠ ['.'] ∧ c ≠ ['.', '.']) → resolve st cs = st ++ cs := by
          intro cs
          induction cs with
          | nil => intro st _; simp [resolve]
          | cons c cs ihc =>
            intro st h
            obtain ⟨c1, c2⟩ := h c (by simp)
            simp only [resolve, c1, c2, if_false]
            rw [ihc _ (fun x hx => h x (by simp [hx]))]; simp
        exact this cs st (fun c hc => ⟨(hcs c hc).2, (hp c hc).2⟩)
      rw [hres, e, findFrom_render]
      simp only [List.cons_append, List.nil_append] at hf
      simp [hf, upLoop]

theorem resolve_filter (st cs : List S) :
    resolve st (cs.filter (· ≠ ['.'])) = resolve st cs ∧
    (StaysBelowRoot st (cs.filter (· ≠ ['.'])) ↔ StaysBelowRoot st cs) := by
  induction cs generalizing st with
  | nil => simp
  | cons c cs ih =>
    by_cases h : c = ['.']
    · subst h
      have := ih st
      simpa [resolve, StaysBelowRoot] using this
    · have hf : (c :: cs).filter (· ≠ ['.']) = c :: cs.filter (· ≠ ['.']) := by
        simp [List.filter_cons, h]
      rw [hf]
      simp only [resolve, StaysBelowRoot, h, if_false]
      by_cases h2 : c = ['.', '.']
      · simp only [h2, if_true]
        exact ⟨(ih _).1, and_congr_right fun _ => (ih _).2⟩
      · simp only [h2, if_false]
        exact ih _

theorem exchange_id (s : S) (h : '\\' ∉ s) : exchange s = s := by
  induction s with
  | nil => rfl
  | cons c cs ih =>
    simp only [List.mem_cons, not_or] at h
    have hc : ¬ c = '\\' := fun e => h.1 e.symm
    have := ih h.2
    simp only [exchange] at this ⊢
    simp [hc, this]

theorem render_back (cs : List S) (h : ∀ c ∈ cs, '\\' ∉ c) : '\\' ∉ render cs := by
  simp only [render, List.mem_flatMap, not_exists, not_and]
  intro c hc
  simp only [List.mem_cons, not_or]
  exact ⟨by decide, h c hc⟩

/-- C37: on an absolute path of proper components that stays below the root,
`normalizePath` resolves `.` and `..` exactly (the last component, the file name, is kept).
-/
theorem c37_normalize_resolves_partial (cs : List S) (last : S) (k : Nat)
    (hcs : ∀ c ∈ cs, Comp c) (hl : '/' ∉ last ∧ '\\' ∉ last) (hsafe : StaysBelowRoot [] cs)
    (hk : cs.length ≤ k) :
    normalize k (render cs ++ '/' :: last) = some (render (resolve [] cs) ++ '/' :: last) := by
  have hne : render cs ++ '/' :: last ≠ [] := by simp
  have hb : '\\' ∉ render cs ++ '/' :: last := by
    simp only [List.mem_append, List.mem_cons, not_or]
    exact ⟨render_back cs (fun c hc => (hcs c hc).back), by decide, hl.2⟩
  have hh : ∀ cs : List S, (render cs ++ '/' :: last).head? = some '/' := by
    intro cs; cases cs <;> simp [render]
  simp only [normalize, hne, if_false, exchange_id _ hb, stripDot_abs (hh cs)]
  have h1 := dotLoop_render k [] cs last hk (fun c hc => (hcs c hc).slash) hl.1
  simp only [List.nil_append, render, List.flatMap_nil, List.length_nil] at h1
  simp only [render] at *
  rw [h1]
  simp only
  have h2 := upLoop_render k [] (cs.filter (· ≠ ['.'])) last
    (Nat.le_trans (List.length_filter_le _ _) hk) (by simp)
    (fun c hc => by
      simp only [List.mem_filter, decide_eq_true_eq] at hc
      exact ⟨hcs c hc.1, hc.2⟩) hl.1 ((resolve_filter [] cs).2.2 hsafe)
  simp only [List.nil_append, render, List.flatMap_nil, List.length_nil] at h2
  rw [h2, (resolve_filter [] cs).1]
  simp only [Option.map_some]
  rw [stripDot_abs (hh _)]

/-- On those paths normalising twice changes nothing more. -/
theorem c37_normalize_idempotent_partial (cs : List S) (last g : S) (k : Nat)
    (hcs : ∀ c ∈ cs, Comp c) (hl : '/' ∉ last ∧ '\\' ∉ last) (hsafe : StaysBelowRoot [] cs)
    (hk : cs.length ≤ k) (h : normalize k (render cs ++ '/' :: last) = some g) :
    normalize k g = some g := by
  rw [c37_normalize_resolves_partial cs last k hcs hl hsafe hk] at h
  cases h
  have key : ∀ (cs st : List S), (∀ c ∈ cs, Comp c) → (∀ c ∈ st, Comp c ∧ c ≠ ['.'] ∧ c ≠ ['.', '.']) →
      (resolve st cs).length ≤ st.length + cs.length ∧
      ∀ c ∈ resolve st cs, Comp c ∧ c ≠ ['.'] ∧ c ≠ ['.', '.'] := by
    intro cs
    induction cs with
    | nil => intro st _ h; exact ⟨by simp [resolve], h⟩
    | cons c cs ih =>
      intro st h1 h2
      have h1' := fun x hx => h1 x (List.mem_cons_of_mem c hx)
      simp only [resolve]
      split
      · obtain ⟨a, b⟩ := ih st h1' h2
        exact ⟨by simp; omega, b⟩
      · split
        · obtain ⟨a, b⟩ := ih st.dropLast h1' (fun x hx => h2 x (List.dropLast_subset _ hx))
          exact ⟨by simp at a ⊢; omega, b⟩
        · rename_i c1 c2
          obtain ⟨a, b⟩ := ih (st ++ [c]) h1' (by
            intro x hx
            rcases List.mem_append.1 hx with hx | hx
            · exact h2 x hx
            · simp at hx; subst hx; exact ⟨h1 _ (by simp), c1, c2⟩)
          exact ⟨by simp at a ⊢; omega, b⟩
  obtain ⟨k1, k2⟩ := key cs [] hcs (by simp)
  have fix : ∀ (cs st : List S), (∀ c ∈ cs, c ≠ ['.'] ∧ c ≠ ['.', '.']) →
      resolve st cs = st ++ cs ∧ StaysBelowRoot st cs := by
    intro cs
    induction cs with
    | nil => intro st _; simp [resolve, StaysBelowRoot]
    | cons c cs ih =>
      intro st h
      obtain ⟨c1, c2⟩ := h c (by simp)
      have := ih (st ++ [c]) (fun x hx => h x (by simp [hx]))
      simp only [resolve, StaysBelowRoot, c1, c2, if_false]
      simpa using this
  obtain ⟨f1, f2⟩ := fix (resolve [] cs) [] (fun c hc => (k2 c hc).2)
  rw [c37_normalize_resolves_partial (resolve [] cs) last k (fun c hc => (k2 c hc).1) hl f2
    (by simp at k1; omega), f1]
  simp

/-- A concrete case with `.`, `..` and a hidden directory. -/
def demo : List S := ["usr".toList, ".".toList, ".cfg".toList, "..".toList, "lib".toList, "..".toList]
example : normalize 20 (render demo ++ "/x.conf".toList) = some "/usr/x.conf".toList := by
  decide +kernel
example : StaysBelowRoot [] demo := by
  simp [demo, StaysBelowRoot]
example : ∀ c ∈ demo, Comp c := by
  intro c hc
  simp only [demo, List.mem_cons, List.not_mem_nil, or_false] at hc
  rcases hc with rfl | rfl | rfl | rfl | rfl | rfl <;>
    exact ⟨by decide +kernel, by decide +kernel, by decide +kernel, by decide +kernel⟩

/-- C37 fails above the root: an absolute path that starts with `..` is changed into the
path of another file (`/../etc/x` becomes `/../etc/etc/x`). -/
theorem c37_above_root_duplicates :
    normalize 20 "/../etc/x".toList = some "/../etc/etc/x".toList := by decide +kernel

/-- C37: normalising is not idempotent in general. -/
theorem c37_not_idempotent :
    ∃ f g h, normalize 40 f = some g ∧ normalize 40 g = some h ∧ g ≠ h :=
  ⟨"/../a/b".toList, "/../a/a/b".toList, "/../a/a/a/a/b".toList, by decide +kernel, by decide +kernel,
    by decide +kernel⟩

/-- C37 fails for relative paths that leave their directory: the leading `..` are lost, so
another file is meant. -/
theorem c37_relative_up_lost :
    normalize 20 "../../a".toList = some "a".toList ∧
    normalize 20 "x/../../a".toList = some "a".toList := by decide +kernel

/-- C37 fails for doubled separators: `..` then only removes the empty component. -/
theorem c37_double_slash_wrong :
    normalize 20 "/a//../b".toList = some "/a/b".toList := by decide +kernel

/-! ## Splitting into path, name and extension -/

/-- Below a drive name, `..` is not resolved behind a plain name, but it is behind a name that starts with a
dot or is empty (the condition at 177 is `(A && B && C) ? D : 1`). -/
theorem c37_drive_not_resolved :
    normalize 20 "c:/a/../b".toList = some "c:/a/../b".toList ∧
    normalize 20 "c:/.a/../b".toList = some "c:/b".toList ∧
    normalize 20 "c://../b".toList = some "c:/b".toList := by decide +kernel

theorem init_split {env : Env} {k : Nat} {f : S} {p : FilePath} (h : init env k f = some p) :
    p.nameSplit = (match rfind '/' p.file with | some i => i + 1 | none => 0) ∧
    p.extSplit = rfind '.' p.file := by
  simp only [init, Option.bind_eq_bind, Option.bind_eq_some_iff] at h
  obtain ⟨pwd, _, abs, _, file, _, h⟩ := h
  cases h
  exact ⟨rfl, rfl⟩

/-- C37: `path()` followed by `name()` is `absoluteName()`; the name contains no separator
and the path is empty or ends with one. -/
theorem c37_path_name (env : Env) (k : Nat) (f : S) (p : FilePath) (h : init env k f = some p) :
    p.path ++ p.name = p.absoluteName ∧ '/' ∉ p.name ∧
    (p.path = [] ∨ p.path.getLast? = some '/') := by
  obtain ⟨h1, _⟩ := init_split h
  refine ⟨List.take_append_drop _ _, ?_⟩
  simp only [FilePath.name, FilePath.path, h1]
  cases hr : rfind '/' p.file with
  | none => simp [rfind_eq_none hr]
  | some i =>
    obtain ⟨a, b, e, hl, hb⟩ := rfind_some hr
    have e' : p.file = (a ++ ['/']) ++ b := by rw [e]; simp
    have hl' : i + 1 = (a ++ ['/']).length := by simp [hl]
    simp only [hl', e', List.take_left, List.drop_left]
    exact ⟨hb, .inr (by simp)⟩

/-- C37: `extension()` throws `std::out_of_range` iff the absolute name has no dot;
otherwise it is the text from the last dot of the absolute name, and it is the end of
`name()` if the name has a dot. -/
theorem c37_extension_partial (env : Env) (k : Nat) (f : S) (p : FilePath)
    (h : init env k f = some p) :
    (p.extension = .throws .outOfRange ↔ '.' ∉ p.absoluteName) ∧
    (∀ e, p.extension = .ok e →
      e <:+ p.absoluteName ∧ (∃ r, e = '.' :: r ∧ '.' ∉ r) ∧
      ('.' ∈ p.name → e <:+ p.name ∧ '/' ∉ e)) := by
  obtain ⟨h1, h2⟩ := init_split h
  simp only [FilePath.extension, h2, FilePath.absoluteName]
  cases hr : rfind '.' p.file with
  | none => simp [rfind_eq_none hr]
  | some i =>
    obtain ⟨a, b, e, hl, hb⟩ := rfind_some hr
    refine ⟨by simp [e], ?_⟩
    intro x hx
    simp only [Outcome.ok.injEq] at hx
    have hxe : x = '.' :: b := by rw [← hx, e, ← hl]; simp
    refine ⟨⟨a, by rw [hxe, e]⟩, ⟨b, hxe, hb⟩, ?_⟩
    intro hdot
    obtain ⟨u, v, huv⟩ : ∃ u v, p.name = u ++ '.' :: v ∧ '.' ∉ v := by
      obtain ⟨i, hi⟩ : ∃ i, rfind '.' p.name = some i := by
        cases hq : rfind '.' p.name with
        | none => exact absurd hdot (rfind_eq_none hq)
        | some i => exact ⟨i, rfl⟩
      obtain ⟨u, v, h3, _, h5⟩ := rfind_some hi
      exact ⟨u, v, h3, h5⟩
    have hpn := (c37_path_name env k f p h)
    have hfile : p.file = (p.path ++ u) ++ '.' :: v := by
      have := hpn.1
      simp only [FilePath.absoluteName] at this
      rw [← this, huv.1]; simp
    have hbv : b = v := by
      rw [hfile] at e
      have tw : ∀ (s t : S), '.' ∉ t → (s ++ '.' :: t).reverse.takeWhile (· != '.') = t.reverse := by
        intro s t ht
        have : ∀ (x y : S), '.' ∉ x → (x ++ '.' :: y).takeWhile (· != '.') = x := by
          intro x y hx
          induction x with
          | nil => simp
          | cons c cs ih =>
            simp only [List.mem_cons, not_or] at hx
            have : (c != '.') = true := by simpa using fun h => hx.1 h.symm
            simp [List.takeWhile_cons, this, ih hx.2]
        have := this t.reverse s.reverse (by simpa using ht)
        simpa using this
      have := congrArg (fun s => s.reverse.takeWhile (· != '.')) e
      simp only [tw _ _ hb, tw _ _ huv.2] at this
      exact (List.reverse_inj.1 this).symm
    have : x <:+ p.name := ⟨u, by rw [hxe, hbv, huv.1]⟩
    exact ⟨this, fun hm => hpn.2.1 (this.subset hm)⟩

/-- C37 fails for the extension of a file without a dot in a directory with one. -/
theorem c37_extension_of_directory :
    (init (fun _ => none) 40 "/etc.d/hosts".toList).map FilePath.extension
      = some (.ok ".d/hosts".toList) := by decide +kernel

/-- `extension()` of a name without any dot throws. -/
theorem c37_extension_throws :
    (init (fun _ => none) 40 "/etc/hosts".toList).map FilePath.extension
      = some (.throws .outOfRange) := by decide +kernel

example : (init (fun n => if n = "PWD".toList then some "/home/u".toList else none) 40
    "../v/a.b.conf".toList).map (fun p => (p.path, p.name, p.extension))
    = some ("/home/v/".toList, "a.b.conf".toList, .ok ".conf".toList) := by decide +kernel

/-- C37: with an absolute working directory, every file name becomes absolute. -/
theorem c37_absolute_name (env : Env) (k : Nat) (f pwd : S) (p : FilePath)
    (henv : env ['P', 'W', 'D'] = some pwd) (hpwd : isRelative pwd = false)
    (h : init env k f = some p) : isRelative p.absoluteName = false := by
  have hex : ∀ s : S, isRelative s = false → isRelative (exchange s) = false := by
    intro s hs
    cases s with
    | nil => simp [isRelative] at hs
    | cons c cs =>
      simp only [isRelative, bne_eq_false_iff_eq] at hs
      subst hs
      simp [exchange, isRelative]
  simp only [init, Option.bind_eq_bind, Option.bind_eq_some_iff] at h
  obtain ⟨pw, h1, abs, h2, file, h3, h⟩ := h
  cases h
  rw [henv] at h1
  have hpw : isRelative pw = false := c37_stays_absolute k pwd pw (hex _ hpwd) h1
  refine c37_stays_absolute k abs file (hex _ ?_) h3
  simp only [absolutePath] at h2
  split at h2
  · refine c37_stays_absolute k _ abs (hex _ ?_) h2
    cases pw with
    | nil => simp [isRelative] at hpw
    | cons c cs => simpa [isRelative] using hpw
  · rename_i hr
    exact c37_stays_absolute k _ abs (hex _ (by simpa using hr)) h2

/-! ## Environment variables -/

theorem count_replace (env : Env) (f : S) (d e : Nat) (hd : find ['$', '{'] f = some d)
    (he : findFrom ['}'] f (d + 2) = some e)
    (henv : ∀ n v, env n = some v → '$' ∉ v) :
    (f.take d ++ getEnvironment env ((f.drop (d + 2)).take (e - (d + 2))) ++ f.drop (e + 1)).count '$'
      < f.count '$' := by
  obtain ⟨a, b, h1, h2⟩ := find_some hd
  obtain ⟨h3, h4, h5⟩ := findFrom_drop (by simp) he
  subst h2
  have hdrop : f.drop (a.length + 2) = b := by
    rw [h1, List.append_assoc, ← List.drop_drop, List.drop_left' rfl]; rfl
  have hdrop2 : f.drop (e + 1) = (b.drop (e - (a.length + 2))).drop 1 := by
    rw [← hdrop, List.drop_drop, List.drop_drop]; congr 1; omega
  have htake : f.take a.length = a := by
    rw [h1, List.append_assoc, List.take_left' rfl]
  have hcb : b.count '$' = (b.take (e - (a.length + 2))).count '$' + (b.drop (e - (a.length + 2))).count '$' := by
    rw [← List.count_append, List.take_append_drop]
  have hsub : ((b.drop (e - (a.length + 2))).drop 1).count '$' ≤ (b.drop (e - (a.length + 2))).count '$' :=
    (List.drop_sublist 1 _).count_le _
  have hval : (getEnvironment env ((f.drop (a.length + 2)).take (e - (a.length + 2)))).count '$'
      ≤ (b.take (e - (a.length + 2))).count '$' := by
    rw [hdrop]
    simp only [getEnvironment]
    cases hv : env (b.take (e - (a.length + 2))) with
    | none => simp
    | some v => simp [List.count_eq_zero.2 (henv _ v hv)]
  have hf : f.count '$' = a.count '$' + 1 + b.count '$' := by
    rw [h1]; simp [List.count_append]; omega
  rw [List.count_append, List.count_append, htake, hdrop2, hf, hcb]
  omega

/-- C37: if no environment value contains a dollar sign, `replaceEnvironment` terminates on
every string, and the result has no `${` left or is the input itself (closing bracket
missing). -/
theorem c37_replaceEnvironment_partial (env : Env) (f : S) (henv : ∀ n v, env n = some v → '$' ∉ v)
    (k : Nat) (hk : f.count '$' < k) :
    ∃ g, replaceEnvironment env k f = some g ∧ (find ['$', '{'] g = none ∨ g = f) := by
  simp only [replaceEnvironment]
  split
  · exact ⟨f, rfl, .inr rfl⟩
  · have : ∀ (k : Nat) (s : S), s.count '$' < k →
        ∃ g, envLoop env f k s = some g ∧ (find ['$', '{'] g = none ∨ g = f) := by
      intro k
      induction k with
      | zero => intro s hs; omega
      | succ k ih =>
        intro s hs
        simp only [envLoop]
        split
        · rename_i hn; exact ⟨s, rfl, .inl hn⟩
        · rename_i d hd
          split
          · exact ⟨f, rfl, .inr rfl⟩
          · rename_i e he
            exact ih _ (by have := count_replace env s d e hd he henv; omega)
    exact this k f hk

/-- With a variable that refers to itself, `replaceEnvironment` never returns. -/
theorem c37_self_reference_never_returns (k : Nat) :
    replaceEnvironment (fun n => if n = ['A'] then some ['$', '{', 'A', '}'] else none) k
      ['$', '{', 'A', '}'] = none := by
  simp only [replaceEnvironment]
  rw [if_neg (by simp)]
  induction k with
  | zero => rfl
  | succ k ih =>
    have h1 : find ['$', '{'] ['$', '{', 'A', '}'] = some 0 := by decide
    have h2 : findFrom ['}'] ['$', '{', 'A', '}'] (0 + 2) = some 3 := by decide
    simp only [envLoop, h1, h2]
    exact ih

example : replaceEnvironment (fun n => if n = "H".toList then some "/h".toList else none) 5
    "${H}/${X}".toList = some "/h/X".toList := by decide +kernel

/-! ### What `replaceEnvironment` computes -/

/-- Specification: a text with references; each pair is literal text followed by a
reference `${name}`, the last part is literal text. -/
def template (ts : List (S × S)) (tail : S) : S :=
  ts.flatMap (fun t => t.1 ++ ['$', '{'] ++ t.2 ++ ['}']) ++ tail

/-- Specification: every reference replaced by the value of the variable, or by its own
name if the variable is not set. -/
def expanded (env : Env) (ts : List (S × S)) (tail : S) : S :=
  ts.flatMap (fun t => t.1 ++ (env t.2).getD t.2) ++ tail

theorem find_skip (n : S) (c0 : Char) (r : S) (p : S) (hp : c0 ∉ p) :
    find (c0 :: n) (p ++ r) = (find (c0 :: n) r).map (· + p.length) := by
  induction p with
  | nil => simp
  | cons x xs ih =>
    simp only [List.mem_cons, not_or] at hp
    have : (c0 :: n).isPrefixOf (x :: (xs ++ r)) = false := by
      simp [List.isPrefixOf, hp.1]
    simp only [List.cons_append, find, this, Bool.false_eq_true, if_false, ih hp.2, Option.map_map]
    congr 1

theorem find_none_of_not_mem (n : S) (c0 : Char) (p : S) (hp : c0 ∉ p) :
    find (c0 :: n) p = none := by
  have := find_skip n c0 [] p hp
  simpa [find, List.isPrefixOf] using this

/-- C37: `replaceEnvironment` replaces every reference `${name}` by the value of the
variable (by the name itself if it is not set) and keeps all other text, for every text in
which literal parts, names and values contain no dollar sign and names no closing bracket.
-/
theorem c37_replaceEnvironment_substitutes_partial (env : Env) (ts : List (S × S)) (tail : S) (k : Nat)
    (hts : ∀ t ∈ ts, '$' ∉ t.1 ∧ '$' ∉ t.2 ∧ '}' ∉ t.2) (htail : '$' ∉ tail)
    (henv : ∀ n v, env n = some v → '$' ∉ v) (hk : ts.length < k) :
    replaceEnvironment env k (template ts tail) = some (expanded env ts tail) := by
  have key : ∀ (ts : List (S × S)) (k : Nat) (orig p : S),
      (∀ t ∈ ts, '$' ∉ t.1 ∧ '$' ∉ t.2 ∧ '}' ∉ t.2) → '$' ∉ p → ts.length < k →
      envLoop env orig k (p ++ template ts tail) = some (p ++ expanded env ts tail) := by
    intro ts
    induction ts with
    | nil =>
      intro k orig p _ hp hk
      obtain ⟨k, rfl⟩ : ∃ j, k = j + 1 := ⟨k - 1, by simp at hk; omega⟩
      have hn : find ['$', '{'] (p ++ tail) = none :=
        find_none_of_not_mem _ _ _ (by simp [hp, htail])
      simp [envLoop, template, expanded, hn]
    | cons t ts ih =>
      intro k orig p hts hp hk
      obtain ⟨k, rfl⟩ : ∃ j, k = j + 1 := ⟨k - 1, by simp at hk; omega⟩
      obtain ⟨h1, h2, h3⟩ := hts t (by simp)
      have e : p ++ template (t :: ts) tail
          = (p ++ t.1) ++ (['$', '{'] ++ (t.2 ++ '}' :: template ts tail)) := by
        simp [template]
      have f1 : find ['$', '{'] (p ++ template (t :: ts) tail) = some (p ++ t.1).length := by
        rw [e, find_skip ['{'] '$' _ _ (by simp [hp, h1]), find_prefix]; simp
      have d2 : (p ++ template (t :: ts) tail).drop ((p ++ t.1).length + 2)
          = t.2 ++ '}' :: template ts tail := by
        rw [e, ← List.drop_drop, List.drop_left]; rfl
      have f2 : findFrom ['}'] (p ++ template (t :: ts) tail) ((p ++ t.1).length + 2)
          = some (t.2.length + ((p ++ t.1).length + 2)) := by
        simp only [findFrom, d2]
        rw [find_skip [] '}' _ _ h3]
        have := find_prefix ['}'] (template ts tail)
        simp only [List.cons_append, List.nil_append] at this
        rw [this]; simp
      simp only [envLoop, f1, f2, d2]
      have n1 : (t.2 ++ '}' :: template ts tail).take
          (t.2.length + ((p ++ t.1).length + 2) - ((p ++ t.1).length + 2)) = t.2 := by
        rw [Nat.add_sub_cancel]; simp
      have n2 : (p ++ template (t :: ts) tail).take (p ++ t.1).length = p ++ t.1 := by
        rw [e, List.take_left]
      have n3 : (p ++ template (t :: ts) tail).drop (t.2.length + ((p ++ t.1).length + 2) + 1)
          = template ts tail := by
        rw [show t.2.length + ((p ++ t.1).length + 2) + 1
            = ((p ++ t.1).length + 2) + (t.2.length + 1) by omega, ← List.drop_drop, d2,
          ← List.drop_drop, List.drop_left]
        rfl
      rw [n1, n2, n3]
      have hv : '$' ∉ getEnvironment env t.2 := by
        simp only [getEnvironment]
        cases hv : env t.2 with
        | none => simpa using h2
        | some v => simpa using henv _ v hv
      rw [ih k orig _ (fun x hx => hts x (by simp [hx])) (by simp [hp, h1, hv])
        (by simp at hk; omega)]
      simp [expanded, getEnvironment]
  simp only [replaceEnvironment]
  split
  · rename_i h0
    have : ts = [] := by
      cases ts with
      | nil => rfl
      | cons t ts => simp [template] at h0
    subst this
    simp [template] at h0
    simp [template, expanded, h0]
  · have := key ts k (template ts tail) [] hts (by simp) hk
    simpa using this

example : template [("a".toList, "H".toList), ("/".toList, "X".toList)] ".c".toList
      = "a${H}/${X}.c".toList ∧
    expanded (fun n => if n = "H".toList then some "/h".toList else none)
      [("a".toList, "H".toList), ("/".toList, "X".toList)] ".c".toList = "a/h/X.c".toList := by
  decide +kernel

end Verif.FP
