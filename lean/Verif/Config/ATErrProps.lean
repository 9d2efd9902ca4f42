import Verif.Config.ATErrSpec
import Verif.Config.ATRoundProps

/-! # C97: the line of an error in a configuration file -/
namespace Verif.AT.Err

/-! ## Lemmas -/

theorem infix_dropWhile (p : Char → Bool) (c : Char) (n : S) (hc : p c = false) : ∀ l : S,
    (c :: n) <:+: l → (c :: n) <:+: l.dropWhile p := by
  intro l
  induction l with
  | nil => intro h; simpa using h
  | cons x l ih =>
    intro h
    rw [List.dropWhile_cons]
    by_cases hx : p x = true
    · rw [if_pos hx]
      rcases List.infix_cons_iff.1 h with h | h
      · have : x = c := by
          obtain ⟨t, ht⟩ := h
          simp at ht; exact ht.1.symm
        subst this; rw [hc] at hx; cases hx
      · exact ih h
    · rw [if_neg hx]; exact h

theorem infix_reverse {a l : S} : a.reverse <:+: l.reverse ↔ a <:+: l := List.reverse_infix

theorem trim_end (b : S) :
    hasInfix commentEndStr ((b.reverse.dropWhile isSpace).reverse.dropWhile isSpace) = true ↔ commentEndStr <:+: b := by
  rw [hasInfix_iff]
  constructor
  · intro h
    refine h.trans ((List.dropWhile_suffix _).isInfix.trans ?_)
    rw [← infix_reverse, List.reverse_reverse]
    exact (List.dropWhile_suffix _).isInfix
  · intro h
    apply infix_dropWhile isSpace '}' _ (by decide)
    have h' := (infix_reverse (a := commentEndStr) (l := b)).2 h
    rw [← infix_reverse, List.reverse_reverse]
    exact infix_dropWhile isSpace '_' _ (by decide) _ h'

theorem mem_dropWhile {c : Char} (hc : isSpace c = false) (l : S) : c ∈ l.dropWhile isSpace ↔ c ∈ l := by
  induction l with
  | nil => simp
  | cons x l ih =>
    rw [List.dropWhile_cons]
    by_cases hx : isSpace x = true
    · rw [if_pos hx, ih]
      constructor
      · exact List.mem_cons_of_mem _
      · intro h
        rcases List.mem_cons.1 h with rfl | h
        · rw [hc] at hx; cases hx
        · exact h
    · rw [if_neg hx]

theorem cut_isSome (ch : Char) (l : S) : (ch ∉ l ∧ cut ch l = none) ∨
    (ch ∈ l ∧ ∃ y, cut ch l = some (l.takeWhile (fun c => c ≠ ch), y)) := by
  induction l with
  | nil => left; simp [cut]
  | cons c l ih =>
    by_cases h : c = ch
    · right; subst h; exact ⟨by simp, l, by simp [cut]⟩
    · rcases ih with ⟨h1, h2⟩ | ⟨h1, y, h2⟩
      · left; exact ⟨by simp [h1]; exact fun h' => h h'.symm, by simp [cut, h, h2]⟩
      · right; exact ⟨by simp [h1], y, by simp [cut, h, h2]⟩

theorem dropWhile_nil_iff (l : S) : l.dropWhile isSpace = [] ↔ ∀ c ∈ l, isSpace c = true := by
  induction l with
  | nil => simp
  | cons x l ih =>
    rw [List.dropWhile_cons]
    by_cases hx : isSpace x = true
    · rw [if_pos hx, ih]; simp [hx]
    · rw [if_neg hx]; simp [hx]

/-- What one line does to the position and the line number, by its kind. -/
theorem doLine_kind (k : Nat) (cfg : Cfg) (t : Tree) (at_ : List S) (s : Stream) (he : s.eof = false) (ln : Nat) (l : S) :
    match kind l with
    | .plain => ∃ t', doLine k cfg t at_ s ln l = some (.next t' at_ s ln)
    | .opens n => ∃ t' at', doLine k cfg t at_ s ln l = some (.next t' at' s ln) ∧ at'.length = at_.length + n
    | .comment => (readComment k s ln none = none ∧ doLine k cfg t at_ s ln l = none) ∨
        ∃ s' ln' acc t', readComment k s ln none = some (s', ln', acc) ∧ doLine k cfg t at_ s ln l = some (.next t' at_ s' ln')
    | .closes => doLine k cfg t at_ s ln l = if at_ = [] then some (.ret t (-1)) else some (.next t at_.dropLast s ln)
    | .bad => doLine k cfg t at_ s ln l = some (.ret t ln) := by
  have m1 := mem_dropWhile (c := ':') (by decide) l
  have m2 := mem_dropWhile (c := '{') (by decide) l
  have m3 := mem_dropWhile (c := '}') (by decide) l
  unfold kind doLine
  simp only
  by_cases h0 : (l.dropWhile isSpace).head? = some '#'
  · simp only [h0, if_true]; exact ⟨t, rfl⟩
  simp only [h0, if_false]
  rcases cut_isSome ':' (l.dropWhile isSpace) with ⟨c1, c2⟩ | ⟨c1, y, c2⟩
  · have n1 : ':' ∉ l := fun h => c1 (m1.2 h)
    simp only [n1, c2, if_false]
    rcases cut_isSome '{' (l.dropWhile isSpace) with ⟨d1, d2⟩ | ⟨d1, y, d2⟩
    · have n2 : '{' ∉ l := fun h => d1 (m2.2 h)
      simp only [n2, d2, if_false]
      rcases cut_isSome '}' (l.dropWhile isSpace) with ⟨e1, e2⟩ | ⟨e1, y, e2⟩
      · have n3 : '}' ∉ l := fun h => e1 (m3.2 h)
        simp only [n3, e2, if_false]
        by_cases hb : ∀ c ∈ l, isSpace c = true
        · have := (dropWhile_nil_iff l).2 hb
          rw [if_pos hb]
          simp only [this]
          exact ⟨t, by simp⟩
        · have : l.dropWhile isSpace ≠ [] := fun h => hb ((dropWhile_nil_iff l).1 h)
          rw [if_neg hb]
          simp [he, this]
      · have n3 := m3.1 e1
        simp only [n3, e2, if_true]
    · have n2 := m2.1 d1
      simp only [n2, d2, if_true, beforeBrace]
      by_cases hn : (l.dropWhile isSpace).takeWhile (fun c => c ≠ '{') = commentStr
      · simp only [hn, if_true]
        cases hr : readComment k s ln none with
        | none => exact Or.inl ⟨rfl, rfl⟩
        | some r =>
          obtain ⟨s', ln', acc⟩ := r
          right
          cases hl : cfg.loadComments with
          | true => exact ⟨s', ln', acc, _, rfl, by simp; rfl⟩
          | false => exact ⟨s', ln', acc, _, rfl, by simp; rfl⟩
      · simp only [hn, if_false]
        exact ⟨_, _, rfl, by simp [effective]⟩
  · have n1 := m1.1 c1
    simp only [n1, c2, if_true]
    split
    · exact ⟨_, rfl⟩
    · split
      · split
        · exact ⟨_, rfl⟩
        · exact ⟨_, rfl⟩
      · split
        · exact ⟨_, rfl⟩
        · exact ⟨_, rfl⟩

/-- The rest of the lines after a multi-line comment, and how many lines it takes. -/
def afterComment : List S → Option (List S)
  | [] => none
  | l :: ls => if commentEndStr <:+: l then some ls else afterComment ls

theorem afterComment_len {ls r : List S} (h : afterComment ls = some r) : r.length < ls.length := by
  induction ls with
  | nil => simp [afterComment] at h
  | cons l ls ih =>
    rw [afterComment] at h
    split at h
    · cases h; simp
    · have := ih h; simp; omega

theorem afterComment_mem {ls r : List S} (h : afterComment ls = some r) : ∀ l ∈ r, l ∈ ls := by
  induction ls with
  | nil => simp [afterComment] at h
  | cons l ls ih =>
    rw [afterComment] at h
    split at h
    · cases h; intro x hx; exact List.mem_cons_of_mem _ hx
    · intro x hx; exact List.mem_cons_of_mem _ (ih h x hx)

theorem scan_inside (d i : Nat) (ls : List S) : scan d true i ls =
    match afterComment ls with
    | none => .unclosed
    | some r => scan d false (i + (ls.length - r.length)) r := by
  induction ls generalizing i with
  | nil => rfl
  | cons l ls ih =>
    rw [scan, afterComment]
    by_cases h : commentEndStr <:+: l
    · simp only [h, if_true, List.length_cons]
      rw [show i + (ls.length + 1 - ls.length) = i + 1 by omega]
    · simp only [h, if_false]
      rw [ih]
      cases ha : afterComment ls with
      | none => rfl
      | some r =>
        have := afterComment_len ha
        simp only [List.length_cons]
        rw [show i + 1 + (ls.length - r.length) = i + (ls.length + 1 - r.length) by omega]

theorem readComment_ended (k : Nat) (s : Stream) (ln : Nat) (acc : Option S) (h : s.rest = []) (hf : s.eof = true ∨ s.fail = true) :
    readComment k s ln acc = none := by
  induction k generalizing s ln acc with
  | zero => rfl
  | succ k ih =>
    have hr : readNextLine s = ([], { s with fail := true }) := by
      simp only [readNextLine, getline, hf, if_true]; simp
    have ht : hasInfix commentEndStr [] = false := by decide
    rw [readComment, hr]
    simp only [List.reverse_nil, List.dropWhile_nil, ht]
    exact ih _ _ _ h (Or.inr rfl)

/-- Reading a multi-line comment: with enough fuel it ends behind the first line with the end mark. -/
theorem readComment_spec (ls : List S) (hg : ∀ l ∈ ls, GoodLine l) : ∀ (k ln : Nat) (acc : Option S),
    match afterComment ls with
    | none => readComment k { rest := text ls } ln acc = none
    | some r => ls.length ≤ k → ∃ acc', readComment k { rest := text ls } ln acc =
        some ({ rest := text r }, ln + (ls.length - r.length), acc') := by
  induction ls with
  | nil =>
    intro k ln acc
    cases k with
    | zero => rfl
    | succ k =>
      simp only [afterComment, text, List.flatMap_nil]
      have ht : hasInfix commentEndStr [] = false := by decide
      rw [readComment, readNextLine_end]
      simp only [List.reverse_nil, List.dropWhile_nil, ht]
      exact readComment_ended k _ _ _ rfl (Or.inr rfl)
  | cons l ls ih =>
    intro k ln acc
    have ht : text (l :: ls) = l ++ '\n' :: text ls := by simp [text]
    have hr := readNextLine_line l (text ls) (hg l List.mem_cons_self)
    have hg' : ∀ x ∈ ls, GoodLine x := fun x hx => hg x (List.mem_cons_of_mem _ hx)
    rw [afterComment]
    cases k with
    | zero =>
      by_cases hc : commentEndStr <:+: l
      · simp only [hc, if_true]; intro h; simp at h
      · simp only [hc, if_false]
        cases ha : afterComment ls with
        | none => rfl
        | some r => intro h; simp at h
    | succ k =>
      by_cases hc : commentEndStr <:+: l
      · simp only [hc, if_true]
        intro _
        refine ⟨acc, ?_⟩
        rw [readComment, ht, hr]
        simp only [(trim_end l).2 hc, if_true, List.length_cons]
        rw [show ls.length + 1 - ls.length = 1 by omega]
      · have hc' : hasInfix commentEndStr ((l.reverse.dropWhile isSpace).reverse.dropWhile isSpace) = false := by
          cases hh : hasInfix commentEndStr ((l.reverse.dropWhile isSpace).reverse.dropWhile isSpace) with
          | false => rfl
          | true => exact absurd ((trim_end l).1 hh) hc
        simp only [hc, if_false]
        rw [readComment, ht, hr]
        simp only [hc', Bool.false_eq_true, if_false]
        have ih' := fun acc => ih hg' k (ln + 1) acc
        cases ha : afterComment ls with
        | none =>
          simp only [ha] at ih'
          exact ih' _
        | some r =>
          intro hk
          have hlen := afterComment_len ha
          simp only [ha] at ih'
          have hk' : ls.length ≤ k := by simpa using hk
          simp only [List.length_cons]
          rw [show ln + (ls.length + 1 - r.length) = ln + 1 + (ls.length - r.length) by omega]
          exact ih' _ hk'

/-- The return value for a verdict. -/
def code : Verdict → Option Int
  | .fine => some (-1)
  | .wrong i => some (i + 2)
  | .unclosed => none

/-- One more read: the parser goes on with the next line or stops at the end. -/
theorem next_feed (k : Nat) (cfg : Cfg) (t : Tree) (at_ : List S) (ln : Nat) (ls : List S) (hg : ∀ l ∈ ls, GoodLine l) :
    (match readNextLine { rest := text ls } with
      | (b, s'') => if s''.eof = true then some (t, (-1 : Int)) else getLoop k cfg t at_ s'' ln b) =
    feed k cfg t at_ ln ls := by
  cases ls with
  | nil => simp [text, readNextLine_end, feed]
  | cons l ls =>
    have : text (l :: ls) = l ++ '\n' :: text ls := by simp [text]
    simp [this, readNextLine_line l (text ls) (hg l List.mem_cons_self), feed]

theorem feed_verdict : ∀ (n : Nat) (ls : List S), ls.length ≤ n → (∀ l ∈ ls, GoodLine l) →
    ∀ (k : Nat) (cfg : Cfg) (t : Tree) (at_ : List S) (i : Nat), ls.length ≤ k →
    (feed k cfg t at_ (i + 1) ls).map Prod.snd = code (scan at_.length false i ls) := by
  intro n
  induction n with
  | zero =>
    intro ls hl hg k cfg t at_ i hk
    cases ls with
    | nil => simp [feed, scan, code]
    | cons l ls => simp at hl
  | succ n ih =>
    intro ls hl hg k cfg t at_ i hk
    cases ls with
    | nil => simp [feed, scan, code]
    | cons l ls =>
      have hg' : ∀ x ∈ ls, GoodLine x := fun x hx => hg x (List.mem_cons_of_mem _ hx)
      have hl' : ls.length ≤ n := by simpa using hl
      simp only [feed]
      cases k with
      | zero =>
        simp at hk
      | succ k =>
        rw [getLoop]
        have key := doLine_kind k cfg t at_ { rest := text ls } rfl (i + 1 + 1) l
        cases hkd : kind l with
        | plain =>
          rw [hkd] at key
          obtain ⟨t', key⟩ := key
          rw [key]
          simp only [next_feed k cfg t' at_ (i + 1 + 1) ls hg']
          have hs : scan at_.length false i (l :: ls) = scan at_.length false (i + 1) ls := by rw [scan, hkd]
          rw [hs]
          exact ih ls hl' hg' k cfg t' at_ (i + 1) (by simpa using hk)
        | opens m =>
          rw [hkd] at key
          obtain ⟨t', at', key, hat⟩ := key
          rw [key]
          simp only [next_feed k cfg t' at' (i + 1 + 1) ls hg']
          have hs : scan at_.length false i (l :: ls) = scan at'.length false (i + 1) ls := by rw [scan, hkd, hat]
          rw [hs]
          exact ih ls hl' hg' k cfg t' at' (i + 1) (by simpa using hk)
        | closes =>
          rw [hkd] at key
          simp only at key
          by_cases ha : at_ = []
          · rw [if_pos ha] at key
            rw [key]
            have hs : scan at_.length false i (l :: ls) = .fine := by rw [scan, hkd]; simp [ha]
            rw [hs]; rfl
          · rw [if_neg ha] at key
            rw [key]
            simp only [next_feed k cfg t at_.dropLast (i + 1 + 1) ls hg']
            have hs : scan at_.length false i (l :: ls) = scan at_.dropLast.length false (i + 1) ls := by
              rw [scan, hkd]; simp [ha]
            rw [hs]
            exact ih ls hl' hg' k cfg t at_.dropLast (i + 1) (by simpa using hk)
        | bad =>
          rw [hkd] at key
          simp only at key
          rw [key]
          have hs : scan at_.length false i (l :: ls) = .wrong i := by rw [scan, hkd]
          rw [hs]
          simp only [Option.map, code, Option.some.injEq]
          omega
        | comment =>
          rw [hkd] at key
          simp only at key
          have hs : scan at_.length false i (l :: ls) = scan at_.length true (i + 1) ls := by rw [scan, hkd]
          rw [hs, scan_inside]
          have hrc := readComment_spec ls hg' k (i + 1 + 1) none
          cases ha : afterComment ls with
          | none =>
            rw [ha] at hrc
            simp only at hrc
            rcases key with ⟨_, key⟩ | ⟨s', ln', acc, t', h1, _⟩
            · rw [key]; rfl
            · rw [hrc] at h1; cases h1
          | some r =>
            rw [ha] at hrc
            simp only at hrc
            have hlen := afterComment_len ha
            have hkl : ls.length ≤ k := by simpa using hk
            obtain ⟨acc', hrc⟩ := hrc hkl
            rcases key with ⟨h1, _⟩ | ⟨s', ln', acc, t', h1, key⟩
            · rw [hrc] at h1; cases h1
            · rw [hrc] at h1
              cases h1
              rw [key]
              have hgr : ∀ x ∈ r, GoodLine x := fun x hx => hg' x (afterComment_mem ha x hx)
              simp only [next_feed k cfg t' at_ _ r hgr]
              have := ih r (by omega) hgr k cfg t' at_ (i + 1 + (ls.length - r.length)) (by omega)
              rw [show i + 1 + 1 + (ls.length - r.length) = i + 1 + (ls.length - r.length) + 1 by omega]
              exact this

/-! ## The bound on the number of lines does not matter -/

theorem readComment_mono (k : Nat) : ∀ (s : Stream) (ln : Nat) (acc : Option S) r,
    readComment k s ln acc = some r → readComment (k + 1) s ln acc = some r := by
  induction k with
  | zero => intro s ln acc r h; simp [readComment] at h
  | succ k ih =>
    intro s ln acc r h
    rw [readComment] at h ⊢
    simp only at h ⊢
    split
    · rename_i hc; rw [if_pos hc] at h; exact h
    · rename_i hc; rw [if_neg hc] at h; exact ih _ _ _ _ h

theorem doLine_mono (k : Nat) (cfg : Cfg) (t : Tree) (at_ : List S) (s : Stream) (ln : Nat) (l : S) (r : LineRes)
    (h : doLine k cfg t at_ s ln l = some r) : doLine (k + 1) cfg t at_ s ln l = some r := by
  unfold doLine at h ⊢
  simp only at h ⊢
  split
  · rename_i hc; rw [if_pos hc] at h; exact h
  · rename_i hc; rw [if_neg hc] at h
    cases c1 : cut ':' (l.dropWhile isSpace) with
    | some x => rw [c1] at h; exact h
    | none =>
      rw [c1] at h
      cases c2 : cut '{' (l.dropWhile isSpace) with
      | none => rw [c2] at h; exact h
      | some x =>
        rw [c2] at h
        simp only at h ⊢
        split
        · rename_i hn; rw [if_pos hn] at h
          cases hr : readComment k s ln none with
          | none => rw [hr] at h; cases h
          | some q => rw [readComment_mono k _ _ _ _ hr]; rw [hr] at h; exact h
        · rename_i hn; rw [if_neg hn] at h; exact h

theorem getLoop_mono (k : Nat) : ∀ (cfg : Cfg) (t : Tree) (at_ : List S) (s : Stream) (ln : Nat) (l : S) r,
    getLoop k cfg t at_ s ln l = some r → getLoop (k + 1) cfg t at_ s ln l = some r := by
  induction k with
  | zero => intro cfg t at_ s ln l r h; simp [getLoop] at h
  | succ k ih =>
    intro cfg t at_ s ln l r h
    rw [getLoop] at h ⊢
    cases hd : doLine k cfg t at_ s (ln + 1) l with
    | none => rw [hd] at h; cases h
    | some q =>
      rw [doLine_mono k _ _ _ _ _ _ _ hd]
      rw [hd] at h
      cases q with
      | ret t' c => exact h
      | next t' at' s' ln' =>
        simp only at h ⊢
        split
        · rename_i hc; rw [if_pos hc] at h; exact h
        · rename_i hc; rw [if_neg hc] at h; exact ih _ _ _ _ _ _ _ h

theorem get_mono (k m : Nat) (cfg : Cfg) (t : Tree) (x : S) (r) (h : get k cfg t x = some r) : get (k + m) cfg t x = some r := by
  induction m with
  | zero => exact h
  | succ m ih => exact getLoop_mono _ _ _ _ _ _ _ _ ih

theorem get_empty (k : Nat) (cfg : Cfg) (t : Tree) : (get (k + 1) cfg t (text [])).map Prod.snd = some (-1) := by
  have hd : doLine k cfg t [] ⟨[], true, true⟩ (1 + 1) [] = some (.next t [] ⟨[], true, true⟩ (1 + 1)) := by
    simp [doLine, cut]
  simp only [get, text, List.flatMap_nil, readNextLine_end, getLoop, hd]
  simp [readNextLine, getline]

/-! ## C97 -/

/-- C97: what `get` returns, for every text of complete lines (without overlong lines), is determined by
the lines alone: `-1` if all are understood (up to the brace that closes the outermost level), the index
of the first wrong line plus 2 otherwise, and it does not return iff a multi-line comment is not closed.
The bound `k` on the number of lines is any number above the number of lines. -/
theorem c97_return_value (cfg : Cfg) (t : Tree) (ls : List S) (hg : ∀ l ∈ ls, GoodLine l) (k : Nat) (hk : ls.length < k) :
    (get k cfg t (text ls)).map Prod.snd =
      match scan 0 false 0 ls with
      | .fine => some (-1)
      | .wrong i => some (i + 2)
      | .unclosed => none := by
  cases ls with
  | nil =>
    cases k with
    | zero => omega
    | succ k => rw [get_empty]; rfl
  | cons l ls =>
    rw [get_feed k cfg t l ls (hg l List.mem_cons_self)]
    have := feed_verdict _ (l :: ls) (Nat.le_refl _) hg k cfg t [] 0 (by omega)
    simp only [List.length_nil, Nat.zero_add] at this
    rw [this]
    cases scan 0 false 0 (l :: ls) <;> rfl

/-- C97: an unclosed comment: no number of steps is enough. -/
theorem c97_unclosed_never_returns (cfg : Cfg) (t : Tree) (ls : List S) (hg : ∀ l ∈ ls, GoodLine l)
    (h : scan 0 false 0 ls = .unclosed) (k : Nat) : get k cfg t (text ls) = none := by
  cases hr : get k cfg t (text ls) with
  | none => rfl
  | some r =>
    have h1 := get_mono k (ls.length + 1) cfg t _ r hr
    have h2 := c97_return_value cfg t ls hg (k + (ls.length + 1)) (by omega)
    rw [h1, h] at h2
    cases h2

/-- Lines that keep the parser in the text: no wrong line, comments closed, never below the outermost level. -/
def Fine (pre : List S) (d : Nat) : Prop := ∀ ls, scan 0 false 0 (pre ++ ls) = scan d false pre.length ls

/-- C97 (partial). If everything before is understood and the next line is not, `get` returns (and `load`
reports) a number, so the error is noticed. Missing: the number is that of the line after the wrong one. -/
theorem c97_error_noticed_partial (cfg : Cfg) (t : Tree) (pre : List S) (d : Nat) (l : S) (post : List S) (hp : Fine pre d)
    (hb : kind l = .bad) (hg : ∀ x ∈ pre ++ l :: post, GoodLine x) (k : Nat) (hk : (pre ++ l :: post).length < k) :
    ∃ n : Int, 0 ≤ n ∧ (get k cfg t (text (pre ++ l :: post))).map Prod.snd = some n := by
  have h := c97_return_value cfg t _ hg k hk
  have hs : scan 0 false 0 (pre ++ l :: post) = .wrong pre.length := by rw [hp, scan, hb]
  rw [hs] at h
  exact ⟨_, by omega, h⟩

/-- C97 violated: the reported number is always one too large: the wrong line is number
`pre.length + 1` (counted from 1), reported is `pre.length + 2`. -/
theorem c97_off_by_one (cfg : Cfg) (t : Tree) (pre : List S) (d : Nat) (l : S) (post : List S) (hp : Fine pre d)
    (hb : kind l = .bad) (hg : ∀ x ∈ pre ++ l :: post, GoodLine x) (k : Nat) (hk : (pre ++ l :: post).length < k) (n : Int)
    (h : (get k cfg t (text (pre ++ l :: post))).map Prod.snd = some n) : n = ((pre.length + 1 : Nat) : Int) + 1 := by
  have h' := c97_return_value cfg t _ hg k hk
  have hs : scan 0 false 0 (pre ++ l :: post) = .wrong pre.length := by rw [hp, scan, hb]
  rw [hs, h] at h'
  simp only [Option.some.injEq] at h'
  rw [h']; omega

/-- C97 violated: a closing brace too many ends the reading with success; the lines behind it are neither
stored nor checked. -/
theorem c97_rest_ignored :
    (get 9 plainCfg (newNode none) (text ["a:1".toList, "}".toList, "b:2".toList, "nonsense".toList])).map
      (fun r => (getAttribute [] r.1 (some ['a']) none, getAttribute [] r.1 (some ['b']) none, r.2))
    = some (.ok (some ['1']), .ok none, -1) := by
  decide +kernel

/-- The verdict of `scan` names a line that is wrong by itself. -/
theorem c97_wrong_line_is_bad (ls : List S) (i : Nat) (h : scan 0 false 0 ls = .wrong i) :
    ∃ l, ls[i]? = some l ∧ kind l = .bad := by
  have key : ∀ (ls : List S) (d : Nat) (b : Bool) (j : Nat), scan d b j ls = .wrong i →
      j ≤ i ∧ ∃ l, ls[i - j]? = some l ∧ kind l = .bad := by
    intro ls
    induction ls with
    | nil => intro d b j h; cases b <;> simp [scan] at h
    | cons l ls ih =>
      intro d b j h
      have go : ∀ d b, scan d b (j + 1) ls = .wrong i → j ≤ i ∧ ∃ x, (l :: ls)[i - j]? = some x ∧ kind x = .bad := by
        intro d b h
        obtain ⟨h1, x, h2, h3⟩ := ih d b (j + 1) h
        refine ⟨by omega, x, ?_, h3⟩
        rw [show i - j = (i - (j + 1)) + 1 by omega, List.getElem?_cons_succ]
        exact h2
      cases b with
      | true =>
        rw [scan] at h
        split at h
        · exact go _ _ h
        · exact go _ _ h
      | false =>
        rw [scan] at h
        cases hk : kind l with
        | plain => rw [hk] at h; exact go _ _ h
        | opens n => rw [hk] at h; exact go _ _ h
        | comment => rw [hk] at h; exact go _ _ h
        | closes =>
          rw [hk] at h
          simp only at h
          split at h
          · cases h
          · exact go _ _ h
        | bad =>
          rw [hk] at h
          cases h
          exact ⟨Nat.le_refl _, l, by simp, hk⟩
  exact (key ls 0 false 0 h).2

/-- A line is wrong iff it is not blank, no remark, and has none of `:`, `{` and `}`. -/
theorem c97_bad_iff (l : S) : kind l = .bad ↔
    (∃ c ∈ l, isSpace c = false) ∧ (l.dropWhile isSpace).head? ≠ some '#' ∧ ':' ∉ l ∧ '{' ∉ l ∧ '}' ∉ l := by
  unfold kind
  by_cases h0 : (l.dropWhile isSpace).head? = some '#'
  · simp [h0]
  by_cases h1 : ':' ∈ l
  · simp [h0, h1]
  by_cases h2 : '{' ∈ l
  · simp only [h0, h1, h2, if_true, if_false]
    split <;> simp
  by_cases h3 : '}' ∈ l
  · simp [h0, h1, h2, h3]
  by_cases h4 : ∀ c ∈ l, isSpace c = true
  · simp only [h0, h1, h2, h3, if_false, if_pos h4]
    simp only [reduceCtorEq, false_iff, not_and]
    rintro ⟨c, hc, hs⟩
    rw [h4 c hc] at hs; cases hs
  · simp only [h0, h1, h2, h3, if_false, if_neg h4, true_iff]
    refine ⟨?_, fun h => h0 h, by simp, by simp, by simp⟩
    apply Classical.byContradiction
    intro hn
    refine h4 (fun c hc => ?_)
    cases hs : isSpace c with
    | true => rfl
    | false => exact absurd ⟨c, hc, hs⟩ hn

/-- Concrete texts: nested levels with a comment, a wrong line in it; an unclosed comment. -/
example : scan 0 false 0 ["a{".toList, " b:1".toList, "_COMMENT_{".toList, "x y".toList, "}_COMMENT_".toList, "}".toList,
    "what".toList, "c:2".toList] = .wrong 6 := by decide +kernel
example : (get 20 plainCfg (newNode none) (text ["a{".toList, " b:1".toList, "_COMMENT_{".toList, "x y".toList,
    "}_COMMENT_".toList, "}".toList, "what".toList, "c:2".toList])).map Prod.snd = some 8 := by decide +kernel
example : scan 0 false 0 ["a:1".toList, "_COMMENT_{".toList, "x".toList] = .unclosed := by decide +kernel
example : Fine ["a:1".toList] 0 ∧ kind "what".toList = .bad := by
  refine ⟨fun ls => ?_, by decide +kernel⟩
  have : kind "a:1".toList = .plain := by decide +kernel
  rw [List.cons_append, scan, this]; rfl

end Verif.AT.Err
