import Verif.Config.ATEverySpec
import Verif.Config.ATTextProps

/-! # Helper lemmas for C140: the reader on any text -/
namespace Verif.AT.Every
open Err Text Inc

/-- A line that fits into the buffer. -/
def Short (l : S) : Prop := '\n' ∉ l ∧ l.length ≤ 1997

theorem readNextLine_short (l r : S) (h : Short l) : readNextLine { rest := l ++ '\n' :: r } = (shown l, { rest := r }) := by
  have hne : l ++ '\n' :: r ≠ [] := by simp
  simp [readNextLine, getline, getlineGo_line 1997 l r h.1 h.2, shown]

theorem getlineGo_tail (n : Nat) (l : S) (h : '\n' ∉ l) (hl : l.length ≤ n) :
    getlineGo n l = (l, { rest := [], eof := true }) := by
  induction l generalizing n with
  | nil => cases n <;> rfl
  | cons c cs ih =>
    simp only [List.mem_cons, not_or] at h
    have hc : ¬ c = '\n' := fun x => h.1 x.symm
    cases n with
    | zero => simp at hl
    | succ n =>
      have := ih n h.2 (by simpa using hl)
      simp [getlineGo, hc, this]

/-- The last line, without a newline. -/
theorem readNextLine_tail (l : S) (h : Short l) : ∃ f, readNextLine { rest := l } = (shown l, { rest := [], eof := true, fail := f }) := by
  cases l with
  | nil => exact ⟨true, by simp [readNextLine, getline, shown]⟩
  | cons c cs =>
    refine ⟨false, ?_⟩
    simp [readNextLine, getline, getlineGo_tail 1997 _ h.1 h.2, shown]

theorem getlineGo_long (n : Nat) (m : S) (c : Char) (r : S) (h : '\n' ∉ m) (hc : c ≠ '\n') (hm : m.length = n) :
    getlineGo n (m ++ c :: r) = (m, { rest := c :: r, fail := true }) := by
  induction m generalizing n with
  | nil =>
    simp only [List.length_nil] at hm; subst hm
    rw [List.nil_append, getlineGo.eq_def]; simp [hc]
  | cons a as ih =>
    simp only [List.mem_cons, not_or] at h
    have ha : ¬ a = '\n' := fun x => h.1 x.symm
    cases n with
    | zero => simp at hm
    | succ n =>
      have := ih n h.2 (by simpa using hm)
      simp [getlineGo, ha, this]

theorem readNextLine_long (m : S) (c : Char) (r : S) (h : '\n' ∉ m) (hc : c ≠ '\n') (hm : m.length = 1997) :
    readNextLine { rest := m ++ c :: r } = (shown m, { rest := c :: r, fail := true }) := by
  simp [readNextLine, getline, getlineGo_long 1997 m c r h hc hm, shown]

theorem readNextLine_failed (s : Stream) (h : s.fail = true) : readNextLine s = ([], s) := by
  cases s
  simp only at h; subst h
  simp [readNextLine, getline]

theorem end_shown (l : S) : reservedCommentEnd <:+: shown l ↔ reservedCommentEnd <:+: l := by
  unfold shown
  split
  · rename_i h
    have e : l = l.dropLast ++ ['\r'] := by
      have hne : l ≠ [] := by rintro rfl; simp at h
      have := List.dropLast_append_getLast hne
      rw [List.getLast?_eq_some_getLast hne] at h
      rw [Option.some.inj h] at this
      exact this.symm
    constructor
    · rintro ⟨a, b, hx⟩
      exact ⟨a, b ++ ['\r'], by rw [e, ← hx]; simp⟩
    · rintro ⟨a, b, hx⟩
      rcases List.eq_nil_or_concat b with rfl | ⟨b', y, rfl⟩
      · exfalso
        rw [List.append_nil] at hx
        rw [← hx, List.getLast?_append] at h
        revert h; simp [reservedCommentEnd, reservedComment]
      · refine ⟨a, b', ?_⟩
        rw [e] at hx
        simp only [List.concat_eq_append, ← List.append_assoc] at hx
        exact (List.append_inj' hx rfl).1
  · exact Iff.rfl

/-! ## Running on -/

/-- The loop of `get` from the point where the next line is about to be read. -/
def cont (k : Nat) (t : Tree) (P : List S) (s : Stream) (ln : Nat) : Option (Tree × Int) :=
  if (readNextLine s).2.eof then some (t, -1) else getLoop k plainReader t P (readNextLine s).2 ln (readNextLine s).1

theorem getLoop_next {k t P s ln b t' P' s' ln'} (h : doLine k plainReader t P s (ln + 1) b = some (.next t' P' s' ln')) :
    getLoop (k + 1) plainReader t P s ln b = cont k t' P' s' ln' := by
  rw [getLoop, h]; rfl

theorem getLoop_ret {k t P s ln b t' c} (h : doLine k plainReader t P s (ln + 1) b = some (.ret t' c)) :
    getLoop (k + 1) plainReader t P s ln b = some (t', c) := by
  rw [getLoop, h]

theorem getLoop_none {k t P s ln b} (h : doLine k plainReader t P s (ln + 1) b = none) :
    getLoop (k + 1) plainReader t P s ln b = none := by
  rw [getLoop, h]

theorem text_cons (l : S) (ls : List S) (x : S) : text (l :: ls) ++ x = l ++ '\n' :: (text ls ++ x) := by simp [text]

theorem cont_line (k : Nat) (t : Tree) (P : List S) (l : S) (ls : List S) (x : S) (ln : Nat) (h : Short l) :
    cont k t P { rest := text (l :: ls) ++ x } ln = getLoop k plainReader t P { rest := text ls ++ x } ln (shown l) := by
  unfold cont
  rw [text_cons, readNextLine_short l _ h]
  simp

/-- The same from inside a multi-line comment. -/
def contC (k k' : Nat) (t : Tree) (P : List S) (s : Stream) (ln : Nat) (acc : Option S) : Option (Tree × Int) :=
  (readComment k s ln acc).bind fun r => cont k' t P r.1 r.2.1

/-! ## Reading a comment -/

/-- The lines behind the end of a comment. -/
def afterRaw : List S → Option (List S)
  | [] => none
  | l :: ls => if commentEndStr <:+: shown l then some ls else afterRaw ls

theorem afterRaw_len {ls r : List S} (h : afterRaw ls = some r) : r.length < ls.length := by
  induction ls with
  | nil => simp [afterRaw] at h
  | cons l ls ih =>
    rw [afterRaw] at h
    split at h
    · cases h; simp
    · have := ih h; simp; omega

theorem afterRaw_mem {ls r : List S} (h : afterRaw ls = some r) : ∀ l ∈ r, l ∈ ls := by
  induction ls with
  | nil => simp [afterRaw] at h
  | cons l ls ih =>
    rw [afterRaw] at h
    split at h
    · cases h; intro x hx; exact List.mem_cons_of_mem _ hx
    · intro x hx; exact List.mem_cons_of_mem _ (ih h x hx)

theorem ending_inside (p : List S) (ls : List S) : ∀ i, ending p true i (ls.map shown) =
    match afterRaw ls with
    | none => .inside p
    | some r => ending p false (i + (ls.length - r.length)) (r.map shown) := by
  induction ls with
  | nil => intro i; rfl
  | cons l ls ih =>
    intro i
    rw [List.map_cons, ending, afterRaw]
    by_cases h : commentEndStr <:+: shown l
    · have h' : reservedCommentEnd <:+: shown l := h
      simp only [h, h', if_true, List.length_cons]
      rw [show i + (ls.length + 1 - ls.length) = i + 1 by omega]
    · have h' : ¬ reservedCommentEnd <:+: shown l := h
      simp only [h, h', if_false]
      rw [ih]
      cases ha : afterRaw ls with
      | none => rfl
      | some r =>
        have := afterRaw_len ha
        simp only [List.length_cons]
        rw [show i + 1 + (ls.length - r.length) = i + (ls.length + 1 - r.length) by omega]

theorem changes_raw (p : List S) (ls : List S) : changes p true (ls.map shown) =
    match afterRaw ls with
    | none => []
    | some r => changes p false (r.map shown) := by
  induction ls with
  | nil => rfl
  | cons l ls ih =>
    rw [List.map_cons, changes, afterRaw]
    by_cases h : commentEndStr <:+: shown l
    · have h' : reservedCommentEnd <:+: shown l := h
      simp only [h, h', if_true]
    · have h' : ¬ reservedCommentEnd <:+: shown l := h
      simp only [h, h', if_false]
      exact ih

theorem trim_no {l : S} (h : ¬ commentEndStr <:+: l) :
    hasInfix commentEndStr ((l.reverse.dropWhile isSpace).reverse.dropWhile isSpace) = false := by
  cases hh : hasInfix commentEndStr ((l.reverse.dropWhile isSpace).reverse.dropWhile isSpace) with
  | false => rfl
  | true => exact absurd ((trim_end l).1 hh) h

/-- One line of a comment. -/
theorem readComment_step (k : Nat) (s : Stream) (ln : Nat) (acc : Option S) :
    (commentEndStr <:+: (readNextLine s).1 → readComment (k + 1) s ln acc = some ((readNextLine s).2, ln + 1, acc)) ∧
    (¬ commentEndStr <:+: (readNextLine s).1 → ∃ acc', ∀ k, readComment (k + 1) s ln acc = readComment k (readNextLine s).2 (ln + 1) acc') := by
  constructor
  · intro h
    rw [readComment]
    simp only [(trim_end _).2 h, if_true]
  · intro h
    refine ⟨match acc with
      | some a => some (a ++ ['\n'] ++ (((readNextLine s).1.reverse.dropWhile isSpace).reverse.dropWhile isSpace))
      | none => some (((readNextLine s).1.reverse.dropWhile isSpace).reverse.dropWhile isSpace), fun k => ?_⟩
    rw [readComment]
    simp only [trim_no h, Bool.false_eq_true, if_false]
    rfl

theorem readComment_raw (ls : List S) (hg : ∀ l ∈ ls, Short l) (x : S) : ∀ (ln : Nat) (acc : Option S),
    match afterRaw ls with
    | none => ∃ acc', ∀ k, readComment (k + ls.length) { rest := text ls ++ x } ln acc = readComment k { rest := x } (ln + ls.length) acc'
    | some r => ∃ acc', ∀ k, readComment (k + ls.length) { rest := text ls ++ x } ln acc =
        some ({ rest := text r ++ x }, ln + (ls.length - r.length), acc') := by
  induction ls with
  | nil => intro ln acc; exact ⟨acc, fun k => by simp [text]⟩
  | cons l ls ih =>
    intro ln acc
    have hr := readNextLine_short l (text ls ++ x) (hg l List.mem_cons_self)
    have hg' : ∀ x ∈ ls, Short x := fun x hx => hg x (List.mem_cons_of_mem _ hx)
    rw [afterRaw, text_cons]
    by_cases hc : commentEndStr <:+: shown l
    · simp only [hc, if_true]
      refine ⟨acc, fun k => ?_⟩
      have := (readComment_step (k + ls.length) { rest := l ++ '\n' :: (text ls ++ x) } ln acc).1 (by rw [hr]; exact hc)
      rw [List.length_cons, ← Nat.add_assoc, this, hr]
      simp
    · simp only [hc, if_false]
      obtain ⟨acc1, h1⟩ := (readComment_step 0 { rest := l ++ '\n' :: (text ls ++ x) } ln acc).2 (by rw [hr]; exact hc)
      rw [hr] at h1
      have ih' := ih hg' (ln + 1) acc1
      cases ha : afterRaw ls with
      | none =>
        rw [ha] at ih'
        obtain ⟨acc', h2⟩ := ih'
        refine ⟨acc', fun k => ?_⟩
        rw [List.length_cons, ← Nat.add_assoc, h1, h2, Nat.add_assoc ln, Nat.add_comm 1]
      | some r =>
        rw [ha] at ih'
        obtain ⟨acc', h2⟩ := ih'
        have hlen := afterRaw_len ha
        refine ⟨acc', fun k => ?_⟩
        rw [List.length_cons, ← Nat.add_assoc, h1, h2]
        rw [show ln + 1 + (ls.length - r.length) = ln + (ls.length + 1 - r.length) by omega]

/-! ## Running through complete lines -/

theorem goodPath_dropLast {P : List S} (hP : GoodPath P) : GoodPath P.dropLast := fun d hd => hP d (List.dropLast_subset _ hd)

theorem node_dropLast {P : List S} {t : Tree} (hn : (nodeAt P t).isSome) (ha : P ≠ []) : (nodeAt P.dropLast t).isSome := by
  have := List.dropLast_append_getLast ha
  rw [← this, nodeAt_append] at hn
  cases hq : nodeAt P.dropLast t with
  | none => rw [hq] at hn; simp at hn
  | some x => rfl

theorem opens_line {l : S} {m : Nat} (hkd : kind l = .opens m) (P : List S) : lineChanges P l = [(P ++ pieces (beforeBrace l), none)] := by
  unfold kind at hkd
  unfold lineChanges
  by_cases h0 : (l.dropWhile isSpace).head? = some '#'
  · rw [if_pos h0] at hkd; cases hkd
  rw [if_neg h0] at hkd ⊢
  by_cases h1 : ':' ∈ l
  · rw [if_pos h1] at hkd; cases hkd
  rw [if_neg h1] at hkd ⊢
  by_cases h2 : '{' ∈ l
  · rw [if_pos h2]
  · rw [if_neg h2] at hkd
    exfalso
    split at hkd
    · cases hkd
    · split at hkd <;> cases hkd

theorem node_opens {l : S} {m : Nat} (hkd : kind l = .opens m) {P : List S} (hP : GoodPath P) (t : Tree) :
    (nodeAt (P ++ pieces (beforeBrace l)) (calls (lineChanges P l) t)).isSome := by
  have hgp := goodPath_append hP (goodPath_pieces (beforeBrace l))
  rw [opens_line hkd]
  show (nodeAt _ (call _ t)).isSome
  rw [call_eq hgp]
  exact nodeAt_setC_self _ _ (fun d hd => (hgp d hd).1) t

/-- What the loop does with complete lines, whatever comes behind. -/
def Advance (ls : List S) (t : Tree) (P : List S) (i : Nat) (x : S) : Prop :=
  match ending P false i (ls.map shown) with
  | .closed => ∃ k, cont k t P { rest := text ls ++ x } (i + 1) = some (calls (changes P false (ls.map shown)) t, -1)
  | .wrong j => ∃ k, cont k t P { rest := text ls ++ x } (i + 1) = some (calls (changes P false (ls.map shown)) t, (j : Int) + 2)
  | .reading P' => GoodPath P' ∧ (nodeAt P' (calls (changes P false (ls.map shown)) t)).isSome ∧ ∃ c, ∀ k,
      cont (k + ls.length) t P { rest := text ls ++ x } (i + 1) =
        cont (k + c) (calls (changes P false (ls.map shown)) t) P' { rest := x } (i + 1 + ls.length)
  | .inside P' => ∃ c c' acc, ∀ k, cont (k + ls.length) t P { rest := text ls ++ x } (i + 1) =
        contC (k + c) (k + c') (calls (changes P false (ls.map shown)) t) P' { rest := x } (i + 1 + ls.length) acc

theorem cont_mono (k m : Nat) {t P s ln r} (h : cont k t P s ln = some r) : cont (k + m) t P s ln = some r := by
  unfold cont at h ⊢
  split
  · rename_i hc; rw [if_pos hc] at h; exact h
  · rename_i hc
    rw [if_neg hc] at h
    induction m with
    | zero => exact h
    | succ m ih => exact getLoop_mono _ _ _ _ _ _ _ _ ih

/-- One more line in front. -/
theorem advance_cons {l : S} {ls r : List S} {t t' : Tree} {P P' : List S} {i m : Nat} {x : S}
    (he : ending P false i ((l :: ls).map shown) = ending P' false (i + m) (r.map shown))
    (hc : calls (changes P false ((l :: ls).map shown)) t = calls (changes P' false (r.map shown)) t')
    (hm : m + r.length = ls.length + 1) (hm0 : 0 < m)
    (hs : ∀ k, cont (k + (ls.length + 1)) t P { rest := text (l :: ls) ++ x } (i + 1) =
      cont (k + ls.length) t' P' { rest := text r ++ x } (i + m + 1))
    (h : Advance r t' P' (i + m) x) : Advance (l :: ls) t P i x := by
  unfold Advance at h ⊢
  rw [he]
  cases hq : ending P' false (i + m) (r.map shown) with
  | closed =>
    rw [hq] at h
    obtain ⟨k, h⟩ := h
    refine ⟨k + (ls.length + 1), ?_⟩
    rw [hs, hc]
    exact cont_mono k ls.length h
  | wrong j =>
    rw [hq] at h
    obtain ⟨k, h⟩ := h
    refine ⟨k + (ls.length + 1), ?_⟩
    rw [hs, hc]
    exact cont_mono k ls.length h
  | reading Q =>
    rw [hq] at h
    obtain ⟨h1, h2, c, h3⟩ := h
    rw [hc]
    refine ⟨h1, h2, (m - 1) + c, fun k => ?_⟩
    rw [List.length_cons, hs]
    have := h3 (k + (m - 1))
    rw [show k + (m - 1) + r.length = k + ls.length by omega] at this
    rw [this, Nat.add_assoc, show i + m + 1 + r.length = i + 1 + (ls.length + 1) by omega]
  | inside Q =>
    rw [hq] at h
    obtain ⟨c, c', acc, h3⟩ := h
    rw [hc]
    refine ⟨(m - 1) + c, (m - 1) + c', acc, fun k => ?_⟩
    rw [List.length_cons, hs]
    have := h3 (k + (m - 1))
    rw [show k + (m - 1) + r.length = k + ls.length by omega] at this
    rw [this, Nat.add_assoc, Nat.add_assoc, show i + m + 1 + r.length = i + 1 + (ls.length + 1) by omega]

theorem advance : ∀ (n : Nat) (ls : List S), ls.length ≤ n → (∀ l ∈ ls, Short l) →
    ∀ (t : Tree) (P : List S) (i : Nat) (x : S), GoodPath P → (nodeAt P t).isSome → Advance ls t P i x := by
  intro n
  induction n with
  | zero =>
    intro ls hl hg t P i x hP hn
    cases ls with
    | nil => exact ⟨hP, hn, 0, fun k => rfl⟩
    | cons l ls => simp at hl
  | succ n ih =>
    intro ls hl hg t P i x hP hn
    cases ls with
    | nil => exact ⟨hP, hn, 0, fun k => rfl⟩
    | cons l ls =>
      have hg' : ∀ x ∈ ls, Short x := fun x hx => hg x (List.mem_cons_of_mem _ hx)
      have hl' : ls.length ≤ n := by simpa using hl
      have hgl := goodPath_line hP (shown l)
      have hline : ∀ k, cont k t P { rest := text (l :: ls) ++ x } (i + 1) =
          getLoop k plainReader t P { rest := text ls ++ x } (i + 1) (shown l) :=
        fun k => cont_line k t P l ls x (i + 1) (hg l List.mem_cons_self)
      have key := fun k => doLine_kind k plainReader t P { rest := text ls ++ x } rfl (i + 1 + 1) (shown l)
      have keyc := fun k => doLine_calls k t P hP hn { rest := text ls ++ x } (i + 1 + 1) (shown l)
      cases hkd : kind (shown l) with
      | plain =>
        rw [hkd] at keyc
        simp only at keyc
        refine advance_cons (m := 1) (r := ls) (t' := calls (lineChanges P (shown l)) t) (P' := P) ?_ ?_ (by omega) (by omega) (fun k => ?_)
          (ih ls hl' hg' _ P (i + 1) x hP (node_calls _ hgl _ _ hn))
        · rw [List.map_cons, ending, hkd]
        · rw [List.map_cons, changes, hkd]; simp only [calls_append]
        · rw [hline, ← Nat.add_assoc, getLoop_next (keyc _)]
      | opens m =>
        rw [hkd] at keyc
        simp only at keyc
        refine advance_cons (m := 1) (r := ls) (t' := calls (lineChanges P (shown l)) t) (P' := P ++ pieces (beforeBrace (shown l)))
          ?_ ?_ (by omega) (by omega) (fun k => ?_)
          (ih ls hl' hg' _ _ (i + 1) x (goodPath_append hP (goodPath_pieces _)) (node_opens hkd hP t))
        · rw [List.map_cons, ending, hkd]
        · rw [List.map_cons, changes, hkd]; simp only [calls_append]
        · rw [hline, ← Nat.add_assoc, getLoop_next (keyc _)]
      | closes =>
        rw [hkd] at key
        simp only at key
        by_cases ha : P = []
        · have he : ending P false i ((l :: ls).map shown) = .closed := by rw [List.map_cons, ending, hkd]; simp [ha]
          have hc : changes P false ((l :: ls).map shown) = [] := by rw [List.map_cons, changes, hkd]; simp [ha]
          unfold Advance
          rw [he, hc]
          refine ⟨1, ?_⟩
          have kk := key 0
          rw [if_pos ha] at kk
          rw [hline]
          exact getLoop_ret kk
        · refine advance_cons (m := 1) (r := ls) (t' := t) (P' := P.dropLast) ?_ ?_ (by omega) (by omega) (fun k => ?_)
            (ih ls hl' hg' _ _ (i + 1) x (goodPath_dropLast hP) (node_dropLast hn ha))
          · rw [List.map_cons, ending, hkd]; simp [ha]
          · rw [List.map_cons, changes, hkd]; simp [ha]
          · have kk := key (k + ls.length)
            rw [if_neg ha] at kk
            rw [hline, ← Nat.add_assoc]
            exact getLoop_next kk
      | bad =>
        rw [hkd] at key
        simp only at key
        have he : ending P false i ((l :: ls).map shown) = .wrong i := by rw [List.map_cons, ending, hkd]
        have hc : changes P false ((l :: ls).map shown) = [] := by rw [List.map_cons, changes, hkd]
        unfold Advance
        rw [he, hc]
        refine ⟨1, ?_⟩
        rw [hline, getLoop_ret (key 0)]
        simp [calls]; omega
      | comment =>
        rw [hkd] at keyc
        simp only at keyc
        have he : ending P false i ((l :: ls).map shown) = ending P true (i + 1) (ls.map shown) := by rw [List.map_cons, ending, hkd]
        have hc : changes P false ((l :: ls).map shown) = changes P true (ls.map shown) := by rw [List.map_cons, changes, hkd]
        have hrc := readComment_raw ls hg' x (i + 1 + 1) none
        cases ha : afterRaw ls with
        | none =>
          rw [ha] at hrc
          obtain ⟨acc, hrc⟩ := hrc
          unfold Advance
          rw [he, hc, ending_inside, changes_raw, ha]
          refine ⟨0, ls.length, acc, fun k => ?_⟩
          rw [hline, List.length_cons, ← Nat.add_assoc]
          have kk := keyc (k + ls.length)
          rw [hrc] at kk
          unfold contC
          rw [show i + 1 + (ls.length + 1) = i + 1 + 1 + ls.length by omega]
          simp only [Nat.add_zero, changes, calls, List.foldl_nil]
          cases hr : readComment k { rest := x } (i + 1 + 1 + ls.length) acc with
          | none => rw [hr] at kk; rw [getLoop_none kk]; rfl
          | some q => rw [hr] at kk; rw [getLoop_next kk]; rfl
        | some r =>
          rw [ha] at hrc
          obtain ⟨acc, hrc⟩ := hrc
          have hlen := afterRaw_len ha
          have hgr : ∀ x ∈ r, Short x := fun x hx => hg' x (afterRaw_mem ha x hx)
          refine advance_cons (m := 1 + (ls.length - r.length)) (r := r) (t' := t) (P' := P) ?_ ?_ (by omega) (by omega) (fun k => ?_)
            (ih r (by omega) hgr _ P _ x hP hn)
          · rw [he, ending_inside, ha]; simp only [Nat.add_assoc]; try rfl
          · rw [hc, changes_raw, ha]
          · rw [hline, ← Nat.add_assoc]
            have kk := keyc (k + ls.length)
            rw [hrc] at kk
            simp only [Option.map_some] at kk
            rw [getLoop_next kk]
            congr 1; omega

end Verif.AT.Every
