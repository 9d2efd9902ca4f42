import Verif.Config.ATEvery

/-! # C140: reading any text -/
namespace Verif.AT.Every
open Err Text Inc

theorem linesOf_text (x : S) : text (linesOf x).1 ++ (linesOf x).2 = x := by
  induction x with
  | nil => rfl
  | cons c cs ih =>
    rw [linesOf]
    by_cases hc : c = '\n'
    · simp only [hc, if_true]
      rw [text_cons, ih]; rfl
    · simp only [hc, if_false]
      cases h : (linesOf cs).1 with
      | nil =>
        rw [h] at ih
        simp only [text, List.flatMap_nil, List.nil_append] at ih ⊢
        rw [ih]
      | cons l ls =>
        rw [h] at ih
        simp only
        rw [text_cons] at ih ⊢
        rw [List.cons_append, ih]

theorem linesOf_nl (x : S) : (∀ l ∈ (linesOf x).1, '\n' ∉ l) ∧ '\n' ∉ (linesOf x).2 := by
  induction x with
  | nil => exact ⟨by simp [linesOf], by simp [linesOf]⟩
  | cons c cs ih =>
    rw [linesOf]
    by_cases hc : c = '\n'
    · simp only [hc, if_true]
      refine ⟨?_, ih.2⟩
      intro l hl
      rcases List.mem_cons.1 hl with rfl | hl
      · simp
      · exact ih.1 l hl
    · simp only [hc, if_false]
      have hc' : ¬ '\n' = c := fun e => hc e.symm
      cases h : (linesOf cs).1 with
      | nil =>
        refine ⟨by simp, ?_⟩
        simp only [List.mem_cons, not_or]
        exact ⟨hc', ih.2⟩
      | cons l ls =>
        rw [h] at ih
        refine ⟨?_, ih.2⟩
        intro l' hl
        rcases List.mem_cons.1 hl with rfl | hl
        · simp only [List.mem_cons, not_or]
          exact ⟨hc', ih.1 l (by simp)⟩
        · exact ih.1 l' (by simp [hl])

/-- A text is its lines and the rest. -/
theorem linesOf_eq (ls : List S) (tail : S) (h : ∀ l ∈ ls, '\n' ∉ l) (ht : '\n' ∉ tail) : linesOf (text ls ++ tail) = (ls, tail) := by
  have h0 : linesOf tail = ([], tail) := by
    induction tail with
    | nil => rfl
    | cons c cs ih =>
      simp only [List.mem_cons, not_or] at ht
      rw [linesOf, if_neg (fun e => ht.1 e.symm), ih ht.2]
  induction ls with
  | nil => exact h0
  | cons l ls ih =>
    rw [text_cons]
    have ih' := ih (fun x hx => h x (by simp [hx]))
    have hl := h l (by simp)
    clear ih h
    induction l with
    | nil => rw [List.nil_append, linesOf, if_pos rfl, ih']
    | cons c cs ihl =>
      simp only [List.mem_cons, not_or] at hl
      rw [List.cons_append, linesOf, if_neg (fun e => hl.1 e.symm), ihl hl.2]

theorem ending_append (c : List S) : ∀ (a : List S) (p : List S) (b : Bool) (i : Nat), ending p b i (a ++ c) =
    match ending p b i a with
    | .closed => .closed
    | .wrong j => .wrong j
    | .reading p' => ending p' false (i + a.length) c
    | .inside p' => ending p' true (i + a.length) c := by
  intro a
  induction a with
  | nil => intro p b i; cases b <;> rfl
  | cons l ls ih =>
    intro p b i
    rw [List.cons_append]
    have e : i + (l :: ls).length = i + 1 + ls.length := by simp; omega
    rw [e]
    cases b with
    | true =>
      rw [ending, ending]
      split
      · exact ih p false (i + 1)
      · exact ih p true (i + 1)
    | false =>
      rw [ending, ending]
      cases kind l with
      | plain => exact ih p false (i + 1)
      | opens m => exact ih _ false (i + 1)
      | comment => exact ih p true (i + 1)
      | closes =>
        by_cases hp : p = []
        · simp only [hp, if_true]
        · simp only [hp, if_false]; exact ih _ false (i + 1)
      | bad => rfl

/-- The changes of the lines behind. -/
def restChanges (c : List S) : Ending → List Change
  | .closed => []
  | .wrong _ => []
  | .reading p' => changes p' false c
  | .inside p' => changes p' true c

theorem changes_append (c : List S) : ∀ (a : List S) (p : List S) (b : Bool) (i : Nat), changes p b (a ++ c) =
    changes p b a ++ restChanges c (ending p b i a) := by
  intro a
  induction a with
  | nil => intro p b i; cases b <;> rfl
  | cons l ls ih =>
    intro p b i
    rw [List.cons_append]
    cases b with
    | true =>
      rw [ending, changes, changes]
      split
      · exact ih p false (i + 1)
      · exact ih p true (i + 1)
    | false =>
      rw [ending, changes, changes]
      cases kind l with
      | plain => simp only [List.append_assoc]; rw [ih p false (i + 1)]
      | opens m => simp only [List.append_assoc]; rw [ih _ false (i + 1)]
      | comment => exact ih p true (i + 1)
      | closes =>
        by_cases hp : p = []
        · simp only [hp, if_true]; rfl
        · simp only [hp, if_false]; exact ih _ false (i + 1)
      | bad => rfl

/-! ## The end of the input -/

theorem get_cont (k : Nat) (t : Tree) (x : S) (h : (readNextLine { rest := x }).2.eof = false) :
    get k plainReader t x = cont k t [] { rest := x } 1 := by
  unfold get cont
  rw [h]; rfl

theorem doLine_nil (k : Nat) (t : Tree) (P : List S) (s : Stream) (ln : Nat) :
    doLine k plainReader t P s ln [] = some (.next t P s ln) := by
  simp [doLine, cut]

theorem cont_failed (k : Nat) : ∀ (t : Tree) (P : List S) (s : Stream) (ln : Nat), s.fail = true → s.eof = false → cont k t P s ln = none := by
  induction k with
  | zero =>
    intro t P s ln hf he
    unfold cont
    rw [readNextLine_failed s hf]
    simp [he, getLoop]
  | succ k ih =>
    intro t P s ln hf he
    unfold cont
    rw [readNextLine_failed s hf]
    simp only [he, Bool.false_eq_true, if_false]
    rw [getLoop_next (doLine_nil k t P s (ln + 1))]
    exact ih _ _ _ _ hf he

theorem readComment_failed (k : Nat) : ∀ (s : Stream) (ln : Nat) (acc : Option S), s.fail = true → readComment k s ln acc = none := by
  induction k with
  | zero => intro s ln acc _; rfl
  | succ k ih =>
    intro s ln acc h
    obtain ⟨acc', h1⟩ := (readComment_step 0 s ln acc).2 (by rw [readNextLine_failed s h]; exact (by decide : ¬ commentEndStr <:+: ([] : S)))
    rw [h1, readNextLine_failed s h]
    exact ih _ _ _ h

/-- The last line that could be read. -/
theorem getLoop_failed (k : Nat) (t : Tree) (P : List S) (hP : GoodPath P) (hn : (nodeAt P t).isSome) (s : Stream) (ln : Nat) (b : S)
    (hf : s.fail = true) (he : s.eof = false) :
    getLoop (k + 1) plainReader t P s ln b =
      match ending P false (ln - 1) [b] with
      | .closed => some (t, -1)
      | .wrong _ => some (t, (ln : Int) + 1)
      | .reading _ => none
      | .inside _ => none := by
  have key := doLine_kind k plainReader t P s he (ln + 1) b
  have keyc := doLine_calls k t P hP hn s (ln + 1) b
  rw [ending]
  cases hkd : kind b with
  | plain =>
    rw [hkd] at keyc
    simp only at keyc
    rw [getLoop_next keyc, cont_failed _ _ _ _ _ hf he]; rfl
  | opens m =>
    rw [hkd] at keyc
    simp only at keyc
    rw [getLoop_next keyc, cont_failed _ _ _ _ _ hf he]; rfl
  | closes =>
    rw [hkd] at key
    simp only at key
    by_cases ha : P = []
    · rw [if_pos ha] at key
      rw [getLoop_ret key]; simp [ha]
    · rw [if_neg ha] at key
      rw [getLoop_next key, cont_failed _ _ _ _ _ hf he]; simp [ha, ending]
  | bad =>
    rw [hkd] at key
    simp only at key
    rw [getLoop_ret key]; simp
  | comment =>
    rw [hkd] at keyc
    simp only at keyc
    rw [readComment_failed _ _ _ _ hf] at keyc
    rw [getLoop_none keyc]; rfl

theorem cont_never {t P s ln m} (h : ∀ k, cont (k + m) t P s ln = none) (k : Nat) : cont k t P s ln = none := by
  cases hr : cont k t P s ln with
  | none => rfl
  | some r => rw [← h k, cont_mono k m hr]

/-- What the theorem says about one text. -/
def Says (t : Tree) (x : S) : Report → Prop
  | .returns code done => ∃ k T, get k plainReader t x = some (T, code) ∧
      ∀ q, lookup q T = valueAfter q (lookup q t) (changes [] false done)
  | .never => ∀ k, get k plainReader t x = none

theorem says_returns {t : Tree} {x : S} {code : Int} {done : List S} {cs : List Change} (hc : changes [] false done = cs)
    (k : Nat) (h : get k plainReader t x = some (calls cs t, code)) : Says t x (.returns code done) := by
  subst hc
  exact ⟨k, _, h, lookup_calls _ (goodPath_changes done [] false (by intro d hd; cases hd)) t⟩

theorem root_node (t : Tree) : (nodeAt [] t).isSome := by simp [nodeAt]

theorem says_long (t : Tree) (pre : List S) (hpre : ∀ l ∈ pre, Short l) (m : S) (c : Char) (r : S) (hm : '\n' ∉ m) (hc : c ≠ '\n')
    (hl : m.length = 1997) :
    Says t (text pre ++ (m ++ c :: r)) (match ending [] false 0 ((pre ++ [m]).map shown) with
    | .closed => .returns (-1) ((pre ++ [m]).map shown)
    | .wrong i => .returns (i + 2) ((pre ++ [m]).map shown)
    | .reading _ => .never
    | .inside _ => .never) := by
  have hget : ∀ k, get k plainReader t (text pre ++ (m ++ c :: r)) = cont k t [] { rest := text pre ++ (m ++ c :: r) } 1 := by
    intro k
    refine get_cont k t _ ?_
    cases pre with
    | nil =>
      rw [show text [] ++ (m ++ c :: r) = m ++ c :: r from rfl, readNextLine_long m c r hm hc hl]
    | cons l ls => rw [text_cons, readNextLine_short l _ (hpre l (by simp))]
  have hadv := advance _ pre (Nat.le_refl _) hpre t [] 0 (m ++ c :: r) (by intro d hd; cases hd) (root_node t)
  have he := ending_append [shown m] (pre.map shown) [] false 0
  have hch := changes_append [shown m] (pre.map shown) [] false 0
  rw [List.map_append, List.map_singleton]
  unfold Advance at hadv
  cases hq : ending [] false 0 (pre.map shown) with
  | closed =>
    rw [hq] at hadv he hch
    simp only at he
    rw [he]
    obtain ⟨k, h⟩ := hadv
    exact says_returns (cs := changes [] false (pre.map shown)) (by rw [hch]; simp [restChanges]) k (by rw [hget]; exact h)
  | wrong j =>
    rw [hq] at hadv he hch
    simp only at he
    rw [he]
    obtain ⟨k, h⟩ := hadv
    exact says_returns (cs := changes [] false (pre.map shown)) (by rw [hch]; simp [restChanges]) k (by rw [hget]; exact h)
  | reading P' =>
    rw [hq] at hadv he hch
    obtain ⟨hP, hn, c0, h⟩ := hadv
    simp only [Nat.zero_add, List.length_map] at he h
    have h' : ∀ k, get (k + 1 + pre.length) plainReader t (text pre ++ (m ++ c :: r)) =
        match ending P' false pre.length [shown m] with
        | .closed => some (calls (changes [] false (pre.map shown)) t, -1)
        | .wrong _ => some (calls (changes [] false (pre.map shown)) t, ((1 + pre.length : Nat) : Int) + 1)
        | .reading _ => none
        | .inside _ => none := by
      intro k
      rw [hget, h]
      unfold cont
      rw [readNextLine_long m c r hm hc hl]
      simp only [Bool.false_eq_true, if_false]
      rw [show k + 1 + c0 = (k + c0) + 1 by omega, getLoop_failed _ _ _ hP hn _ _ _ rfl rfl]
      rw [show 1 + pre.length - 1 = pre.length by omega]
    rw [he]
    cases hq2 : ending P' false pre.length [shown m] with
    | closed =>
      have := h' 0
      rw [hq2] at this
      refine says_returns ?_ _ this
      rw [hch, restChanges]
      rw [ending] at hq2
      rw [changes]
      cases hk : kind (shown m) with
      | closes => rw [hk] at hq2; simp only at hq2 ⊢; split at hq2 <;> simp_all [ending]
      | _ => rw [hk] at hq2; simp [ending] at hq2
    | wrong j =>
      have := h' 0
      rw [hq2] at this
      have hj : kind (shown m) = .bad ∧ j = pre.length := by
        rw [ending] at hq2
        cases hk : kind (shown m) with
        | bad => rw [hk] at hq2; simp only [Ending.wrong.injEq] at hq2; exact ⟨rfl, hq2.symm⟩
        | closes => rw [hk] at hq2; simp only at hq2; split at hq2 <;> simp [ending] at hq2
        | _ => rw [hk] at hq2; simp [ending] at hq2
      refine says_returns (cs := changes [] false (pre.map shown)) ?_ _ (by rw [this, hj.2]; simp; omega)
      rw [hch, restChanges, changes, hj.1]; simp
    | reading _ =>
      rw [hq2] at h'
      intro k
      rw [hget]
      exact cont_never (m := 1 + pre.length) (fun k => by rw [← Nat.add_assoc, ← hget]; exact h' k) k
    | inside _ =>
      rw [hq2] at h'
      intro k
      rw [hget]
      exact cont_never (m := 1 + pre.length) (fun k => by rw [← Nat.add_assoc, ← hget]; exact h' k) k
  | inside P' =>
    rw [hq] at hadv he hch
    obtain ⟨c1, c2, acc, h⟩ := hadv
    simp only [Nat.zero_add, List.length_map] at he h
    have hnone : ∀ k, cont (k + (1 + pre.length)) t [] { rest := text pre ++ (m ++ c :: r) } 1 = none := by
      intro k
      rw [← Nat.add_assoc, h]
      unfold contC
      rw [show k + 1 + c1 = (k + c1) + 1 by omega]
      have hrl := readNextLine_long m c r hm hc hl
      by_cases hend : commentEndStr <:+: shown m
      · rw [(readComment_step _ _ _ _).1 (by rw [hrl]; exact hend), hrl]
        exact cont_failed _ _ _ _ _ rfl rfl
      · obtain ⟨acc', h1⟩ := (readComment_step 0 { rest := m ++ c :: r } (1 + pre.length) acc).2 (by rw [hrl]; exact hend)
        rw [h1, hrl, readComment_failed _ _ _ _ rfl]; rfl
    have : Says t (text pre ++ (m ++ c :: r)) .never := fun k => by rw [hget]; exact cont_never hnone k
    rw [he, ending]
    by_cases hend : reservedCommentEnd <:+: shown m
    · simp only [hend, if_true, ending]; exact this
    · simp only [hend, if_false, ending]; exact this

theorem mem_takeWhile {p : S → Bool} {ls : List S} {l : S} (h : l ∈ ls.takeWhile p) : l ∈ ls ∧ p l = true := by
  induction ls with
  | nil => simp at h
  | cons a as ih =>
    rw [List.takeWhile_cons] at h
    split at h
    · rename_i ha
      rcases List.mem_cons.1 h with rfl | h
      · exact ⟨by simp, ha⟩
      · exact ⟨by simp [(ih h).1], (ih h).2⟩
    · cases h

theorem all_of_dropWhile {p : S → Bool} {ls : List S} (h : ls.dropWhile p = []) : ∀ l ∈ ls, p l = true := by
  induction ls with
  | nil => intro l hl; cases hl
  | cons a as ih =>
    rw [List.dropWhile_cons] at h
    split at h
    · rename_i ha
      intro l hl
      rcases List.mem_cons.1 hl with rfl | hl
      · exact ha
      · exact ih h l hl
    · cases h

theorem says_short (t : Tree) (ls : List S) (tail : S) (hls : ∀ l ∈ ls, Short l) (hne : ls ≠ []) (ht : Short tail) :
    Says t (text ls ++ tail) (match ending [] false 0 (ls.map shown) with
    | .closed => .returns (-1) (ls.map shown)
    | .wrong i => .returns (i + 2) (ls.map shown)
    | .reading _ => .returns (-1) (ls.map shown)
    | .inside _ => if reservedCommentEnd <:+: tail then .returns (-1) (ls.map shown) else .never) := by
  have hget : ∀ k, get k plainReader t (text ls ++ tail) = cont k t [] { rest := text ls ++ tail } 1 := by
    intro k
    refine get_cont k t _ ?_
    cases ls with
    | nil => exact absurd rfl hne
    | cons l ls => rw [text_cons, readNextLine_short l _ (hls l (by simp))]
  have hadv := advance _ ls (Nat.le_refl _) hls t [] 0 tail (by intro d hd; cases hd) (root_node t)
  obtain ⟨f, htail⟩ := readNextLine_tail tail ht
  unfold Advance at hadv
  cases hq : ending [] false 0 (ls.map shown) with
  | closed =>
    rw [hq] at hadv
    obtain ⟨k, h⟩ := hadv
    exact says_returns rfl k (by rw [hget]; exact h)
  | wrong j =>
    rw [hq] at hadv
    obtain ⟨k, h⟩ := hadv
    exact says_returns rfl k (by rw [hget]; exact h)
  | reading P' =>
    rw [hq] at hadv
    obtain ⟨_, _, c0, h⟩ := hadv
    refine says_returns rfl (0 + ls.length) ?_
    rw [hget, h 0]
    unfold cont
    rw [htail]; rfl
  | inside P' =>
    rw [hq] at hadv
    obtain ⟨c1, c2, acc, h⟩ := hadv
    simp only [Nat.zero_add] at h
    by_cases hend : reservedCommentEnd <:+: tail
    · simp only [hend, if_true]
      refine says_returns rfl (1 + ls.length) ?_
      rw [hget, h 1]
      unfold contC
      rw [show 1 + c1 = c1 + 1 by omega, (readComment_step _ _ _ _).1 (by rw [htail]; exact (end_shown tail).2 hend), htail]
      show cont _ _ _ _ _ = _
      unfold cont
      simp [readNextLine, getline]
    · simp only [hend, if_false]
      intro k
      rw [hget]
      refine cont_never (m := 1 + ls.length) (fun k => ?_) k
      rw [← Nat.add_assoc, h]
      unfold contC
      rw [show k + 1 + c1 = (k + c1) + 1 by omega]
      obtain ⟨acc', h1⟩ := (readComment_step 0 { rest := tail } (1 + ls.length) acc).2 (by
        rw [htail]; exact fun e => hend ((end_shown tail).1 e))
      rw [h1, htail, readComment_ended _ _ _ _ rfl (Or.inl rfl)]; rfl

theorem kind_bad {l : S} (h : kind l = .bad) : (l.dropWhile isSpace).head? ≠ some '#' ∧ ':' ∉ l ∧ '{' ∉ l ∧ '}' ∉ l := by
  unfold kind at h
  repeat' split at h
  all_goals first | (cases h; done) | simp_all

theorem kind_closes {l : S} (h : kind l = .closes) : (l.dropWhile isSpace).head? ≠ some '#' ∧ ':' ∉ l ∧ '{' ∉ l ∧ '}' ∈ l := by
  unfold kind at h
  repeat' split at h
  all_goals first | (cases h; done) | simp_all

theorem cut_not {ch : Char} {l : S} (hs : isSpace ch = false) (h : ch ∉ l) : cut ch (l.dropWhile isSpace) = none := by
  rcases cut_isSome ch (l.dropWhile isSpace) with ⟨_, c⟩ | ⟨c1, y, c⟩
  · exact c
  · exact absurd ((mem_dropWhile hs l).1 c1) h

theorem doLine_bad_eof {k : Nat} {t : Tree} {P : List S} {s : Stream} {ln : Nat} {l : S} (h : kind l = .bad) (he : s.eof = true) :
    doLine k plainReader t P s ln l = some (.next t P s ln) := by
  obtain ⟨h0, h1, h2, h3⟩ := kind_bad h
  unfold doLine
  simp only [h0, if_false, cut_not (by decide) h1, cut_not (by decide) h2, cut_not (by decide) h3, he]
  simp

theorem doLine_closes {k : Nat} {t : Tree} {P : List S} {s : Stream} {ln : Nat} {l : S} (h : kind l = .closes) :
    doLine k plainReader t P s ln l = if P = [] then some (.ret t (-1)) else some (.next t P.dropLast s ln) := by
  obtain ⟨h0, h1, h2, h3⟩ := kind_closes h
  unfold doLine
  simp only [h0, if_false, cut_not (by decide) h1, cut_not (by decide) h2]
  rcases cut_isSome '}' (l.dropWhile isSpace) with ⟨c1, c⟩ | ⟨c1, y, c⟩
  · exact absurd ((mem_dropWhile (by decide) l).2 h3) c1
  · simp only [c]

theorem says_single (t : Tree) (tail : S) (ht : Short tail) :
    Says t tail (if kind (shown tail) = .comment then .never else .returns (-1) [shown tail]) := by
  obtain ⟨f, htail⟩ := readNextLine_tail tail ht
  have hget : ∀ k, get k plainReader t tail = getLoop k plainReader t [] { rest := [], eof := true, fail := f } 1 (shown tail) := by
    intro k; unfold get; rw [htail]
  have hend : ∀ (k : Nat) (T : Tree) (P : List S) (ln : Nat), cont k T P { rest := [], eof := true, fail := f } ln = some (T, -1) := by
    intro k T P ln; unfold cont; simp [readNextLine, getline]
  have key := doLine_kind 0 plainReader t [] { rest := [], eof := false, fail := f } rfl (1 + 1) (shown tail)
  have keyc := fun k => doLine_calls k t [] (by intro d hd; cases hd) (root_node t) { rest := [], eof := true, fail := f } (1 + 1) (shown tail)
  cases hk : kind (shown tail) with
  | plain =>
    rw [hk] at keyc
    simp only at keyc
    refine says_returns (cs := lineChanges [] (shown tail)) ?_ 1 ?_
    · rw [changes, hk]; simp [changes]
    · rw [hget, getLoop_next (keyc 0), hend]
  | opens n =>
    rw [hk] at keyc
    simp only at keyc
    refine says_returns (cs := lineChanges [] (shown tail)) ?_ 1 ?_
    · rw [changes, hk]; simp [changes]
    · rw [hget, getLoop_next (keyc 0), hend]
  | comment =>
    rw [hk] at keyc
    simp only at keyc
    simp only [if_true]
    intro k
    rw [hget]
    cases k with
    | zero => rfl
    | succ k =>
      have := keyc k
      rw [readComment_ended _ _ _ _ rfl (Or.inl rfl)] at this
      exact getLoop_none this
  | closes =>
    refine says_returns (cs := []) ?_ 1 ?_
    · rw [changes, hk]; simp
    · rw [hget]
      refine getLoop_ret ?_
      rw [doLine_closes hk]; rfl
  | bad =>
    refine says_returns (cs := []) ?_ 1 ?_
    · rw [changes, hk]
    · rw [hget, getLoop_next (doLine_bad_eof hk rfl), hend]; rfl

/-- C140: reading any text at all, into any tree. The specification `outcome` says whether the call returns, with which number, and which lines
count; then every path has the value of the last of these lines that changes it, or its old one. -/
theorem c140_every_text (t : Tree) (x : S) :
    match outcome x with
    | .returns code done => ∃ k T, get k { processInclude := true, loadComments := false, load := fun _ t => t } t x = some (T, code) ∧
        ∀ q, lookup q T = valueAfter q (lookup q t) (changes [] false done)
    | .never => ∀ k, get k { processInclude := true, loadComments := false, load := fun _ t => t } t x = none := by
  suffices h : Says t x (outcome x) by
    cases hq : outcome x with
    | returns c d => rw [hq] at h; exact h
    | never => rw [hq] at h; exact h
  have hx := linesOf_text x
  obtain ⟨hnl, htl⟩ := linesOf_nl x
  unfold outcome
  generalize (linesOf x).1 = ls at hx hnl
  generalize (linesOf x).2 = tail at hx htl
  have hall : ∀ l ∈ ls ++ [tail], '\n' ∉ l := by
    intro l hl
    rcases List.mem_append.1 hl with hl | hl
    · exact hnl l hl
    · rw [List.mem_singleton.1 hl]; exact htl
  have hsplit := List.takeWhile_append_dropWhile (p := fits) (l := ls ++ [tail])
  cases hd : (ls ++ [tail]).dropWhile fits with
  | cons o rest =>
    simp only [hd]
    rw [hd] at hsplit
    have hpre : ∀ l ∈ (ls ++ [tail]).takeWhile fits, Short l := by
      intro l hl
      refine ⟨hall l (mem_takeWhile hl).1, ?_⟩
      have := (mem_takeWhile hl).2
      simpa [fits] using this
    have ho : ¬ fits o = true := by
      have := List.head?_dropWhile_not fits (ls ++ [tail])
      rw [hd] at this
      simpa using this
    have ho' : 1997 < o.length := by simpa [fits] using ho
    have honl : '\n' ∉ o := hall o (by rw [← hsplit]; simp)
    have hy : ∃ y, x = text ((ls ++ [tail]).takeWhile fits) ++ (o ++ y) := by
      rcases List.eq_nil_or_concat rest with rfl | ⟨r', z, rfl⟩
      · have := List.append_inj' hsplit rfl
        refine ⟨[], ?_⟩
        rw [this.1, ← hx, List.append_nil]
        have := this.2
        simp only [List.cons.injEq, and_true] at this
        rw [this]
      · have hs2 : ((ls ++ [tail]).takeWhile fits ++ o :: r') ++ [z] = ls ++ [tail] := by
          refine Eq.trans ?_ hsplit
          simp
        have := List.append_inj' hs2 rfl
        refine ⟨'\n' :: (text r' ++ tail), ?_⟩
        rw [← hx]
        conv_lhs => rw [← this.1]
        simp [text]
    obtain ⟨y, hy⟩ := hy
    obtain ⟨c, r0, hcr⟩ : ∃ c r0, o.drop 1997 = c :: r0 := by
      cases h : o.drop 1997 with
      | nil => have := congrArg List.length h; simp at this; omega
      | cons c r0 => exact ⟨c, r0, rfl⟩
    have ho2 : o = o.take 1997 ++ c :: r0 := by rw [← hcr, List.take_append_drop]
    have := says_long t _ hpre (o.take 1997) c (r0 ++ y) (fun h => honl (List.mem_of_mem_take h))
      (fun h => honl (by rw [ho2, ← h]; simp)) (by rw [List.length_take]; omega)
    have e : o.take 1997 ++ c :: (r0 ++ y) = o ++ y := by
      conv_rhs => rw [ho2]
      simp
    rw [e, ← hy] at this
    exact this
  | nil =>
    simp only [hd]
    have hfit : ∀ l ∈ ls ++ [tail], Short l := by
      intro l hl
      refine ⟨hall l hl, ?_⟩
      have := all_of_dropWhile hd l hl
      simpa [fits] using this
    by_cases hls : ls = []
    · subst hls
      simp only [if_true]
      have : x = tail := by rw [← hx]; rfl
      rw [this]
      exact says_single t tail (hfit tail (by simp))
    · simp only [hls, if_false]
      rw [← hx]
      exact says_short t ls tail (fun l hl => hfit l (by simp [hl])) hls (hfit tail (by simp))

/-- C140: the text behind the last newline does not count, unless a comment is open. -/
theorem c140_unterminated_line (t : Tree) (ls : List S) (tail : S) (h : ∀ l ∈ ls, '\n' ∉ l ∧ l.length ≤ 1997) (hne : ls ≠ [])
    (ht : '\n' ∉ tail ∧ tail.length ≤ 1997) (hin : ∀ p, ending [] false 0 (ls.map shown) ≠ .inside p) :
    ∃ k r, get k { processInclude := true, loadComments := false, load := fun _ t => t } t (ls.flatMap (· ++ ['\n'])) = some r ∧
      get k { processInclude := true, loadComments := false, load := fun _ t => t } t (ls.flatMap (· ++ ['\n']) ++ tail) = some r := by
  have hgt : ∀ (y : S) k, get k plainReader t (text ls ++ y) = cont k t [] { rest := text ls ++ y } 1 := by
    intro y k
    refine get_cont k t _ ?_
    cases ls with
    | nil => exact absurd rfl hne
    | cons l ls => rw [text_cons, readNextLine_short l _ (h l (by simp))]
  have key : ∃ r, ∀ y, Short y → ∃ k, get k plainReader t (text ls ++ y) = some r := by
    cases hq : ending [] false 0 (ls.map shown) with
    | inside p => exact absurd hq (hin p)
    | closed =>
      refine ⟨(calls (changes [] false (ls.map shown)) t, -1), fun y _ => ?_⟩
      have ha := advance _ ls (Nat.le_refl _) h t [] 0 y (by intro d hd; cases hd) (root_node t)
      unfold Advance at ha
      rw [hq] at ha
      obtain ⟨k, ha⟩ := ha
      exact ⟨k, by rw [hgt]; exact ha⟩
    | wrong j =>
      refine ⟨(calls (changes [] false (ls.map shown)) t, j + 2), fun y _ => ?_⟩
      have ha := advance _ ls (Nat.le_refl _) h t [] 0 y (by intro d hd; cases hd) (root_node t)
      unfold Advance at ha
      rw [hq] at ha
      obtain ⟨k, ha⟩ := ha
      exact ⟨k, by rw [hgt]; exact ha⟩
    | reading p =>
      refine ⟨(calls (changes [] false (ls.map shown)) t, -1), fun y hy => ?_⟩
      have ha := advance _ ls (Nat.le_refl _) h t [] 0 y (by intro d hd; cases hd) (root_node t)
      unfold Advance at ha
      rw [hq] at ha
      obtain ⟨_, _, c, ha⟩ := ha
      obtain ⟨f, hf⟩ := readNextLine_tail y hy
      refine ⟨0 + ls.length, ?_⟩
      rw [hgt, ha 0]
      unfold cont
      rw [hf]; rfl
  obtain ⟨r, hr⟩ := key
  obtain ⟨k1, h1⟩ := hr [] ⟨by simp, by simp⟩
  obtain ⟨k2, h2⟩ := hr tail ht
  refine ⟨k1 + k2, r, ?_, ?_⟩
  · have := get_mono k1 k2 _ _ _ _ h1
    rw [List.append_nil] at this
    exact this
  · have := get_mono k2 k1 _ _ _ _ h2
    rw [Nat.add_comm]
    exact this

/-- All kinds of texts occur: a whole line behind which something is missing; carriage returns; a line that closes the outermost level, with anything
behind it; a wrong line; a comment closed by the unfinished last line, and one not closed; a single unfinished line that counts; one that would be
wrong but is not noticed; the empty text. -/
theorem c140_cases :
    outcome "a:1\nb:2".toList = .returns (-1) ["a:1".toList] ∧
    outcome "a:1\r\nb:2\r\r\n".toList = .returns (-1) ["a:1".toList, "b:2\r".toList] ∧
    outcome "a:1\n}\nhello\n".toList = .returns (-1) ["a:1".toList, "}".toList, "hello".toList] ∧
    outcome "a:1\nhello\n".toList = .returns 3 ["a:1".toList, "hello".toList] ∧
    outcome "_COMMENT_{\nx\n}_COMMENT_".toList = .returns (-1) ["_COMMENT_{".toList, "x".toList] ∧
    outcome "_COMMENT_{\nx\n}_COMM".toList = .never ∧
    outcome "a:1".toList = .returns (-1) ["a:1".toList] ∧
    outcome "hello".toList = .returns (-1) ["hello".toList] ∧
    outcome [] = .returns (-1) [[]] := by
  decide +kernel

/-- A line of 1998 characters: the call does not return, whatever comes behind, unless the line ends the reading. -/
theorem c140_overlong (t : Tree) (ls : List S) (h : ∀ l ∈ ls, '\n' ∉ l ∧ l.length ≤ 1997) (m : S) (c : Char) (rest : S) (hm : '\n' ∉ m)
    (hc : c ≠ '\n') (hl : m.length = 1997)
    (he : ∀ (i : Nat), ending [] false 0 ((ls ++ [m]).map shown) ≠ .closed ∧ ending [] false 0 ((ls ++ [m]).map shown) ≠ .wrong i) (k : Nat) :
    get k { processInclude := true, loadComments := false, load := fun _ t => t } t (ls.flatMap (· ++ ['\n']) ++ (m ++ c :: rest)) = none := by
  have := says_long t ls h m c rest hm hc hl
  cases hq : ending [] false 0 ((ls ++ [m]).map shown) with
  | closed => exact absurd hq (he 0).1
  | wrong i => exact absurd hq (he i).2
  | reading _ => rw [hq] at this; exact this k
  | inside _ => rw [hq] at this; exact this k

/-- Such a line: `x:yyy…`. -/
example : ('x' :: ':' :: List.replicate 1995 'y').length = 1997 ∧
    ending [] false 0 ((["a:1".toList] ++ ['x' :: ':' :: List.replicate 1995 'y']).map shown) = .reading [] := by
  constructor
  · rw [List.length_cons, List.length_cons, List.length_replicate]
  · decide +kernel

end Verif.AT.Every
