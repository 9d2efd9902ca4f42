import Verif.Config.ATIncludeSpec
import Verif.Config.ATErrProps

/-! # Helper lemmas for C113 -/
namespace Verif.AT.Inc
open Err

/-! ## Updating the node at a position -/

/-- The function keeps the description of the node. -/
def DP (f : Tree → Tree) : Prop := ∀ t, (f t).desc = t.desc

theorem desc_withKids (t : Tree) (ks) : (t.withKids ks).desc = t.desc := by cases t; rfl
theorem kids_withKids (t : Tree) (ks) : (t.withKids ks).kids = ks := by cases t; rfl
theorem withKids_withKids (t : Tree) (ks ks') : (t.withKids ks).withKids ks' = t.withKids ks' := by cases t; rfl

theorem dp_id : DP (fun t => t) := fun _ => rfl
theorem dp_setThis (a) : DP (setThis a) := by
  intro t; cases t; simp only [setThis]; split <;> rfl
theorem dp_setC (a) (p : List S) : DP (setC a p) := by
  intro t
  cases p with
  | nil => exact dp_setThis a t
  | cons d ds =>
    simp only [setC]
    split
    · exact dp_setThis a t
    · split <;> exact desc_withKids _ _
theorem dp_comp {f g} (hf : DP f) (hg : DP g) : DP (fun t => g (f t)) := fun t => (hg _).trans (hf t)

theorem dp_updAt {f} (hf : DP f) (P : List S) : DP (updAt P f) := by
  intro t
  cases P with
  | nil => exact hf t
  | cons d ds => simp only [updAt]; split; exacts [desc_withKids _ _, rfl]

theorem updFirst_congr {d : S} {f g : Tree → Tree} (ks : List Tree) (h : ∀ k, find d ks = some k → f k = g k) :
    updFirst d f ks = updFirst d g ks := by
  induction ks with
  | nil => rfl
  | cons k ks ih =>
    simp only [updFirst, find] at h ⊢
    by_cases hk : k.desc = some d
    · simp only [hk, if_true] at h ⊢; rw [h k rfl]
    · simp only [hk, if_false] at h ⊢; rw [ih h]

theorem updFirst_comp {d : S} {f g : Tree → Tree} (hf : DP f) (ks : List Tree) :
    (updFirst d f ks).bind (updFirst d g) = updFirst d (fun t => g (f t)) ks := by
  induction ks with
  | nil => rfl
  | cons k ks ih =>
    simp only [updFirst]
    by_cases hk : k.desc = some d
    · simp [hk, updFirst, hf k]
    · simp only [hk, if_false]
      rw [← ih]
      cases updFirst d f ks with
      | none => rfl
      | some ks' => simp [updFirst, hk]

theorem updAt_comp {f g} (hf : DP f) (P : List S) (T : Tree) :
    updAt P g (updAt P f T) = updAt P (fun t => g (f t)) T := by
  induction P generalizing T with
  | nil => rfl
  | cons d ds ih =>
    simp only [updAt]
    have h := updFirst_comp (d := d) (f := updAt ds f) (g := updAt ds g) (dp_updAt hf ds) T.kids
    have h2 : (fun t => updAt ds g (updAt ds f t)) = updAt ds (fun t => g (f t)) := funext ih
    rw [h2] at h
    rw [← h]
    cases h3 : updFirst d (updAt ds f) T.kids with
    | none => simp [updFirst_none.2 (updFirst_none.1 h3)]
    | some ks =>
      simp only [kids_withKids, Option.bind_some]
      cases h4 : updFirst d (updAt ds g) ks with
      | none =>
        exfalso
        rw [h3, Option.bind_some, h4] at h
        rw [updFirst_none.2 (updFirst_none.1 h.symm)] at h3
        cases h3
      | some ks' => simp only [withKids_withKids]

theorem updAt_append (P Q : List S) (f) (T : Tree) : updAt (P ++ Q) f T = updAt P (updAt Q f) T := by
  induction P generalizing T with
  | nil => rfl
  | cons d ds ih =>
    simp only [List.cons_append, updAt]
    have : updAt (ds ++ Q) f = updAt ds (updAt Q f) := funext ih
    rw [this]

theorem updAt_congr (P : List S) (f g) (T N : Tree) (h : nodeAt P T = some N) (hfg : f N = g N) :
    updAt P f T = updAt P g T := by
  induction P generalizing T with
  | nil => simp only [nodeAt, Option.some.injEq] at h; subst h; exact hfg
  | cons d ds ih =>
    rw [nodeAt_cons] at h
    simp only [updAt]
    rw [updFirst_congr T.kids (fun k hk => ih k (by rw [hk] at h; exact h))]

theorem updFirst_id (d : S) (f : Tree → Tree) (ks : List Tree) (h : ∀ k, f k = k) :
    updFirst d f ks = none ∨ updFirst d f ks = some ks := by
  induction ks with
  | nil => left; rfl
  | cons k ks ih =>
    simp only [updFirst]
    by_cases hk : k.desc = some d
    · right; simp [hk, h k]
    · simp only [hk, if_false]
      rcases ih with h | h <;> simp [h]

theorem updAt_id (P : List S) (T : Tree) : updAt P (fun t => t) T = T := by
  induction P generalizing T with
  | nil => rfl
  | cons d ds ih =>
    simp only [updAt]
    rcases updFirst_id d (updAt ds fun t => t) T.kids ih with h | h
    · rw [h]
    · rw [h]; exact withKids_self T

theorem nodeAt_updAt {f} (hf : DP f) (P : List S) (T N : Tree) (h : nodeAt P T = some N) :
    nodeAt P (updAt P f T) = some (f N) := by
  induction P generalizing T with
  | nil => simp only [nodeAt, Option.some.injEq] at h; subst h; rfl
  | cons d ds ih =>
    rw [nodeAt_cons] at h
    cases hk : find d T.kids with
    | none => rw [hk] at h; cases h
    | some k =>
      rw [hk, Option.bind_some] at h
      simp only [updAt]
      cases hu : updFirst d (updAt ds f) T.kids with
      | none => rw [updFirst_none] at hu; rw [hu] at hk; cases hk
      | some ks =>
        have := find_updFirst (dp_updAt hf ds) hu
        rw [nodeAt_cons, kids_withKids, this]
        simp [hk, ih k h]

theorem nodeAt_append (P Q : List S) (T : Tree) : nodeAt (P ++ Q) T = (nodeAt P T).bind (nodeAt Q) := by
  induction P generalizing T with
  | nil => rfl
  | cons d ds ih =>
    rw [List.cons_append, nodeAt_cons, nodeAt_cons]
    cases find d T.kids with
    | none => rfl
    | some k => simp [ih]

theorem subAt_eq (P : List S) (T : Tree) : subAt P T = nodeAt P T := by
  induction P generalizing T with
  | nil => rfl
  | cons d ds ih =>
    rw [nodeAt_cons]
    simp only [subAt]
    cases find d T.kids with
    | none => rfl
    | some k => exact ih k

/-! ## What one line does -/

/-- The value of `_ATTRIBUTE_TREE_FILE_PATH_` at the root is there. -/
def HasPath (t : Tree) : Prop := (lookup [reservedPath] t).isSome

/-- Keeps `HasPath`. -/
def KeepsPath (f : Tree → Tree) : Prop := ∀ t, HasPath t → HasPath (f t)

/-- The line does not mention the reserved name. -/
def NoRes (l : S) : Prop := ¬ reservedPath <:+: l

theorem keeps_id : KeepsPath (fun t => t) := fun _ h => h

theorem keeps_setThis (a) : KeepsPath (setThis a) := by
  intro t h
  simpa [HasPath, lookup_cons] using h

theorem keeps_setC (a) (p : List S) (h : a.isSome ∨ effective p ≠ [reservedPath]) : KeepsPath (setC a p) := by
  intro t ht
  unfold HasPath at *
  rw [lookup_setC]
  split
  · rename_i he
    rcases h with h | h
    · exact h
    · exact absurd he.symm h
  · exact ht

theorem keeps_push (x : Tree) (hx : x.desc ≠ some reservedPath) : KeepsPath (fun n => n.withKids (x :: n.kids)) := by
  intro t ht
  unfold HasPath at *
  rw [lookup_cons] at ht ⊢
  simp only [kids_withKids, find, hx, if_false]
  exact ht

theorem keeps_updAt {f} (hf : DP f) (hk : KeepsPath f) (P : List S) (hP : reservedPath ∉ P) : KeepsPath (updAt P f) := by
  intro t ht
  cases P with
  | nil => exact hk t ht
  | cons d ds =>
    unfold HasPath at *
    rw [lookup_cons] at ht ⊢
    simp only [List.mem_cons, not_or] at hP
    simp only [updAt]
    cases hu : updFirst d (updAt ds f) t.kids with
    | none => exact ht
    | some ks =>
      simp only [kids_withKids]
      rw [find_updFirst (dp_updAt hf ds) hu, if_neg hP.1]
      exact ht

theorem comps_infix (s : S) : ∀ d ∈ comps s, d <:+: s := by
  induction s with
  | nil => intro d hd; simp [comps] at hd; subst hd; exact List.infix_refl _
  | cons c cs ih =>
    -- the first piece is a prefix
    have hp : ∀ s : S, ∀ h t, comps s = h :: t → h <+: s := by
      intro s
      induction s with
      | nil => intro h t e; simp [comps] at e; rw [e.1]; exact List.nil_prefix
      | cons c cs ih =>
        intro h t e
        rw [comps] at e
        split at e
        · simp at e; rw [e.1]; exact List.nil_prefix
        · split at e
          · rename_i h' t' e'
            simp at e; rw [← e.1]
            exact List.prefix_cons_inj c |>.2 (ih h' t' e')
          · simp at e; rw [← e.1]
            exact ⟨cs, rfl⟩
    intro d hd
    rw [comps] at hd
    split at hd
    · rcases List.mem_cons.1 hd with rfl | hd
      · exact List.nil_infix
      · exact (ih d hd).trans (List.infix_cons List.infix_rfl)
    · split at hd
      · rename_i h' t' e'
        rcases List.mem_cons.1 hd with rfl | hd
        · exact ((List.prefix_cons_inj c).2 (hp cs h' t' e')).isInfix
        · exact (ih d (by rw [e']; exact List.mem_cons_of_mem _ hd)).trans (List.infix_cons List.infix_rfl)
      · simp at hd; subst hd
        exact (List.prefix_append [c] cs).isInfix

theorem effective_sub (p : List S) : ∀ d ∈ effective p, d ∈ p := by
  intro d hd; exact (List.takeWhile_prefix _).subset hd

theorem beforeBrace_infix (l : S) : beforeBrace l <:+: l :=
  (List.takeWhile_prefix _).isInfix.trans (List.dropWhile_suffix _).isInfix

/-- What one line does, by its kind, where include lines do nothing. -/
theorem doLine_act (cfg : Cfg) (hcfg : cfg.processInclude = true ∧ cfg.load = fun _ t => t) (l : S) :
    match kind l with
    | .plain => ∃ f, DP f ∧ KeepsPath f ∧ ∀ k t at_ s ln, s.eof = false →
        doLine k cfg t at_ s ln l = some (.next (updAt at_ f t) at_ s ln)
    | .opens n => (effective (comps (beforeBrace l))).length = n ∧ ∀ k t at_ s ln, s.eof = false →
        doLine k cfg t at_ s ln l = some (.next (updAt at_ (setC none (comps (beforeBrace l))) t)
          (at_ ++ effective (comps (beforeBrace l))) s ln)
    | .comment => ∀ k t at_ s ln, s.eof = false → doLine k cfg t at_ s ln l =
        match readComment k s ln none with
        | none => none
        | some (s', lineno', acc) =>
          if cfg.loadComments then
            some (.next (updAt at_ (fun n => n.withKids
              (Tree.node (some commentStr) acc acc.isSome [] :: n.kids)) t) at_ s' lineno')
          else some (.next t at_ s' lineno')
    | .closes => ∀ k t at_ s ln, s.eof = false →
        doLine k cfg t at_ s ln l = if at_ = [] then some (.ret t (-1)) else some (.next t at_.dropLast s ln)
    | .bad => ∀ k t at_ s ln, s.eof = false → doLine k cfg t at_ s ln l = some (.ret t ln) := by
  have m1 := mem_dropWhile (c := ':') (by decide) l
  have m2 := mem_dropWhile (c := '{') (by decide) l
  have m3 := mem_dropWhile (c := '}') (by decide) l
  unfold kind
  by_cases h0 : (l.dropWhile isSpace).head? = some '#'
  · simp only [h0, if_true]
    refine ⟨_, dp_id, keeps_id, fun k t at_ s ln he => ?_⟩
    simp only [doLine, h0, if_true, updAt_id]
  simp only [h0, if_false]
  rcases cut_isSome ':' (l.dropWhile isSpace) with ⟨c1, c2⟩ | ⟨c1, y, c2⟩
  · have n1 : ':' ∉ l := fun h => c1 (m1.2 h)
    simp only [n1, if_false]
    rcases cut_isSome '{' (l.dropWhile isSpace) with ⟨d1, d2⟩ | ⟨d1, y, d2⟩
    · have n2 : '{' ∉ l := fun h => d1 (m2.2 h)
      simp only [n2, if_false]
      rcases cut_isSome '}' (l.dropWhile isSpace) with ⟨e1, e2⟩ | ⟨e1, y, e2⟩
      · have n3 : '}' ∉ l := fun h => e1 (m3.2 h)
        simp only [n3, if_false]
        by_cases hb : ∀ c ∈ l, isSpace c = true
        · have := (dropWhile_nil_iff l).2 hb
          rw [if_pos hb]
          refine ⟨_, dp_id, keeps_id, fun k t at_ s ln he => ?_⟩
          simp [doLine, this, cut, updAt_id]
        · have : l.dropWhile isSpace ≠ [] := fun h => hb ((dropWhile_nil_iff l).1 h)
          rw [if_neg hb]
          intro k t at_ s ln he
          simp [doLine, h0, c2, d2, e2, he, this]
      · have n3 := m3.1 e1
        simp only [n3, if_true]
        intro k t at_ s ln he
        simp only [doLine, h0, c2, d2, e2, if_false]
    · have n2 := m2.1 d1
      simp only [n2, if_true, beforeBrace]
      by_cases hn : (l.dropWhile isSpace).takeWhile (fun c => c ≠ '{') = commentStr
      · simp only [hn, if_true]
        intro k t at_ s ln he
        simp only [doLine, h0, c2, d2, hn, if_false, if_true]
        cases readComment k s ln none <;> rfl
      · simp only [hn, if_false]
        refine ⟨by simp [effective], fun k t at_ s ln he => ?_⟩
        simp only [doLine, h0, c2, d2, hn, if_false]
  · have n1 := m1.1 c1
    simp only [n1, if_true]
    by_cases hn : (l.dropWhile isSpace).takeWhile (fun c => c ≠ ':') = []
    · refine ⟨_, dp_setThis (some y), keeps_setThis (some y), fun k t at_ s ln he => ?_⟩
      simp only [doLine, h0, c2, hn, if_false, if_true]
    · by_cases hi : (l.dropWhile isSpace).takeWhile (fun c => c ≠ ':') = includeStr
      · refine ⟨_, dp_id, keeps_id, fun k t at_ s ln he => ?_⟩
        have hne : includeStr ≠ [] := by decide
        simp only [doLine, h0, c2, hi, hne, hcfg, if_false, if_true]
      by_cases hc : (!hasInfix commentStr ((l.dropWhile isSpace).takeWhile (fun c => c ≠ ':')) || cfg.loadComments) = true
      · refine ⟨_, dp_setC (some y) _, keeps_setC (some y) (comps ((l.dropWhile isSpace).takeWhile (fun c => c ≠ ':'))) (.inl rfl), fun k t at_ s ln he => ?_⟩
        simp only [doLine, h0, c2, hn, hi, hc, if_false, if_true]
      · refine ⟨_, dp_id, keeps_id, fun k t at_ s ln he => ?_⟩
        simp only [doLine, h0, c2, hn, hi, hc, if_false, updAt_id]
        rfl

theorem readComment_block (e : S) (he : reservedCommentEnd <:+: e) (hge : GoodLine e) : ∀ (cs : List S),
    (∀ c ∈ cs, ¬ reservedCommentEnd <:+: c) → (∀ c ∈ cs, GoodLine c) → ∀ acc : Option S,
    ∃ acc', ∀ k ln rest, cs.length < k →
      readComment k { rest := text (cs ++ e :: rest) } ln acc = some ({ rest := text rest }, ln + (cs.length + 1), acc') := by
  intro cs
  induction cs with
  | nil =>
    intro _ _ acc
    refine ⟨acc, fun k ln rest hk => ?_⟩
    cases k with
    | zero => simp at hk
    | succ k =>
      have ht : text ([] ++ e :: rest) = e ++ '\n' :: text rest := by simp [text]
      rw [readComment, ht, readNextLine_line e (text rest) hge]
      have := (trim_end e).2 he
      simp only [this, if_true]; rfl
  | cons c cs ih =>
    intro hn hg acc
    have hc : hasInfix commentEndStr ((c.reverse.dropWhile isSpace).reverse.dropWhile isSpace) = false := by
      cases hh : hasInfix commentEndStr ((c.reverse.dropWhile isSpace).reverse.dropWhile isSpace) with
      | false => rfl
      | true => exact absurd ((trim_end c).1 hh) (hn c List.mem_cons_self)
    have main : ∀ acc2 : Option S, (∀ k ln rest, readComment (k + 1) { rest := text (c :: cs ++ e :: rest) } ln acc =
        readComment k { rest := text (cs ++ e :: rest) } (ln + 1) acc2) → ∃ acc', ∀ k ln rest, (c :: cs).length < k →
        readComment k { rest := text (c :: cs ++ e :: rest) } ln acc =
          some ({ rest := text rest }, ln + ((c :: cs).length + 1), acc') := by
      intro acc2 h2
      obtain ⟨acc', h⟩ := ih (fun x hx => hn x (List.mem_cons_of_mem _ hx)) (fun x hx => hg x (List.mem_cons_of_mem _ hx)) acc2
      refine ⟨acc', fun k ln rest hk => ?_⟩
      cases k with
      | zero => simp at hk
      | succ k =>
        rw [h2, h k (ln + 1) rest (by simpa using hk)]
        simp only [List.length_cons]
        congr 3; omega
    cases acc with
    | none =>
      refine main (some ((c.reverse.dropWhile isSpace).reverse.dropWhile isSpace)) (fun k ln rest => ?_)
      have ht : text (c :: cs ++ e :: rest) = c ++ '\n' :: text (cs ++ e :: rest) := by simp [text]
      rw [readComment, ht, readNextLine_line c _ (hg c List.mem_cons_self)]
      simp only [hc, Bool.false_eq_true, if_false]
    | some a =>
      refine main (some (a ++ ['\n'] ++ ((c.reverse.dropWhile isSpace).reverse.dropWhile isSpace))) (fun k ln rest => ?_)
      have ht : text (c :: cs ++ e :: rest) = c ++ '\n' :: text (cs ++ e :: rest) := by simp [text]
      rw [readComment, ht, readNextLine_line c _ (hg c List.mem_cons_self)]
      simp only [hc, Bool.false_eq_true, if_false]

/-! ## Lines and comments as moves -/

/-- The line `l`, together with the lines `cs` it takes up if it opens a comment, applies `f` at the position
and moves it by `mv`. -/
structure Move (cfg : Cfg) (l : S) (cs : List S) (f : Tree → Tree) (mv : List S → Option (List S)) : Prop where
  run : ∀ k t P P' ln rest, cs.length ≤ k → mv P = some P' → ∃ ln',
    doLine k cfg t P { rest := text (cs ++ rest) } ln l = some (.next (updAt P f t) P' { rest := text rest } ln')
  dp : DP f
  keeps : NoRes l → KeepsPath f
  rel : ∀ P Q Q', mv Q = some Q' → mv (P ++ Q) = some (P ++ Q')
  valid : ∀ P P' t, (nodeAt P t).isSome → mv P = some P' → (nodeAt P' (updAt P f t)).isSome
  clean : NoRes l → ∀ P P', reservedPath ∉ P → mv P = some P' → reservedPath ∉ P'

theorem nodeAt_setC_eff (a) (p : List S) (T : Tree) : (nodeAt (effective p) (setC a p T)).isSome := by
  induction p generalizing T with
  | nil => rfl
  | cons d ds ih =>
    rw [effective_cons]
    by_cases hd : d = []
    · simp [hd, nodeAt]
    · rw [if_neg hd, nodeAt_cons, find_setC a d ds T hd, if_pos rfl]
      exact ih _

theorem move_plain {cfg : Cfg} {l : S} {f : Tree → Tree} (hf : DP f) (hk : KeepsPath f)
    (h : ∀ k t at_ s ln, s.eof = false → doLine k cfg t at_ s ln l = some (.next (updAt at_ f t) at_ s ln)) :
    Move cfg l [] f some where
  run := by
    intro k t P P' ln rest _ hm
    cases hm
    exact ⟨ln, by rw [List.nil_append, h _ _ _ _ _ rfl]⟩
  dp := hf
  keeps := fun _ => hk
  rel := by intro P Q Q' h; cases h; rfl
  valid := by
    intro P P' t hn hm
    cases hm
    obtain ⟨N, hN⟩ := Option.isSome_iff_exists.1 hn
    rw [nodeAt_updAt hf P t N hN]; rfl
  clean := by intro _ P P' hP hm; cases hm; exact hP

theorem move_opens {cfg : Cfg} (hcfg : cfg.processInclude = true ∧ cfg.load = fun _ t => t) {l : S} {n : Nat} (hk : kind l = .opens n) :
    ∃ q, q.length = n ∧ Move cfg l [] (setC none (comps (beforeBrace l))) (fun P => some (P ++ q)) := by
  have h := doLine_act cfg hcfg l
  rw [hk] at h
  obtain ⟨h1, h2⟩ := h
  refine ⟨_, h1, ?_, dp_setC _ _, ?_, ?_, ?_, ?_⟩
  · intro k t P P' ln rest _ hm
    cases hm
    exact ⟨ln, by rw [List.nil_append, h2 _ _ _ _ _ rfl]⟩
  · intro hr
    refine keeps_setC _ _ (.inr fun he => hr ?_)
    have : reservedPath ∈ effective (comps (beforeBrace l)) := by rw [he]; simp
    exact (comps_infix _ _ (effective_sub _ _ this)).trans (beforeBrace_infix l)
  · intro P Q Q' h; cases h; simp
  · intro P P' t hn hm
    cases hm
    obtain ⟨N, hN⟩ := Option.isSome_iff_exists.1 hn
    rw [nodeAt_append, nodeAt_updAt (dp_setC _ _) P t N hN]
    exact nodeAt_setC_eff _ _ _
  · intro hr P P' hP hm
    cases hm
    intro hmem
    rcases List.mem_append.1 hmem with h | h
    · exact hP h
    · exact hr ((comps_infix _ _ (effective_sub _ _ h)).trans (beforeBrace_infix l))

/-- Going up one level. -/
def pop (P : List S) : Option (List S) := if P = [] then none else some P.dropLast

theorem move_closes {cfg : Cfg} (hcfg : cfg.processInclude = true ∧ cfg.load = fun _ t => t) {l : S} (hk : kind l = .closes) :
    Move cfg l [] (fun t => t) pop := by
  have h := doLine_act cfg hcfg l
  rw [hk] at h
  have hpop : ∀ {P P'}, pop P = some P' → P ≠ [] ∧ P' = P.dropLast := by
    intro P P' h
    unfold pop at h
    split at h
    · cases h
    · rename_i hn; cases h; exact ⟨hn, rfl⟩
  refine ⟨?_, dp_id, fun _ => keeps_id, ?_, ?_, ?_⟩
  · intro k t P P' ln rest _ hm
    obtain ⟨h1, rfl⟩ := hpop hm
    exact ⟨ln, by rw [List.nil_append, h _ _ _ _ _ rfl, if_neg h1, updAt_id]⟩
  · intro P Q Q' hm
    obtain ⟨h1, rfl⟩ := hpop hm
    unfold pop
    rw [if_neg (by simp [h1]), List.dropLast_append_of_ne_nil h1]
  · intro P P' t hn hm
    obtain ⟨h1, rfl⟩ := hpop hm
    rw [updAt_id]
    rw [← List.dropLast_append_getLast h1, nodeAt_append] at hn
    cases hx : nodeAt P.dropLast t with
    | none => rw [hx] at hn; cases hn
    | some x => rfl
  · intro _ P P' hP hm
    obtain ⟨h1, rfl⟩ := hpop hm
    exact fun h => hP (List.dropLast_subset _ h)

theorem move_comment {cfg : Cfg} (hcfg : cfg.processInclude = true ∧ cfg.load = fun _ t => t) {l : S} (hk : kind l = .comment)
    (cs : List S) (e : S) (hcs : ∀ c ∈ cs, ¬ reservedCommentEnd <:+: c) (he : reservedCommentEnd <:+: e)
    (hg : ∀ c ∈ cs, GoodLine c) (hge : GoodLine e) : ∃ f, Move cfg l (cs ++ [e]) f some := by
  have h := doLine_act cfg hcfg l
  rw [hk] at h
  obtain ⟨acc, hacc⟩ := readComment_block e he hge cs hcs hg none
  have hrun : ∀ k ln rest, (cs ++ [e]).length ≤ k → readComment k { rest := text (cs ++ [e] ++ rest) } ln none =
      some ({ rest := text rest }, ln + (cs.length + 1), acc) := by
    intro k ln rest hl
    have := hacc k ln rest (by simp at hl; omega)
    simpa using this
  cases hl : cfg.loadComments with
  | true =>
    have hdp : DP (fun n => n.withKids (Tree.node (some commentStr) acc acc.isSome [] :: n.kids)) := fun t => desc_withKids _ _
    refine ⟨_, ?_, hdp, fun _ => keeps_push (Tree.node (some commentStr) acc acc.isSome []) (by simp only [Tree.desc]; decide), ?_, ?_, ?_⟩
    · intro k t P P' ln rest hle hm
      cases hm
      refine ⟨ln + (cs.length + 1), ?_⟩
      rw [h k t P _ ln rfl, hrun k ln rest hle]
      simp only [hl, if_true]
    · intro P Q Q' h; cases h; rfl
    · intro P P' t hn hm
      cases hm
      obtain ⟨N, hN⟩ := Option.isSome_iff_exists.1 hn
      rw [nodeAt_updAt hdp P t N hN]; rfl
    · intro _ P P' hP hm; cases hm; exact hP
  | false =>
    refine ⟨_, ?_, dp_id, fun _ => keeps_id, ?_, ?_, ?_⟩
    · intro k t P P' ln rest hle hm
      cases hm
      refine ⟨ln + (cs.length + 1), ?_⟩
      rw [h k t P _ ln rfl, hrun k ln rest hle]
      simp only [hl, updAt_id]
      rfl
    · intro P Q Q' h; cases h; rfl
    · intro P P' t hn hm
      cases hm
      rw [updAt_id]; exact hn
    · intro _ P P' hP hm; cases hm; exact hP

/-! ## Running the readers -/

/-- The reader with include lines, about to process these lines. -/
def feedI (k : Nat) (w : World) (file : S) (r : Bool) (t : Tree) (P : List S) (ln : Nat) : List S → Outcome (Option (Tree × Int))
  | [] => .ok (some (t, -1))
  | l :: ls => getI k w file r t P { rest := text ls } ln l

theorem feed_move {cfg l cs f mv} (h : Move cfg l cs f mv) (k : Nat) (t : Tree) (P P' : List S) (ln : Nat) (rest : List S)
    (hk : cs.length ≤ k) (hm : mv P = some P') (hg : ∀ x ∈ rest, GoodLine x) :
    ∃ ln', feed (k + 1) cfg t P ln (l :: (cs ++ rest)) = feed k cfg (updAt P f t) P' ln' rest := by
  obtain ⟨ln', h'⟩ := h.run k t P P' (ln + 1) rest hk hm
  refine ⟨ln', ?_⟩
  rw [feed, getLoop, h']
  exact next_feed k cfg (updAt P f t) P' ln' rest hg

theorem next_feedI (k : Nat) (w : World) (file : S) (r : Bool) (t : Tree) (at_ : List S) (ln : Nat) (ls : List S)
    (hg : ∀ l ∈ ls, GoodLine l) :
    (match readNextLine { rest := text ls } with
      | (b, s'') => if s''.eof = true then Outcome.ok (some (t, (-1 : Int))) else getI k w file r t at_ s'' ln b) =
    feedI k w file r t at_ ln ls := by
  cases ls with
  | nil => simp [text, readNextLine_end, feedI]
  | cons l ls =>
    have : text (l :: ls) = l ++ '\n' :: text ls := by simp [text]
    simp [this, readNextLine_line l (text ls) (hg l List.mem_cons_self), feedI]

theorem feedI_move {w l cs f mv} (h : Move (lineCfg w) l cs f mv) (hi : includeText l = none) (file : S) (r : Bool)
    (k : Nat) (t : Tree) (P P' : List S) (ln : Nat) (rest : List S)
    (hk : cs.length ≤ k) (hm : mv P = some P') (hg : ∀ x ∈ rest, GoodLine x) :
    ∃ ln', feedI (k + 1) w file r t P ln (l :: (cs ++ rest)) = feedI k w file r (updAt P f t) P' ln' rest := by
  obtain ⟨ln', h'⟩ := h.run k t P P' (ln + 1) rest hk hm
  refine ⟨ln', ?_⟩
  rw [feedI, getI, hi]
  simp only [h']
  exact next_feedI k w file r (updAt P f t) P' ln' rest hg

theorem depthAfter_inside (ls : List S) (d d' : Nat) (h : depthAfter d true ls = some d') :
    ∃ cs e rest, ls = cs ++ e :: rest ∧ (∀ c ∈ cs, ¬ reservedCommentEnd <:+: c) ∧ reservedCommentEnd <:+: e ∧
      depthAfter d false rest = some d' := by
  induction ls with
  | nil => simp [depthAfter] at h
  | cons l ls ih =>
    rw [depthAfter] at h
    split at h
    · rename_i hl
      exact ⟨[], l, ls, rfl, by simp, hl, h⟩
    · rename_i hl
      obtain ⟨cs, e, rest, rfl, h1, h2, h3⟩ := ih h
      exact ⟨l :: cs, e, rest, rfl, by simpa using ⟨hl, h1⟩, h2, h3⟩

theorem lineCfg_ok (w : World) : (lineCfg w).processInclude = true ∧ (lineCfg w).load = fun _ t => t := ⟨rfl, rfl⟩

/-- Lines that are complete in themselves act on the node at the position alone. -/
theorem feed_block (w : World) : ∀ (n : Nat) (b : List S), b.length ≤ n → (∀ l ∈ b, GoodLine l) → ∀ (Q : List S) (d : Nat),
    depthAfter Q.length false b = some d →
    ∃ F Q', DP F ∧ Q'.length = d ∧
      (∀ t P, (nodeAt (P ++ Q) t).isSome → (nodeAt (P ++ Q') (updAt P F t)).isSome) ∧
      (∀ t P, (∀ l ∈ b, NoRes l) → reservedPath ∉ P ++ Q → HasPath t → HasPath (updAt P F t) ∧ reservedPath ∉ P ++ Q') ∧
      ∀ k t P ln rest, b.length ≤ k → (∀ l ∈ rest, GoodLine l) → ∃ j ln', k - b.length ≤ j ∧
        feed k (lineCfg w) t (P ++ Q) ln (b ++ rest) = feed j (lineCfg w) (updAt P F t) (P ++ Q') ln' rest := by
  intro n
  induction n with
  | zero =>
    intro b hb hg Q d hd
    cases b with
    | nil =>
      simp only [depthAfter, Option.some.injEq] at hd
      refine ⟨_, Q, dp_id, hd, fun t P h => by rw [updAt_id]; exact h, fun t P _ h h2 => ⟨by rw [updAt_id]; exact h2, h⟩, ?_⟩
      intro k t P ln rest hk hr
      exact ⟨k, ln, by simp, by rw [updAt_id]; rfl⟩
    | cons l b => simp at hb
  | succ n ih =>
    intro b hb hg Q d hd
    cases b with
    | nil =>
      simp only [depthAfter, Option.some.injEq] at hd
      refine ⟨_, Q, dp_id, hd, fun t P h => by rw [updAt_id]; exact h, fun t P _ h h2 => ⟨by rw [updAt_id]; exact h2, h⟩, ?_⟩
      intro k t P ln rest hk hr
      exact ⟨k, ln, by simp, by rw [updAt_id]; rfl⟩
    | cons l b =>
      -- one move and the rest
      have main : ∀ cs b' f mv Q1, b = cs ++ b' → Move (lineCfg w) l cs f mv → mv Q = some Q1 →
          depthAfter Q1.length false b' = some d →
          ∃ F Q', DP F ∧ Q'.length = d ∧
            (∀ t P, (nodeAt (P ++ Q) t).isSome → (nodeAt (P ++ Q') (updAt P F t)).isSome) ∧
            (∀ t P, (∀ x ∈ l :: b, NoRes x) → reservedPath ∉ P ++ Q → HasPath t → HasPath (updAt P F t) ∧ reservedPath ∉ P ++ Q') ∧
            ∀ k t P ln rest, (l :: b).length ≤ k → (∀ l ∈ rest, GoodLine l) → ∃ j ln', k - (l :: b).length ≤ j ∧
              feed k (lineCfg w) t (P ++ Q) ln (l :: b ++ rest) = feed j (lineCfg w) (updAt P F t) (P ++ Q') ln' rest := by
        intro cs b' f mv Q1 hbe hmv hq hdep
        subst hbe
        have hlen : b'.length ≤ n := by simp at hb; omega
        have hg' : ∀ x ∈ b', GoodLine x := fun x hx => hg x (by simp [hx])
        obtain ⟨F, Q', h1, h2, h3, h4, h5⟩ := ih b' hlen hg' Q1 d hdep
        have hcomp : ∀ P t, updAt P F (updAt (P ++ Q) f t) = updAt P (fun t => F (updAt Q f t)) t := by
          intro P t
          rw [updAt_append, updAt_comp (dp_updAt hmv.dp Q)]
        refine ⟨fun t => F (updAt Q f t), Q', dp_comp (dp_updAt hmv.dp Q) h1, h2, ?_, ?_, ?_⟩
        · intro t P hn
          rw [← hcomp]
          exact h3 _ _ (hmv.valid _ _ t hn (hmv.rel P Q Q1 hq))
        · intro t P hr hcl hp
          rw [← hcomp]
          refine h4 _ _ (fun x hx => hr x (by simp [hx])) (hmv.clean (hr l (by simp)) _ _ hcl (hmv.rel P Q Q1 hq)) ?_
          exact keeps_updAt hmv.dp (hmv.keeps (hr l (by simp))) _ hcl t hp
        · intro k t P ln rest hk hrest
          cases k with
          | zero => simp at hk
          | succ k =>
            simp only [List.length_cons, List.length_append] at hk
            have hgr : ∀ x ∈ b' ++ rest, GoodLine x := by
              intro x hx
              rcases List.mem_append.1 hx with h | h
              · exact hg' x h
              · exact hrest x h
            obtain ⟨ln1, e1⟩ := feed_move hmv k t (P ++ Q) (P ++ Q1) ln (b' ++ rest) (by omega) (hmv.rel P Q Q1 hq) hgr
            obtain ⟨j, ln2, hj, e2⟩ := h5 k (updAt (P ++ Q) f t) P ln1 rest (by omega) hrest
            refine ⟨j, ln2, by simp only [List.length_cons, List.length_append]; omega, ?_⟩
            have : l :: (cs ++ b') ++ rest = l :: (cs ++ (b' ++ rest)) := by simp
            rw [this, e1, e2, hcomp]
      rw [depthAfter] at hd
      have hact := doLine_act (lineCfg w) (lineCfg_ok w) l
      cases hk : kind l with
      | plain =>
        rw [hk] at hd hact
        obtain ⟨f, hf, hkp, hrun⟩ := hact
        exact main [] b f some Q rfl (move_plain hf hkp hrun) rfl hd
      | opens m =>
        rw [hk] at hd
        obtain ⟨q, hq, hmv⟩ := move_opens (lineCfg_ok w) hk
        refine main [] b _ _ (Q ++ q) rfl hmv rfl ?_
        rw [List.length_append, hq]; exact hd
      | comment =>
        rw [hk] at hd
        obtain ⟨cs, e, rest, rfl, c1, c2, c3⟩ := depthAfter_inside _ _ _ hd
        obtain ⟨f, hmv⟩ := move_comment (lineCfg_ok w) hk cs e c1 c2 (fun c hc => hg c (by simp [hc])) (hg e (by simp))
        exact main (cs ++ [e]) rest f some Q (by simp) hmv rfl c3
      | closes =>
        rw [hk] at hd
        by_cases hQ : Q = []
        · subst hQ; simp at hd
        · have h0 : Q.length ≠ 0 := fun h => hQ (List.length_eq_zero_iff.1 h)
          simp only [h0, if_false] at hd
          refine main [] b _ _ Q.dropLast rfl (move_closes (lineCfg_ok w) hk) (by simp [pop, hQ]) ?_
          rw [List.length_dropLast]; exact hd
      | bad => rw [hk] at hd; cases hd

/-! ## Include lines -/

theorem includeText_iff (l raw : S) : includeText l = some raw ↔ IsInclude l raw := by
  constructor
  · intro h
    unfold includeText at h
    split at h
    · cases h
    · rcases cut_isSome ':' (l.dropWhile isSpace) with ⟨_, c2⟩ | ⟨c1, y, c2⟩
      · rw [c2] at h; cases h
      · have hcut : l.dropWhile isSpace = (l.dropWhile isSpace).takeWhile (fun c => c ≠ ':') ++ ':' :: y := by
          have : ∀ (x a b : S), cut ':' x = some (a, b) → x = a ++ ':' :: b := by
            intro x
            induction x with
            | nil => intro a b h; simp [cut] at h
            | cons c cs ih =>
              intro a b h
              rw [cut] at h
              split at h
              · rename_i hc; cases h; simp [hc]
              · cases hh : cut ':' cs with
                | none => rw [hh] at h; cases h
                | some ab =>
                  obtain ⟨a', b'⟩ := ab
                  rw [hh] at h; cases h
                  rw [ih _ _ hh]; rfl
          exact this _ _ _ c2
        rw [c2] at h
        simp only at h
        split at h
        · rename_i hn
          cases h
          refine ⟨l.takeWhile isSpace, fun c hc => List.all_eq_true.1 (List.all_takeWhile (p := isSpace) (l := l)) c hc, ?_⟩
          conv => lhs; rw [← List.takeWhile_append_dropWhile (p := isSpace) (l := l), hcut, hn]
          simp [includeStr, reservedInclude]
        · cases h
  · rintro ⟨sp, hs, rfl⟩
    have hd : (sp ++ reservedInclude ++ ':' :: raw).dropWhile isSpace = reservedInclude ++ ':' :: raw := by
      rw [List.append_assoc]
      rw [List.dropWhile_append_of_pos hs]
      rfl
    have hc := cut_append ':' reservedInclude raw (by decide)
    unfold includeText
    rw [hd, hc]
    simp [reservedInclude, includeStr]

theorem includeText_none (l : S) (h : ¬ ∃ raw, IsInclude l raw) : includeText l = none := by
  cases hh : includeText l with
  | none => rfl
  | some raw => exact absurd ⟨raw, (includeText_iff l raw).1 hh⟩ h

theorem kind_comment_noInclude (l : S) (h : kind l = .comment) : includeText l = none := by
  cases hh : includeText l with
  | none => rfl
  | some raw =>
    exfalso
    obtain ⟨sp, _, he⟩ := (includeText_iff l raw).1 hh
    have hm : ':' ∈ l := by rw [he]; simp
    unfold kind at h
    simp only [hm, if_true] at h
    split at h <;> cases h

theorem setVirtual_same (p n : S) (t : Tree) (h : HasPath t) : setVirtual [] p n t = .ok t := by
  unfold HasPath at h
  rw [lookup_cons] at h
  have hr : reservedPath = filePathStr := rfl
  rw [hr] at h
  cases hf : find filePathStr t.kids with
  | none => rw [hf] at h; cases h
  | some x =>
    rw [hf, Option.bind_some, lookup_nil] at h
    obtain ⟨v, hv⟩ := Option.isSome_iff_exists.1 h
    have hsuf : filePathStr.isSuffixOf filePathStr = true := by decide +kernel
    have : getAttribute [] t (some filePathStr) none = .ok (some v) := by
      simp only [getAttribute, hsuf, if_true, getSpecial, specialLoop, subTreeOf, find_some_ne_nil hf, hf]
      simp [Outcome.map, hv]
    simp [setVirtual, this]

theorem expands_good {w : World} {file : S} {ls ls' : List S} (h : Expands w file ls ls') (hg : ∀ l ∈ ls, GoodLine l) :
    ∀ l ∈ ls', GoodLine l := by
  induction h with
  | nil => exact hg
  | line file l ls ls' hi hc h ih =>
    intro x hx
    rcases List.mem_cons.1 hx with rfl | hx
    · exact hg _ (by simp)
    · exact ih (fun y hy => hg y (by simp [hy])) x hx
  | comment file l cs e ls ls' hc hcs he h ih =>
    intro x hx
    simp only [List.mem_cons, List.mem_append] at hx
    rcases hx with rfl | hx | rfl | hx
    · exact hg _ (by simp)
    · exact hg _ (by simp [hx])
    · exact hg _ (by simp)
    · exact ih (fun y hy => hg y (by simp [hy])) x hx
  | missing file l raw ls ls' hi hm h ih => exact ih (fun y hy => hg y (by simp [hy]))
  | found file l raw body body' ls ls' hi hn hb hgb h1 hd h2 ih1 ih2 =>
    intro x hx
    rcases List.mem_append.1 hx with hx | hx
    · exact ih1 hgb x hx
    · exact ih2 (fun y hy => hg y (by simp [hy])) x hx

theorem getText_feedI (k : Nat) (w : World) (file : S) (r : Bool) (t : Tree) (ls : List S) (hg : ∀ l ∈ ls, GoodLine l) :
    getText (k + 1) w file r t (text ls) = feedI (k + 1) w file r t [] 1 ls := by
  cases ls with
  | nil =>
    have h1 : includeText [] = none := rfl
    simp only [getText, text, List.flatMap_nil, readNextLine_end, getI, h1, feedI]
    simp [doLine, cut, readNextLine, getline]
  | cons l ls =>
    have : text (l :: ls) = l ++ '\n' :: text ls := by simp [text]
    simp only [getText, this, readNextLine_line l (text ls) (hg l (by simp)), feedI]

theorem get_feed' (k : Nat) (cfg : Cfg) (t : Tree) (ls : List S) (hg : ∀ l ∈ ls, GoodLine l) :
    get (k + 1) cfg t (text ls) = feed (k + 1) cfg t [] 1 ls := by
  cases ls with
  | nil =>
    simp only [get, text, List.flatMap_nil, readNextLine_end, getLoop, feed]
    simp [doLine, cut, readNextLine, getline]
  | cons l ls => exact get_feed (k + 1) cfg t l ls (hg l (by simp))

/-- An include line whose load gives the node `n'`. -/
theorem feedI_include {w : World} {l raw : S} (hi : includeText l = some raw) (file : S) (r : Bool) (k : Nat) (t : Tree) (P : List S)
    (N n' : Tree) (code : Int) (ln : Nat) (rest : List S) (hN : nodeAt P t = some N)
    (hl : loadVia w (fun t1 x => getText k w (w.target file raw) (r && P.isEmpty) t1 x) (r && P.isEmpty) (w.target file raw) N =
      .ok (some (n', code))) (hg : ∀ x ∈ rest, GoodLine x) :
    feedI (k + 1) w file r t P ln (l :: rest) = feedI k w file r (updAt P (fun _ => n') t) P (ln + 1) rest := by
  rw [feedI, getI, hi]
  simp only [subAt_eq, hN]
  simp only [getText] at hl
  rw [hl]
  exact next_feedI k w file r _ P (ln + 1) rest hg

/-- Reading lines with include lines and reading what they stand for. -/
theorem expand_main (w : World) {file : S} {ls ls' : List S} (h : Expands w file ls ls') (hg : ∀ l ∈ ls, GoodLine l) :
    ∀ (r : Bool) (t : Tree) (P : List S), (nodeAt P t).isSome →
    (r = true → HasPath t ∧ reservedPath ∉ P ∧ ∀ l ∈ ls', NoRes l) →
    ∃ K T, ∃ σ : Prop, ∀ k, K ≤ k → ∀ ln ln', ∃ c c', feedI k w file r t P ln ls = .ok (some (T, c)) ∧
      feed k (lineCfg w) t P ln' ls' = some (T, c') ∧ (c < 0 ↔ σ) ∧ (c' < 0 ↔ σ) := by
  induction h with
  | nil file =>
    intro r t P hn hr
    exact ⟨0, t, True, fun k _ ln ln' => ⟨-1, -1, rfl, rfl, by simp, by simp⟩⟩
  | line file l ls ls' hi hc h ih =>
    intro r t P hn hr
    have hg' : ∀ x ∈ ls, GoodLine x := fun x hx => hg x (by simp [hx])
    have hgl' := expands_good h hg'
    have hinc := includeText_none l hi
    have main : ∀ f mv P1, Move (lineCfg w) l [] f mv → mv P = some P1 →
        ∃ K T, ∃ σ : Prop, ∀ k, K ≤ k → ∀ ln ln', ∃ c c', feedI k w file r t P ln (l :: ls) = .ok (some (T, c)) ∧
        feed k (lineCfg w) t P ln' (l :: ls') = some (T, c') ∧ (c < 0 ↔ σ) ∧ (c' < 0 ↔ σ) := by
      intro f mv P1 hmv hm
      obtain ⟨K, T, σ, hK⟩ := ih hg' r (updAt P f t) P1 (hmv.valid P P1 t hn hm) (fun h => by
        obtain ⟨a, b, c⟩ := hr h
        exact ⟨keeps_updAt hmv.dp (hmv.keeps (c l (by simp))) P b t a, hmv.clean (c l (by simp)) P P1 b hm, fun x hx => c x (by simp [hx])⟩)
      refine ⟨K + 1, T, σ, fun k hk ln ln' => ?_⟩
      obtain ⟨k, rfl⟩ : ∃ j, k = j + 1 := ⟨k - 1, by omega⟩
      obtain ⟨l1, e1⟩ := feedI_move hmv hinc file r k t P P1 ln ls (by simp) hm hg'
      obtain ⟨l2, e2⟩ := feed_move hmv k t P P1 ln' ls' (by simp) hm hgl'
      simp only [List.nil_append] at e1 e2
      rw [e1, e2]
      exact hK k (by omega) l1 l2
    have hact := doLine_act (lineCfg w) (lineCfg_ok w) l
    cases hk : kind l with
    | plain =>
      rw [hk] at hact
      obtain ⟨f, hf, hkp, hrun⟩ := hact
      exact main f some P (move_plain hf hkp hrun) rfl
    | opens m =>
      obtain ⟨q, _, hmv⟩ := move_opens (lineCfg_ok w) hk
      exact main _ _ (P ++ q) hmv rfl
    | comment => exact absurd hk hc
    | closes =>
      by_cases hP : P = []
      · rw [hk] at hact
        subst hP
        refine ⟨1, t, True, fun k hkk ln ln' => ?_⟩
        obtain ⟨k, rfl⟩ : ∃ j, k = j + 1 := ⟨k - 1, by omega⟩
        refine ⟨-1, -1, ?_, ?_, by simp, by simp⟩
        · rw [feedI, getI, hinc]
          simp only [hact k t [] { rest := text ls } (ln + 1) rfl, if_true]
        · rw [feed, getLoop, hact k t [] { rest := text ls' } (ln' + 1) rfl, if_pos rfl]
      · exact main _ _ P.dropLast (move_closes (lineCfg_ok w) hk) (by simp [pop, hP])
    | bad =>
      rw [hk] at hact
      refine ⟨1, t, False, fun k hkk ln ln' => ?_⟩
      obtain ⟨k, rfl⟩ : ∃ j, k = j + 1 := ⟨k - 1, by omega⟩
      refine ⟨((ln + 1 : Nat) : Int), ((ln' + 1 : Nat) : Int), ?_, ?_, ?_, ?_⟩
      · rw [feedI, getI, hinc]
        simp only [hact k t P { rest := text ls } (ln + 1) rfl]
      · rw [feed, getLoop, hact k t P { rest := text ls' } (ln' + 1) rfl]
      · simp only [iff_false]; omega
      · simp only [iff_false]; omega
  | comment file l cs e ls ls' hc hcs he h ih =>
    intro r t P hn hr
    have hg' : ∀ x ∈ ls, GoodLine x := fun x hx => hg x (by simp [hx])
    have hgl' := expands_good h hg'
    have hinc := kind_comment_noInclude l hc
    obtain ⟨f, hmv⟩ := move_comment (lineCfg_ok w) hc cs e hcs he (fun c hc => hg c (by simp [hc])) (hg e (by simp))
    obtain ⟨K, T, σ, hK⟩ := ih hg' r (updAt P f t) P (hmv.valid P P t hn rfl) (fun h => by
      obtain ⟨a, b, c⟩ := hr h
      exact ⟨keeps_updAt hmv.dp (hmv.keeps (c l (by simp))) P b t a, b, fun x hx => c x (by simp [hx])⟩)
    refine ⟨K + 1 + (cs ++ [e]).length, T, σ, fun k hk ln ln' => ?_⟩
    obtain ⟨k, rfl⟩ : ∃ j, k = j + 1 := ⟨k - 1, by omega⟩
    obtain ⟨l1, e1⟩ := feedI_move hmv hinc file r k t P P ln ls (by omega) rfl hg'
    obtain ⟨l2, e2⟩ := feed_move hmv k t P P ln' ls' (by omega) rfl hgl'
    have s1 : cs ++ e :: ls = cs ++ [e] ++ ls := by simp
    have s2 : cs ++ e :: ls' = cs ++ [e] ++ ls' := by simp
    rw [s1, s2, e1, e2]
    exact hK k (by omega) l1 l2
  | missing file l raw ls ls' hi hm h ih =>
    intro r t P hn hr
    have hg' : ∀ x ∈ ls, GoodLine x := fun x hx => hg x (by simp [hx])
    obtain ⟨N, hN⟩ := Option.isSome_iff_exists.1 hn
    obtain ⟨K, T, σ, hK⟩ := ih hg' r t P hn hr
    refine ⟨K + 1, T, σ, fun k hk ln ln' => ?_⟩
    obtain ⟨k, rfl⟩ : ∃ j, k = j + 1 := ⟨k - 1, by omega⟩
    have hsv : (if (r && P.isEmpty) = true then setVirtual [] (w.path (w.target file raw)) (w.name (w.target file raw)) N else .ok N) = .ok N := by
      by_cases hrp : (r && P.isEmpty) = true
      · simp only [Bool.and_eq_true, List.isEmpty_iff] at hrp
        obtain ⟨h1, h2⟩ := hrp
        subst h2
        simp only [nodeAt, Option.some.injEq] at hN
        subst hN
        rw [setVirtual_same _ _ _ (hr h1).1]
        split <;> rfl
      · rw [if_neg hrp]
    have hl : loadVia w (fun t1 x => getText k w (w.target file raw) (r && P.isEmpty) t1 x) (r && P.isEmpty) (w.target file raw) N =
        .ok (some (N, eFILE_LOAD_ERROR)) := by
      unfold loadVia
      split
      · rfl
      · rename_i hne
        rcases hm with hm | hm
        · exact absurd hm hne
        · rw [hsv, hm]
    rw [feedI_include ((includeText_iff l raw).2 hi) file r k t P N N _ ln ls hN hl hg']
    have : updAt P (fun _ => N) t = t := by
      rw [updAt_congr P (fun _ => N) (fun x => x) t N hN rfl, updAt_id]
    rw [this]
    obtain ⟨c, c', q1, q2, q3, q4⟩ := hK k (by omega) (ln + 1) ln'
    obtain ⟨d, d', p1, p2, p3, p4⟩ := hK (k + 1) (by omega) (ln + 1) ln'
    exact ⟨c, d', q1, p2, q3, p4⟩
  | found file l raw body body' ls ls' hi hne hb hgb h1 hd h2 ih1 ih2 =>
    intro r t P hn hr
    have hg' : ∀ x ∈ ls, GoodLine x := fun x hx => hg x (by simp [hx])
    have hgb' := expands_good h1 hgb
    have hgl' := expands_good h2 hg'
    obtain ⟨N, hN⟩ := Option.isSome_iff_exists.1 hn
    obtain ⟨F, Q', hdp, hQ', hval, hkeep, hrun⟩ := feed_block w body'.length body' (Nat.le_refl _) hgb' [] 0 hd
    have hQ0 : Q' = [] := List.length_eq_zero_iff.1 hQ'
    subst hQ0
    have hroot : (r && P.isEmpty) = true → r = true ∧ P = [] ∧ N = t := by
      intro hrp
      simp only [Bool.and_eq_true, List.isEmpty_iff] at hrp
      obtain ⟨h1, h2⟩ := hrp
      refine ⟨h1, h2, ?_⟩
      subst h2
      simpa [nodeAt] using hN.symm
    have hsv : (if (r && P.isEmpty) = true then setVirtual [] (w.path (w.target file raw)) (w.name (w.target file raw)) N else .ok N) = .ok N := by
      by_cases hrp : (r && P.isEmpty) = true
      · obtain ⟨a, b, c⟩ := hroot hrp
        rw [c, setVirtual_same _ _ _ (hr a).1]
        split <;> rfl
      · rw [if_neg hrp]
    obtain ⟨K1, T1, σ1, hK1⟩ := ih1 hgb (r && P.isEmpty) N [] rfl (fun hrp => by
      obtain ⟨a, b, c⟩ := hroot hrp
      obtain ⟨x, y, z⟩ := hr a
      exact ⟨c ▸ x, by simp, fun l hl => z l (by simp [hl])⟩)
    -- the included file gives `F N`
    have hT1 : T1 = F N := by
      obtain ⟨c, c', q1, q2, _, _⟩ := hK1 (K1 + body'.length) (by omega) 0 0
      obtain ⟨j, ln', _, e⟩ := hrun (K1 + body'.length) N [] 0 [] (by omega) (by simp)
      simp only [List.append_nil] at e
      rw [e, feed] at q2
      simp only [Option.some.injEq, Prod.mk.injEq] at q2
      exact q2.1.symm
    subst hT1
    obtain ⟨K2, T2, σ2, hK2⟩ := ih2 hg' r (updAt P F t) P (by
        have := hval t P (by rw [List.append_nil]; exact hn)
        rwa [List.append_nil] at this) (fun h => by
      obtain ⟨a, b, c⟩ := hr h
      have := hkeep t P (fun l hl => c l (by simp [hl])) (by rwa [List.append_nil]) a
      rw [List.append_nil] at this
      exact ⟨this.1, b, fun x hx => c x (by simp [hx])⟩)
    refine ⟨K1 + K2 + body'.length + 2, T2, σ2, fun k hk ln ln' => ?_⟩
    obtain ⟨k, rfl⟩ : ∃ j, k = j + 2 := ⟨k - 2, by omega⟩
    obtain ⟨c1, c1', q1, _, _, _⟩ := hK1 (k + 1) (by omega) 1 1
    have hl : loadVia w (fun t1 x => getText (k + 1) w (w.target file raw) (r && P.isEmpty) t1 x) (r && P.isEmpty) (w.target file raw) N =
        .ok (some (F N, if c1 ≥ 0 then eFILE_LOAD_ERROR else eOK)) := by
      unfold loadVia
      rw [if_neg hne, hsv]
      simp only [hb]
      rw [getText_feedI k w _ _ N body hgb, q1]
    rw [feedI_include ((includeText_iff l raw).2 hi) file r (k + 1) t P N (F N) _ ln ls hN hl hg']
    rw [updAt_congr P (fun _ => F N) F t N hN rfl]
    obtain ⟨j, ln2, hj, e⟩ := hrun (k + 2) t P ln' ls' (by omega) hgl'
    rw [List.append_nil] at e
    rw [e]
    obtain ⟨c, c', a1, a2, a3, a4⟩ := hK2 (k + 1) (by omega) (ln + 1) ln2
    obtain ⟨d, d', b1, b2, b3, b4⟩ := hK2 j (by omega) (ln + 1) ln2
    exact ⟨c, d', a1, b2, a3, b4⟩

end Verif.AT.Inc
