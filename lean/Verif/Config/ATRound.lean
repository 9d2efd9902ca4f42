import Verif.Config.ATLemmas

/-! # Helper lemmas for C35: reading back a printed `AttributeTree` -/
namespace Verif.AT

/-! ## The line reader -/

/-- The text made of these lines. -/
def text (ls : List S) : S := ls.flatMap (· ++ ['\n'])

/-- A line that `readNextLineInBuffer` delivers unchanged. -/
def GoodLine (l : S) : Prop := '\n' ∉ l ∧ l.length ≤ 1997 ∧ l.getLast? ≠ some '\r'

theorem getlineGo_line (n : Nat) (l r : S) (h : '\n' ∉ l) (hl : l.length ≤ n) :
    getlineGo n (l ++ '\n' :: r) = (l, { rest := r }) := by
  induction l generalizing n with
  | nil => rw [List.nil_append, getlineGo.eq_def]; simp
  | cons c cs ih =>
    simp only [List.mem_cons, not_or] at h
    have hc : ¬ c = '\n' := fun x => h.1 x.symm
    cases n with
    | zero => simp at hl
    | succ n =>
      have := ih n h.2 (by simpa using hl)
      simp [getlineGo, hc, this]

theorem readNextLine_line (l r : S) (h : GoodLine l) :
    readNextLine { rest := l ++ '\n' :: r } = (l, { rest := r }) := by
  obtain ⟨h1, h2, h3⟩ := h
  have hne : l ++ '\n' :: r ≠ [] := by simp
  simp [readNextLine, getline, getlineGo_line 1997 l r h1 h2, h3]

theorem readNextLine_end : readNextLine { rest := [] } = ([], { rest := [], eof := true, fail := true }) := by
  simp [readNextLine, getline]

/-- The parser about to process these lines. -/
def feed (k : Nat) (cfg : Cfg) (t : Tree) (at_ : List S) (ln : Nat) : List S → Option (Tree × Int)
  | [] => some (t, -1)
  | l :: ls => getLoop k cfg t at_ { rest := text ls } ln l

/-- Processing the line `l` in state `a` leads to state `b`, without touching the stream. -/
def Step (cfg : Cfg) (l : S) (a b : Tree × List S) : Prop :=
  ∀ k s ln, doLine k cfg a.1 a.2 s ln l = some (.next b.1 b.2 s ln)

/-- The same for several lines. -/
def Steps (cfg : Cfg) : List S → Tree × List S → Tree × List S → Prop
  | [], a, b => a = b
  | l :: ls, a, c => ∃ b, Step cfg l a b ∧ Steps cfg ls b c

theorem Steps.append {cfg ls ls' a b c} (h : Steps cfg ls a b) (h' : Steps cfg ls' b c) :
    Steps cfg (ls ++ ls') a c := by
  induction ls generalizing a with
  | nil => cases h; exact h'
  | cons l ls ih =>
    obtain ⟨x, hx, hs⟩ := h
    exact ⟨x, hx, ih hs⟩

theorem feed_step {cfg l a b ls} (k ln : Nat) (h : Step cfg l a b) (hg : ∀ l ∈ ls, GoodLine l) :
    feed (k + 1) cfg a.1 a.2 ln (l :: ls) = feed k cfg b.1 b.2 (ln + 1) ls := by
  simp only [feed, getLoop]
  rw [h k _ (ln + 1)]
  cases ls with
  | nil => simp [text, readNextLine_end, feed]
  | cons l' ls' =>
    have : text (l' :: ls') = l' ++ '\n' :: text ls' := by simp [text]
    simp only [this, readNextLine_line l' (text ls') (hg l' (by simp)), feed]
    simp

theorem feed_steps {cfg a b} (ls rest : List S) (k ln : Nat) (h : Steps cfg ls a b)
    (hg : ∀ l ∈ ls ++ rest, GoodLine l) :
    feed (k + ls.length) cfg a.1 a.2 ln (ls ++ rest) = feed k cfg b.1 b.2 (ln + ls.length) rest := by
  induction ls generalizing a ln with
  | nil => cases h; rfl
  | cons l ls ih =>
    obtain ⟨x, hx, hs⟩ := h
    have := ih (ln + 1) hs (fun l' hl' => hg l' (by simp at hl' ⊢; exact .inr hl'))
    simp only [List.length_cons, List.cons_append]
    rw [show k + (ls.length + 1) = (k + ls.length) + 1 by omega,
      feed_step (k + ls.length) ln hx (fun l' hl' => hg l' (by simp at hl' ⊢; exact .inr hl')),
      this, show ln + 1 + ls.length = ln + (ls.length + 1) by omega]

theorem get_feed (k : Nat) (cfg : Cfg) (t : Tree) (l : S) (ls : List S) (h : GoodLine l) :
    get k cfg t (text (l :: ls)) = feed k cfg t [] 1 (l :: ls) := by
  have : text (l :: ls) = l ++ '\n' :: text ls := by simp [text]
  simp only [get, this, readNextLine_line l (text ls) h, feed]

/-! ## One line -/

theorem cut_append (ch : Char) (x y : S) (h : ch ∉ x) : cut ch (x ++ ch :: y) = some (x, y) := by
  induction x with
  | nil => simp [cut]
  | cons c cs ih =>
    simp only [List.mem_cons, not_or] at h
    have hc : ¬ c = ch := fun e => h.1 e.symm
    simp [cut, hc, ih h.2]

theorem cut_none (ch : Char) (x : S) (h : ch ∉ x) : cut ch x = none := by
  induction x with
  | nil => rfl
  | cons c cs ih =>
    simp only [List.mem_cons, not_or] at h
    have hc : ¬ c = ch := fun e => h.1 e.symm
    simp [cut, hc, ih h.2]

theorem hasInfix_iff (x s : S) : hasInfix x s = true ↔ x <:+: s := by
  induction s with
  | nil => simp [hasInfix]
  | cons c cs ih =>
    simp only [hasInfix, Bool.or_eq_true, ih, List.isPrefixOf_iff_prefix]
    exact List.infix_cons_iff.symm

theorem dotted_cons (d e : S) (es : List S) : dotted (d :: e :: es) = d ++ '.' :: dotted (e :: es) := rfl

theorem dotted_snoc (p : List S) (d : S) (hp : p ≠ []) :
    dotted (p ++ [d]) = dotted p ++ '.' :: d := by
  induction p with
  | nil => exact absurd rfl hp
  | cons x xs ih =>
    cases xs with
    | nil => rfl
    | cons y ys =>
      have := ih (by simp)
      simp only [List.cons_append] at this ⊢
      rw [dotted_cons, this, dotted_cons]
      simp

theorem infix_dotted (x : S) (hx : '.' ∉ x) (p : List S) (hp : p ≠ []) (h : x <:+: dotted p) :
    ∃ d ∈ p, x <:+: d := by
  induction p with
  | nil => exact absurd rfl hp
  | cons d ds ih =>
    cases ds with
    | nil => exact ⟨d, by simp, h⟩
    | cons e es =>
      rw [dotted_cons] at h
      have key : ∀ a b : S, x <:+: a ++ '.' :: b → x <:+: a ∨ x <:+: b := by
        rintro a b ⟨s, t, hst⟩
        rw [List.append_eq_append_iff] at hst
        rcases hst with ⟨u, h1, h2⟩ | ⟨u, h1, h2⟩
        · -- a = (s ++ x) ++ u
          exact .inl ⟨s, u, by simpa using h1.symm⟩
        · -- s ++ x = a ++ u
          cases u with
          | nil =>
            refine .inl ⟨s, [], ?_⟩
            simpa using h1
          | cons c u =>
            simp only [List.cons_append, List.cons.injEq] at h2
            obtain ⟨rfl, h2⟩ := h2
            rw [List.append_eq_append_iff] at h1
            rcases h1 with ⟨w, h3, h4⟩ | ⟨w, h3, h4⟩
            · exact absurd (by rw [h4]; simp) hx
            · -- s = a ++ w, w ++ x = '.' :: u
              cases w with
              | nil =>
                simp only [List.nil_append] at h4
                exact absurd (by rw [← h4]; simp) hx
              | cons z w =>
                simp only [List.cons_append, List.cons.injEq] at h4
                obtain ⟨_, h4⟩ := h4
                exact .inr ⟨w, t, by rw [h2, h4]⟩
      rcases key _ _ h with h | h
      · exact ⟨d, by simp, h⟩
      · obtain ⟨y, hy, hxy⟩ := ih (by simp) h
        exact ⟨y, by simp [List.mem_cons] at hy ⊢; exact .inr hy, hxy⟩

theorem mem_dotted (c : Char) (hc : c ≠ '.') (p : List S) (h : c ∈ dotted p) : ∃ d ∈ p, c ∈ d := by
  induction p with
  | nil => simp [dotted] at h
  | cons d ds ih =>
    cases ds with
    | nil => exact ⟨d, by simp, h⟩
    | cons e es =>
      rw [dotted_cons] at h
      simp only [List.mem_append, List.mem_cons] at h
      rcases h with h | h | h
      · exact ⟨d, by simp, h⟩
      · exact absurd h hc
      · obtain ⟨y, hy, hxy⟩ := ih h
        exact ⟨y, by simp [List.mem_cons] at hy ⊢; exact .inr hy, hxy⟩

theorem dotted_head (d : S) (ds : List S) (hd : d ≠ []) : (dotted (d :: ds)).head? = d.head? := by
  cases ds with
  | nil => rfl
  | cons e es =>
    rw [dotted_cons]
    cases d with
    | nil => exact absurd rfl hd
    | cons => rfl

theorem dropWhile_sp (sp x : S) (hs : ∀ c ∈ sp, c = ' ')
    (hx : ∀ c, x.head? = some c → isSpace c = false) : (sp ++ x).dropWhile isSpace = x := by
  induction sp with
  | nil =>
    cases x with
    | nil => rfl
    | cons c cs => simp [List.dropWhile_cons, hx c rfl]
  | cons c cs ih =>
    have : c = ' ' := hs c (by simp)
    subst this
    simp only [List.cons_append, List.dropWhile_cons]
    rw [if_pos (by rfl)]
    exact ih (fun c hc => hs c (by simp [hc]))

/-- `name:value` below `at`. -/
theorem step_attr (cfg : Cfg) (sp : S) (hs : ∀ c ∈ sp, c = ' ') (ds : List S) (hd : ds ≠ [])
    (hg : ∀ d ∈ ds, GoodDesc d) (v : S) (T : Tree) (P : List S) :
    Step cfg (sp ++ dotted ds ++ [':'] ++ v) (T, P) (updAt P (setC (some v) ds) T, P) := by
  intro k s ln
  cases ds with
  | nil => exact absurd rfl hd
  | cons d es =>
    have hgd := hg d (by simp)
    have hh := dotted_head d es hgd.ne
    obtain ⟨c, hc⟩ : ∃ c, d.head? = some c := by
      cases h : d with
      | nil => exact absurd h hgd.ne
      | cons c cs => exact ⟨c, rfl⟩
    have hhead : ∀ x, (dotted (d :: es) ++ [':'] ++ v).head? = some x → x = c := by
      intro x hx
      have : (dotted (d :: es) ++ [':'] ++ v).head? = some c := by
        simp [hh, hc]
      rw [this] at hx; cases hx; rfl
    have hdw : (sp ++ dotted (d :: es) ++ [':'] ++ v).dropWhile isSpace
        = dotted (d :: es) ++ ':' :: v := by
      have := dropWhile_sp sp (dotted (d :: es) ++ [':'] ++ v) hs
        (fun x hx => by rw [hhead x hx]; exact (hgd.head c hc).1)
      simpa using this
    have hcol : ':' ∉ dotted (d :: es) := by
      intro h
      obtain ⟨x, hx, hm⟩ := mem_dotted ':' (by decide) _ h
      exact (hg x hx).colon hm
    have hne : dotted (d :: es) ≠ [] := by
      intro h; rw [h, hc] at hh; cases hh
    have hninc : dotted (d :: es) ≠ includeStr := by
      intro h
      have hdot : '.' ∉ includeStr := by decide
      cases es with
      | nil => exact hgd.notInclude h
      | cons e es => apply hdot; rw [← h, dotted_cons]; simp
    have hncom : hasInfix commentStr (dotted (d :: es)) = false := by
      cases h : hasInfix commentStr (dotted (d :: es)) with
      | false => rfl
      | true =>
        obtain ⟨x, hx, hm⟩ := infix_dotted commentStr (by decide) _ (by simp) ((hasInfix_iff _ _).1 h)
        exact absurd hm (hg x hx).notComment
    have hnh : (dotted (d :: es) ++ ':' :: v).head? ≠ some '#' := by
      intro h
      have : '#' = c := hhead '#' (by simpa using h)
      exact (hgd.head c hc).2 this.symm
    have hcomps : comps (dotted (d :: es)) = d :: es :=
      comps_dotted _ (by simp) (fun x hx => (hg x hx).dot)
    simp only [doLine, hdw, hnh, if_false, cut_append ':' _ v hcol, hne, hninc, hncom,
      Bool.not_false, Bool.true_or, if_true, hcomps]

/-- `:value` at `at`. -/
theorem step_own (cfg : Cfg) (sp : S) (hs : ∀ c ∈ sp, c = ' ') (v : S) (T : Tree) (P : List S) :
    Step cfg (sp ++ [':'] ++ v) (T, P) (updAt P (setThis (some v)) T, P) := by
  intro k s ln
  have hdw : (sp ++ [':'] ++ v).dropWhile isSpace = ':' :: v := by
    have := dropWhile_sp sp ([':'] ++ v) hs (fun x hx => by
      simp at hx; subst hx; decide)
    simpa using this
  have := cut_append ':' [] v (by simp)
  simp only [List.nil_append] at this
  simp only [doLine, hdw, this]
  simp

/-- `name{` -/
theorem step_open (cfg : Cfg) (sp : S) (hs : ∀ c ∈ sp, c = ' ') (d : S) (hg : GoodDesc d)
    (T : Tree) (P : List S) :
    Step cfg (sp ++ d ++ ['{']) (T, P) (updAt P (setC none [d]) T, P ++ [d]) := by
  intro k s ln
  obtain ⟨c, hc⟩ : ∃ c, d.head? = some c := by
    cases h : d with
    | nil => exact absurd h hg.ne
    | cons c cs => exact ⟨c, rfl⟩
  have hh : (d ++ ['{']).head? = some c := by simp [hc]
  have hdw : (sp ++ d ++ ['{']).dropWhile isSpace = d ++ ['{'] := by
    have := dropWhile_sp sp (d ++ ['{']) hs (fun x hx => by
      rw [hh] at hx; cases hx; exact (hg.head c hc).1)
    simpa using this
  have hnh : (d ++ ['{']).head? ≠ some '#' := by
    rw [hh]; intro h; cases h; exact (hg.head _ hc).2 rfl
  have hcol : ':' ∉ d ++ ['{'] := by
    simp only [List.mem_append, List.mem_singleton, not_or]
    exact ⟨hg.colon, by decide⟩
  have hncom : d ≠ commentStr := by
    intro h; exact hg.notComment (h ▸ List.infix_refl _)
  have hcomps := comps_plain d hg.dot
  have heff : effective [d] = [d] := effective_plain [d] (by simpa using hg.ne)
  simp only [doLine, hdw, hnh, if_false, cut_none ':' _ hcol, cut_append '{' d [] hg.brace, hncom,
    hcomps, heff]

/-- `}name` -/
theorem step_close (cfg : Cfg) (sp : S) (hs : ∀ c ∈ sp, c = ' ') (d : S) (hg : GoodDesc d)
    (T : Tree) (P : List S) (x : S) :
    Step cfg (sp ++ ['}'] ++ d) (T, P ++ [x]) (T, P) := by
  intro k s ln
  have hdw : (sp ++ ['}'] ++ d).dropWhile isSpace = '}' :: d := by
    have := dropWhile_sp sp (['}'] ++ d) hs (fun x hx => by
      simp at hx; subst hx; decide)
    simpa using this
  have hcol : ':' ∉ '}' :: d := by
    simp only [List.mem_cons, not_or]; exact ⟨by decide, hg.colon⟩
  have hbr : '{' ∉ '}' :: d := by
    simp only [List.mem_cons, not_or]; exact ⟨by decide, hg.brace⟩
  have := cut_append '}' [] d (by simp)
  simp only [List.nil_append] at this
  simp only [doLine, hdw, cut_none ':' _ hcol, cut_none '{' _ hbr, this]
  simp

/-! ## Updating the node `at` -/

theorem withKids_self (t : Tree) : t.withKids t.kids = t := by cases t; rfl

theorem updAt_setC (a) (c P : List S) (hP : ∀ d ∈ P, d ≠ []) (T : Tree)
    (h : (nodeAt P T).isSome) : updAt P (setC a c) T = setC a (P ++ c) T := by
  induction P generalizing T with
  | nil => rfl
  | cons d ds ih =>
    rw [nodeAt_cons] at h
    cases hf : find d T.kids with
    | none => simp [hf] at h
    | some k =>
      simp only [hf, Option.bind_some] at h
      have hd := hP d (by simp)
      have hds := fun x hx => hP x (List.mem_cons_of_mem d hx)
      simp only [updAt, List.cons_append, setC, hd, if_false]
      have key : ∀ ks : List Tree, find d ks = some k →
          updFirst d (updAt ds (setC a c)) ks = updFirst d (setC a (ds ++ c)) ks := by
        intro ks
        induction ks with
        | nil => simp [find]
        | cons x xs ihx =>
          simp only [find, updFirst]
          split
          · intro hx; cases hx; rw [ih hds _ h]
          · intro hx; rw [ihx hx]
      rw [key _ hf]
      cases hu : updFirst d (setC a (ds ++ c)) T.kids with
      | none => rw [updFirst_none] at hu; rw [hu] at hf; cases hf
      | some ks => rfl

theorem nodeAt_setC_keep (a) (p q : List S) (T : Tree) (h : (nodeAt q T).isSome) :
    (nodeAt q (setC a p T)).isSome := by
  induction p generalizing q T with
  | nil =>
    cases q with
    | nil => rfl
    | cons e es => simpa [setC, nodeAt_cons] using h
  | cons d ds ih =>
    cases q with
    | nil => rfl
    | cons e es =>
      by_cases hd : d = []
      · simpa [setC, hd, nodeAt_cons] using h
      · rw [nodeAt_cons, find_setC a d ds T hd]
        rw [nodeAt_cons] at h
        by_cases he : e = d
        · subst he
          cases hf : find e T.kids with
          | none => simp [hf] at h
          | some k =>
            simp only [hf, Option.bind_some] at h
            simpa using ih es k h
        · simpa [he] using h

theorem nodeAt_setC_self (a) (p : List S) (hp : ∀ d ∈ p, d ≠ []) (T : Tree) :
    (nodeAt p (setC a p T)).isSome := by
  induction p generalizing T with
  | nil => rfl
  | cons d ds ih =>
    rw [nodeAt_cons, find_setC a d ds T (hp d (by simp))]
    simpa using ih (fun x hx => hp x (by simp [hx])) _

/-! ## Reading back the lines of a subtree -/

/-- What reading the lines `ls` at position `P` does for the children `ks` printed below
`P ++ pre`. -/
def ReadsL (cfg : Cfg) (ls : List S) (pre : List S) (ks : List Tree) : Prop :=
  ∀ T P, (∀ d ∈ P, d ≠ []) → (nodeAt P T).isSome →
    (∀ d r, (find d ks).isSome → lookup (P ++ pre ++ d :: r) T = none) →
    ∃ T', Steps cfg ls (T, P) (T', P) ∧ (∀ q, (nodeAt q T).isSome → (nodeAt q T').isSome) ∧
      (∀ d r k, find d ks = some k → lookup (P ++ pre ++ d :: r) T' = lookup r k) ∧
      (∀ q, (∀ d r, q = P ++ pre ++ d :: r → find d ks = none) → lookup q T' = lookup q T)

/-- The same for one child. -/
def Reads (cfg : Cfg) (ls : List S) (pre : List S) (d : S) (k : Tree) : Prop :=
  ∀ T P, (∀ d ∈ P, d ≠ []) → (nodeAt P T).isSome →
    (∀ r, lookup (P ++ pre ++ d :: r) T = none) →
    ∃ T', Steps cfg ls (T, P) (T', P) ∧ (∀ q, (nodeAt q T).isSome → (nodeAt q T').isSome) ∧
      (∀ r, lookup (P ++ pre ++ d :: r) T' = lookup r k) ∧
      (∀ q, (∀ r, q ≠ P ++ pre ++ d :: r) → lookup q T' = lookup q T)

theorem goodL_iff (csd : Int) (ks : List Tree) : GoodL csd ks ↔ ∀ k ∈ ks, Good csd k := by
  induction ks with
  | nil => simp [GoodL]
  | cons k ks ih => simp [GoodL, ih]

theorem goodDesc_ne_comment {d : S} (h : GoodDesc d) : d ≠ commentStr := by
  intro e; exact h.notComment (e ▸ List.infix_refl _)

theorem good_desc {csd : Int} {t : Tree} (h : Good csd t) : ∃ d, t.desc = some d ∧ GoodDesc d := by
  cases t with
  | node d a c ks => simp only [Good] at h; exact h.1

theorem comment_good {csd : Int} {ks : List Tree} (h : GoodL csd ks) : comment ks = [] := by
  induction ks with
  | nil => rfl
  | cons k ks ih =>
    obtain ⟨h1, h2⟩ := h
    obtain ⟨d, hd, hg⟩ := good_desc h1
    have : isComment k = false := by
      simp only [isComment, hd]
      have := goodDesc_ne_comment hg
      simpa using this
    simp only [comment, this]
    exact ih h2

theorem contains_kid_le {ks : List Tree} {k : Tree} (h : k ∈ ks) : contains k ≤ containsL ks := by
  induction ks with
  | nil => simp at h
  | cons x xs ih =>
    simp only [containsL]
    rcases List.mem_cons.1 h with rfl | h
    · omega
    · have := ih h; omega

theorem find_cons_none {d : S} {k : Tree} {ks : List Tree} (h : find d (k :: ks) = none) :
    k.desc ≠ some d ∧ find d ks = none := by
  simp only [find] at h
  split at h
  · cases h
  · rename_i hk; exact ⟨hk, h⟩

/-- reading one child after the other -/
theorem reads_list (cfg : Cfg) (pre : List S) (k : Tree) (d : S) (hd : k.desc = some d)
    (ks : List Tree) (hn : find d ks = none) (l1 l2 : List S)
    (h1 : Reads cfg l1 pre d k) (h2 : ReadsL cfg l2 pre ks) :
    ReadsL cfg (l1 ++ l2) pre (k :: ks) := by
  intro T P hP hex hnone
  obtain ⟨T1, s1, n1, a1, b1⟩ := h1 T P hP hex (fun r => hnone d r (by simp [find, hd]))
  obtain ⟨T2, s2, n2, a2, b2⟩ := h2 T1 P hP (n1 P hex) (by
    intro e r he
    have hed : e ≠ d := by rintro rfl; rw [hn] at he; cases he
    rw [b1]
    · apply hnone e r
      simp only [find]
      split
      · rfl
      · exact he
    · intro r' heq
      have := List.append_cancel_left heq
      simp only [List.cons.injEq] at this
      exact hed this.1)
  refine ⟨T2, s1.append s2, fun q hq => n2 q (n1 q hq), ?_, ?_⟩
  · intro e r k' hk'
    simp only [find] at hk'
    split at hk'
    · rename_i hde
      cases hk'
      rw [hd] at hde; cases hde
      rw [b2]
      · exact a1 r
      · intro e' r' heq
        have := List.append_cancel_left heq
        simp only [List.cons.injEq] at this
        rw [← this.1]; exact hn
    · exact a2 e r k' hk'
  · intro q hq
    rw [b2 q (fun e r he => (find_cons_none (hq e r he)).2)]
    apply b1
    intro r he
    have := (find_cons_none (hq d r he)).1
    exact this hd

theorem lookup_node (d a c) (ks : List Tree) (e : S) (r : List S) :
    lookup (e :: r) (.node d a c ks) = (find e ks).bind (lookup r) := by
  rw [lookup_cons]; rfl

/-- A node written on one line `name:attr`, then its children. -/
theorem reads_dotted (cfg : Cfg) (sp : S) (hs : ∀ c ∈ sp, c = ' ') (pre : List S) (d : S)
    (hpre : ∀ x ∈ pre, GoodDesc x) (hd : GoodDesc d) (a : Option S) (c : Bool) (ks : List Tree)
    (ls : List S) (h : ReadsL cfg ls (pre ++ [d]) ks) :
    Reads cfg ((match a with
      | some v => [sp ++ dotted (pre ++ [d]) ++ [':'] ++ v]
      | none => []) ++ ls) pre d (.node (some d) a c ks) := by
  intro T P hP hex hnone
  have hgp : ∀ x ∈ pre ++ [d], GoodDesc x := by
    intro x hx
    rcases List.mem_append.1 hx with hx | hx
    · exact hpre x hx
    · simp at hx; subst hx; exact hd
  have hne : ∀ x ∈ P ++ (pre ++ [d]), x ≠ [] := by
    intro x hx
    rcases List.mem_append.1 hx with hx | hx
    · exact hP x hx
    · exact (hgp x hx).ne
  -- the state after the attribute line
  obtain ⟨T1, s1, n1, a1, b1⟩ : ∃ T1,
      Steps cfg (match a with
        | some v => [sp ++ dotted (pre ++ [d]) ++ [':'] ++ v]
        | none => []) (T, P) (T1, P) ∧
      (∀ q, (nodeAt q T).isSome → (nodeAt q T1).isSome) ∧
      lookup (P ++ pre ++ [d]) T1 = a ∧
      (∀ q, q ≠ P ++ pre ++ [d] → lookup q T1 = lookup q T) := by
    cases a with
    | none => exact ⟨T, rfl, fun _ h => h, hnone [], fun _ _ => rfl⟩
    | some v =>
      have hst := step_attr cfg sp hs (pre ++ [d]) (by simp) hgp v T P
      rw [updAt_setC (some v) _ P hP T hex] at hst
      refine ⟨_, ⟨_, hst, rfl⟩, fun q hq => nodeAt_setC_keep _ _ q T hq, ?_, ?_⟩
      · rw [lookup_setC, effective_plain _ hne, if_pos (by simp)]
      · intro q hq
        rw [lookup_setC, effective_plain _ hne, if_neg (by simpa using hq)]
  obtain ⟨T2, s2, n2, a2, b2⟩ := h T1 P hP (n1 P hex) (by
    intro e r _
    rw [b1]
    · have := hnone (e :: r)
      simpa using this
    · intro he
      have := congrArg List.length he
      simp at this)
  refine ⟨T2, s1.append s2, fun q hq => n2 q (n1 q hq), ?_, ?_⟩
  · intro r
    cases r with
    | nil =>
      rw [b2]
      · rw [a1]; rfl
      · intro e r he
        have := congrArg List.length he
        simp at this
    | cons e r =>
      rw [lookup_node]
      have hsh : P ++ pre ++ d :: e :: r = P ++ (pre ++ [d]) ++ e :: r := by simp
      cases hf : find e ks with
      | some k => rw [hsh]; exact a2 e r k hf
      | none =>
        rw [b2]
        · rw [b1]
          · simpa using hnone (e :: r)
          · intro he
            have := congrArg List.length he
            simp at this
        · intro e' r' he
          rw [hsh] at he
          have := List.append_cancel_left he
          simp only [List.cons.injEq] at this
          rw [← this.1]; exact hf
  · intro q hq
    rw [b2]
    · apply b1
      intro he; exact hq [] he
    · intro e r he
      exact absurd (by rw [he]; simp) (hq (e :: r))

/-- A node written with braces. -/
theorem reads_braces (cfg : Cfg) (sp : S) (hs : ∀ c ∈ sp, c = ' ') (d : S)
    (hd : GoodDesc d) (a : Option S) (ha : a ≠ some []) (c : Bool) (ks : List Tree)
    (ls : List S) (h : ReadsL cfg ls [] ks) :
    Reads cfg ([sp ++ d ++ ['{']]
      ++ (if a.getD [] ≠ [] then [sp ++ [':'] ++ a.getD []] else [])
      ++ ls ++ [sp ++ ['}'] ++ d]) [] d (.node (some d) a c ks) := by
  intro T P hP hex hnone
  simp only [List.append_nil] at hnone ⊢
  have hne : ∀ x ∈ P ++ [d], x ≠ [] := by
    intro x hx
    rcases List.mem_append.1 hx with hx | hx
    · exact hP x hx
    · simp at hx; subst hx; exact hd.ne
  have hopen := step_open cfg sp hs d hd T P
  rw [updAt_setC none [d] P hP T hex] at hopen
  have hex0 : (nodeAt (P ++ [d]) (setC none (P ++ [d]) T)).isSome := nodeAt_setC_self _ _ hne T
  have hl0 : ∀ q, lookup q (setC none (P ++ [d]) T) = lookup q T := by
    intro q
    rw [lookup_setC, effective_plain _ hne]
    split
    · rename_i hq; rw [hq, hnone []]
    · rfl
  obtain ⟨T1, s1, n1, a1, b1⟩ : ∃ T1,
      Steps cfg (if a.getD [] ≠ [] then [sp ++ [':'] ++ a.getD []] else [])
        (setC none (P ++ [d]) T, P ++ [d]) (T1, P ++ [d]) ∧
      (∀ q, (nodeAt q (setC none (P ++ [d]) T)).isSome → (nodeAt q T1).isSome) ∧
      lookup (P ++ [d]) T1 = a ∧
      (∀ q, q ≠ P ++ [d] → lookup q T1 = lookup q T) := by
    cases a with
    | none =>
      refine ⟨_, by simp [Steps], fun _ h => h, ?_, fun q _ => hl0 q⟩
      rw [hl0, hnone []]
    | some v =>
      have hv : v ≠ [] := fun h => ha (by rw [h])
      have hst := step_own cfg sp hs v (setC none (P ++ [d]) T) (P ++ [d])
      have hu := updAt_setC (some v) [] (P ++ [d]) hne _ hex0
      have hu' : updAt (P ++ [d]) (setThis (some v)) (setC none (P ++ [d]) T)
          = setC (some v) (P ++ [d]) (setC none (P ++ [d]) T) := by
        rw [List.append_nil] at hu; exact hu
      rw [hu'] at hst
      refine ⟨_, by simp only [Option.getD_some, ne_eq, hv, not_false_eq_true, if_true]
                    exact ⟨_, hst, rfl⟩, fun q hq => nodeAt_setC_keep _ _ q _ hq, ?_, ?_⟩
      · rw [lookup_setC, effective_plain _ hne, if_pos rfl]
      · intro q hq
        rw [lookup_setC, effective_plain _ hne, if_neg hq, hl0]
  obtain ⟨T2, s2, n2, a2, b2⟩ := h T1 (P ++ [d]) hne (n1 _ hex0) (by
    intro e r _
    rw [b1]
    · have := hnone (e :: r)
      simpa using this
    · intro he
      have := congrArg List.length he
      simp at this)
  simp only [List.append_nil] at a2 b2
  refine ⟨T2, ?_, fun q hq => n2 q (n1 q (nodeAt_setC_keep _ _ q T hq)), ?_, ?_⟩
  · refine Steps.append (Steps.append (Steps.append ⟨_, hopen, rfl⟩ s1) s2) ?_
    exact ⟨_, step_close cfg sp hs d hd T2 P d, rfl⟩
  · intro r
    cases r with
    | nil =>
      rw [b2]
      · rw [a1]; rfl
      · intro e r he
        have := congrArg List.length he
        simp at this
    | cons e r =>
      rw [lookup_node]
      have hsh : P ++ d :: e :: r = P ++ [d] ++ e :: r := by simp
      cases hf : find e ks with
      | some k => rw [hsh]; exact a2 e r k hf
      | none =>
        rw [b2]
        · rw [b1]
          · simpa using hnone (e :: r)
          · intro he
            have := congrArg List.length he
            simp at this
        · intro e' r' he
          rw [hsh] at he
          have := List.append_cancel_left he
          simp only [List.cons.injEq] at this
          rw [← this.1]; exact hf
  · intro q hq
    rw [b2]
    · apply b1
      intro he; exact hq [] he
    · intro e r he
      exact absurd (by rw [he]; simp) (hq (e :: r))

theorem getLast_dotted (pre : List S) (hpre : pre ≠ []) (hg : ∀ x ∈ pre, GoodDesc x) :
    ∃ c, (dotted pre).getLast? = some c ∧ isSpace c = false := by
  induction pre with
  | nil => exact absurd rfl hpre
  | cons d ds ih =>
    cases ds with
    | nil =>
      have hd := hg d (by simp)
      cases h : d.getLast? with
      | none => exact absurd (List.getLast?_eq_none_iff.1 h) hd.ne
      | some c => exact ⟨c, h, hd.last c h⟩
    | cons e es =>
      obtain ⟨c, h1, h2⟩ := ih (by simp) (fun x hx => hg x (by simp at hx ⊢; exact .inr hx))
      refine ⟨c, ?_, h2⟩
      rw [dotted_cons]
      have : d ++ '.' :: dotted (e :: es) = (d ++ ['.']) ++ dotted (e :: es) := by simp
      rw [this, List.getLast?_append, h1]
      rfl

theorem description_eq (sp : S) (hs : ∀ c ∈ sp, c = ' ') (h0 : sp ≠ []) (pre : List S)
    (hg : ∀ x ∈ pre, GoodDesc x) (d : S) :
    (if endsWithSpace (sp ++ dotted pre) then sp ++ dotted pre ++ d
      else sp ++ dotted pre ++ ['.'] ++ d) = sp ++ dotted (pre ++ [d]) := by
  by_cases hp : pre = []
  · subst hp
    have : endsWithSpace (sp ++ dotted []) = true := by
      simp only [dotted, List.append_nil, endsWithSpace]
      cases h : sp.getLast? with
      | none => exact absurd (List.getLast?_eq_none_iff.1 h) h0
      | some c => rw [hs c (List.mem_of_getLast? h)]; rfl
    simp only [this, if_true]
    simp [dotted]
  · obtain ⟨c, h1, h2⟩ := getLast_dotted pre hp hg
    have : endsWithSpace (sp ++ dotted pre) = false := by
      simp only [endsWithSpace, List.getLast?_append, h1, Option.some_or]
      cases h : (some c == some ' ') with
      | false => rfl
      | true =>
        have : c = ' ' := by simpa using h
        rw [this] at h2; exact absurd h2 (by decide)
    simp only [this]
    rw [dotted_snoc pre d hp]
    simp

/-- Main induction: a good subtree prints without undefined behaviour and its lines read
back as that subtree. -/
theorem print_reads (cfg : Cfg) (csd : Int) (k : Tree) :
    ∀ (d : S), k.desc = some d → Good csd k →
    ∀ (sp : S) (pre : List S), (∀ c ∈ sp, c = ' ') → sp ≠ [] → (∀ x ∈ pre, GoodDesc x) →
      (pre = [] ∨ ((contains k : Nat) : Int) < csd) →
    ∃ ls, printTree csd (sp ++ dotted pre) k = .ok ls ∧ Reads cfg ls pre d k := by
  refine Tree.rec
    (motive_1 := fun k => ∀ (d : S), k.desc = some d → Good csd k →
      ∀ (sp : S) (pre : List S), (∀ c ∈ sp, c = ' ') → sp ≠ [] → (∀ x ∈ pre, GoodDesc x) →
        (pre = [] ∨ ((contains k : Nat) : Int) < csd) →
      ∃ ls, printTree csd (sp ++ dotted pre) k = .ok ls ∧ Reads cfg ls pre d k)
    (motive_2 := fun ks => (ks.map Tree.desc).Nodup → GoodL csd ks →
      ∀ (sp : S) (pre : List S), (∀ c ∈ sp, c = ' ') → sp ≠ [] → (∀ x ∈ pre, GoodDesc x) →
        (pre = [] ∨ ((containsL ks : Nat) : Int) < csd) →
      ∃ ls, printList csd (sp ++ dotted pre) ks = .ok ls ∧ ReadsL cfg ls pre ks)
    ?_ ?_ ?_ k
  · intro d0 a c ks ih d hdesc hgood sp pre hs h0 hpre hmode
    simp only [Tree.desc] at hdesc
    subst hdesc
    simp only [Good] at hgood
    obtain ⟨⟨d', hd', hgd⟩, hga, hempty, hnod, hgl⟩ := hgood
    cases hd'
    have hv1 : ¬ (some d = some filePathStr ∨ some d = some fileNameStr) := by
      rintro (h | h)
      · cases h; exact hgd.notVirtual.1 rfl
      · cases h; exact hgd.notVirtual.2 rfl
    have hmc : isMultilineComment (.node (some d) a c ks) = .ok false := by
      have : isComment (.node (some d) a c ks) = false := by
        simp only [isComment, Tree.desc]
        simpa using goodDesc_ne_comment hgd
      simp [isMultilineComment, this]
    have hhm : hasMultilineComment ks = false := by
      simp [hasMultilineComment, comment_good hgl]
    simp only [printTree, hv1, if_false, hmc, hhm, Bool.false_eq_true, or_false, Option.getD_some]
    by_cases hbr : ((contains (.node (some d) a c ks) : Nat) : Int) ≥ csd
    · -- braces
      have hpre0 : pre = [] := by
        rcases hmode with h | h
        · exact h
        · omega
      subst hpre0
      have hsp' : ∀ c ∈ sp ++ [' '], c = ' ' := by
        intro c hc
        rcases List.mem_append.1 hc with hc | hc
        · exact hs c hc
        · simpa using hc
      obtain ⟨ls, hl, hr⟩ := ih hnod hgl (sp ++ [' ']) [] hsp' (by simp) (by simp) (.inl rfl)
      simp only [dotted, List.append_nil] at hl ⊢
      simp only [hbr, if_true, hl]
      exact ⟨_, rfl, reads_braces cfg sp hs d hgd a (hempty hbr) c ks ls hr⟩
    · simp only [hbr, if_false]
      rw [description_eq sp hs h0 pre hpre d]
      have hlt : ((containsL ks : Nat) : Int) < csd := by
        simp only [contains] at hbr
        push_cast at hbr
        split at hbr <;> omega
      obtain ⟨ls, hl, hr⟩ := ih hnod hgl sp (pre ++ [d]) hs h0 (by
        intro x hx
        rcases List.mem_append.1 hx with hx | hx
        · exact hpre x hx
        · simp at hx; subst hx; exact hgd) (.inr hlt)
      simp only [hl]
      exact ⟨_, rfl, reads_dotted cfg sp hs pre d hpre hgd a c ks ls hr⟩
  · intro _ _ sp pre _ _ _ _
    refine ⟨[], rfl, ?_⟩
    intro T P _ _ _
    exact ⟨T, rfl, fun _ h => h, by simp [find], fun _ _ => rfl⟩
  · intro k ks ih1 ih2 hnod hgl sp pre hs h0 hpre hmode
    obtain ⟨hg1, hg2⟩ := hgl
    obtain ⟨d, hd, _⟩ := good_desc hg1
    simp only [List.map_cons, List.nodup_cons] at hnod
    obtain ⟨l1, e1, r1⟩ := ih1 d hd hg1 sp pre hs h0 hpre (by
      rcases hmode with h | h
      · exact .inl h
      · simp only [containsL] at h; right; push_cast at h; omega)
    obtain ⟨l2, e2, r2⟩ := ih2 hnod.2 hg2 sp pre hs h0 hpre (by
      rcases hmode with h | h
      · exact .inl h
      · simp only [containsL] at h; right; push_cast at h; omega)
    refine ⟨l1 ++ l2, by simp [printList, e1, e2], ?_⟩
    refine reads_list cfg pre k d hd ks ?_ l1 l2 r1 r2
    cases hf : find d ks with
    | none => rfl
    | some x =>
      have hx := find_desc hf
      rw [find_eq] at hf
      have hm := List.mem_of_find?_eq_some hf
      exact absurd (List.mem_map.2 ⟨x, hm, by rw [hx, hd]⟩) hnod.1

/-! ## Printed lines are good lines -/

/-- No line break inside, and not ending in a carriage return. -/
def Clean (l : S) : Prop := '\n' ∉ l ∧ l.getLast? ≠ some '\r'

theorem not_r_of_not_space {c : Char} (h : isSpace c = false) : c ≠ '\r' := by
  rintro rfl; exact absurd h (by decide)

theorem clean_value (x v : S) (hx : '\n' ∉ x) (hv : GoodAttr v) : Clean (x ++ [':'] ++ v) := by
  constructor
  · simp only [List.mem_append, List.mem_singleton, not_or]
    exact ⟨⟨hx, by decide⟩, hv.nl⟩
  · rw [List.getLast?_append]
    cases h : v.getLast? with
    | none => simp [List.getLast?_append]
    | some c => have := hv.last; rw [h] at this; simpa using this

theorem sp_nl (sp : S) (hs : ∀ c ∈ sp, c = ' ') : '\n' ∉ sp := by
  intro h; exact absurd (hs _ h) (by decide)

theorem dotted_nl (pre : List S) (hg : ∀ x ∈ pre, GoodDesc x) : '\n' ∉ dotted pre := by
  intro h
  obtain ⟨d, hd, hm⟩ := mem_dotted _ (by decide) _ h
  exact (hg d hd).nl hm

theorem print_clean (csd : Int) (k : Tree) :
    Good csd k →
    ∀ (sp : S) (pre : List S), (∀ c ∈ sp, c = ' ') → sp ≠ [] → (∀ x ∈ pre, GoodDesc x) →
    (pre = [] ∨ ((contains k : Nat) : Int) < csd) →
    ∀ ls, printTree csd (sp ++ dotted pre) k = .ok ls → ∀ l ∈ ls, Clean l := by
  refine Tree.rec
    (motive_1 := fun k => Good csd k →
      ∀ (sp : S) (pre : List S), (∀ c ∈ sp, c = ' ') → sp ≠ [] → (∀ x ∈ pre, GoodDesc x) →
      (pre = [] ∨ ((contains k : Nat) : Int) < csd) →
      ∀ ls, printTree csd (sp ++ dotted pre) k = .ok ls → ∀ l ∈ ls, Clean l)
    (motive_2 := fun ks => GoodL csd ks →
      ∀ (sp : S) (pre : List S), (∀ c ∈ sp, c = ' ') → sp ≠ [] → (∀ x ∈ pre, GoodDesc x) →
      (pre = [] ∨ ((containsL ks : Nat) : Int) < csd) →
      ∀ ls, printList csd (sp ++ dotted pre) ks = .ok ls → ∀ l ∈ ls, Clean l)
    ?_ ?_ ?_ k
  · intro d0 a c ks ih hgood sp pre hs h0 hpre hmode ls hls
    simp only [Good] at hgood
    obtain ⟨⟨d, hd, hgd⟩, hga, hempty, hnod, hgl⟩ := hgood
    subst hd
    have hv1 : ¬ (some d = some filePathStr ∨ some d = some fileNameStr) := by
      rintro (h | h)
      · cases h; exact hgd.notVirtual.1 rfl
      · cases h; exact hgd.notVirtual.2 rfl
    have hmc : isMultilineComment (.node (some d) a c ks) = .ok false := by
      have : isComment (.node (some d) a c ks) = false := by
        simp only [isComment, Tree.desc]
        simpa using goodDesc_ne_comment hgd
      simp [isMultilineComment, this]
    have hhm : hasMultilineComment ks = false := by
      simp [hasMultilineComment, comment_good hgl]
    simp only [printTree, hv1, if_false, hmc, hhm, Bool.false_eq_true, or_false,
      Option.getD_some] at hls
    by_cases hbr : ((contains (.node (some d) a c ks) : Nat) : Int) ≥ csd
    · have hpre0 : pre = [] := by
        rcases hmode with h | h
        · exact h
        · omega
      subst hpre0
      have hsp' : ∀ c ∈ sp ++ [' '], c = ' ' := by
        intro c hc
        rcases List.mem_append.1 hc with hc | hc
        · exact hs c hc
        · simpa using hc
      simp only [hbr, if_true, dotted, List.append_nil] at hls
      split at hls
      · rename_i l2 hl2
        have := ih hgl (sp ++ [' ']) [] hsp' (by simp) (by simp) (.inl rfl) l2
          (by simpa [dotted] using hl2)
        cases hls
        intro l hl
        simp only [List.mem_append, List.mem_singleton] at hl
        rcases hl with ((rfl | hl) | hl) | rfl
        · constructor
          · simp only [List.mem_append, List.mem_singleton, not_or]
            exact ⟨⟨sp_nl sp hs, hgd.nl⟩, by decide⟩
          · simp
        · cases a with
          | none => simp at hl
          | some v =>
            by_cases hv : v = []
            · simp [hv] at hl
            · simp only [Option.getD_some, ne_eq, hv, not_false_eq_true, if_true,
                List.mem_singleton] at hl
              subst hl
              exact clean_value sp v (sp_nl sp hs) (hga v rfl)
        · exact this l hl
        · constructor
          · simp only [List.mem_append, List.mem_singleton, not_or]
            exact ⟨⟨sp_nl sp hs, by decide⟩, hgd.nl⟩
          · rw [List.getLast?_append]
            cases h : d.getLast? with
            | none => exact absurd (List.getLast?_eq_none_iff.1 h) hgd.ne
            | some c => simpa using not_r_of_not_space (hgd.last c h)
      · cases hls
      · cases hls
    · simp only [hbr, if_false] at hls
      rw [description_eq sp hs h0 pre hpre d] at hls
      have hlt : ((containsL ks : Nat) : Int) < csd := by
        simp only [contains] at hbr
        push_cast at hbr
        split at hbr <;> omega
      have hgp : ∀ x ∈ pre ++ [d], GoodDesc x := by
        intro x hx
        rcases List.mem_append.1 hx with hx | hx
        · exact hpre x hx
        · simp at hx; subst hx; exact hgd
      split at hls
      · rename_i l2 hl2
        have := ih hgl sp (pre ++ [d]) hs h0 hgp (.inr hlt) l2 hl2
        cases hls
        intro l hl
        simp only [List.mem_append] at hl
        rcases hl with hl | hl
        · cases a with
          | none => simp at hl
          | some v =>
            simp only [List.mem_singleton] at hl
            subst hl
            refine clean_value _ v ?_ (hga v rfl)
            simp only [List.mem_append, not_or]
            exact ⟨sp_nl sp hs, dotted_nl _ hgp⟩
        · exact this l hl
      · cases hls
      · cases hls
  · intro _ sp pre _ _ _ _ ls hls
    simp only [printList] at hls
    cases hls; simp
  · intro k ks ih1 ih2 hgl sp pre hs h0 hpre hmode ls hls
    obtain ⟨hg1, hg2⟩ := hgl
    have m1 : pre = [] ∨ ((contains k : Nat) : Int) < csd := by
      rcases hmode with h | h
      · exact .inl h
      · simp only [containsL] at h; right; push_cast at h; omega
    have m2 : pre = [] ∨ ((containsL ks : Nat) : Int) < csd := by
      rcases hmode with h | h
      · exact .inl h
      · simp only [containsL] at h; right; push_cast at h; omega
    simp only [printList] at hls
    split at hls
    · rename_i l1 e1
      split at hls
      · rename_i l2 e2
        cases hls
        intro l hl
        rcases List.mem_append.1 hl with hl | hl
        · exact ih1 hg1 sp pre hs h0 hpre m1 l1 e1 l hl
        · exact ih2 hg2 sp pre hs h0 hpre m2 l2 e2 l hl
      · cases hls
      · cases hls
    · cases hls
    · cases hls

theorem printList_reads (cfg : Cfg) (csd : Int) (ks : List Tree) (hnod : (ks.map Tree.desc).Nodup)
    (hg : GoodL csd ks) :
    ∃ ls, printList csd [' '] ks = .ok ls ∧ ReadsL cfg ls [] ks ∧ ∀ l ∈ ls, Clean l := by
  induction ks with
  | nil =>
    refine ⟨[], rfl, ?_, by simp⟩
    intro T P _ _ _
    exact ⟨T, rfl, fun _ h => h, by simp [find], fun _ _ => rfl⟩
  | cons k ks ih =>
    obtain ⟨hg1, hg2⟩ := hg
    obtain ⟨d, hd, _⟩ := good_desc hg1
    simp only [List.map_cons, List.nodup_cons] at hnod
    obtain ⟨l1, e1, r1⟩ := print_reads cfg csd k d hd hg1 [' '] [] (by simp) (by simp) (by simp)
      (.inl rfl)
    have c1 := print_clean csd k hg1 [' '] [] (by simp) (by simp) (by simp) (.inl rfl) l1 e1
    obtain ⟨l2, e2, r2, c2⟩ := ih hnod.2 hg2
    simp only [dotted, List.append_nil] at e1
    refine ⟨l1 ++ l2, by simp [printList, e1, e2], ?_, ?_⟩
    · refine reads_list cfg [] k d hd ks ?_ l1 l2 r1 r2
      cases hf : find d ks with
      | none => rfl
      | some x =>
        have hx := find_desc hf
        rw [find_eq] at hf
        have hm := List.mem_of_find?_eq_some hf
        exact absurd (List.mem_map.2 ⟨x, hm, by rw [hx, hd]⟩) hnod.1
    · intro l hl
      rcases List.mem_append.1 hl with hl | hl
      · exact c1 l hl
      · exact c2 l hl

/-- `{` at the top level. -/
theorem step_root_open (cfg : Cfg) (T : Tree) :
    Step cfg ['{'] (T, []) (setThis none T, []) := by
  intro k s ln
  rfl

end Verif.AT
