import Verif.Config.ATCommentSpec
import Verif.Config.ATErrProps

/-! # C108: comments in configuration files -/
namespace Verif.AT.Comment
open Verif.AT.Err

/-! ## Lemmas -/

/-- The tree, and whether the text was understood. -/
def verdict (r : Option (Tree × Int)) : Option (Tree × Bool) := r.map fun x => (x.1, decide (x.2 = -1))

theorem takeWhile_of_cut (l : S) (y : S) (x : S) (h : cut ':' l = some (x, y)) : x = l.takeWhile (fun c => c ≠ ':') := by
  rcases cut_isSome ':' l with ⟨_, h2⟩ | ⟨_, y', h2⟩
  · rw [h] at h2; cases h2
  · rw [h] at h2; cases h2; rfl

theorem opens_kind (l : S) (h : opensComment l) : ¬ remark l ∧ kind l = .comment := by
  obtain ⟨h1, h2, h3⟩ := h
  have hr : ¬ remark l := by
    intro hr
    unfold remark at hr
    unfold beforeBrace at h3
    cases hd : l.dropWhile isSpace with
    | nil => rw [hd] at hr; cases hr
    | cons c cs =>
      rw [hd] at hr h3
      simp only [List.head?_cons, Option.some.injEq] at hr
      subst hr
      have : (List.takeWhile (fun c => decide (c ≠ '{')) ('#' :: cs)).head? = some '#' := by simp [List.takeWhile_cons]
      rw [h3] at this
      revert this; decide
  refine ⟨hr, ?_⟩
  unfold remark at hr
  simp [kind, hr, h1, h2, h3]

theorem skipped (k : Nat) (cfg : Cfg) (hc : cfg.loadComments = false) (t : Tree) (at_ : List S) (s : Stream) (ln : Nat) (l : S)
    (h : remark l ∨ commentAttr l) : doLine k cfg t at_ s ln l = some (.next t at_ s ln) := by
  by_cases hr : remark l
  · unfold remark at hr
    simp [doLine, hr]
  · obtain ⟨h1, h2, h3⟩ := h.resolve_left hr
    unfold remark at hr
    have m1 := (mem_dropWhile (c := ':') (by decide) l).2 h2
    rcases cut_isSome ':' (l.dropWhile isSpace) with ⟨c1, _⟩ | ⟨_, y, c2⟩
    · exact absurd m1 c1
    have hinf : hasInfix commentStr (beforeColon l) = true := (hasInfix_iff _ _).2 h3
    change cut ':' (l.dropWhile isSpace) = some (beforeColon l, y) at c2
    have hn : beforeColon l ≠ [] := by
      intro hn; rw [hn] at hinf; revert hinf; decide
    have hi : beforeColon l ≠ includeStr := by
      intro hn; rw [hn] at hinf; revert hinf; decide
    simp [doLine, hr, c2, hn, hi, hinf, hc]

/-- A line that is no comment does the same whatever the line number and the rest of the text. -/
theorem kept (cfg : Cfg) (t : Tree) (at_ : List S) (l : S) (h : ¬ opensComment l) :
    (∃ t' at', ∀ k s ln, s.eof = false → doLine k cfg t at_ s ln l = some (.next t' at' s ln)) ∨
    (∀ k s ln, s.eof = false → doLine k cfg t at_ s ln l = some (.ret t (-1))) ∨
    (∀ k s ln, s.eof = false → doLine k cfg t at_ s ln l = some (.ret t ln)) := by
  have m1 := mem_dropWhile (c := ':') (by decide) l
  have m2 := mem_dropWhile (c := '{') (by decide) l
  unfold doLine
  simp only
  by_cases h0 : (l.dropWhile isSpace).head? = some '#'
  · left; exact ⟨t, at_, fun k s ln _ => by simp only [h0, if_true]⟩
  simp only [h0, if_false]
  cases c1 : cut ':' (l.dropWhile isSpace) with
  | some x =>
    obtain ⟨name, value⟩ := x
    left
    simp only
    by_cases a1 : name = []
    · exact ⟨_, _, fun k s ln _ => by rw [if_pos a1]⟩
    by_cases a2 : name = includeStr
    · by_cases a3 : cfg.processInclude = true
      · exact ⟨_, _, fun k s ln _ => by rw [if_neg a1, if_pos a2, if_pos a3]⟩
      · exact ⟨_, _, fun k s ln _ => by rw [if_neg a1, if_pos a2, if_neg a3]⟩
    by_cases a4 : (!hasInfix commentStr name || cfg.loadComments) = true
    · exact ⟨_, _, fun k s ln _ => by rw [if_neg a1, if_neg a2, if_pos a4]⟩
    · exact ⟨_, _, fun k s ln _ => by rw [if_neg a1, if_neg a2, if_neg a4]⟩
  | none =>
    have n1 : ':' ∉ l := by
      rcases cut_isSome ':' (l.dropWhile isSpace) with ⟨c2, _⟩ | ⟨_, y, c2⟩
      · exact fun h => c2 (m1.2 h)
      · rw [c1] at c2; cases c2
    simp only
    rcases cut_isSome '{' (l.dropWhile isSpace) with ⟨d1, d2⟩ | ⟨d1, y, d2⟩
    · simp only [d2]
      cases e1 : cut '}' (l.dropWhile isSpace) with
      | some x =>
        simp only
        by_cases ha : at_ = []
        · right; left; intro k s ln _; rw [if_pos ha]
        · left; exact ⟨t, at_.dropLast, fun k s ln _ => by rw [if_neg ha]⟩
      | none =>
        simp only
        by_cases hl : l.dropWhile isSpace = []
        · left; exact ⟨t, at_, fun k s ln _ => by simp [hl]⟩
        · right; right; intro k s ln he; simp [he, hl]
    · have hn : ¬ (l.dropWhile isSpace).takeWhile (fun c => c ≠ '{') = commentStr := fun hn => h ⟨n1, m2.1 d1, hn⟩
      left
      simp only [d2]
      exact ⟨_, _, fun k s ln _ => by rw [if_neg hn]⟩

theorem uncomment_inside (ls : List S) : uncomment true ls = (afterComment ls).bind (uncomment false) := by
  induction ls with
  | nil => rfl
  | cons l ls ih =>
    rw [uncomment, afterComment]
    by_cases h : commentEndStr <:+: l
    · simp [endsComment, h]
    · simp [endsComment, h, ih]

theorem uncomment_mem : ∀ (ls : List S) (b : Bool) (ls' : List S), uncomment b ls = some ls' → ∀ l ∈ ls', l ∈ ls := by
  intro ls
  induction ls with
  | nil => intro b ls' h; cases b <;> simp [uncomment] at h; subst h; simp
  | cons x ls ih =>
    intro b ls' h l hl
    cases b with
    | true => rw [uncomment] at h; exact List.mem_cons_of_mem _ (ih _ _ h l hl)
    | false =>
      rw [uncomment] at h
      split at h
      · exact List.mem_cons_of_mem _ (ih _ _ h l hl)
      · split at h
        · exact List.mem_cons_of_mem _ (ih _ _ h l hl)
        · cases hu : uncomment false ls with
          | none => rw [hu] at h; cases h
          | some r =>
            rw [hu] at h; cases h
            rcases List.mem_cons.1 hl with rfl | hl
            · exact List.mem_cons_self
            · exact List.mem_cons_of_mem _ (ih _ _ hu l hl)

theorem feed_uncomment (cfg : Cfg) (hc : cfg.loadComments = false) : ∀ (n : Nat) (ls : List S), ls.length ≤ n →
    (∀ l ∈ ls, GoodLine l) → ∀ ls', uncomment false ls = some ls' →
    ∀ (t : Tree) (at_ : List S) (k k' i i' : Nat), ls.length ≤ k → ls'.length ≤ k' →
    verdict (feed k cfg t at_ i ls) = verdict (feed k' cfg t at_ i' ls') := by
  intro n
  induction n with
  | zero =>
    intro ls hl hg ls' hu t at_ k k' i i' hk hk'
    cases ls with
    | nil => simp [uncomment] at hu; subst hu; rfl
    | cons l ls => simp at hl
  | succ n ih =>
    intro ls hl hg ls' hu t at_ k k' i i' hk hk'
    cases ls with
    | nil => simp [uncomment] at hu; subst hu; rfl
    | cons l ls =>
      have hg' : ∀ x ∈ ls, GoodLine x := fun x hx => hg x (List.mem_cons_of_mem _ hx)
      have hl' : ls.length ≤ n := by simpa using hl
      cases k with
      | zero => simp at hk
      | succ k =>
      have hkk : ls.length ≤ k := by simpa using hk
      rw [uncomment] at hu
      by_cases ho : opensComment l
      · rw [if_pos ho, uncomment_inside] at hu
        cases ha : afterComment ls with
        | none => rw [ha] at hu; cases hu
        | some r =>
          rw [ha] at hu
          simp only [Option.bind] at hu
          have hrc := readComment_spec ls hg' k (i + 1) none
          rw [ha] at hrc
          simp only at hrc
          obtain ⟨acc, hrc⟩ := hrc hkk
          obtain ⟨hr, hkd⟩ := opens_kind l ho
          have hd : doLine k cfg t at_ { rest := text ls } (i + 1) l = some (.next t at_ { rest := text r } (i + 1 + (ls.length - r.length))) := by
            obtain ⟨o1, o2, o3⟩ := ho
            have c1 : cut ':' (l.dropWhile isSpace) = none := by
              rcases cut_isSome ':' (l.dropWhile isSpace) with ⟨_, c⟩ | ⟨c, _⟩
              · exact c
              · exact absurd ((mem_dropWhile (by decide) l).1 c) o1
            have c2 : ∃ y, cut '{' (l.dropWhile isSpace) = some (commentStr, y) := by
              rcases cut_isSome '{' (l.dropWhile isSpace) with ⟨c, _⟩ | ⟨_, y, c⟩
              · exact absurd ((mem_dropWhile (by decide) l).2 o2) c
              · unfold beforeBrace at o3; rw [o3] at c; exact ⟨y, c⟩
            obtain ⟨y, c2⟩ := c2
            unfold remark at hr
            simp [doLine, hr, c1, c2, hrc, hc]
          have hlen := afterComment_len ha
          simp only [feed]
          rw [getLoop, hd]
          simp only [next_feed k cfg t at_ _ r (fun x hx => hg' x (afterComment_mem ha x hx))]
          exact ih r (by omega) (fun x hx => hg' x (afterComment_mem ha x hx)) ls' hu t at_ k k' _ i' (by omega) hk'
      · rw [if_neg ho] at hu
        by_cases hs : remark l ∨ commentAttr l
        · rw [if_pos hs] at hu
          simp only [feed]
          rw [getLoop, skipped k cfg hc t at_ _ _ l hs]
          simp only [next_feed k cfg t at_ _ ls hg']
          exact ih ls hl' hg' ls' hu t at_ k k' _ i' hkk hk'
        · rw [if_neg hs] at hu
          cases hu2 : uncomment false ls with
          | none => rw [hu2] at hu; cases hu
          | some r =>
            rw [hu2] at hu
            cases hu
            have hgr : ∀ x ∈ r, GoodLine x := fun x hx => hg' x (uncomment_mem ls false r hu2 x hx)
            cases k' with
            | zero => simp at hk'
            | succ k' =>
            have hkk' : r.length ≤ k' := by simpa using hk'
            rcases kept cfg t at_ l ho with ⟨t', at', hd⟩ | hd | hd
            · simp only [feed]
              rw [getLoop, getLoop, hd k { rest := text ls } (i + 1) rfl, hd k' { rest := text r } (i' + 1) rfl]
              simp only [next_feed k cfg t' at' _ ls hg', next_feed k' cfg t' at' _ r hgr]
              exact ih ls hl' hg' r hu2 t' at' k k' _ _ hkk hkk'
            · simp only [feed, getLoop, hd k { rest := text ls } (i + 1) rfl, hd k' { rest := text r } (i' + 1) rfl]
            · simp only [feed, getLoop, hd k { rest := text ls } (i + 1) rfl, hd k' { rest := text r } (i' + 1) rfl]
              have h1 : ¬ (((i + 1 : Nat) : Int) = -1) := by omega
              have h2 : ¬ (((i' + 1 : Nat) : Int) = -1) := by omega
              simp only [verdict, Option.map, h1, h2]

theorem get_text (k : Nat) (cfg : Cfg) (t : Tree) (ls : List S) (hg : ∀ l ∈ ls, GoodLine l) (hk : ls.length < k) :
    get k cfg t (text ls) = feed k cfg t [] 1 ls := by
  cases ls with
  | cons l ls => exact get_feed k cfg t l ls (hg l List.mem_cons_self)
  | nil =>
    cases k with
    | zero => omega
    | succ k =>
      have hd : doLine k cfg t [] ⟨[], true, true⟩ (1 + 1) [] = some (.next t [] ⟨[], true, true⟩ (1 + 1)) := by
        simp [doLine, cut]
      simp only [get, text, List.flatMap_nil, readNextLine_end, getLoop, hd, feed]
      simp [readNextLine, getline]

/-! ## The text of a loaded comment -/

/-- What the reader does to a line of a comment. -/
def rtrim (b : S) : S := (b.reverse.dropWhile isSpace).reverse.dropWhile isSpace

theorem dropWhile_all (p : Char → Bool) (l : S) (h : ∀ c ∈ l, p c = true) : l.dropWhile p = [] := by
  induction l with
  | nil => rfl
  | cons c l ih =>
    rw [List.dropWhile_cons, if_pos (h c List.mem_cons_self)]
    exact ih fun x hx => h x (List.mem_cons_of_mem _ hx)

theorem dropWhile_append_ne (p : Char → Bool) (a b : S) (h : ∃ c ∈ a, p c = false) : (a ++ b).dropWhile p = a.dropWhile p ++ b := by
  induction a with
  | nil => obtain ⟨c, hc, _⟩ := h; cases hc
  | cons c a ih =>
    rw [List.cons_append, List.dropWhile_cons, List.dropWhile_cons]
    by_cases hc : p c = true
    · rw [if_pos hc, if_pos hc]
      apply ih
      obtain ⟨x, hx, hp⟩ := h
      rcases List.mem_cons.1 hx with rfl | hx
      · rw [hc] at hp; cases hp
      · exact ⟨x, hx, hp⟩
    · rw [if_neg hc, if_neg hc]; rfl

theorem trim_eq (l : S) : rtrim l = trim l := by
  by_cases hall : ∀ c ∈ l, isSpace c = true
  · have h1 : l.dropWhile isSpace = [] := dropWhile_all _ _ hall
    have h2 : l.reverse.dropWhile isSpace = [] := dropWhile_all _ _ (fun c hc => hall c (List.mem_reverse.1 hc))
    simp [rtrim, trim, h1, h2]
  · have hex : ∃ c ∈ l, isSpace c = false := by
      apply Classical.byContradiction
      intro hn
      refine hall (fun c hc => ?_)
      cases hs : isSpace c with
      | true => rfl
      | false => exact absurd ⟨c, hc, hs⟩ hn
    clear hall
    -- remove the leading white space first
    induction l with
    | nil => obtain ⟨c, hc, _⟩ := hex; cases hc
    | cons x l ih =>
      by_cases hx : isSpace x = true
      · have hex' : ∃ c ∈ l, isSpace c = false := by
          obtain ⟨c, hc, hp⟩ := hex
          rcases List.mem_cons.1 hc with rfl | hc
          · rw [hx] at hp; cases hp
          · exact ⟨c, hc, hp⟩
        have := ih hex'
        have hex'' : ∃ c ∈ l.reverse, isSpace c = false := by
          obtain ⟨c, hc, hp⟩ := hex'; exact ⟨c, List.mem_reverse.2 hc, hp⟩
        unfold rtrim trim at this ⊢
        rw [List.reverse_cons, dropWhile_append_ne _ _ _ hex'', List.reverse_append, List.dropWhile_cons, if_pos hx]
        simp only [List.reverse_cons, List.reverse_nil, List.nil_append, List.singleton_append]
        rw [List.dropWhile_cons, if_pos hx]
        exact this
      · have hx' : isSpace x = false := by simpa using hx
        unfold rtrim trim
        have hd : (x :: l).dropWhile isSpace = x :: l := by rw [List.dropWhile_cons, if_neg hx]
        rw [hd]
        have key : ((x :: l).reverse.dropWhile isSpace).reverse.head? = some x := by
          rw [List.reverse_cons]
          by_cases hr : ∃ c ∈ l.reverse, isSpace c = false
          · rw [dropWhile_append_ne _ _ _ hr, List.reverse_append]; simp
          · have : ∀ (r : S), (∀ c ∈ r, isSpace c = true) → (r ++ [x]).dropWhile isSpace = [x] := by
              intro r
              induction r with
              | nil => intro _; simp [hx']
              | cons c r ih =>
                intro h
                rw [List.cons_append, List.dropWhile_cons, if_pos (h c List.mem_cons_self)]
                exact ih fun y hy => h y (List.mem_cons_of_mem _ hy)
            rw [this]
            · rfl
            · intro c hc
              cases hs : isSpace c with
              | true => rfl
              | false => exact absurd ⟨c, hc, hs⟩ hr
        cases hq : ((x :: l).reverse.dropWhile isSpace).reverse with
        | nil => rfl
        | cons y q =>
          rw [hq] at key
          simp only [List.head?_cons, Option.some.injEq] at key
          subst key
          rw [List.dropWhile_cons, if_neg hx]

/-- The text of the comment after further lines. -/
def more (acc : Option S) : List S → Option S
  | [] => acc
  | l :: ls => more (some (match acc with | some a => a ++ ['\n'] ++ trim l | none => trim l)) ls

theorem more_some (a : S) (l : S) (ls : List S) : more (some a) (l :: ls) = (joined (l :: ls)).map fun x => a ++ '\n' :: x := by
  induction ls generalizing a l with
  | nil => simp [more, joined]
  | cons l' ls ih =>
    rw [more, ih]
    simp only [joined]
    cases joined (l' :: ls) <;> simp

theorem more_none (ls : List S) : more none ls = joined ls := by
  cases ls with
  | nil => rfl
  | cons l ls =>
    cases ls with
    | nil => rfl
    | cons l' ls => rw [more, more_some]; simp [joined]

theorem readComment_text (cs : List S) (hcs : ∀ c ∈ cs, ¬ endsComment c) (cl : S) (hcl : endsComment cl) (post : List S)
    (hg : ∀ l ∈ cs ++ cl :: post, GoodLine l) : ∀ (k ln : Nat) (acc : Option S), cs.length < k →
    readComment k { rest := text (cs ++ cl :: post) } ln acc = some ({ rest := text post }, ln + cs.length + 1, more acc cs) := by
  induction cs with
  | nil =>
    intro k ln acc hk
    cases k with
    | zero => simp at hk
    | succ k =>
      have ht : text ([] ++ cl :: post) = cl ++ '\n' :: text post := by simp [text]
      rw [readComment, ht, readNextLine_line cl (text post) (hg cl (by simp))]
      simp only [(trim_end cl).2 hcl, if_true]
      simp [more]
  | cons l cs ih =>
    intro k ln acc hk
    cases k with
    | zero => simp at hk
    | succ k =>
      have ht : text (l :: cs ++ cl :: post) = l ++ '\n' :: text (cs ++ cl :: post) := by simp [text]
      have hl : hasInfix commentEndStr ((l.reverse.dropWhile isSpace).reverse.dropWhile isSpace) = false := by
        cases hh : hasInfix commentEndStr ((l.reverse.dropWhile isSpace).reverse.dropWhile isSpace) with
        | false => rfl
        | true => exact absurd ((trim_end l).1 hh) (hcs l List.mem_cons_self)
      rw [readComment, ht, readNextLine_line l _ (hg l (by simp))]
      simp only [hl, Bool.false_eq_true, if_false]
      have he : (l.reverse.dropWhile isSpace).reverse.dropWhile isSpace = trim l := trim_eq l
      rw [he, ih (fun c hc => hcs c (List.mem_cons_of_mem _ hc)) (fun x hx => hg x (List.mem_cons_of_mem _ hx)) k _ _
        (by simpa using hk)]
      simp only [more, List.length_cons]
      cases acc <;> simp <;> omega

theorem opens_cut (l : S) (h : opensComment l) :
    ∃ y, cut ':' (l.dropWhile isSpace) = none ∧ cut '{' (l.dropWhile isSpace) = some (commentStr, y) := by
  obtain ⟨o1, o2, o3⟩ := h
  have c1 : cut ':' (l.dropWhile isSpace) = none := by
    rcases cut_isSome ':' (l.dropWhile isSpace) with ⟨_, c⟩ | ⟨c, _⟩
    · exact c
    · exact absurd ((mem_dropWhile (by decide) l).1 c) o1
  rcases cut_isSome '{' (l.dropWhile isSpace) with ⟨c, _⟩ | ⟨_, y, c⟩
  · exact absurd ((mem_dropWhile (by decide) l).2 o2) c
  · unfold beforeBrace at o3; rw [o3] at c; exact ⟨y, c1, c⟩

theorem joined_isSome (cs : List S) : (joined cs).isSome = !cs.isEmpty := by
  induction cs with
  | nil => rfl
  | cons l cs ih =>
    cases cs with
    | nil => rfl
    | cons l' cs => simp only [joined, Option.isSome_map, ih]; rfl

/-! ## The line number only shows in the number of a bad line -/

theorem readComment_ln (k : Nat) : ∀ (s : Stream) (ln ln' : Nat) (acc : Option S),
    (readComment k s ln acc).map (fun r => (r.1, r.2.2)) = (readComment k s ln' acc).map (fun r => (r.1, r.2.2)) := by
  induction k with
  | zero => intros; rfl
  | succ k ih =>
    intro s ln ln' acc
    rw [readComment, readComment]
    simp only
    split
    · rfl
    · exact ih _ _ _ _

/-- Equal up to the line number. -/
def sameRes : Option LineRes → Option LineRes → Prop
  | none, none => True
  | some (.next t a s _), some (.next t' a' s' _) => t = t' ∧ a = a' ∧ s = s'
  | some (.ret t c), some (.ret t' c') => t = t' ∧ (c = -1 ↔ c' = -1)
  | _, _ => False

theorem doLine_ln (k : Nat) (cfg : Cfg) (t : Tree) (at_ : List S) (s : Stream) (ln ln' : Nat) (l : S) :
    sameRes (doLine k cfg t at_ s ln l) (doLine k cfg t at_ s ln' l) := by
  unfold doLine
  simp only
  split
  · simp [sameRes]
  cases cut ':' (l.dropWhile isSpace) with
  | some x =>
    obtain ⟨name, value⟩ := x
    simp only
    split
    · simp [sameRes]
    · split
      · split <;> simp [sameRes]
      · split <;> simp [sameRes]
  | none =>
    cases cut '{' (l.dropWhile isSpace) with
    | some x =>
      simp only
      split
      · have := readComment_ln k s ln ln' none
        cases h1 : readComment k s ln none with
        | none =>
          rw [h1] at this
          cases h2 : readComment k s ln' none with
          | none => simp [sameRes]
          | some r => rw [h2] at this; cases this
        | some q =>
          rw [h1] at this
          cases h2 : readComment k s ln' none with
          | none => rw [h2] at this; cases this
          | some r =>
            rw [h2] at this
            obtain ⟨q1, q2, q3⟩ := q
            obtain ⟨r1, r2, r3⟩ := r
            simp only [Option.map, Option.some.injEq, Prod.mk.injEq] at this
            obtain ⟨rfl, rfl⟩ := this
            simp only
            split <;> simp [sameRes]
      · simp [sameRes]
    | none =>
      cases cut '}' (l.dropWhile isSpace) with
      | some x => simp only; split <;> simp [sameRes]
      | none =>
        simp only
        split
        · simp only [sameRes, true_and]; omega
        · simp [sameRes]

theorem getLoop_ln (k : Nat) : ∀ (cfg : Cfg) (t : Tree) (at_ : List S) (s : Stream) (ln ln' : Nat) (l : S),
    verdict (getLoop k cfg t at_ s ln l) = verdict (getLoop k cfg t at_ s ln' l) := by
  induction k with
  | zero => intros; rfl
  | succ k ih =>
    intro cfg t at_ s ln ln' l
    rw [getLoop, getLoop]
    have h := doLine_ln k cfg t at_ s (ln + 1) (ln' + 1) l
    cases h1 : doLine k cfg t at_ s (ln + 1) l with
    | none =>
      cases h2 : doLine k cfg t at_ s (ln' + 1) l with
      | none => rfl
      | some r => rw [h1, h2] at h; cases r <;> exact h.elim
    | some q =>
      cases h2 : doLine k cfg t at_ s (ln' + 1) l with
      | none => rw [h1, h2] at h; cases q <;> exact h.elim
      | some r =>
        rw [h1, h2] at h
        cases q with
        | ret t1 c1 =>
          cases r with
          | next => exact h.elim
          | ret t2 c2 =>
            obtain ⟨rfl, hcc⟩ := h
            simp only [verdict, Option.map, hcc]
        | next t1 a1 s1 n1 =>
          cases r with
          | ret => exact h.elim
          | next t2 a2 s2 n2 =>
            obtain ⟨rfl, rfl, rfl⟩ := h
            simp only
            split
            · rfl
            · exact ih _ _ _ _ _ _ _

theorem feed_ln (k : Nat) (cfg : Cfg) (t : Tree) (at_ : List S) (ln ln' : Nat) (ls : List S) :
    verdict (feed k cfg t at_ ln ls) = verdict (feed k cfg t at_ ln' ls) := by
  cases ls with
  | nil => rfl
  | cons l ls => exact getLoop_ln k cfg t at_ _ ln ln' l

theorem feed_mono (k m : Nat) (cfg : Cfg) (t : Tree) (at_ : List S) (ln : Nat) (ls : List S) (r)
    (h : feed k cfg t at_ ln ls = some r) : feed (k + m) cfg t at_ ln ls = some r := by
  cases ls with
  | nil => exact h
  | cons l ls =>
    induction m with
    | zero => exact h
    | succ m ih => exact getLoop_mono _ _ _ _ _ _ _ _ ih

/-- Neither the bound on the lines (if large enough) nor the line number matters. -/
theorem feed_indep (cfg : Cfg) (t : Tree) (at_ : List S) (ls : List S) (hg : ∀ l ∈ ls, GoodLine l) (k k' i i' : Nat)
    (hk : ls.length ≤ k) (hk' : ls.length ≤ k') : verdict (feed k cfg t at_ i ls) = verdict (feed k' cfg t at_ i' ls) := by
  rw [feed_ln k cfg t at_ i (0 + 1), feed_ln k' cfg t at_ i' (0 + 1)]
  have h1 := feed_verdict _ ls (Nat.le_refl _) hg k cfg t at_ 0 hk
  have h2 := feed_verdict _ ls (Nat.le_refl _) hg k' cfg t at_ 0 hk'
  cases h : feed k cfg t at_ (0 + 1) ls with
  | some r =>
    have e1 := feed_mono k k' cfg t at_ _ ls r h
    cases h' : feed k' cfg t at_ (0 + 1) ls with
    | some r' =>
      have e2 := feed_mono k' k cfg t at_ _ ls r' h'
      rw [Nat.add_comm, e1] at e2
      cases e2; rfl
    | none => rw [h] at h1; rw [h', ← h1] at h2; cases h2
  | none =>
    cases h' : feed k' cfg t at_ (0 + 1) ls with
    | some r' => rw [h] at h1; rw [h', ← h1] at h2; cases h2
    | none => rfl

/-! ## C108 -/

/-- C108: when comments are not to be loaded, comments have no effect: for every tree to read into and every
text of complete lines (without overlong lines) with closed comments, reading the text and reading the text
without its comments give the same tree, and one is understood iff the other is. -/
theorem c108_comments_no_effect (cfg : Cfg) (hc : cfg.loadComments = false) (t : Tree) (ls ls' : List S)
    (hg : ∀ l ∈ ls, GoodLine l) (hu : uncomment false ls = some ls') (k k' : Nat) (hk : ls.length < k) (hk' : ls'.length < k') :
    ∃ T c c', get k cfg t (text ls) = some (T, c) ∧ get k' cfg t (text ls') = some (T, c') ∧ (c = -1 ↔ c' = -1) := by
  have h := feed_uncomment cfg hc _ ls (Nat.le_refl _) hg ls' hu t [] k k' 1 1 (by omega) (by omega)
  have hg' : ∀ l ∈ ls', GoodLine l := fun x hx => hg x (uncomment_mem ls false ls' hu x hx)
  rw [← get_text k cfg t ls hg hk, ← get_text k' cfg t ls' hg' hk'] at h
  have h2 : get k' cfg t (text ls') ≠ none := by
    have hv := c97_return_value cfg t ls' hg' k' hk'
    have hun : ∀ (ls ls' : List S) (b : Bool), uncomment b ls = some ls' → ∀ d i, scan d false i ls' ≠ .unclosed := by
      intro ls
      induction ls with
      | nil => intro ls' b h d i; cases b <;> simp [uncomment] at h; subst h; simp [scan]
      | cons l ls ih =>
        intro ls' b h d i
        cases b with
        | true => rw [uncomment] at h; exact ih _ _ h d i
        | false =>
          rw [uncomment] at h
          split at h
          · exact ih _ _ h d i
          · rename_i ho
            split at h
            · exact ih _ _ h d i
            · cases hu : uncomment false ls with
              | none => rw [hu] at h; cases h
              | some r =>
                rw [hu] at h; cases h
                have ih' := ih r false hu
                rw [scan]
                cases hkd : kind l with
                | plain => exact ih' _ _
                | opens n => exact ih' _ _
                | closes =>
                  simp only
                  split
                  · simp
                  · exact ih' _ _
                | bad => simp
                | comment =>
                  exfalso
                  revert hkd
                  unfold kind
                  split
                  · simp
                  · split
                    · simp
                    · split
                      · split
                        · rename_i h1 h2 h3
                          exact fun _ => ho ⟨h1, h2, h3⟩
                        · simp
                      · split
                        · simp
                        · split <;> simp
    intro hn
    rw [hn] at hv
    have := hun ls ls' false hu 0 0
    cases hs : scan 0 false 0 ls' with
    | fine => rw [hs] at hv; cases hv
    | wrong i => rw [hs] at hv; cases hv
    | unclosed => exact this hs
  cases h1 : get k' cfg t (text ls') with
  | none => exact absurd h1 h2
  | some r' =>
    cases h3 : get k cfg t (text ls) with
    | none => rw [h1, h3] at h; cases h
    | some r =>
      rw [h1, h3] at h
      simp only [verdict, Option.map, Option.some.injEq, Prod.mk.injEq, decide_eq_decide] at h
      exact ⟨r.1, r.2, r'.2, rfl, by rw [h.1], h.2⟩

/-- C108: a comment that is loaded: reading a multi-line comment followed by other lines is reading these lines into
the tree with a new first child `_COMMENT_`, whose attribute is the lines of the comment, each without the
white space at its ends, joined by line breaks. -/
theorem c108_comment_loaded (cfg : Cfg) (hc : cfg.loadComments = true) (d a : Option S) (ch : Bool) (ks : List Tree)
    (op cl : S) (cs post : List S) (ho : opensComment op) (hcs : ∀ c ∈ cs, ¬ endsComment c) (hcl : endsComment cl)
    (hg : ∀ l ∈ op :: cs ++ cl :: post, GoodLine l) (k : Nat) (hk : (op :: cs ++ cl :: post).length < k) :
    (get k cfg (.node d a ch ks) (text (op :: cs ++ cl :: post))).map (fun r => (r.1, decide (r.2 = -1))) =
      (get k cfg (.node d a ch (.node (some ['_', 'C', 'O', 'M', 'M', 'E', 'N', 'T', '_']) (joined cs) (!cs.isEmpty) [] :: ks))
        (text post)).map (fun r => (r.1, decide (r.2 = -1))) := by
  have hgp : ∀ l ∈ post, GoodLine l := fun x hx => hg x (by simp [hx])
  have hlen : (op :: cs ++ cl :: post).length = cs.length + post.length + 2 := by simp; omega
  rw [get_text k cfg _ _ hg hk, get_text k cfg _ post hgp (by omega)]
  cases k with
  | zero => omega
  | succ k =>
    have hr := readComment_text cs hcs cl hcl post (fun x hx => hg x (List.mem_cons_of_mem _ hx)) k 2 none (by omega)
    rw [more_none] at hr
    obtain ⟨hrm, _⟩ := opens_kind op ho
    obtain ⟨y, c1, c2⟩ := opens_cut op ho
    unfold remark at hrm
    have hsome : (joined cs).isSome = !cs.isEmpty := joined_isSome cs
    have hd : doLine k cfg (.node d a ch ks) [] { rest := text (cs ++ cl :: post) } (1 + 1) op =
        some (.next (.node d a ch (.node (some commentStr) (joined cs) (!cs.isEmpty) [] :: ks)) [] { rest := text post }
          (2 + cs.length + 1)) := by
      simp [doLine, hrm, c1, c2, hr, hc, updAt, Tree.withKids, Tree.kids, hsome]
    simp only [List.cons_append, feed]
    rw [getLoop, hd]
    simp only [next_feed k cfg _ _ _ post hgp]
    exact feed_indep cfg _ [] post hgp k (k + 1) _ _ (by omega) (by omega)

/-- C108: an attribute line with `_COMMENT_` in its name is stored like any other one if comments are loaded. -/
theorem c108_comment_attr_loaded (cfg : Cfg) (hc : cfg.loadComments = true) (t : Tree) (n v : S)
    (hcol : ':' ∉ n) (hn : commentStr <:+: n) (hs : ∀ c, n.head? = some c → isSpace c = false ∧ c ≠ '#')
    (hg : GoodLine (n ++ ':' :: v)) (k : Nat) (hk : 1 < k) :
    get k cfg t (text [n ++ ':' :: v]) = some (setAttribute (some n) (some v) t, -1) := by
  have hne : n ≠ [] := by
    rintro rfl
    have := (hasInfix_iff commentStr []).2 hn
    revert this; decide
  have hi : n ≠ includeStr := by
    rintro rfl
    have := (hasInfix_iff commentStr includeStr).2 hn
    revert this; decide
  have hdw : (n ++ ':' :: v).dropWhile isSpace = n ++ ':' :: v := by
    cases n with
    | nil => exact absurd rfl hne
    | cons c n => simp [(hs c rfl).1]
  have hhd : (n ++ ':' :: v).head? ≠ some '#' := by
    cases n with
    | nil => exact absurd rfl hne
    | cons c n => simp [(hs c rfl).2]
  have hcut : cut ':' (n ++ ':' :: v) = some (n, v) := cut_append ':' n v hcol
  rw [get_feed k cfg t _ [] hg]
  cases k with
  | zero => omega
  | succ k =>
    have hd : doLine k cfg t [] { rest := text [] } (1 + 1) (n ++ ':' :: v) =
        some (.next (setC (some v) (comps n) t) [] { rest := text [] } (1 + 1)) := by
      unfold doLine
      simp only [hdw, hhd, hcut, hne, hi, hc, if_false, Bool.or_true, if_true, updAt]
    simp only [feed]
    rw [getLoop, hd]
    simp only [next_feed k cfg _ _ _ [] (by simp)]
    rfl

/-- C108, what is not a comment: a colon in the first line makes it an attribute line; the lines of the
"comment" are then read as data and its last line closes the level around it. -/
theorem c108_colon_in_first_line :
    (get 9 plainCfg (newNode none) (text ["_COMMENT_{ note: old".toList, "a:1".toList, "}_COMMENT_".toList, "b:2".toList])).map
      (fun r => (getAttribute [] r.1 (some ['a']) none, getAttribute [] r.1 (some ['b']) none, r.2))
    = some (.ok (some ['1']), .ok none, -1) := by
  decide +kernel

/-- C108: the indentation of the lines of a comment is lost. -/
theorem c108_indentation_lost :
    (get 9 { plainCfg with loadComments := true } (newNode none)
      (text ["_COMMENT_{".toList, "list".toList, "  item ".toList, "}_COMMENT_".toList])).map
      (fun r => getAttribute [] r.1 (some commentStr) none)
    = some (.ok (some "list\nitem".toList)) := by
  decide +kernel

/-- A concrete text with all three forms of comments, at two levels. -/
example : uncomment false ["# head".toList, "a{".toList, " _COMMENT_{ x".toList, " }".toList, " b:7".toList, " }_COMMENT_ y".toList,
    " c:1".toList, " c_COMMENT_:n".toList, "}".toList] = some ["a{".toList, " c:1".toList, "}".toList] := by decide +kernel
example : (get 20 plainCfg (newNode none) (text ["# head".toList, "a{".toList, " _COMMENT_{ x".toList, " }".toList,
    " b:7".toList, " }_COMMENT_ y".toList, " c:1".toList, " c_COMMENT_:n".toList, "}".toList])).map
      (fun r => (getAttribute [] r.1 (some "a.c".toList) none, getAttribute [] r.1 (some "a.b".toList) none))
    = some (.ok (some ['1']), .ok none) := by decide +kernel
example : opensComment " _COMMENT_{ x".toList ∧ ¬ endsComment " }".toList ∧ endsComment " }_COMMENT_ y".toList := by decide +kernel
example : joined [" a ".toList, [], "\tb".toList] = some "a\n\nb".toList := by decide +kernel

end Verif.AT.Comment
