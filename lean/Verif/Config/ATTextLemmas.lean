import Verif.Config.ATTextSpec
import Verif.Config.ATErrProps
import Verif.Config.ATIncludeProps

/-! # C138: lemmas -/
namespace Verif.AT.Text
open Err Inc

/-- A path that a dotted name can denote. -/
def GoodPath (p : List S) : Prop := ∀ d ∈ p, d ≠ [] ∧ '.' ∉ d

theorem comps_nodot (s : S) : ∀ d ∈ comps s, '.' ∉ d := by
  induction s with
  | nil => simp [comps]
  | cons c cs ih =>
    intro d hd
    rw [comps] at hd
    split at hd
    · rcases List.mem_cons.1 hd with rfl | hd
      · simp
      · exact ih d hd
    · rename_i hc
      split at hd
      · rename_i x xs hx
        rcases List.mem_cons.1 hd with rfl | hd
        · have := ih x (by rw [hx]; simp)
          simp only [List.mem_cons, not_or]; exact ⟨fun h => hc h.symm, this⟩
        · exact ih d (by rw [hx]; simp [hd])
      · simp only [List.mem_singleton] at hd; subst hd; simp; exact fun h => hc h.symm

theorem effective_ne (c : List S) : ∀ d ∈ effective c, d ≠ [] := by
  induction c with
  | nil => simp [effective]
  | cons e es ih =>
    rw [effective_cons]
    split
    · simp
    · rename_i he
      intro d hd
      rcases List.mem_cons.1 hd with rfl | hd
      · exact he
      · exact ih d hd

theorem goodPath_pieces (s : S) : GoodPath (pieces s) := by
  intro d hd
  refine ⟨?_, comps_nodot s d ((List.takeWhile_prefix _).sublist.mem hd)⟩
  exact effective_ne (comps s) d hd

theorem call_eq {p : List S} (hp : GoodPath p) (v : Option S) (t : Tree) : call (p, v) t = setC v p t := by
  unfold call
  by_cases h : p = []
  · subst h; simp [setAttribute, setC]
  · simp only [if_neg h, setAttribute]
    rw [comps_dotted p h (fun d hd => (hp d hd).2)]

theorem setC_effective (v : Option S) (c : List S) (t : Tree) : setC v c t = setC v (effective c) t := by
  induction c generalizing t with
  | nil => rfl
  | cons d ds ih =>
    rw [effective_cons]
    by_cases hd : d = []
    · simp [hd, setC]
    · rw [if_neg hd]
      have he : setC v ds = setC v (effective ds) := funext ih
      simp only [setC, hd, if_false, he]

theorem setC_append (v : Option S) (P c : List S) (hP : ∀ d ∈ P, d ≠ []) (t : Tree) :
    setC v (P ++ c) t = setC v (P ++ effective c) t := by
  rw [setC_effective v (P ++ c), setC_effective v (P ++ effective c)]
  congr 1
  induction P with
  | nil => exact (effective_plain _ (effective_ne c)).symm
  | cons d ds ih =>
    rw [List.cons_append, List.cons_append, effective_cons, effective_cons, if_neg (hP d (by simp)), if_neg (hP d (by simp)),
      ih fun x hx => hP x (by simp [hx])]

theorem upd_call {P : List S} (hP : GoodPath P) (s : S) (v : Option S) (t : Tree) (h : (nodeAt P t).isSome) :
    updAt P (setC v (comps s)) t = call (P ++ pieces s, v) t := by
  rw [call_eq, updAt_setC v _ P (fun d hd => (hP d hd).1) t h, setC_append v P _ (fun d hd => (hP d hd).1)]
  · rfl
  · intro d hd
    rcases List.mem_append.1 hd with hd | hd
    · exact hP d hd
    · exact goodPath_pieces s d hd

/-- The configuration of the reader without include files and comments. -/
def plainReader : Cfg := { processInclude := true, loadComments := false, load := fun _ t => t }

theorem takeWhile_cut (ch : Char) (l x y : S) (h : cut ch l = some (x, y)) :
    x = l.takeWhile (fun c => c ≠ ch) ∧ y = (l.dropWhile (fun c => c ≠ ch)).drop 1 := by
  induction l generalizing x y with
  | nil => simp [cut] at h
  | cons c cs ih =>
    rw [cut] at h
    by_cases hc : c = ch
    · rw [if_pos hc] at h
      simp only [Option.some.injEq, Prod.mk.injEq] at h
      obtain ⟨rfl, rfl⟩ := h
      simp [hc]
    · rw [if_neg hc] at h
      cases hr : cut ch cs with
      | none => rw [hr] at h; simp at h
      | some r =>
        obtain ⟨x', y'⟩ := r
        rw [hr] at h
        simp only [Option.map_some, Option.some.injEq, Prod.mk.injEq] at h
        obtain ⟨rfl, rfl⟩ := h
        obtain ⟨h1, h2⟩ := ih x' y' hr
        simp [hc, h1, h2]

theorem setC_comps_nil (v : Option S) : setC v (comps []) = setThis v := by
  funext t; simp [comps, setC]

/-- What one line does, in terms of calls. -/
theorem doLine_calls (k : Nat) (t : Tree) (P : List S) (hP : GoodPath P) (hn : (nodeAt P t).isSome) (s : Stream) (ln : Nat) (l : S) :
    match kind l with
    | .plain => doLine k plainReader t P s ln l = some (.next (calls (lineChanges P l) t) P s ln)
    | .opens _ => doLine k plainReader t P s ln l =
        some (.next (calls (lineChanges P l) t) (P ++ pieces (beforeBrace l)) s ln)
    | .comment => doLine k plainReader t P s ln l = (readComment k s ln none).map fun r => .next t P r.1 r.2.1
    | _ => True := by
  have m1 := mem_dropWhile (c := ':') (by decide) l
  have m2 := mem_dropWhile (c := '{') (by decide) l
  have m3 := mem_dropWhile (c := '}') (by decide) l
  unfold kind doLine lineChanges
  simp only
  by_cases h0 : (l.dropWhile isSpace).head? = some '#'
  · simp only [h0, if_true]; rfl
  simp only [h0, if_false]
  rcases cut_isSome ':' (l.dropWhile isSpace) with ⟨c1, c2⟩ | ⟨c1, y, c2⟩
  · have n1 : ':' ∉ l := fun h => c1 (m1.2 h)
    simp only [n1, c2, if_false]
    rcases cut_isSome '{' (l.dropWhile isSpace) with ⟨d1, d2⟩ | ⟨d1, y, d2⟩
    · have n2 : '{' ∉ l := fun h => d1 (m2.2 h)
      simp only [n2, d2, if_false]
      rcases cut_isSome '}' (l.dropWhile isSpace) with ⟨e1, e2⟩ | ⟨e1, y, e2⟩
      · have n3 : '}' ∉ l := fun h => e1 (m3.2 h)
        simp only [n3, e2, if_false]
        by_cases hb : ∀ c ∈ l, isSpace c = true
        · have := (dropWhile_nil_iff l).2 hb
          rw [if_pos hb]
          simp only [this]
          simp [calls]
        · rw [if_neg hb]
          trivial
      · have n3 := m3.1 e1
        simp only [n3, if_true]
    · have n2 := m2.1 d1
      simp only [n2, d2, if_true, beforeBrace]
      by_cases hn' : (l.dropWhile isSpace).takeWhile (fun c => c ≠ '{') = commentStr
      · simp only [hn', if_true]
        cases readComment k s ln none with
        | none => rfl
        | some r => obtain ⟨a, b, c⟩ := r; simp [plainReader]
      · simp only [hn', if_false]
        have := upd_call hP ((l.dropWhile isSpace).takeWhile (fun c => c ≠ '{')) none t hn
        rw [this]
        simp [calls, pieces, effective]
  · have n1 := m1.1 c1
    obtain ⟨hx, hy⟩ := takeWhile_cut ':' _ _ _ c2
    simp only [n1, c2, if_true]
    rw [show ((l.dropWhile isSpace).takeWhile fun c => c ≠ ':') = nameOf l from rfl]
    have hval : y = valueOf l := hy
    rw [hval]
    have hup := upd_call hP (nameOf l) (some (valueOf l)) t hn
    by_cases hne : nameOf l = []
    · rw [if_pos hne]
      have h1 : ¬ (reservedComment <:+: nameOf l ∨ nameOf l = reservedInclude) := by
        rw [hne]; decide
      rw [if_neg h1]
      rw [hne, setC_comps_nil] at hup
      rw [hup, hne]; rfl
    · rw [if_neg hne]
      by_cases hi : nameOf l = includeStr
      · rw [if_pos hi]
        have h1 : (reservedComment <:+: nameOf l ∨ nameOf l = reservedInclude) := Or.inr hi
        rw [if_pos h1]
        rw [if_pos (show plainReader.processInclude = true from rfl)]
        show some (LineRes.next (updAt P (fun t => t) t) P s ln) = _
        rw [updAt_id]; rfl
      · rw [if_neg hi]
        by_cases hc : reservedComment <:+: nameOf l
        · have hc' : hasInfix commentStr (nameOf l) = true := (hasInfix_iff _ _).2 hc
          rw [if_pos (Or.inl hc), hc']
          rfl
        · have hc' : hasInfix commentStr (nameOf l) = false := by
            cases h : hasInfix commentStr (nameOf l) with
            | false => rfl
            | true => exact absurd ((hasInfix_iff _ _).1 h) hc
          have h1 : ¬ (reservedComment <:+: nameOf l ∨ nameOf l = reservedInclude) := by
            rintro (h | h)
            · exact hc h
            · exact hi h
          rw [if_neg h1, hc']
          simp only [Bool.not_false, Bool.true_or, if_true]
          rw [hup]; rfl

theorem changes_inside (p : List S) (ls : List S) : changes p true ls =
    match afterComment ls with
    | none => []
    | some r => changes p false r := by
  induction ls with
  | nil => rfl
  | cons l ls ih =>
    rw [changes, afterComment]
    by_cases h : commentEndStr <:+: l
    · have h' : reservedCommentEnd <:+: l := h
      simp only [h, h', if_true]
    · have h' : ¬ reservedCommentEnd <:+: l := h
      simp only [h, h', if_false]
      exact ih

theorem calls_append (a b : List Change) (t : Tree) : calls (a ++ b) t = calls b (calls a t) := by
  simp [calls, List.foldl_append]

theorem goodPath_append {p q : List S} (hp : GoodPath p) (hq : GoodPath q) : GoodPath (p ++ q) := by
  intro d hd
  rcases List.mem_append.1 hd with h | h
  · exact hp d h
  · exact hq d h

theorem goodPath_line {P : List S} (hP : GoodPath P) (l : S) : ∀ c ∈ lineChanges P l, GoodPath c.1 := by
  intro c hc
  unfold lineChanges at hc
  split at hc
  · cases hc
  · split at hc
    · split at hc
      · cases hc
      · rw [List.mem_singleton] at hc; rw [hc]; exact goodPath_append hP (goodPath_pieces _)
    · split at hc
      · rw [List.mem_singleton] at hc; rw [hc]; exact goodPath_append hP (goodPath_pieces _)
      · cases hc

theorem goodPath_changes (ls : List S) : ∀ (P : List S) (b : Bool), GoodPath P → ∀ c ∈ changes P b ls, GoodPath c.1 := by
  induction ls with
  | nil => intro P b _ c hc; cases b <;> simp [changes] at hc
  | cons l ls ih =>
    intro P b hP c hc
    cases b with
    | true =>
      rw [changes] at hc
      split at hc
      · exact ih P false hP c hc
      · exact ih P true hP c hc
    | false =>
      rw [changes] at hc
      split at hc
      · rcases List.mem_append.1 hc with h | h
        · exact goodPath_line hP l c h
        · exact ih P false hP c h
      · rcases List.mem_append.1 hc with h | h
        · exact goodPath_line hP l c h
        · exact ih _ false (goodPath_append hP (goodPath_pieces _)) c h
      · exact ih P true hP c hc
      · split at hc
        · cases hc
        · exact ih P.dropLast false (fun d hd => hP d (List.dropLast_subset _ hd)) c hc
      · cases hc

theorem node_calls (cs : List Change) (h : ∀ c ∈ cs, GoodPath c.1) (q : List S) (t : Tree) (hn : (nodeAt q t).isSome) :
    (nodeAt q (calls cs t)).isSome := by
  induction cs generalizing t with
  | nil => exact hn
  | cons c cs ih =>
    have : calls (c :: cs) t = calls cs (call c t) := rfl
    rw [this]
    refine ih (fun x hx => h x (by simp [hx])) _ ?_
    obtain ⟨p, v⟩ := c
    rw [call_eq (h (p, v) (by simp))]
    exact nodeAt_setC_keep v p q t hn

/-- The reader makes the calls. -/
theorem feed_calls : ∀ (n : Nat) (ls : List S), ls.length ≤ n → (∀ l ∈ ls, GoodLine l) →
    ∀ (k : Nat) (t : Tree) (P : List S) (i : Nat), ls.length ≤ k → GoodPath P → (nodeAt P t).isSome →
    scan P.length false i ls ≠ .unclosed →
    (feed k plainReader t P (i + 1) ls).map Prod.fst = some (calls (changes P false ls) t) := by
  intro n
  induction n with
  | zero =>
    intro ls hl hg k t P i hk hP hn hu
    cases ls with
    | nil => simp [feed, changes, calls]
    | cons l ls => simp at hl
  | succ n ih =>
    intro ls hl hg k t P i hk hP hn hu
    cases ls with
    | nil => simp [feed, changes, calls]
    | cons l ls =>
      have hg' : ∀ x ∈ ls, GoodLine x := fun x hx => hg x (List.mem_cons_of_mem _ hx)
      have hl' : ls.length ≤ n := by simpa using hl
      simp only [feed]
      cases k with
      | zero => simp at hk
      | succ k =>
        rw [getLoop]
        have key := doLine_kind k plainReader t P { rest := text ls } rfl (i + 1 + 1) l
        have keyc := doLine_calls k t P hP hn { rest := text ls } (i + 1 + 1) l
        have hgl := goodPath_line hP l
        cases hkd : kind l with
        | plain =>
          rw [hkd] at keyc
          simp only at keyc
          rw [keyc]
          simp only [next_feed k _ _ P (i + 1 + 1) ls hg']
          have hs : scan P.length false i (l :: ls) = scan P.length false (i + 1) ls := by rw [scan, hkd]
          have hc : changes P false (l :: ls) = lineChanges P l ++ changes P false ls := by rw [changes, hkd]
          rw [hc, calls_append]
          exact ih ls hl' hg' k _ P (i + 1) (by simpa using hk) hP (node_calls _ hgl _ _ hn) (by rw [← hs]; exact hu)
        | opens m =>
          rw [hkd] at keyc key
          simp only at keyc key
          obtain ⟨t', at', key, hat⟩ := key
          rw [keyc] at key
          have hat' : (P ++ pieces (beforeBrace l)).length = P.length + m := by
            simp only [Option.some.injEq, LineRes.next.injEq] at key
            rw [key.2.1]; exact hat
          rw [keyc]
          simp only [next_feed k _ _ (P ++ pieces (beforeBrace l)) (i + 1 + 1) ls hg']
          have hs : scan P.length false i (l :: ls) = scan (P ++ pieces (beforeBrace l)).length false (i + 1) ls := by rw [scan, hkd, hat']
          have hc : changes P false (l :: ls) = lineChanges P l ++ changes (P ++ pieces (beforeBrace l)) false ls := by rw [changes, hkd]
          rw [hc, calls_append]
          have hgp := goodPath_append hP (goodPath_pieces (beforeBrace l))
          refine ih ls hl' hg' k _ _ (i + 1) (by simpa using hk) hgp ?_ (by rw [← hs]; exact hu)
          have hlc : lineChanges P l = [(P ++ pieces (beforeBrace l), none)] := by
            unfold kind at hkd
            unfold lineChanges
            by_cases h0 : (l.dropWhile isSpace).head? = some '#'
            · rw [if_pos h0] at hkd; cases hkd
            rw [if_neg h0] at hkd ⊢
            by_cases h1 : ':' ∈ l
            · rw [if_pos h1] at hkd; cases hkd
            rw [if_neg h1] at hkd ⊢
            by_cases h2 : '{' ∈ l
            · rw [if_pos h2]
            · rw [if_neg h2] at hkd
              exfalso
              split at hkd
              · cases hkd
              · split at hkd <;> cases hkd
          rw [hlc]
          show (nodeAt _ (call _ t)).isSome
          rw [call_eq hgp]
          exact nodeAt_setC_self _ _ (fun d hd => (hgp d hd).1) t
        | closes =>
          rw [hkd] at key
          simp only at key
          by_cases ha : P = []
          · rw [if_pos ha] at key
            rw [key]
            have hc : changes P false (l :: ls) = [] := by rw [changes, hkd]; simp [ha]
            rw [hc]; rfl
          · rw [if_neg ha] at key
            rw [key]
            simp only [next_feed k _ t P.dropLast (i + 1 + 1) ls hg']
            have hs : scan P.length false i (l :: ls) = scan P.dropLast.length false (i + 1) ls := by
              rw [scan, hkd]; simp [ha]
            have hc : changes P false (l :: ls) = changes P.dropLast false ls := by rw [changes, hkd]; simp [ha]
            rw [hc]
            refine ih ls hl' hg' k t P.dropLast (i + 1) (by simpa using hk) (fun d hd => hP d (List.dropLast_subset _ hd)) ?_
              (by rw [← hs]; exact hu)
            have := List.dropLast_append_getLast ha
            rw [← this, nodeAt_append] at hn
            cases hq : nodeAt P.dropLast t with
            | none => rw [hq] at hn; simp at hn
            | some x => rfl
        | bad =>
          rw [hkd] at key
          simp only at key
          rw [key]
          have hc : changes P false (l :: ls) = [] := by rw [changes, hkd]
          rw [hc]; rfl
        | comment =>
          rw [hkd] at keyc
          simp only at keyc
          have hs : scan P.length false i (l :: ls) = scan P.length true (i + 1) ls := by rw [scan, hkd]
          have hc : changes P false (l :: ls) = changes P true ls := by rw [changes, hkd]
          rw [hs, scan_inside] at hu
          rw [hc, changes_inside]
          have hrc := readComment_spec ls hg' k (i + 1 + 1) none
          cases ha : afterComment ls with
          | none => rw [ha] at hu; exact absurd rfl hu
          | some r =>
            rw [ha] at hrc hu
            simp only at hrc hu
            have hlen := afterComment_len ha
            have hkl : ls.length ≤ k := by simpa using hk
            obtain ⟨acc', hrc⟩ := hrc hkl
            rw [hrc] at keyc
            simp only [Option.map_some] at keyc
            rw [keyc]
            have hgr : ∀ x ∈ r, GoodLine x := fun x hx => hg' x (afterComment_mem ha x hx)
            simp only [next_feed k _ t P _ r hgr]
            have := ih r (by omega) hgr k t P (i + 1 + (ls.length - r.length)) (by omega) hP hn hu
            rw [show i + 1 + 1 + (ls.length - r.length) = i + 1 + (ls.length - r.length) + 1 by omega]
            exact this

end Verif.AT.Text
