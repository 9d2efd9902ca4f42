import Verif.Config.ATEveryProps
import Verif.Config.ATRoundExactProps

/-! # Helper lemmas for C141: part of a saved file -/
namespace Verif.AT.Crash
open Err Text Every Round

/-- The first characters of a text are some complete lines and the beginning of another one. -/
theorem take_text (ls : List S) : ∀ n : Nat, ∃ m part, (text ls).take n = text (ls.take m) ++ part ∧
    (part = [] ∨ ∃ l rest, ls.drop m = l :: rest ∧ part <+: l) := by
  induction ls with
  | nil => intro n; exact ⟨0, [], by simp [text], .inl rfl⟩
  | cons l ls ih =>
    intro n
    have e : text (l :: ls) = (l ++ ['\n']) ++ text ls := by simp [text]
    by_cases h : n ≤ l.length
    · refine ⟨0, l.take n, ?_, .inr ⟨l, ls, rfl, List.take_prefix _ _⟩⟩
      rw [e, List.take_append_of_le_length (by simp; omega), List.take_append_of_le_length h]
      simp [text]
    · obtain ⟨m, part, h1, h2⟩ := ih (n - (l.length + 1))
      refine ⟨m + 1, part, ?_, ?_⟩
      · rw [e, List.take_append]
        have : (l ++ ['\n']).take n = l ++ ['\n'] := List.take_of_length_le (by simp; omega)
        rw [this]
        simp only [List.length_append, List.length_cons, List.length_nil, Nat.zero_add]
        rw [h1]; simp [text]
      · simpa using h2

theorem kind_comment {l : S} (h : kind l = .comment) : ':' ∉ l ∧ '{' ∈ l ∧ beforeBrace l = commentStr := by
  unfold kind at h
  repeat' split at h
  all_goals first | (cases h; done) | simp_all

theorem kind_opens {l : S} {m : Nat} (h : kind l = .opens m) : m = (pieces (beforeBrace l)).length := by
  unfold kind at h
  repeat' split at h
  all_goals first | (cases h; done) | skip
  cases h; rfl

/-- The verdict of C97 and the ending of C140. -/
theorem scan_ending (ls : List S) : ∀ (P : List S) (b : Bool) (i : Nat), scan P.length b i ls =
    match ending P b i ls with
    | .closed => .fine
    | .wrong j => .wrong j
    | .reading _ => .fine
    | .inside _ => .unclosed := by
  induction ls with
  | nil => intro P b i; cases b <;> rfl
  | cons l ls ih =>
    intro P b i
    cases b with
    | true =>
      rw [scan, ending]
      by_cases h : commentEndStr <:+: l
      · have h' : reservedCommentEnd <:+: l := h
        simp only [h, h', if_true]; exact ih _ _ _
      · have h' : ¬ reservedCommentEnd <:+: l := h
        simp only [h, h', if_false]; exact ih _ _ _
    | false =>
      rw [scan, ending]
      cases hk : kind l with
      | plain => exact ih _ _ _
      | opens m =>
        simp only
        rw [← ih, List.length_append, kind_opens hk]
      | comment => exact ih _ _ _
      | closes =>
        by_cases hp : P = []
        · simp [hp]
        · simp only [List.length_eq_zero_iff, hp, if_false]
          rw [← ih, List.length_dropLast]
      | bad => rfl

theorem never_inside (ls : List S) (h : ∀ l ∈ ls, kind l ≠ .comment) : ∀ (P : List S) (i : Nat) Q, ending P false i ls ≠ .inside Q := by
  induction ls with
  | nil => intro P i Q; simp [ending]
  | cons l ls ih =>
    intro P i Q
    have ih' := ih (fun x hx => h x (by simp [hx]))
    rw [ending]
    cases hk : kind l with
    | plain => exact ih' _ _ _
    | opens m => exact ih' _ _ _
    | comment => exact absurd hk (h l (by simp))
    | closes =>
      by_cases hp : P = []
      · simp [hp]
      · simp only [hp, if_false]; exact ih' _ _ _
    | bad => simp

/-! ## The lines of a saved tree -/

theorem open_line {sp d : S} (hs : ∀ c ∈ sp, c = ' ') (hd : d = [] ∨ GoodDesc d) : beforeBrace (sp ++ d ++ ['{']) = d := by
  have hdw : (sp ++ d ++ ['{']).dropWhile isSpace = d ++ ['{'] := by
    have := head_sp sp (d ++ ['{']) hs (by
      intro c hc
      rcases hd with rfl | hd
      · cases hc; decide
      · obtain ⟨x, xs, rfl⟩ := List.exists_cons_of_ne_nil hd.ne
        simp at hc
        exact (hd.head c (by simp [hc])).1)
    simpa using this
  have hb : '{' ∉ d := by
    rcases hd with rfl | hd
    · simp
    · exact hd.brace
  rw [beforeBrace, hdw, takeWhile_stop _ _ _ hb]

theorem name_ne_comment {d : S} (hd : d = [] ∨ GoodDesc d) : d ≠ commentStr := by
  rcases hd with rfl | hd
  · decide
  · exact goodDesc_ne_comment hd

theorem lines_kind (csd : Int) (t : Tree) :
    (t.desc.getD [] = [] ∨ GoodDesc (t.desc.getD [])) → PrintableL t.kids →
    ∀ (upper : S) (ls : List S), ((∀ c ∈ upper, c = ' ') ∨ ((contains t : Nat) : Int) < csd) → printTree csd upper t = .ok ls →
    ∀ l ∈ ls, kind l ≠ .comment := by
  refine Tree.rec
    (motive_1 := fun t => (t.desc.getD [] = [] ∨ GoodDesc (t.desc.getD [])) → PrintableL t.kids →
      ∀ (upper : S) (ls : List S), ((∀ c ∈ upper, c = ' ') ∨ ((contains t : Nat) : Int) < csd) → printTree csd upper t = .ok ls →
      ∀ l ∈ ls, kind l ≠ .comment)
    (motive_2 := fun ks => PrintableL ks →
      ∀ (upper : S) (ls : List S), ((∀ c ∈ upper, c = ' ') ∨ ((containsL ks : Nat) : Int) < csd) → printList csd upper ks = .ok ls →
      ∀ l ∈ ls, kind l ≠ .comment)
    ?_ ?_ ?_ t
  · intro d a c ks ih hd hks upper ls hu hp l hl
    simp only [Tree.desc, Tree.kids] at hd hks
    have hmc : isMultilineComment (.node d a c ks) = .ok false := by
      have : isComment (.node d a c ks) = false := by
        simp only [isComment, Tree.desc]
        cases d with
        | none => rfl
        | some d => simpa using name_ne_comment hd
      simp [isMultilineComment, this]
    rw [printTree] at hp
    split at hp
    · cases hp; cases hl
    · simp only [hmc, noMultiL hks, Bool.false_eq_true, or_false] at hp
      split at hp
      · rename_i hge
        have hsp : ∀ c ∈ upper, c = ' ' := by
          rcases hu with h | h
          · exact h
          · omega
        cases hq : printList csd (upper ++ [' ']) ks with
        | ok l1 =>
          rw [hq] at hp
          cases hp
          simp only [List.mem_append, List.mem_singleton] at hl
          rcases hl with ((rfl | hl) | hl) | rfl
          · intro hk
            have := (kind_comment hk).2.2
            rw [open_line hsp hd] at this
            exact name_ne_comment hd this
          · split at hl
            · rw [List.mem_singleton] at hl; subst hl
              intro hk
              exact (kind_comment hk).1 (by simp)
            · cases hl
          · refine ih hks _ _ (.inl ?_) hq l hl
            intro c hc
            rcases List.mem_append.1 hc with hc | hc
            · exact hsp c hc
            · simpa using hc
          · intro hk
            have h2 := (kind_comment hk).2.1
            simp only [List.mem_append, List.mem_singleton] at h2
            rcases h2 with (h2 | h2) | h2
            · exact absurd (hsp _ h2) (by decide)
            · exact absurd h2 (by decide)
            · rcases hd with e | e
              · rw [e] at h2; cases h2
              · exact e.brace h2
        | throws e => rw [hq] at hp; cases hp
        | ub => rw [hq] at hp; cases hp
      · rename_i hlt
        have hlt' : ((containsL ks : Nat) : Int) < csd := by
          simp only [contains] at hlt
          push_cast at hlt
          split at hlt <;> omega
        split at hp
        · rename_i l1 hq
          cases hp
          rcases List.mem_append.1 hl with hl | hl
          · cases a with
            | none => cases hl
            | some v =>
              simp only [List.mem_singleton] at hl; subst hl
              intro hk
              exact (kind_comment hk).1 (by simp)
          · exact ih hks _ _ (.inr hlt') hq l hl
        · cases hp
        · cases hp
  · intro _ upper ls _ hp l hl
    rw [printList] at hp; cases hp; cases hl
  · intro k ks h1 h2 hks upper ls hu hp l hl
    have hk := hks.1
    have hkd : k.desc.getD [] = [] ∨ GoodDesc (k.desc.getD []) := by
      cases k; simp only [Printable] at hk
      obtain ⟨⟨x, rfl, hx⟩, _⟩ := hk
      exact .inr hx
    have hkk : PrintableL k.kids := by
      cases k; simp only [Printable] at hk; exact hk.2.2
    rw [printList] at hp
    have hu1 : (∀ c ∈ upper, c = ' ') ∨ ((contains k : Nat) : Int) < csd := by
      rcases hu with h | h
      · exact .inl h
      · simp only [containsL] at h; push_cast at h; exact .inr (by omega)
    have hu2 : (∀ c ∈ upper, c = ' ') ∨ ((containsL ks : Nat) : Int) < csd := by
      rcases hu with h | h
      · exact .inl h
      · simp only [containsL] at h; push_cast at h; exact .inr (by omega)
    cases hq : printTree csd upper k with
    | ok l1 =>
      rw [hq] at hp
      cases hq2 : printList csd upper ks with
      | ok l2 =>
        rw [hq2] at hp
        cases hp
        rcases List.mem_append.1 hl with hl | hl
        · exact h1 hkd hkk upper l1 hu1 hq l hl
        · exact h2 hks.2 upper l2 hu2 hq2 l hl
      | throws e => rw [hq2] at hp; cases hp
      | ub => rw [hq2] at hp; cases hp
    | throws e => rw [hq] at hp; cases hp
    | ub => rw [hq] at hp; cases hp

/-! ## What the entries say -/

theorem entries_mem (csd : Int) (t : Tree) : ∀ (p q : List S) (v : S), (q, some v) ∈ entries csd p t → ∃ x ∈ values t, q = p ++ x.1 ∧ v = x.2 := by
  refine Tree.rec
    (motive_1 := fun t => ∀ (p q : List S) (v : S), (q, some v) ∈ entries csd p t → ∃ x ∈ values t, q = p ++ x.1 ∧ v = x.2)
    (motive_2 := fun ks => ∀ (p q : List S) (v : S), (q, some v) ∈ entriesL csd p ks → ∃ x ∈ valuesL ks, q = p ++ x.1 ∧ v = x.2)
    ?_ ?_ ?_ t
  · intro d a c ks ih p q v h
    rw [entries, List.mem_append] at h
    rcases h with h | h
    · refine ⟨([], v), ?_, ?_⟩
      · rw [values, List.mem_append]
        left
        split at h
        · simp at h; simp [h.1.1]
        · simp at h; simp [h.1]
      · split at h
        · simp at h; simp [h.2]
        · simp at h; simp [h.2]
    · obtain ⟨x, hx, h1, h2⟩ := ih p q v h
      exact ⟨x, by rw [values, List.mem_append]; exact .inr hx, h1, h2⟩
  · intro p q v h; cases h
  · intro k ks h1 h2 p q v h
    rw [entriesL, List.mem_append] at h
    rcases h with h | h
    · obtain ⟨x, hx, e1, e2⟩ := h1 _ q v h
      refine ⟨(k.desc.getD [] :: x.1, x.2), ?_, ?_, e2⟩
      · rw [valuesL, List.mem_append]
        exact .inl (List.mem_map.2 ⟨x, hx, rfl⟩)
      · rw [e1]; simp
    · obtain ⟨x, hx, e1, e2⟩ := h2 p q v h
      exact ⟨x, by rw [valuesL, List.mem_append]; exact .inr hx, e1, e2⟩

theorem valueAfter_last (q : List S) (cs : List Change) : ∀ (o : Option S) (v : S), valueAfter q o cs = some v → o = some v ∨ (q, some v) ∈ cs := by
  induction cs with
  | nil => intro o v h; exact .inl h
  | cons c cs ih =>
    intro o v h
    obtain ⟨p, w⟩ := c
    have e : valueAfter q o ((p, w) :: cs) = valueAfter q (if p = q then w else o) cs := rfl
    rw [e] at h
    rcases ih _ _ h with h1 | h1
    · by_cases hp : p = q
      · rw [if_pos hp] at h1; rw [hp, h1]; exact .inr (by simp)
      · rw [if_neg hp] at h1; exact .inl h1
    · exact .inr (by simp [h1])

end Verif.AT.Crash
