import Verif.Config.ATRoundExact

/-! # C35, exact form: what is found after saving and loading any tree -/
namespace Verif.AT.Round
open Text Err

theorem nameOK_leading {d : S} (hd : d = [] ∨ GoodDesc d) : NameOK ('.' :: d) := by
  rcases hd with rfl | hd
  · exact nameOK_dot
  · constructor
    · simp
    · intro h
      rcases List.mem_cons.1 h with h | h
      · exact absurd h (by decide)
      · exact hd.colon h
    · intro h
      rcases List.mem_cons.1 h with h | h
      · exact absurd h (by decide)
      · exact hd.nl h
    · intro c hc; cases hc; decide
    · intro c hc
      obtain ⟨x, xs, rfl⟩ := List.exists_cons_of_ne_nil hd.ne
      rw [List.getLast?_cons_cons] at hc
      exact hd.last c hc
    · intro h
      have : '.' ∈ reservedInclude := by rw [← h]; simp
      exact absurd this (by decide)
    · intro h
      rcases infix_split reservedComment [] d (by decide) h with h | h
      · exact absurd h (by decide)
      · exact hd.notComment h

theorem pieces_nm_leading (d : S) (p : List S) : pieces (nm ('.' :: d) p) = [] := by
  unfold nm
  split
  · exact pieces_leading d
  · rw [List.cons_append]; exact pieces_leading _

/-- The lines of a saved tree, and what they mean. -/
theorem print_root (csd : Int) (t : Tree) (h : PrintableRoot t) :
    ∃ ls, printTree csd [] t = .ok ls ∧ (∀ l ∈ ls, Clean l) ∧ changes [] false ls = written csd t ∧ scan 0 false 0 ls = .fine := by
  obtain ⟨hd, ha, hks⟩ := h
  cases t with
  | node d a c ks =>
  simp only [Tree.desc, Tree.attr, Tree.kids] at hd ha hks
  have hd' : d.getD [] = [] ∨ GoodDesc (d.getD []) := by
    rcases hd with rfl | rfl | ⟨x, rfl, hx⟩
    · exact .inl rfl
    · exact .inl rfl
    · exact .inr hx
  have hv1 : ¬ (d = some filePathStr ∨ d = some fileNameStr) := by
    rcases hd with rfl | rfl | ⟨x, rfl, hx⟩
    · simp
    · decide
    · exact notVirtual hx
  have hmc : isMultilineComment (.node d a c ks) = .ok false := by
    rcases hd with rfl | rfl | ⟨x, rfl, hx⟩
    · rfl
    · have : isComment (.node (some []) a c ks) = false := by simp only [isComment, Tree.desc]; decide
      simp [isMultilineComment, this]
    · exact noMulti hx a c ks
  by_cases hb : Braced csd (.node d a c ks)
  · have hb' : csd ≤ ((contains (.node d a c ks) : Nat) : Int) := by rw [contains_values]; exact hb
    obtain ⟨ls, hl, hcl, hdo⟩ := print_does csd ks hks [' '] (by simp) (by simp)
    have hown : ∀ P, Does (if a.getD [] ≠ [] then [[':'] ++ a.getD []] else []) P
        ((a.toList.filter (fun v => v ≠ [])).map fun v => (P, some v)) := by
      intro P
      cases a with
      | none => simpa using Does.nil _
      | some v =>
        by_cases hv : v = []
        · subst hv; simpa using Does.nil _
        · have := does_line [] (by simp) [] (.inl rfl) v P
          have e : pieces [] = [] := by simp [pieces, comps]
          simpa [hv, e] using this
    refine ⟨[d.getD [] ++ ['{']] ++ ((if a.getD [] ≠ [] then [[':'] ++ a.getD []] else []) ++ ls) ++ [['}'] ++ d.getD []], ?_, ?_, ?_⟩
    · simp only [printTree, hv1, if_false, hmc]
      rw [if_pos (.inl hb')]
      simp only [List.nil_append]
      rw [hl]
      simp
    · intro l hl
      simp only [List.mem_append, List.mem_singleton] at hl
      rcases hl with (rfl | hl | hl) | rfl
      · refine ⟨?_, by simp⟩
        rcases hd' with e | e
        · rw [e]; decide
        · simp only [List.mem_append, not_or, List.mem_singleton]; exact ⟨e.nl, by decide⟩
      · split at hl
        · simp only [List.mem_singleton] at hl
          subst hl
          cases a with
          | none => simp at *
          | some v => exact clean_value [] v (by simp) (ha v rfl)
        · simp at hl
      · exact hcl l hl
      · rcases hd' with e | e
        · rw [e]; constructor <;> decide
        · refine ⟨?_, ?_⟩
          · simp only [List.mem_append, not_or, List.mem_singleton]; exact ⟨by decide, e.nl⟩
          · rw [List.getLast?_append]
            obtain ⟨x, xs, hx⟩ := List.exists_cons_of_ne_nil e.ne
            cases hq : (d.getD []).getLast? with
            | none => rw [hx] at hq; simp at hq
            | some y =>
              simp only [Option.some_or, ne_eq, Option.some.injEq]
              exact not_r_of_not_space (e.last y hq)
    · rcases hd' with e | e
      · have w : written csd (.node d a c ks) = entries csd [] (.node d a c ks) := by
          rw [written, if_pos hb, rootPath]; simp [Tree.desc, e]
        rw [w, e]
        have h2 := (hown []).append (hdo [])
        have k1 : kind ([] ++ ['{']) = .opens 0 := by decide
        have k2 : kind (['}'] ++ []) = .closes := by decide
        have b1 : beforeBrace ([] ++ ['{']) = [] := by decide
        have p1 : pieces [] = [] := by decide
        have l1 : lineChanges [] ([] ++ ['{']) = [([], none)] := by decide
        constructor
        · rw [List.append_assoc, List.append_assoc, List.singleton_append, changes, k1]
          simp only [l1, b1, p1, List.append_nil]
          rw [← List.append_assoc, h2.1, changes]
          rw [show kind ['}'] = .closes from k2]
          simp [entries, hb]
        · rw [List.append_assoc, List.append_assoc, List.singleton_append, scan, k1]
          rw [← List.append_assoc]
          have := h2.2 [['}'] ++ []] 1
          simp only [List.length_nil] at this
          show scan 0 false 1 _ = .fine
          rw [this, scan, k2]
          rfl
      · have hne := e.ne
        have w : written csd (.node d a c ks) = entries csd [d.getD []] (.node d a c ks) := by
          rw [written, if_pos hb, rootPath]; simp [Tree.desc, hne]
        have h2 := does_braces [] (by simp) (d.getD []) e _ [] _ ((hown ([] ++ [d.getD []])).append (hdo ([] ++ [d.getD []])))
        constructor
        · have := h2.1 []
          simp only [List.append_nil, List.nil_append] at this
          rw [w]
          simp only [entries, hb, if_true]
          rw [show (changes [] false [] : List Change) = [] from rfl, List.append_nil] at this
          exact this
        · have := h2.2 [] 0
          simp only [List.append_nil, List.nil_append, List.length_nil] at this
          exact this
  · have hlt : ((contains (.node d a c ks) : Nat) : Int) < csd := by
      rw [contains_values]; unfold Braced at hb; omega
    have hlt' : ((containsL ks : Nat) : Int) < csd := by
      simp only [contains] at hlt
      push_cast at hlt
      split at hlt <;> omega
    have hw := nameOK_leading hd'
    obtain ⟨ls, hl, hcl, hdo⟩ := small_list csd ks hks [] ('.' :: d.getD []) (by simp) hw hlt'
    have h2 := (does_own [] (by simp) _ hw a []).append (hdo [])
    refine ⟨ownLine [] ('.' :: d.getD []) a ++ ls, ?_, ?_, ?_, ?_⟩
    · have he : endsWithSpace [] = false := rfl
      simp only [printTree, hv1, if_false, hmc, noMultiL hks, Bool.false_eq_true, or_false, he]
      rw [if_neg (by omega)]
      simp only [List.nil_append, List.singleton_append] at hl ⊢
      rw [hl]
      cases a <;> simp [ownLine]
    · intro l hl
      rcases List.mem_append.1 hl with hl | hl
      · cases a with
        | none => simp [ownLine] at hl
        | some v =>
          simp only [ownLine, List.mem_singleton] at hl; subst hl
          exact clean_name [] _ v (by simp) hw.nl (ha v rfl)
      · exact hcl l hl
    · have := h2.1 []
      rw [List.append_nil, show (changes [] false [] : List Change) = [] from rfl, List.append_nil] at this
      rw [this, written, if_neg hb, values, ← List.map_append]
      refine List.map_congr_left fun x _ => ?_
      simp [pieces_nm_leading]
    · have := h2.2 [] 0
      simp only [List.append_nil] at this
      exact this

/-- C35, exact: save any tree (equal names, empty attributes, any size, named or not; without comments), load the
file into any tree: the loader reports success, and every value is the last one that the saved tree wrote for its path, or the old one. -/
theorem c35_exact (csd : Int) (t : Tree) (h : PrintableRoot t) :
    ∃ ls, printTree csd [] t = .ok ls ∧ ((∀ l ∈ ls, l.length ≤ 1997) → ∀ (T : Tree) (k : Nat), ls.length < k →
      ∃ T', get k { processInclude := true, loadComments := false, load := fun _ t => t } T (ls.flatMap (· ++ ['\n'])) = some (T', -1) ∧
        ∀ q, lookup q T' = valueAfter q (lookup q T) (written csd t)) := by
  obtain ⟨ls, hp, hcl, hch, hsc⟩ := print_root csd t h
  refine ⟨ls, hp, fun hlen T k hk => ?_⟩
  have hg : ∀ l ∈ ls, GoodLine l := fun l hl => ⟨(hcl l hl).1, hlen l hl, (hcl l hl).2⟩
  obtain ⟨T', code, hget, hval⟩ := c138_values T ls hg (by rw [hsc]; simp) k hk
  have hcode := c97_return_value { processInclude := true, loadComments := false, load := fun _ t => t } T ls hg k hk
  rw [hget, hsc] at hcode
  simp at hcode
  subst hcode
  exact ⟨T', hget, fun q => by rw [hval q, hch]⟩

/-! ## Trees without equal siblings -/

theorem valueAfter_append (q : List S) (o : Option S) (a b : List Change) :
    valueAfter q o (a ++ b) = valueAfter q (valueAfter q o a) b := by simp [valueAfter, List.foldl_append]

theorem valueAfter_other (q : List S) (o : Option S) (cs : List Change) (h : ∀ c ∈ cs, c.1 ≠ q) : valueAfter q o cs = o := by
  induction cs generalizing o with
  | nil => rfl
  | cons c cs ih =>
    show valueAfter q (if c.1 = q then c.2 else o) cs = o
    rw [if_neg (h c (by simp)), ih o (fun x hx => h x (by simp [hx]))]

theorem entriesL_below (csd : Int) (p : List S) (ks : List Tree)
    (hk : ∀ k ∈ ks, ∀ p', ∀ c ∈ entries csd p' k, p' <+: c.1) :
    ∀ c ∈ entriesL csd p ks, ∃ k ∈ ks, p ++ [k.desc.getD []] <+: c.1 := by
  induction ks with
  | nil => intro c hc; simp [entriesL] at hc
  | cons k ks ih =>
    intro c hc
    simp only [entriesL, List.mem_append] at hc
    rcases hc with hc | hc
    · exact ⟨k, by simp, hk k (by simp) _ c hc⟩
    · obtain ⟨k', h1, h2⟩ := ih (fun x hx => hk x (by simp [hx])) c hc
      exact ⟨k', by simp [h1], h2⟩

theorem entries_below (csd : Int) (t : Tree) : ∀ p, ∀ c ∈ entries csd p t, p <+: c.1 := by
  refine Tree.rec (motive_1 := fun t => ∀ p, ∀ c ∈ entries csd p t, p <+: c.1)
    (motive_2 := fun ks => ∀ k ∈ ks, ∀ p', ∀ c ∈ entries csd p' k, p' <+: c.1) ?_ ?_ ?_ t
  · intro d a c ks ih p x hx
    simp only [entries, List.mem_append] at hx
    rcases hx with hx | hx
    · split at hx
      · rcases List.mem_cons.1 hx with rfl | hx
        · exact List.prefix_refl _
        · obtain ⟨v, -, rfl⟩ := List.mem_map.1 hx
          exact List.prefix_refl _
      · obtain ⟨v, -, rfl⟩ := List.mem_map.1 hx
        exact List.prefix_refl _
    · obtain ⟨k, -, h2⟩ := entriesL_below csd p ks ih x hx
      exact (List.prefix_append _ _).trans h2
  · intro k hk; simp at hk
  · intro k ks h1 h2 x hx
    rcases List.mem_cons.1 hx with rfl | hx
    · exact h1
    · exact h2 x hx

theorem kept_cons (csd : Int) (e : S) (r : List S) (d a c) (ks : List Tree) :
    kept csd (e :: r) (.node d a c ks) = (ks.find? (fun k => k.desc == some e)).bind (kept csd r) := by
  unfold kept
  rw [nodeAt]
  simp only [Tree.kids]
  cases ks.find? (fun k => k.desc == some e) <;> rfl

theorem entries_kept (csd : Int) (t : Tree) : Uniq t → PrintableL t.kids → ∀ p r,
    valueAfter (p ++ r) none (entries csd p t) = kept csd r t := by
  refine Tree.rec (motive_1 := fun t => Uniq t → PrintableL t.kids → ∀ p r, valueAfter (p ++ r) none (entries csd p t) = kept csd r t)
    (motive_2 := fun ks => (ks.map Tree.desc).Nodup → UniqL ks → PrintableL ks → ∀ p e r,
      valueAfter (p ++ e :: r) none (entriesL csd p ks) = (ks.find? (fun k => k.desc == some e)).bind (kept csd r)) ?_ ?_ ?_ t
  · intro d a c ks ih hu hp p r
    simp only [Uniq] at hu
    simp only [Tree.kids] at hp
    simp only [entries]
    rw [valueAfter_append]
    cases r with
    | nil =>
      rw [List.append_nil, valueAfter_other p _ (entriesL csd p ks)]
      · by_cases hb : Braced csd (.node d a c ks)
        · simp only [hb, if_true]
          cases a with
          | none => simp [valueAfter, kept, nodeAt, Tree.attr]
          | some v =>
            by_cases hv : v = []
            · subst hv; simp [valueAfter, kept, nodeAt, hb, Tree.attr]
            · simp [valueAfter, kept, nodeAt, hv, Tree.attr]
        · simp only [hb, if_false]
          cases a with
          | none => simp [valueAfter, kept, nodeAt, Tree.attr]
          | some v => simp [valueAfter, kept, nodeAt, hb, Tree.attr]
      · intro x hx e
        obtain ⟨k, -, h2⟩ := entriesL_below csd p ks (fun k _ => entries_below csd k) x hx
        have := h2.length_le
        rw [e] at this
        simp at this
        omega
    | cons e r =>
      have hown : ∀ x ∈ (if Braced csd (.node d a c ks) then
          (p, none) :: ((a.toList.filter (fun v => v ≠ [])).map fun v => (p, some v))
          else a.toList.map fun v => ((p, some v) : Change)), x.1 ≠ p ++ e :: r := by
        intro x hx he
        have : x.1 = p := by
          split at hx
          · rcases List.mem_cons.1 hx with rfl | hx
            · rfl
            · obtain ⟨v, -, rfl⟩ := List.mem_map.1 hx
              rfl
          · obtain ⟨v, -, rfl⟩ := List.mem_map.1 hx
            rfl
        rw [this] at he
        have := congrArg List.length he
        simp at this
      rw [valueAfter_other _ none _ hown, ih hu.1 hu.2 hp p e r, kept_cons]
  · intro _ _ _ p e r; rfl
  · intro k ks h1 h2 hn hu hp p e r
    simp only [List.map_cons, List.nodup_cons] at hn
    obtain ⟨hp1, hp2⟩ := hp
    have hk : ∃ x, k.desc = some x ∧ PrintableL k.kids := by
      cases k with
      | node d a c ls =>
      simp only [Printable] at hp1
      obtain ⟨⟨x, rfl, -⟩, -, hh⟩ := hp1
      exact ⟨x, rfl, hh⟩
    obtain ⟨x, hx, hkp⟩ := hk
    simp only [entriesL]
    rw [valueAfter_append]
    by_cases hxe : x = e
    · subst hxe
      have e1 : valueAfter (p ++ x :: r) none (entries csd (p ++ [k.desc.getD []]) k) = kept csd r k := by
        have := h1 hu.1 hkp (p ++ [x]) r
        rw [hx]
        simpa using this
      rw [e1, valueAfter_other _ _ (entriesL csd p ks)]
      · simp [hx]
      · intro c hc he
        obtain ⟨k', hk', hpre⟩ := entriesL_below csd p ks (fun k _ => entries_below csd k) c hc
        rw [he] at hpre
        have : k'.desc.getD [] = x := by
          obtain ⟨z, hz⟩ := hpre
          have hz' : k'.desc.getD [] :: z = x :: r := by simpa using hz
          exact (List.cons.inj hz').1
        have hk'd : ∃ y, k'.desc = some y := by
          have : ∀ (l : List Tree), PrintableL l → ∀ t ∈ l, ∃ y, t.desc = some y := by
            intro l hl t ht
            induction l with
            | nil => simp at ht
            | cons a l ih =>
              rcases List.mem_cons.1 ht with rfl | ht
              · cases t with
                | node d a c ls =>
                have hh := hl.1
                simp only [Printable] at hh
                obtain ⟨⟨y, rfl, -⟩, -, -⟩ := hh
                exact ⟨y, rfl⟩
              · exact ih hl.2 ht
          exact this ks hp2 k' hk'
        obtain ⟨y, hy⟩ := hk'd
        rw [hy] at this
        simp only [Option.getD_some] at this
        subst this
        exact hn.1 (List.mem_map.2 ⟨k', hk', by rw [hy, hx]⟩)
    · rw [valueAfter_other _ none (entries csd _ k), h2 hn.2 hu.2 hp2 p e r]
      · rw [List.find?_cons_of_neg (by simp [hx, hxe])]
      · intro c hc he
        have hpre := entries_below csd k _ c hc
        rw [he, hx] at hpre
        obtain ⟨z, hz⟩ := hpre
        have hz' : x :: z = e :: r := by simpa using hz
        exact hxe (List.cons.inj hz').1

/-- C35, exact, for trees with different siblings and at least `csd` attributes: every path has the saved value, except
empty attributes of nodes with braces. A tree with a name is found below its name. -/
theorem c35_exact_braced (csd : Int) (t : Tree) (h : PrintableRoot t) (hu : Uniq t) (hb : Braced csd t) (ls : List S)
    (hp : printTree csd [] t = .ok ls) (hlen : ∀ l ∈ ls, l.length ≤ 1997) (T : Tree) (hT : ∀ q, lookup q T = none) (k : Nat)
    (hk : ls.length < k) :
    ∃ T', get k { processInclude := true, loadComments := false, load := fun _ t => t } T (ls.flatMap (· ++ ['\n'])) = some (T', -1) ∧
      (∀ q, lookup (rootPath t ++ q) T' = kept csd q t) ∧ ∀ q, ¬ rootPath t <+: q → lookup q T' = none := by
  obtain ⟨ls', hp', hr⟩ := c35_exact csd t h
  rw [hp] at hp'; cases hp'
  obtain ⟨T', hg, hv⟩ := hr hlen T k hk
  refine ⟨T', hg, fun q => ?_, fun q hq => ?_⟩
  · rw [hv, hT, written, if_pos hb, entries_kept csd t hu h.2.2]
  · rw [hv, hT, written, if_pos hb, valueAfter_other]
    intro c hc e
    exact hq (e ▸ entries_below csd t _ c hc)

theorem valueAfter_root (vs : List (List S × S)) (o : Option S) :
    valueAfter [] o (vs.map fun x => (([] : List S), some x.2)) = ((vs.getLast?).map Prod.snd).or o := by
  induction vs generalizing o with
  | nil => rfl
  | cons v vs ih =>
    show valueAfter [] (if ([] : List S) = [] then some v.2 else o) (vs.map _) = _
    rw [ih]
    cases vs with
    | nil => simp
    | cons w ws =>
      rw [List.getLast?_cons_cons]
      cases hq : (w :: ws).getLast? with
      | none => simp at hq
      | some y => rfl

/-- C35, exact, for trees with fewer than `csd` attributes (whatever their names): all of them are read into the root
of the tree that is loaded into, which is left with the last one; nothing else is changed. -/
theorem c35_exact_small (csd : Int) (t : Tree) (h : PrintableRoot t) (hb : ¬ Braced csd t) (ls : List S)
    (hp : printTree csd [] t = .ok ls) (hlen : ∀ l ∈ ls, l.length ≤ 1997) (T : Tree) (k : Nat) (hk : ls.length < k) :
    ∃ T', get k { processInclude := true, loadComments := false, load := fun _ t => t } T (ls.flatMap (· ++ ['\n'])) = some (T', -1) ∧
      lookup [] T' = (((values t).getLast?).map Prod.snd).or (lookup [] T) ∧ ∀ q, q ≠ [] → lookup q T' = lookup q T := by
  obtain ⟨ls', hp', hr⟩ := c35_exact csd t h
  rw [hp] at hp'; cases hp'
  obtain ⟨T', hg, hv⟩ := hr hlen T k hk
  refine ⟨T', hg, ?_, fun q hq => ?_⟩
  · rw [hv, written, if_neg hb, valueAfter_root]
  · rw [hv, written, if_neg hb, valueAfter_other]
    intro c hc e
    obtain ⟨x, -, rfl⟩ := List.mem_map.1 hc
    exact hq e.symm

theorem nodeAt_count (q : List S) (t n : Tree) (h : nodeAt q t = some n) : (values n).length ≤ (values t).length := by
  induction q generalizing t with
  | nil => cases h; exact Nat.le_refl _
  | cons e q ih =>
    cases t with
    | node d a c ks =>
    simp only [nodeAt, Tree.kids] at h
    cases hf : ks.find? (fun k => k.desc == some e) with
    | none => rw [hf] at h; cases h
    | some k =>
      rw [hf] at h
      have h1 := ih k h
      have h2 := contains_kid_le (List.mem_of_find?_eq_some hf)
      rw [contains_values, containsL_values] at h2
      have h3 : (values (.node d a c ks)).length = a.toList.length + (valuesL ks).length := by simp [values]
      omega

theorem values_lookup (t : Tree) : Uniq t → PrintableL t.kids → ∀ x ∈ values t, lookup x.1 t = some x.2 := by
  refine Tree.rec (motive_1 := fun t => Uniq t → PrintableL t.kids → ∀ x ∈ values t, lookup x.1 t = some x.2)
    (motive_2 := fun ks => (ks.map Tree.desc).Nodup → UniqL ks → PrintableL ks → ∀ x ∈ valuesL ks, ∃ k ∈ ks, ∃ e r, x.1 = e :: r ∧
      ks.find? (fun k => k.desc == some e) = some k ∧ lookup r k = some x.2) ?_ ?_ ?_ t
  · intro d a c ks ih hu hp x hx
    simp only [Uniq] at hu
    simp only [values, List.mem_append] at hx
    rcases hx with hx | hx
    · obtain ⟨v, hv, rfl⟩ := List.mem_map.1 hx
      cases a with
      | none => simp at hv
      | some w => simp at hv; subst hv; rfl
    · obtain ⟨k, hk, e, r, e1, e2, e3⟩ := ih hu.1 hu.2 hp x hx
      rw [e1]
      simp only [lookup, nodeAt, Tree.kids, e2]
      exact e3
  · intro _ _ _ x hx; simp [valuesL] at hx
  · intro k ks h1 h2 hn hu hp x hx
    simp only [List.map_cons, List.nodup_cons] at hn
    obtain ⟨hp1, hp2⟩ := hp
    simp only [valuesL, List.mem_append] at hx
    have hk : ∃ x, k.desc = some x ∧ PrintableL k.kids := by
      cases k with
      | node d a c ls =>
      simp only [Printable] at hp1
      obtain ⟨⟨x, rfl, -⟩, -, hh⟩ := hp1
      exact ⟨x, rfl, hh⟩
    obtain ⟨y, hy, hkp⟩ := hk
    rcases hx with hx | hx
    · obtain ⟨z, hz, rfl⟩ := List.mem_map.1 hx
      refine ⟨k, by simp, y, z.1, by simp [hy], by simp [hy], h1 hu.1 hkp z hz⟩
    · obtain ⟨k', hk', e, r, e1, e2, e3⟩ := h2 hn.2 hu.2 hp2 x hx
      refine ⟨k', by simp [hk'], e, r, e1, ?_, e3⟩
      rw [List.find?_cons_of_neg]
      · exact e2
      · intro hh
        have hd : k'.desc = some e := by simpa using List.find?_some e2
        have hd' : k.desc = some e := by simpa using hh
        exact hn.1 (List.mem_map.2 ⟨k', hk', by rw [hd, hd']⟩)

/-- C35: exactly when saving and loading gives back every value (for an unnamed tree with different siblings):
the tree has at least `csd` attributes or none below its root, and no node written with braces has an empty attribute. -/
theorem c35_round_trip_iff (csd : Int) (t : Tree) (h : PrintableRoot t) (hu : Uniq t) (hn : t.desc.getD [] = []) (ls : List S)
    (hp : printTree csd [] t = .ok ls) (hlen : ∀ l ∈ ls, l.length ≤ 1997) (T : Tree) (hT : ∀ q, lookup q T = none) (k : Nat)
    (hk : ls.length < k) :
    ∃ T', get k { processInclude := true, loadComments := false, load := fun _ t => t } T (ls.flatMap (· ++ ['\n'])) = some (T', -1) ∧
      ((∀ q, lookup q T' = lookup q t) ↔
        (csd ≤ ((values t).length : Int) ∨ ∀ q, q ≠ [] → lookup q t = none) ∧
        ∀ q n, nodeAt q t = some n → n.attr = some [] → ¬ csd ≤ ((values n).length : Int)) := by
  by_cases hb : Braced csd t
  · obtain ⟨T', hg, hv, -⟩ := c35_exact_braced csd t h hu hb ls hp hlen T hT k hk
    have hr : rootPath t = [] := by simp [rootPath, hn]
    rw [hr] at hv
    refine ⟨T', hg, ?_⟩
    constructor
    · intro hall
      refine ⟨.inl hb, fun q n hq ha hbn => ?_⟩
      have h1 := hall q
      have h2 := hv q
      rw [List.nil_append] at h2
      rw [h2] at h1
      simp [kept, lookup, hq, ha, show Braced csd n from hbn] at h1
    · rintro ⟨-, hne⟩ q
      have h2 := hv q
      rw [List.nil_append] at h2
      rw [h2]
      unfold kept lookup
      cases hq : nodeAt q t with
      | none => rfl
      | some n =>
        show (if n.attr = some [] ∧ Braced csd n then none else n.attr) = n.attr
        rw [if_neg]
        rintro ⟨ha, hbn⟩
        exact hne q n hq ha hbn
  · obtain ⟨T', hg, hv0, hv⟩ := c35_exact_small csd t h hb ls hp hlen T k hk
    refine ⟨T', hg, ?_⟩
    rw [hT] at hv0
    constructor
    · intro hall
      refine ⟨.inr fun q hq => ?_, fun q n hq _ hbn => ?_⟩
      · rw [← hall q, hv q hq, hT]
      · have := nodeAt_count q t n hq
        unfold Braced at hb
        omega
    · rintro ⟨hd, -⟩ q
      have hd' : ∀ q, q ≠ [] → lookup q t = none := by
        rcases hd with hd | hd
        · exact absurd hd hb
        · exact hd
      by_cases hq : q = []
      · subst hq
        rw [hv0]
        have hval : ∀ x ∈ values t, x.1 = [] ∧ lookup [] t = some x.2 := by
          intro x hx
          have := values_lookup t hu h.2.2 x hx
          by_cases hx0 : x.1 = []
          · exact ⟨hx0, hx0 ▸ this⟩
          · rw [hd' x.1 hx0] at this; cases this
        cases hl : (values t).getLast? with
        | none =>
          have : values t = [] := by simpa using hl
          cases t with
          | node d a c ks =>
          cases a with
          | none => rfl
          | some v => simp [values] at this
        | some x => rw [(hval x (List.mem_of_getLast? hl)).2]; rfl
      · rw [hv q hq, hT, hd' q hq]

/-- A named tree with two children of the same name and an empty attribute. -/
def twins : Tree := .node none (some ['r']) false
  [.node (some ['a']) (some ['1']) false [.node (some ['b']) (some []) false []], .node (some ['a']) (some ['2']) false []]

theorem goodDesc_letters (d : S) (h : d = ['a'] ∨ d = ['b']) : GoodDesc d := by
  rcases h with rfl | rfl <;> exact goodDesc_word _ (by decide) (by decide)

theorem goodAttr_short (v : S) (h : v = ['r'] ∨ v = ['1'] ∨ v = ['2'] ∨ v = []) : GoodAttr v := by
  rcases h with rfl | rfl | rfl | rfl <;> constructor <;> decide

/-- The hypotheses of `c35_exact` are met by this tree. -/
theorem twins_printable : PrintableRoot twins := by
  have ga := goodDesc_letters ['a'] (.inl rfl)
  have gb := goodDesc_letters ['b'] (.inr rfl)
  refine ⟨.inl rfl, ?_, ?_⟩
  · intro v hv; cases hv; exact goodAttr_short _ (.inl rfl)
  · simp only [twins, Tree.kids, PrintableL, Printable]
    refine ⟨⟨⟨_, rfl, ga⟩, ?_, ⟨⟨_, rfl, gb⟩, ?_, trivial⟩, trivial⟩, ⟨⟨_, rfl, ga⟩, ?_, trivial⟩, trivial⟩
    · intro v hv; cases hv; exact goodAttr_short _ (.inr (.inl rfl))
    · intro v hv; cases hv; exact goodAttr_short _ (.inr (.inr (.inr rfl)))
    · intro v hv; cases hv; exact goodAttr_short _ (.inr (.inr (.inl rfl)))

/-- C35, a finding: of two children with the same name, `getAttribute` sees the first one before saving and the value of
the last one after loading; the empty attribute inside braces is lost (`csd = 2`), but kept without braces (`csd = 3`). -/
theorem c35_twins :
    lookup [['a']] twins = some ['1'] ∧
    written 2 twins = [([], none), ([], some ['r']), ([['a']], none), ([['a']], some ['1']), ([['a'], ['b']], some []),
      ([['a']], some ['2'])] ∧
    written 1 twins = [([], none), ([], some ['r']), ([['a']], none), ([['a']], some ['1']), ([['a'], ['b']], none),
      ([['a']], none), ([['a']], some ['2'])] ∧
    (reread twins 2 ['a'], reread twins 2 ['a', '.', 'b'], reread twins 1 ['a', '.', 'b']) =
      (some (.ok (some ['2'])), some (.ok (some [])), some (.ok none)) := by
  refine ⟨rfl, by decide +kernel, by decide +kernel, by decide +kernel⟩

mutual
theorem good_printable (csd : Int) : ∀ t, Good csd t → Printable t
  | .node _ _ _ ks, h => by
    simp only [Good] at h
    simp only [Printable]
    exact ⟨h.1, h.2.1, goodL_printable csd ks h.2.2.2.2⟩
theorem goodL_printable (csd : Int) : ∀ ks, GoodL csd ks → PrintableL ks
  | [], _ => trivial
  | k :: ks, h => ⟨good_printable csd k h.1, goodL_printable csd ks h.2⟩
end

/-- The hypotheses of `c35_exact_braced` and `c35_round_trip_iff` are met: `demo3` is written with braces for `csd = 3` and not for
`csd = 4` (`c35_exact_small`). -/
example : PrintableRoot demo3 ∧ Uniq demo3 ∧ Braced 3 demo3 ∧ ¬ Braced 4 demo3 := by
  refine ⟨⟨.inl rfl, ?_, goodL_printable 3 _ demo3_good.2.2.2.2⟩, c36_uniq_of_sets none
    [(str "net.host.name", some (str "a:b {c} #")), (str "net.port", some (str "80")), (str "log.level", some (str "Debug"))],
    by decide +kernel, by decide +kernel⟩
  intro v hv
  exact (demo3_good.2.2.1 v hv).1

end Verif.AT.Round
