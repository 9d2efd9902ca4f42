import Verif.Config.GetoptLemmas

/-! # Command line parsing: C38 and C39 -/
namespace Verif.Getopt

/-! ### The scan and the items -/

/-- Effect of an item on the stored results. -/
def applyItem (o : Out) : Item → Out
  | .opt _ n v => o.set n v
  | .pre _ p s v => o.push p s v
  | .delim _ => o
  | .extra a => o.ext a
  | .pos n a => { o.set n a with count := o.count + 1 }
  | .non a => o.non a

theorem posi_get (h : List Call) (n : Nat) :
    (n < (reg h).required.length → (positionals h)[n]? = some ((reg h).required.getD n [])) ∧
    (¬ n < (reg h).required.length →
      n < (reg h).required.length + (reg h).optional.length →
      (positionals h)[n]? = some ((reg h).optional.getD (n - (reg h).required.length) [])) ∧
    (positionals h).length = (reg h).required.length + (reg h).optional.length := by
  rw [(regInv h).required, (regInv h).optional]
  refine ⟨?_, ?_, by simp [positionals]⟩
  · intro hn
    simp only [positionals]
    rw [List.getElem?_append_left hn, List.getD_eq_getElem?_getD, List.getElem?_eq_getElem hn]
    rfl
  · intro h1 h2
    simp only [positionals]
    rw [List.getElem?_append_right (by omega), List.getD_eq_getElem?_getD,
      List.getElem?_eq_getElem (by omega)]
    rfl

theorem scan_sound (rx : S → S → Option S) (h : List Call) (strict : Bool) (N : Nat) :
    ∀ (b : Bool) (o o' : Out) (args : List S), args.length ≤ N →
      scan rx (reg h) strict b o args = .done o' →
      ∃ its, Items rx h strict b o.count args its ∧ o' = its.foldl applyItem o := by
  induction N with
  | zero =>
    intro b o o' args hl hs
    have : args = [] := List.eq_nil_of_length_eq_zero (by omega)
    subst this
    cases b <;> simp [scan] at hs <;> exact ⟨[], .nil, hs.symm⟩
  | succ N ih =>
    intro b o o' args hl hs
    cases args with
    | nil => cases b <;> simp [scan] at hs <;> exact ⟨[], .nil, hs.symm⟩
    | cons a r =>
      have hr : r.length ≤ N := by simp at hl; omega
      cases b with
      | true =>
        simp only [scan] at hs
        obtain ⟨its, h1, h2⟩ := ih _ _ _ _ hr hs
        exact ⟨.extra a :: its, .extra h1, h2⟩
      | false =>
        rw [scan.eq_def] at hs
        simp only at hs
        split at hs
        · rename_i name val hlong
          obtain ⟨v, hv, rfl⟩ := (longOpt_iff _ _ _).1 hlong
          rw [get_params] at hs
          split at hs
          · rename_i p hp
            obtain ⟨its, h1, h2⟩ := ih _ _ _ _ hr hs
            exact ⟨_ :: its, .long hv hp h1, h2⟩
          · rename_i hp
            split at hs
            · rename_i k p sfx hf
              obtain ⟨rfl, hc⟩ := ((findPrefix_long rx h name).2 k p sfx).1 hf
              obtain ⟨its, h1, h2⟩ := ih _ _ _ _ hr hs
              exact ⟨_ :: its, .longPrefix hv hp hc h1, h2⟩
            · rename_i hf
              have hc := (findPrefix_long rx h name).1.1 hf
              split at hs
              · cases hs
              · rename_i hst
                obtain ⟨its, h1, h2⟩ := ih _ _ _ _ hr hs
                exact ⟨_ :: its, .longUnknown (by simpa using hst) hv hp hc h1, h2⟩
        · rename_i hlong
          split at hs
          · rename_i name hshort
            have hv := (shortOpt_iff _ _).1 hshort
            have hn : name ≠ [] := by obtain ⟨c, t, rfl, _⟩ := hv; simp
            rw [get_shorts h name hn] at hs
            split at hs
            · rename_i p hp
              split at hs
              · rename_i hval
                split at hs
                · cases hs
                · rename_i w r'
                  obtain ⟨its, h1, h2⟩ := ih _ _ _ _ (by simp at hr; omega) hs
                  exact ⟨_ :: its, .shortValue hv hp hval h1, h2⟩
              · rename_i hval
                obtain ⟨its, h1, h2⟩ := ih _ _ _ _ hr hs
                exact ⟨_ :: its, .shortFlag hv hp (by simpa using hval) h1, h2⟩
            · rename_i hp
              split at hs
              · rename_i k p sfx hf
                have hc := ((findPrefix_short rx h name).2 p sfx).1 ⟨k, hf⟩
                split at hs
                · rename_i hval
                  split at hs
                  · cases hs
                  · rename_i w r'
                    obtain ⟨its, h1, h2⟩ := ih _ _ _ _ (by simp at hr; omega) hs
                    exact ⟨_ :: its, .shortPrefixValue hv hp hc hval h1, h2⟩
                · rename_i hval
                  obtain ⟨its, h1, h2⟩ := ih _ _ _ _ hr hs
                  exact ⟨_ :: its, .shortPrefixFlag hv hp hc (by simpa using hval) h1, h2⟩
              · rename_i hf
                have hc := (findPrefix_short rx h name).1.1 hf
                split at hs
                · cases hs
                · rename_i hst
                  obtain ⟨its, h1, h2⟩ := ih _ _ _ _ hr hs
                  exact ⟨_ :: its, .shortUnknown (by simpa using hst) hv hp hc h1, h2⟩
          · rename_i hshort
            have hpl := (plain_iff a).2 ⟨hlong, hshort⟩
            rw [(regInv h).delim] at hs
            split at hs
            · rename_i hd
              obtain ⟨its, h1, h2⟩ := ih _ _ _ _ hr hs
              exact ⟨_ :: its, .delim hpl hd h1, h2⟩
            · rename_i hd
              obtain ⟨q1, q2, q3⟩ := posi_get h o.count
              split at hs
              · rename_i hc
                obtain ⟨its, h1, h2⟩ := ih _ _ _ _ hr hs
                exact ⟨_ :: its, .pos hpl hd (q1 hc) h1, h2⟩
              · rename_i hc
                split at hs
                · rename_i hc2
                  obtain ⟨its, h1, h2⟩ := ih _ _ _ _ hr hs
                  exact ⟨_ :: its, .pos hpl hd (q2 hc hc2) h1, h2⟩
                · rename_i hc2
                  obtain ⟨its, h1, h2⟩ := ih _ _ _ _ hr hs
                  exact ⟨_ :: its, .non hpl hd (by omega) h1, h2⟩

theorem scan_complete (rx : S → S → Option S) (h : List Call) (strict : Bool) {b : Bool} {n : Nat}
    {args : List S} {its : List Item} (hi : Items rx h strict b n args its) :
    ∀ o : Out, o.count = n →
      scan rx (reg h) strict b o args = .done (its.foldl applyItem o) := by
  induction hi with
  | @nil b n => intro o _; cases b <;> simp [scan]
  | extra _ ih => intro o ho; simp only [scan]; exact ih _ ho
  | @long n a r its name v p hv hp _ ih =>
    intro o ho
    have hl := (longOpt_iff a name _).2 ⟨v, hv, rfl⟩
    rw [scan.eq_def]
    simp only [hl, get_params, hp]
    exact ih _ ho
  | @longPrefix n a r its name v p sfx hv hp hc _ ih =>
    intro o ho
    have hl := (longOpt_iff a name _).2 ⟨v, hv, rfl⟩
    have hf := ((findPrefix_long rx h name).2 _ p sfx).2 ⟨rfl, hc⟩
    rw [scan.eq_def]
    simp only [hl, get_params, hp, hf]
    exact ih _ ho
  | @longUnknown n a r its name v hst hv hp hc _ ih =>
    intro o ho
    have hl := (longOpt_iff a name _).2 ⟨v, hv, rfl⟩
    have hf := (findPrefix_long rx h name).1.2 hc
    rw [scan.eq_def]
    simp only [hl, get_params, hp, hf, hst, Bool.false_eq_true, if_false]
    have := ih (o.non a) ho
    rw [hst] at this
    exact this
  | @shortFlag n a r its name p hv hp hval _ ih =>
    intro o ho
    have hl := (shortOpt_iff a name).2 hv
    have hn : name ≠ [] := by obtain ⟨c, t, rfl, _⟩ := hv; simp
    rw [scan.eq_def]
    simp only [not_long_of_short hv, hl, get_shorts h name hn, hp, hval, Bool.false_eq_true, if_false]
    exact ih _ ho
  | @shortValue n a w r its name p hv hp hval _ ih =>
    intro o ho
    have hl := (shortOpt_iff a name).2 hv
    have hn : name ≠ [] := by obtain ⟨c, t, rfl, _⟩ := hv; simp
    rw [scan.eq_def]
    simp only [not_long_of_short hv, hl, get_shorts h name hn, hp, hval, if_true]
    exact ih _ ho
  | @shortPrefixFlag n a r its name p sfx hv hp hc hval _ ih =>
    intro o ho
    have hl := (shortOpt_iff a name).2 hv
    have hn : name ≠ [] := by obtain ⟨c, t, rfl, _⟩ := hv; simp
    obtain ⟨k, hf⟩ := ((findPrefix_short rx h name).2 p sfx).2 hc
    rw [scan.eq_def]
    simp only [not_long_of_short hv, hl, get_shorts h name hn, hp, hf, hval, Bool.false_eq_true,
      if_false]
    exact ih _ ho
  | @shortPrefixValue n a w r its name p sfx hv hp hc hval _ ih =>
    intro o ho
    have hl := (shortOpt_iff a name).2 hv
    have hn : name ≠ [] := by obtain ⟨c, t, rfl, _⟩ := hv; simp
    obtain ⟨k, hf⟩ := ((findPrefix_short rx h name).2 p sfx).2 hc
    rw [scan.eq_def]
    simp only [not_long_of_short hv, hl, get_shorts h name hn, hp, hf, hval, if_true]
    exact ih _ ho
  | @shortUnknown n a r its name hst hv hp hc _ ih =>
    intro o ho
    have hl := (shortOpt_iff a name).2 hv
    have hn : name ≠ [] := by obtain ⟨c, t, rfl, _⟩ := hv; simp
    have hf := (findPrefix_short rx h name).1.2 hc
    rw [scan.eq_def]
    simp only [not_long_of_short hv, hl, get_shorts h name hn, hp, hf, hst, Bool.false_eq_true,
      if_false]
    have := ih (o.non a) ho
    rw [hst] at this
    exact this
  | @delim n a r its hpl hd _ ih =>
    intro o ho
    obtain ⟨p1, p2⟩ := (plain_iff a).1 hpl
    rw [scan.eq_def]
    simp only [p1, p2, (regInv h).delim, hd, if_true]
    exact ih _ ho
  | @pos n a r its name hpl hd hget _ ih =>
    intro o ho
    obtain ⟨p1, p2⟩ := (plain_iff a).1 hpl
    obtain ⟨q1, q2, q3⟩ := posi_get h o.count
    rw [scan.eq_def]
    simp only [p1, p2, (regInv h).delim, if_neg hd]
    have hlt : n < (positionals h).length := by
      rcases Nat.lt_or_ge n (positionals h).length with h | h
      · exact h
      · rw [List.getElem?_eq_none h] at hget; cases hget
    subst ho
    by_cases hc : o.count < (reg h).required.length
    · rw [if_pos hc]
      rw [q1 hc] at hget
      cases hget
      exact ih _ rfl
    · rw [if_neg hc]
      have hc2 : o.count < (reg h).required.length + (reg h).optional.length := by omega
      rw [if_pos hc2]
      rw [q2 hc hc2] at hget
      cases hget
      exact ih _ rfl
  | @non n a r its hpl hd hge _ ih =>
    intro o ho
    obtain ⟨p1, p2⟩ := (plain_iff a).1 hpl
    obtain ⟨q1, q2, q3⟩ := posi_get h o.count
    rw [scan.eq_def]
    simp only [p1, p2, (regInv h).delim, if_neg hd]
    rw [if_neg (by omega), if_neg (by omega)]
    exact ih _ ho

theorem foldl_out (its : List Item) (o : Out) :
    (∀ n, (its.foldl applyItem o).opt n = (valuesOf its n).getLast?.or (o.opt n)) ∧
    (∀ p, (its.foldl applyItem o).pre p = o.pre p ++ prefixValuesOf its p) ∧
    (its.foldl applyItem o).nonOpt = o.nonOpt ++ nonOptions its ∧
    (its.foldl applyItem o).extra = o.extra ++ extras its ∧
    (its.foldl applyItem o).count = o.count + positionalCount its := by
  induction its generalizing o with
  | nil => simp [valuesOf, prefixValuesOf, nonOptions, extras, positionalCount]
  | cons it its ih =>
    obtain ⟨i1, i2, i3, i4, i5⟩ := ih (applyItem o it)
    simp only [List.foldl_cons]
    refine ⟨?_, ?_, ?_, ?_, ?_⟩
    · intro n
      rw [i1]
      cases it with
      | opt as m v =>
        simp only [valuesOf, List.filterMap_cons, applyItem, Out.set]
        by_cases hm : m = n
        · subst hm
          simp only [if_true, List.getLast?_cons]
          cases (List.getLast? _) <;> simp
        · rw [if_neg hm, if_neg (fun e => hm e.symm)]
      | pos m v =>
        simp only [valuesOf, List.filterMap_cons, applyItem, Out.set]
        by_cases hm : m = n
        · subst hm
          simp only [if_true, List.getLast?_cons]
          cases (List.getLast? _) <;> simp
        · rw [if_neg hm, if_neg (fun e => hm e.symm)]
      | _ => simp [valuesOf, List.filterMap_cons, applyItem, Out.push, Out.non, Out.ext]
    · intro p
      rw [i2]
      cases it with
      | pre as q s v =>
        simp only [prefixValuesOf, List.filterMap_cons, applyItem, Out.push]
        by_cases hm : q = p
        · subst hm; simp
        · rw [if_neg hm, if_neg (fun e => hm e.symm)]
      | _ => simp [prefixValuesOf, List.filterMap_cons, applyItem, Out.set, Out.non, Out.ext]
    · rw [i3]
      cases it <;> simp [nonOptions, List.filterMap_cons, applyItem, Out.set, Out.non, Out.ext, Out.push]
    · rw [i4]
      cases it <;> simp [extras, List.filterMap_cons, applyItem, Out.set, Out.non, Out.ext, Out.push]
    · rw [i5]
      cases it <;> simp [positionalCount, List.filter_cons, applyItem, Out.set, Out.non, Out.ext, Out.push]
      omega

theorem init_cases (rx : S → S → Option S) (h : List Call) (strict clean : Bool) (prog : S)
    (args : List S) :
    (∃ its, Items rx h strict false 0 args its ∧
      scan rx (reg h) strict false { ({} : Out) with count := 0 } args
        = .done (its.foldl applyItem {})) ∨
    ((¬ ∃ its, Items rx h strict false 0 args its) ∧
      scan rx (reg h) strict false { ({} : Out) with count := 0 } args = .fail) := by
  cases hs : scan rx (reg h) strict false { ({} : Out) with count := 0 } args with
  | done o =>
    obtain ⟨its, h1, h2⟩ := scan_sound rx h strict args.length _ _ _ _ (Nat.le_refl _) hs
    exact .inl ⟨its, h1, by rw [h2]⟩
  | fail =>
    refine .inr ⟨?_, rfl⟩
    rintro ⟨its, hi⟩
    rw [scan_complete rx h strict hi _ rfl] at hs
    cases hs

/-! ### C38 -/

/-- C38: the items of a command line contain every argument exactly once, in order. -/
theorem c38_partition (rx : S → S → Option S) (h : List Call) (strict : Bool) (b : Bool) (n : Nat)
    (args : List S) (its : List Item) (hi : Items rx h strict b n args its) :
    its.flatMap Item.args = args := by
  induction hi <;> simp_all [Item.args]

theorem long_not_short {a n m : S} {v : Option S} (h1 : LongForm a n v) (h2 : ShortForm a m) :
    False := by
  have := not_long_of_short h2
  rw [(longOpt_iff a n _).2 ⟨v, h1, rfl⟩] at this
  cases this

theorem short_unique {a n m : S} (h1 : ShortForm a n) (h2 : ShortForm a m) : n = m := by
  obtain ⟨_, _, _, _, rfl⟩ := h1
  obtain ⟨_, _, _, _, h⟩ := h2
  simpa using h

theorem chosen_none {rx : S → S → Option S} {h : List Call} {key : Param → S}
    {isKey : Param → Prop} {name : S} {p : Param} {sfx : S}
    (h1 : Chosen rx h key isKey name p sfx) (h2 : NoPrefix rx h key isKey name) : False := by
  obtain ⟨a, b, c, _⟩ := h1
  have hm := List.mem_of_find?_eq_some a
  have hp := List.find?_some a
  simp only [Bool.and_eq_true] at hp
  rw [h2 p hm hp.1 b] at c
  cases c

theorem chosen_unique {rx : S → S → Option S} {h : List Call} {key : Param → S}
    {isKey : Param → Prop} {name : S} {p q : Param} {sfx sfx' : S}
    (h1 : Chosen rx h key isKey name p sfx) (h2 : Chosen rx h key isKey name q sfx') :
    p = q ∧ sfx = sfx' := by
  obtain ⟨a, b, c, d⟩ := h1
  obtain ⟨a', b', c', d'⟩ := h2
  have hm := List.mem_of_find?_eq_some a
  have hp := List.find?_some a
  have hm' := List.mem_of_find?_eq_some a'
  have hp' := List.find?_some a'
  simp only [Bool.and_eq_true] at hp hp'
  have hk : key p = key q := by
    by_cases he : key p = key q
    · exact he
    · cases hlt : slt (key p) (key q) with
      | true => rw [d' p hm hp.1 b hlt] at c; cases c
      | false =>
        have := slt_total _ _ he hlt
        rw [d q hm' hp'.1 b' this] at c'; cases c'
  rw [hk] at a c
  rw [a] at a'
  rw [c] at c'
  exact ⟨by simpa using a', by simpa using c'⟩

/-- C38: a command line can be split into items in one way only. -/
theorem c38_unique (rx : S → S → Option S) (h : List Call) (strict : Bool) (b : Bool) (n : Nat)
    (args : List S) (its its' : List Item) (hi : Items rx h strict b n args its)
    (hi' : Items rx h strict b n args its') : its = its' := by
  induction hi generalizing its' with
  | nil => cases hi'; rfl
  | extra _ ih => cases hi' with | extra h2 => rw [ih _ h2]
  | long hv hp _ ih =>
    cases hi' with
    | long hv' hp' h2 =>
      obtain ⟨rfl, e⟩ := longForm_name_unique hv hv'
      rw [hp] at hp'; cases hp'
      rw [ih _ h2, e]
    | longPrefix hv' hp' _ _ | longUnknown _ hv' hp' _ _ =>
      obtain ⟨rfl, e⟩ := longForm_name_unique hv hv'
      rw [hp] at hp'; cases hp'
    | shortFlag hv' _ _ _ | shortValue hv' _ _ _ | shortPrefixFlag hv' _ _ _ _
    | shortPrefixValue hv' _ _ _ _ | shortUnknown _ hv' _ _ _ => exact (long_not_short hv hv').elim
    | delim hpl _ _ | pos hpl _ _ _ | non hpl _ _ _ => exact absurd hv (hpl.1 _ _)
  | longPrefix hv hp hc _ ih =>
    cases hi' with
    | longPrefix hv' hp' hc' h2 =>
      obtain ⟨rfl, e⟩ := longForm_name_unique hv hv'
      obtain ⟨rfl, rfl⟩ := chosen_unique hc hc'
      rw [ih _ h2, e]
    | long hv' hp' h2 =>
      obtain ⟨rfl, e⟩ := longForm_name_unique hv hv'
      rw [hp] at hp'; cases hp'
    | longUnknown _ hv' hp' hc' _ =>
      obtain ⟨rfl, e⟩ := longForm_name_unique hv hv'
      exact (chosen_none hc hc').elim
    | shortFlag hv' _ _ _ | shortValue hv' _ _ _ | shortPrefixFlag hv' _ _ _ _
    | shortPrefixValue hv' _ _ _ _ | shortUnknown _ hv' _ _ _ => exact (long_not_short hv hv').elim
    | delim hpl _ _ | pos hpl _ _ _ | non hpl _ _ _ => exact absurd hv (hpl.1 _ _)
  | longUnknown hst hv hp hc _ ih =>
    cases hi' with
    | longUnknown _ hv' hp' hc' h2 => rw [ih _ h2]
    | long hv' hp' h2 =>
      obtain ⟨rfl, e⟩ := longForm_name_unique hv hv'
      rw [hp] at hp'; cases hp'
    | longPrefix hv' hp' hc' h2 =>
      obtain ⟨rfl, e⟩ := longForm_name_unique hv hv'
      exact (chosen_none hc' hc).elim
    | shortFlag hv' _ _ _ | shortValue hv' _ _ _ | shortPrefixFlag hv' _ _ _ _
    | shortPrefixValue hv' _ _ _ _ | shortUnknown _ hv' _ _ _ => exact (long_not_short hv hv').elim
    | delim hpl _ _ | pos hpl _ _ _ | non hpl _ _ _ => exact absurd hv (hpl.1 _ _)
  | shortFlag hv hp hval _ ih =>
    cases hi' with
    | shortFlag hv' hp' _ h2 =>
      obtain rfl := short_unique hv hv'
      rw [hp] at hp'; cases hp'
      rw [ih _ h2]
    | shortValue hv' hp' hval' _ =>
      obtain rfl := short_unique hv hv'
      rw [hp] at hp'; cases hp'
      rw [hval] at hval'; cases hval'
    | shortPrefixFlag hv' hp' _ _ _ | shortPrefixValue hv' hp' _ _ _ | shortUnknown _ hv' hp' _ _ =>
      obtain rfl := short_unique hv hv'
      rw [hp] at hp'; cases hp'
    | long hv' _ _ | longPrefix hv' _ _ _ | longUnknown _ hv' _ _ _ => exact (long_not_short hv' hv).elim
    | delim hpl _ _ | pos hpl _ _ _ | non hpl _ _ _ => exact absurd hv (hpl.2 _)
  | shortValue hv hp hval _ ih =>
    cases hi' with
    | shortValue hv' hp' _ h2 =>
      obtain rfl := short_unique hv hv'
      rw [hp] at hp'; cases hp'
      rw [ih _ h2]
    | shortFlag hv' hp' hval' _ =>
      obtain rfl := short_unique hv hv'
      rw [hp] at hp'; cases hp'
      rw [hval] at hval'; cases hval'
    | shortPrefixFlag hv' hp' _ _ _ | shortPrefixValue hv' hp' _ _ _ | shortUnknown _ hv' hp' _ _ =>
      obtain rfl := short_unique hv hv'
      rw [hp] at hp'; cases hp'
    | long hv' _ _ | longPrefix hv' _ _ _ | longUnknown _ hv' _ _ _ => exact (long_not_short hv' hv).elim
    | delim hpl _ _ | pos hpl _ _ _ | non hpl _ _ _ => exact absurd hv (hpl.2 _)
  | shortPrefixFlag hv hp hc hval _ ih =>
    cases hi' with
    | shortPrefixFlag hv' hp' hc' _ h2 =>
      obtain rfl := short_unique hv hv'
      obtain ⟨rfl, rfl⟩ := chosen_unique hc hc'
      rw [ih _ h2]
    | shortPrefixValue hv' hp' hc' hval' h2 =>
      obtain rfl := short_unique hv hv'
      obtain ⟨rfl, rfl⟩ := chosen_unique hc hc'
      rw [hval] at hval'; cases hval'
    | shortFlag hv' hp' _ _ | shortValue hv' hp' _ _ =>
      obtain rfl := short_unique hv hv'
      rw [hp] at hp'; cases hp'
    | shortUnknown _ hv' hp' hc' _ =>
      obtain rfl := short_unique hv hv'
      exact (chosen_none hc hc').elim
    | long hv' _ _ | longPrefix hv' _ _ _ | longUnknown _ hv' _ _ _ => exact (long_not_short hv' hv).elim
    | delim hpl _ _ | pos hpl _ _ _ | non hpl _ _ _ => exact absurd hv (hpl.2 _)
  | shortPrefixValue hv hp hc hval _ ih =>
    cases hi' with
    | shortPrefixValue hv' hp' hc' _ h2 =>
      obtain rfl := short_unique hv hv'
      obtain ⟨rfl, rfl⟩ := chosen_unique hc hc'
      rw [ih _ h2]
    | shortPrefixFlag hv' hp' hc' hval' h2 =>
      obtain rfl := short_unique hv hv'
      obtain ⟨rfl, rfl⟩ := chosen_unique hc hc'
      rw [hval] at hval'; cases hval'
    | shortFlag hv' hp' _ _ | shortValue hv' hp' _ _ =>
      obtain rfl := short_unique hv hv'
      rw [hp] at hp'; cases hp'
    | shortUnknown _ hv' hp' hc' _ =>
      obtain rfl := short_unique hv hv'
      exact (chosen_none hc hc').elim
    | long hv' _ _ | longPrefix hv' _ _ _ | longUnknown _ hv' _ _ _ => exact (long_not_short hv' hv).elim
    | delim hpl _ _ | pos hpl _ _ _ | non hpl _ _ _ => exact absurd hv (hpl.2 _)
  | shortUnknown hst hv hp hc _ ih =>
    cases hi' with
    | shortUnknown _ hv' hp' hc' h2 => rw [ih _ h2]
    | shortPrefixFlag hv' hp' hc' _ _ | shortPrefixValue hv' hp' hc' _ _ =>
      obtain rfl := short_unique hv hv'
      exact (chosen_none hc' hc).elim
    | shortFlag hv' hp' _ _ | shortValue hv' hp' _ _ =>
      obtain rfl := short_unique hv hv'
      rw [hp] at hp'; cases hp'
    | long hv' _ _ | longPrefix hv' _ _ _ | longUnknown _ hv' _ _ _ => exact (long_not_short hv' hv).elim
    | delim hpl _ _ | pos hpl _ _ _ | non hpl _ _ _ => exact absurd hv (hpl.2 _)
  | delim hpl hd _ ih =>
    cases hi' with
    | delim _ _ h2 => rw [ih _ h2]
    | pos _ hd' _ _ | non _ hd' _ _ => exact absurd hd hd'
    | long hv' _ _ | longPrefix hv' _ _ _ | longUnknown _ hv' _ _ _ => exact absurd hv' (hpl.1 _ _)
    | shortFlag hv' _ _ _ | shortValue hv' _ _ _ | shortPrefixFlag hv' _ _ _ _
    | shortPrefixValue hv' _ _ _ _ | shortUnknown _ hv' _ _ _ => exact absurd hv' (hpl.2 _)
  | pos hpl hd hg _ ih =>
    cases hi' with
    | pos _ _ hg' h2 => rw [hg] at hg'; cases hg'; rw [ih _ h2]
    | delim _ hd' _ => exact absurd hd' hd
    | non _ _ hge _ => rw [List.getElem?_eq_none hge] at hg; cases hg
    | long hv' _ _ | longPrefix hv' _ _ _ | longUnknown _ hv' _ _ _ => exact absurd hv' (hpl.1 _ _)
    | shortFlag hv' _ _ _ | shortValue hv' _ _ _ | shortPrefixFlag hv' _ _ _ _
    | shortPrefixValue hv' _ _ _ _ | shortUnknown _ hv' _ _ _ => exact absurd hv' (hpl.2 _)
  | non hpl hd hge _ ih =>
    cases hi' with
    | non _ _ _ h2 => rw [ih _ h2]
    | delim _ hd' _ => exact absurd hd' hd
    | pos _ _ hg _ => rw [List.getElem?_eq_none hge] at hg; cases hg
    | long hv' _ _ | longPrefix hv' _ _ _ | longUnknown _ hv' _ _ _ => exact absurd hv' (hpl.1 _ _)
    | shortFlag hv' _ _ _ | shortValue hv' _ _ _ | shortPrefixFlag hv' _ _ _ _
    | shortPrefixValue hv' _ _ _ _ | shortUnknown _ hv' _ _ _ => exact absurd hv' (hpl.2 _)

/-- The result `o` reports exactly the items `its`. -/
def Reports (o : Out) (its : List Item) : Prop :=
  (∀ n, o.paramOpt n = ((valuesOf its n).getLast?).getD []) ∧
  (∀ n, o.paramOptPresent n = true ↔ valuesOf its n ≠ []) ∧
  (∀ p, o.paramPrefixOpt p = prefixValuesOf its p) ∧
  (∀ i, o.paramNonOpt i = ((nonOptions its)[i]?).getD []) ∧
  o.nonOpt = nonOptions its ∧ o.extra = extras its

theorem reports_foldl (its : List Item) : Reports (its.foldl applyItem {}) its := by
  obtain ⟨i1, i2, i3, i4, _⟩ := foldl_out its {}
  refine ⟨?_, ?_, ?_, ?_, ?_, ?_⟩
  · intro n; simp [Out.paramOpt, i1]
  · intro n
    simp only [Out.paramOptPresent, i1, Option.or_none]
    rw [Option.isSome_iff_ne_none]
    simp [List.getLast?_eq_none_iff]
  · intro p; simp [Out.paramPrefixOpt, i2]
  · intro i; simp [Out.paramNonOpt, i3]
  · simp [i3]
  · simp [i4]

theorem present_iff (its : List Item) (n : S) :
    (its.foldl applyItem {}).paramOptPresent n = true ↔ valuesOf its n ≠ [] :=
  (reports_foldl its).2.1 n

/-- C38: when `initialize` succeeds, the command line splits into items, and the accessors
report exactly these: the last value given for each option and positional parameter, the
pairs given for each prefix option in order, the non-option arguments and the extra
parameters in order. -/
theorem c38_classifies (rx : S → S → Option S) (h : List Call) (strict clean : Bool) (prog : S)
    (args : List S) (o : Out) (argv : List S) (argc : Nat)
    (hr : init rx (reg h) strict clean {} (prog :: args) = some (.ok o argv argc)) :
    ∃ its, Items rx h strict false 0 args its ∧ Reports o its ∧
      (requiredNames h).length ≤ positionalCount its ∧ valuesOf its ['h', 'e', 'l', 'p'] = [] := by
  simp only [init] at hr
  rcases init_cases rx h strict clean prog args with ⟨its, hi, hs⟩ | ⟨_, hs⟩
  · rw [hs] at hr
    have hcount := (foldl_out its {}).2.2.2.2
    simp only [(regInv h).required, hcount, Nat.zero_add] at hr
    split at hr
    · cases hr
    · rename_i hc
      split at hr
      · cases hr
      · rename_i hhelp
        rw [present_iff] at hhelp
        have ho : o = its.foldl applyItem {} := by
          split at hr
          · simp only [Option.map_eq_some_iff] at hr
            obtain ⟨x, _, hx⟩ := hr
            cases hx
            rfl
          · cases hr
            rfl
        exact ⟨its, hi, ho ▸ reports_foldl its, by omega, by simpa using hhelp⟩
  · rw [hs] at hr
    cases hr

/-- C38: `initialize` fails exactly on the command lines that do not split into items. -/
theorem c38_fails_iff (rx : S → S → Option S) (h : List Call) (strict clean : Bool) (prog : S)
    (args : List S) :
    init rx (reg h) strict clean {} (prog :: args) = some .fail ↔
      ¬ ∃ its, Items rx h strict false 0 args its := by
  simp only [init]
  rcases init_cases rx h strict clean prog args with ⟨its, hi, hs⟩ | ⟨hn, hs⟩
  · rw [hs]
    constructor
    · intro hr
      simp only at hr
      split at hr
      · cases hr
      · split at hr
        · cases hr
        · split at hr
          · simp only [Option.map_eq_some_iff] at hr
            obtain ⟨x, _, hx⟩ := hr
            cases hx
          · cases hr
    · intro hn
      exact absurd ⟨its, hi⟩ hn
  · rw [hs]
    simp [hn]

/-- C38: the process ends exactly when a required positional parameter is missing or
`help` was given. -/
theorem c38_exits_iff (rx : S → S → Option S) (h : List Call) (strict clean : Bool) (prog : S)
    (args : List S) :
    init rx (reg h) strict clean {} (prog :: args) = some .exit ↔
      ∃ its, Items rx h strict false 0 args its ∧
        (positionalCount its < (requiredNames h).length ∨ valuesOf its ['h', 'e', 'l', 'p'] ≠ []) := by
  simp only [init]
  rcases init_cases rx h strict clean prog args with ⟨its, hi, hs⟩ | ⟨hn, hs⟩
  · have hcount := (foldl_out its {}).2.2.2.2
    rw [hs]
    simp only [(regInv h).required, hcount, Nat.zero_add]
    constructor
    · intro hr
      split at hr
      · rename_i hc; exact ⟨its, hi, .inl hc⟩
      · split at hr
        · rename_i hh; exact ⟨its, hi, .inr ((present_iff _ _).1 hh)⟩
        · split at hr
          · simp only [Option.map_eq_some_iff] at hr
            obtain ⟨x, _, hx⟩ := hr
            cases hx
          · cases hr
    · rintro ⟨its', hi', hc⟩
      obtain rfl := c38_unique _ _ _ _ _ _ _ _ hi hi'
      rcases hc with hc | hc
      · rw [if_pos hc]
      · split
        · rfl
        · rw [if_pos ((present_iff _ _).2 hc)]
  · rw [hs]
    constructor
    · intro hr; cases hr
    · rintro ⟨its, hi, _⟩; exact absurd ⟨its, hi⟩ hn

/-- C38: in strict mode an argument that looks like an option is never taken as a
non-option argument. -/
theorem c38_strict_rejects_unknown (rx : S → S → Option S) (h : List Call) (b : Bool) (n : Nat)
    (args : List S) (its : List Item) (hi : Items rx h true b n args its) (a : S)
    (ha : a ∈ nonOptions its) : Plain a := by
  generalize hst : true = st at hi
  induction hi with
  | nil => simp [nonOptions] at ha
  | longUnknown hst' _ _ _ _ _ => rw [hst'] at hst; cases hst
  | shortUnknown hst' _ _ _ _ _ => rw [hst'] at hst; cases hst
  | non hpl _ _ _ ih =>
    simp only [nonOptions, List.filterMap_cons, List.mem_cons] at ha ih
    rcases ha with rfl | ha
    · exact hpl
    · exact ih ha
  | _ =>
    rename_i ih
    exact ih (by simpa [nonOptions] using ha)

/-- C38: in relaxed mode `initialize` fails only if the last argument is a short option
whose value is missing. -/
theorem c38_relaxed_fails_only_without_value (rx : S → S → Option S) (h : List Call) (clean : Bool)
    (prog : S) (args : List S)
    (hf : init rx (reg h) false clean {} (prog :: args) = some .fail) :
    ∃ pre a name, args = pre ++ [a] ∧ ShortForm a name ∧
      ((∃ p, shortParam h name = some p ∧ p.hasValue = true) ∨
       (shortParam h name = none ∧ ∃ p sfx,
          Chosen rx h Param.short (fun q => q.short ≠ []) name p sfx ∧ p.hasValue = true)) := by
  rw [c38_fails_iff] at hf
  have key : ∀ (N : Nat) (args : List S) (b : Bool) (n : Nat), args.length ≤ N →
      (¬ ∃ its, Items rx h false b n args its) →
      ∃ pre a name, args = pre ++ [a] ∧ ShortForm a name ∧
      ((∃ p, shortParam h name = some p ∧ p.hasValue = true) ∨
       (shortParam h name = none ∧ ∃ p sfx,
          Chosen rx h Param.short (fun q => q.short ≠ []) name p sfx ∧ p.hasValue = true)) := by
    intro N
    induction N with
    | zero =>
      intro args b n hl hn
      have : args = [] := List.eq_nil_of_length_eq_zero (by omega)
      subst this
      exact absurd ⟨[], .nil⟩ hn
    | succ N ih =>
      intro args b n hl hn
      cases args with
      | nil => exact absurd ⟨[], .nil⟩ hn
      | cons a r =>
        have hr : r.length ≤ N := by simp at hl; omega
        have lift : ∀ (b : Bool) (n : Nat), (¬ ∃ its, Items rx h false b n r its) → _ :=
          fun b n hq => ih r b n hr hq
        have fin : (∃ pre a' name, r = pre ++ [a'] ∧ ShortForm a' name ∧
            ((∃ p, shortParam h name = some p ∧ p.hasValue = true) ∨
             (shortParam h name = none ∧ ∃ p sfx,
              Chosen rx h Param.short (fun q => q.short ≠ []) name p sfx ∧ p.hasValue = true))) →
            ∃ pre a' name, a :: r = pre ++ [a'] ∧ ShortForm a' name ∧
            ((∃ p, shortParam h name = some p ∧ p.hasValue = true) ∨
             (shortParam h name = none ∧ ∃ p sfx,
              Chosen rx h Param.short (fun q => q.short ≠ []) name p sfx ∧ p.hasValue = true)) := by
          rintro ⟨pre, a', nm, h1, h2⟩
          exact ⟨a :: pre, a', nm, by rw [h1]; rfl, h2⟩
        cases b with
        | true => exact fin (lift true n fun ⟨its, hi⟩ => hn ⟨_, .extra hi⟩)
        | false =>
          by_cases hlong : ∃ name v, LongForm a name v
          · obtain ⟨name, v, hv⟩ := hlong
            cases hp : longParam h name with
            | some p => exact fin (lift false n fun ⟨its, hi⟩ => hn ⟨_, .long hv hp hi⟩)
            | none =>
              cases hfp : findPrefix rx name (reg h).prefixes with
              | none =>
                have hc := (findPrefix_long rx h name).1.1 hfp
                exact fin (lift false n fun ⟨its, hi⟩ => hn ⟨_, .longUnknown rfl hv hp hc hi⟩)
              | some x =>
                obtain ⟨k, p, sfx⟩ := x
                have hc := (((findPrefix_long rx h name).2 _ _ _).1 hfp).2
                exact fin (lift false n fun ⟨its, hi⟩ => hn ⟨_, .longPrefix hv hp hc hi⟩)
          · by_cases hshort : ∃ name, ShortForm a name
            · obtain ⟨name, hv⟩ := hshort
              cases hp : shortParam h name with
              | some p =>
                cases hval : p.hasValue with
                | false => exact fin (lift false n fun ⟨its, hi⟩ => hn ⟨_, .shortFlag hv hp hval hi⟩)
                | true =>
                  cases r with
                  | nil => exact ⟨[], a, name, rfl, hv, .inl ⟨p, hp, hval⟩⟩
                  | cons w r' =>
                    obtain ⟨pre, a', nm, h1, h2⟩ := ih r' false n (by simp at hr; omega)
                      fun ⟨its, hi⟩ => hn ⟨_, .shortValue hv hp hval hi⟩
                    exact ⟨a :: w :: pre, a', nm, by rw [h1]; rfl, h2⟩
              | none =>
                cases hfp : findPrefix rx name (reg h).shortPrefixes with
                | none =>
                  have hc := (findPrefix_short rx h name).1.1 hfp
                  exact fin (lift false n fun ⟨its, hi⟩ => hn ⟨_, .shortUnknown rfl hv hp hc hi⟩)
                | some x =>
                  obtain ⟨k, p, sfx⟩ := x
                  have hc := ((findPrefix_short rx h name).2 p sfx).1 ⟨k, hfp⟩
                  cases hval : p.hasValue with
                  | false =>
                    exact fin (lift false n fun ⟨its, hi⟩ => hn ⟨_, .shortPrefixFlag hv hp hc hval hi⟩)
                  | true =>
                    cases r with
                    | nil => exact ⟨[], a, name, rfl, hv, .inr ⟨hp, p, sfx, hc, hval⟩⟩
                    | cons w r' =>
                      obtain ⟨pre, a', nm, h1, h2⟩ := ih r' false n (by simp at hr; omega)
                        fun ⟨its, hi⟩ => hn ⟨_, .shortPrefixValue hv hp hc hval hi⟩
                      exact ⟨a :: w :: pre, a', nm, by rw [h1]; rfl, h2⟩
            · have hpl : Plain a := ⟨fun nm v hv => hlong ⟨nm, v, hv⟩, fun nm hv => hshort ⟨nm, hv⟩⟩
              by_cases hd : delimiter h = some a
              · exact fin (lift true n fun ⟨its, hi⟩ => hn ⟨_, .delim hpl hd hi⟩)
              · cases hg : (positionals h)[n]? with
                | some nm =>
                  exact fin (lift false (n + 1) fun ⟨its, hi⟩ => hn ⟨_, .pos hpl hd hg hi⟩)
                | none =>
                  exact fin (lift false n fun ⟨its, hi⟩ =>
                    hn ⟨_, .non hpl hd (List.getElem?_eq_none_iff.1 hg) hi⟩)
  exact key args.length args false 0 (Nat.le_refl _) hf

/-- C38: positional parameters are given their names in order, the required ones first, and
an argument is a plain non-option only when no positional parameter is left. -/
theorem c38_positional_order (rx : S → S → Option S) (h : List Call) (strict : Bool)
    (args : List S) (its : List Item) (hi : Items rx h strict false 0 args its) :
    (its.filterMap fun it => match it with
      | .pos nm _ => some nm
      | _ => none) = (positionals h).take (positionalCount its) ∧
    positionalCount its ≤ (positionals h).length ∧
    (∀ a ∈ nonOptions its, Plain a → positionalCount its = (positionals h).length) := by
  have key : ∀ (b : Bool) (n : Nat) (args : List S) (its : List Item),
      Items rx h strict b n args its → n ≤ (positionals h).length →
      ((its.filterMap fun it => match it with
        | .pos nm _ => some nm
        | _ => none) = ((positionals h).drop n).take (positionalCount its) ∧
      n + positionalCount its ≤ (positionals h).length ∧
      ∀ a ∈ nonOptions its, Plain a → n + positionalCount its = (positionals h).length) := by
    intro b n args its hi
    induction hi with
    | nil => intro hn; simp [positionalCount, nonOptions, hn]
    | longUnknown _ hv _ _ _ ih =>
      intro hn
      obtain ⟨i1, i2, i3⟩ := ih hn
      refine ⟨by simpa [positionalCount] using i1, by simpa [positionalCount] using i2, ?_⟩
      intro a ha hpl
      simp only [nonOptions, List.filterMap_cons, List.mem_cons] at ha
      rcases ha with rfl | ha
      · exact absurd hv (hpl.1 _ _)
      · simpa [positionalCount] using i3 a (by simpa [nonOptions] using ha) hpl
    | shortUnknown _ hv _ _ _ ih =>
      intro hn
      obtain ⟨i1, i2, i3⟩ := ih hn
      refine ⟨by simpa [positionalCount] using i1, by simpa [positionalCount] using i2, ?_⟩
      intro a ha hpl
      simp only [nonOptions, List.filterMap_cons, List.mem_cons] at ha
      rcases ha with rfl | ha
      · exact absurd hv (hpl.2 _)
      · simpa [positionalCount] using i3 a (by simpa [nonOptions] using ha) hpl
    | pos hpl hd hg _ ih =>
      intro hn
      obtain ⟨hlt, hget⟩ := List.getElem?_eq_some_iff.1 hg
      obtain ⟨i1, i2, i3⟩ := ih (by omega)
      refine ⟨?_, ?_, ?_⟩
      · simp only [List.filterMap_cons, positionalCount, List.filter_cons, if_true,
          List.length_cons]
        rw [List.drop_eq_getElem_cons hlt, List.take_succ_cons, hget]
        simp only [positionalCount] at i1
        rw [i1]
      · simp only [positionalCount, List.filter_cons, if_true, List.length_cons] at i2 ⊢
        omega
      · intro a ha hpa
        have := i3 a (by simpa [nonOptions] using ha) hpa
        simp only [positionalCount, List.filter_cons, if_true, List.length_cons] at this ⊢
        omega
    | non hpl hd hge _ ih =>
      intro hn
      obtain ⟨i1, i2, i3⟩ := ih hn
      refine ⟨by simpa [positionalCount] using i1, by simpa [positionalCount] using i2, ?_⟩
      intro a _ _
      simp only [positionalCount, List.filter_cons, Bool.false_eq_true, if_false] at i2 ⊢
      omega
    | _ =>
      rename_i ih
      intro hn
      obtain ⟨i1, i2, i3⟩ := ih hn
      exact ⟨by simpa [positionalCount] using i1, by simpa [positionalCount] using i2,
        by simpa [positionalCount, nonOptions] using i3⟩
  obtain ⟨k1, k2, k3⟩ := key false 0 args its hi (Nat.zero_le _)
  exact ⟨by simpa using k1, by simpa using k2, by simpa using k3⟩

/-- C38: everything after the delimiter is an extra parameter, whatever it looks like. -/
theorem c38_extra_parameters (rx : S → S → Option S) (h : List Call) (strict : Bool) (n : Nat)
    (args : List S) : Items rx h strict true n args (args.map .extra) := by
  induction args with
  | nil => exact .nil
  | cons a r ih => exact .extra ih

/-- C38: a registered option that needs a value is accepted without one; its value is then
the empty string (the code means to report this, its check never fails). -/
theorem c38_missing_long_value_is_empty (rx : S → S → Option S) (h : List Call) (strict : Bool)
    (n : Nat) (name : S) (p : Param) (hp : longParam h name = some p) (hval : p.hasValue = true)
    (hf : LongForm ('-' :: '-' :: name) name none) :
    Items rx h strict false n ['-' :: '-' :: name] [.opt ['-' :: '-' :: name] name []] := by
  have := Items.long (rx := rx) (strict := strict) (n := n) hf hp .nil
  simpa [hval] using this

/-- C38: an option whose registered name ends with a colon takes a value and is known
without the colon; any other option is a flag. -/
theorem c38_value_syntax (n s : S) (b : Bool) :
    mkParam (n ++ [':']) s b = ⟨n, s, true, b⟩ ∧
    (n.getLast? ≠ some ':' → mkParam n s b = ⟨n, s, false, b⟩) := by
  constructor
  · simp [mkParam]
  · intro h; simp [mkParam, h]

/-- C38: registering lists of options and positional parameters, after any history, is the same as registering their
members one by one in order. -/
theorem c38_lists (h : List Call) (ps : List (S × S × Bool)) (qs : List (S × Bool)) :
    addParameters (ps.map fun p => mkParam p.1 p.2.1 p.2.2) (reg h) = reg (h ++ ps.map fun p => .param p.1 p.2.1 p.2.2) ∧
    addPositionals qs (reg h) = reg (h ++ qs.map fun q => .positional q.1 q.2) := by
  simp only [addParameters, addPositionals, reg, List.foldl_append, List.foldl_map]
  exact ⟨rfl, rfl⟩

example : (addPositionals [(['a'], true), (['b'], false), (['c'], false)] (reg [])).required = [['b'], ['c']] := by decide +kernel

/-! ### C39 -/

theorem shift_spec (p : List S) (x : S) (ys zs : List S) :
    ∃ y, shift ys.length (p.length + 1) (p ++ x :: ys ++ zs) = p ++ ys ++ y :: zs := by
  induction ys generalizing p x with
  | nil => exact ⟨x, by simp [shift]⟩
  | cons y ys ih =>
    obtain ⟨w, hw⟩ := ih (p ++ [y]) y
    refine ⟨w, ?_⟩
    simp only [List.length_cons, shift, Nat.add_sub_cancel]
    have h1 : (p ++ x :: y :: ys ++ zs).getD (p.length + 1) [] = y := by
      rw [List.getD_eq_getElem?_getD]
      simp [List.append_assoc, List.getElem?_append_right]
    have h2 : (p ++ x :: y :: ys ++ zs).set p.length y = p ++ y :: y :: ys ++ zs := by
      simp [List.append_assoc, List.set_append]
    rw [h1, h2]
    simpa [List.append_assoc] using hw

theorem cleanup_spec (nonOpt : List S) (k : Nat) (done rest junk : List S) (hk : rest.length ≤ k) :
    ∃ junk', cleanup nonOpt k done.length (done.length + rest.length) (done ++ rest ++ junk)
      = some (done ++ rest.filter (· ∈ nonOpt) ++ junk',
          done.length + (rest.filter (· ∈ nonOpt)).length) := by
  induction k generalizing done rest junk with
  | zero =>
    have : rest = [] := List.eq_nil_of_length_eq_zero (by omega)
    subst this
    exact ⟨junk, by simp [cleanup]⟩
  | succ k ih =>
    cases rest with
    | nil => exact ⟨junk, by simp [cleanup]⟩
    | cons a r =>
      have hg : (done ++ a :: r ++ junk).getD done.length [] = a := by
        rw [List.getD_eq_getElem?_getD]
        simp [List.append_assoc, List.getElem?_append_right]
      simp only [cleanup, hg, List.length_cons]
      rw [if_pos (by omega)]
      by_cases ha : a ∈ nonOpt
      · rw [if_pos ha]
        obtain ⟨j, hj⟩ := ih (done ++ [a]) r junk (by simp at hk; omega)
        refine ⟨j, ?_⟩
        simp only [List.length_append, List.length_cons, List.length_nil] at hj
        rw [List.filter_cons_of_pos (by simpa using ha)]
        rw [show done.length + (r.length + 1) = done.length + (0 + 1) + r.length by omega,
          show done.length + 1 = done.length + (0 + 1) by omega]
        have e : done ++ a :: r ++ junk = done ++ [a] ++ r ++ junk := by simp
        rw [e, hj]
        simp; omega
      · rw [if_neg ha]
        obtain ⟨y, hy⟩ := shift_spec done a r junk
        obtain ⟨j, hj⟩ := ih done r (y :: junk) (by simp at hk; omega)
        refine ⟨j, ?_⟩
        rw [List.filter_cons_of_neg (by simpa using ha)]
        rw [show done.length + (r.length + 1) - (done.length + 1) = r.length by omega,
          show done.length + (r.length + 1) - 1 = done.length + r.length by omega, hy, hj]

theorem init_ok_cleanup {rx : S → S → Option S} {h : List Call} {strict : Bool} {prog : S}
    {args : List S} {o : Out} {argv : List S} {argc : Nat}
    (hr : init rx (reg h) strict true {} (prog :: args) = some (.ok o argv argc)) :
    argv.take argc = prog :: args.filter (· ∈ o.nonOpt) := by
  simp only [init] at hr
  split at hr
  · cases hr
  · split at hr
    · cases hr
    · split at hr
      · cases hr
      · simp only [if_true, Option.map_eq_some_iff] at hr
        obtain ⟨⟨x1, x2⟩, hx, he⟩ := hr
        cases he
        obtain ⟨j, hj⟩ := cleanup_spec o.nonOpt (prog :: args).length [prog] args [] (by simp)
        simp only [List.length_cons, List.length_nil, List.append_nil, List.cons_append,
          List.nil_append] at hj hx
        rw [show 0 + 1 + args.length = args.length + 1 by omega] at hj
        rw [hx] at hj
        simp only [Option.some.injEq, Prod.mk.injEq] at hj
        rw [hj.1, hj.2]
        rw [show 0 + 1 + (args.filter (· ∈ o.nonOpt)).length
          = (args.filter (· ∈ o.nonOpt)).length + 1 by omega, List.take_succ_cons, List.take_left]

/-- C39: the clean-up always terminates. -/
theorem c39_cleanup_terminates (rx : S → S → Option S) (h : List Call) (strict clean : Bool)
    (argv : List S) : ∃ r, init rx (reg h) strict clean {} argv = some r := by
  cases argv with
  | nil => exact ⟨_, rfl⟩
  | cons prog args =>
    simp only [init]
    split
    · exact ⟨_, rfl⟩
    · rename_i o _
      split
      · exact ⟨_, rfl⟩
      · split
        · exact ⟨_, rfl⟩
        · split
          · obtain ⟨j, hj⟩ := cleanup_spec o.nonOpt (prog :: args).length [prog] args [] (by simp)
            simp only [List.length_cons, List.length_nil, List.append_nil, List.cons_append,
              List.nil_append] at hj
            rw [show 0 + 1 + args.length = args.length + 1 by omega] at hj
            simp only [List.length_cons]
            rw [hj]
            exact ⟨_, rfl⟩
          · exact ⟨_, rfl⟩

/-- C39: without clean-up the command line is left alone. -/
theorem c39_no_cleanup (rx : S → S → Option S) (h : List Call) (strict : Bool) (av : List S)
    (o : Out) (argv : List S) (argc : Nat)
    (hr : init rx (reg h) strict false {} av = some (.ok o argv argc)) :
    argv = av ∧ argc = av.length := by
  cases av with
  | nil => cases hr
  | cons prog args =>
    simp only [init] at hr
    split at hr
    · cases hr
    · split at hr
      · cases hr
      · split at hr
        · cases hr
        · simp only [Bool.false_eq_true, if_false, Option.some.injEq, Res.ok.injEq] at hr
          exact ⟨hr.2.1.symm, hr.2.2.symm⟩

theorem nonOptions_sublist (its : List Item) (P : S → Bool) (hP : ∀ a ∈ nonOptions its, P a) :
    (nonOptions its).Sublist ((its.flatMap Item.args).filter P) := by
  induction its with
  | nil => simp [nonOptions]
  | cons it its ih =>
    cases it with
    | non a =>
      have ha : P a := hP a (by simp [nonOptions])
      have := ih (fun b hb => hP b (by simp [nonOptions] at hb ⊢; exact .inr hb))
      simp only [nonOptions, List.filterMap_cons, List.flatMap_cons, Item.args, List.cons_append,
        List.nil_append, List.filter_cons, ha, if_true]
      exact this.cons_cons a
    | _ =>
      have h1 := ih (fun b hb => hP b (by simpa [nonOptions] using hb))
      simp only [List.flatMap_cons, List.filter_append]
      exact (show (nonOptions _).Sublist _ from by simpa [nonOptions] using h1).trans
        (List.sublist_append_right _ _)

/-- C39: after clean-up `argv` is the program name followed by all arguments whose text is
the text of a non-option argument; no non-option argument is lost and the order is kept. -/
theorem c39_cleanup_keeps_nonoptions (rx : S → S → Option S) (h : List Call) (strict : Bool)
    (prog : S) (args : List S) (o : Out) (argv : List S) (argc : Nat)
    (hr : init rx (reg h) strict true {} (prog :: args) = some (.ok o argv argc)) :
    ∃ its kept, Items rx h strict false 0 args its ∧ argv.take argc = prog :: kept ∧
      kept = args.filter (· ∈ nonOptions its) ∧ (nonOptions its).Sublist kept ∧
      ∀ a ∈ kept, a ∈ nonOptions its := by
  obtain ⟨its, hi, hrep, _⟩ := c38_classifies _ _ _ _ _ _ _ _ _ hr
  have h1 := init_ok_cleanup hr
  rw [hrep.2.2.2.2.1] at h1
  refine ⟨its, _, hi, h1, rfl, ?_, ?_⟩
  · have := nonOptions_sublist its (fun a => decide (a ∈ nonOptions its)) (by simp)
    rwa [c38_partition _ _ _ _ _ _ _ hi] at this
  · intro a ha
    simpa using (List.mem_filter.1 ha).2

/-- C39: if no consumed argument has the same text as a non-option argument, `argv` is
afterwards exactly the program name and the non-option arguments in order. -/
theorem c39_cleanup_exact_partial (rx : S → S → Option S) (h : List Call) (strict : Bool)
    (prog : S) (args : List S) (o : Out) (argv : List S) (argc : Nat) (its : List Item)
    (hr : init rx (reg h) strict true {} (prog :: args) = some (.ok o argv argc))
    (hi : Items rx h strict false 0 args its)
    (hdiff : ∀ it ∈ its, (∀ a, it ≠ .non a) → ∀ a ∈ it.args, a ∉ nonOptions its) :
    argv.take argc = prog :: nonOptions its := by
  obtain ⟨its', kept, hi', h1, h2, _, _⟩ := c39_cleanup_keeps_nonoptions _ _ _ _ _ _ _ _ hr
  obtain rfl := c38_unique _ _ _ _ _ _ _ _ hi hi'
  rw [h1, h2]
  congr 1
  have hp := c38_partition _ _ _ _ _ _ _ hi
  have key : ∀ l : List Item, (∀ it ∈ l, (∀ a, it ≠ .non a) → ∀ a ∈ it.args, a ∉ nonOptions its) →
      (∀ a, .non a ∈ l → a ∈ nonOptions its) →
      (l.flatMap Item.args).filter (· ∈ nonOptions its) = nonOptions l := by
    intro l
    induction l with
    | nil => intro _ _; simp [nonOptions]
    | cons it l ih =>
      intro q1 q2
      have ih' := ih (fun x hx => q1 x (List.mem_cons_of_mem _ hx))
        (fun a ha => q2 a (List.mem_cons_of_mem _ ha))
      simp only [List.flatMap_cons, List.filter_append, ih']
      cases it with
      | non a =>
        have := q2 a List.mem_cons_self
        have e : nonOptions (.non a :: l) = a :: nonOptions l := by simp [nonOptions]
        rw [e]
        simp [Item.args, this]
      | _ =>
        have q3 := q1 _ List.mem_cons_self (by intro a; simp)
        have e : ∀ x : List S, (∀ a ∈ x, a ∉ nonOptions its) → x.filter (· ∈ nonOptions its) = [] := by
          intro x hx
          rw [List.filter_eq_nil_iff]
          intro a ha
          simpa using hx a ha
        rw [e _ q3]
        simp [nonOptions]
  rw [← hp]
  refine key its hdiff ?_
  intro a ha
  simp only [nonOptions, List.mem_filterMap]
  exact ⟨_, ha, rfl⟩

/-! ### Concrete command lines -/

/-- What can be seen of a successful result. -/
structure View where
  /-- the values of some options -/
  vals : List (Option S)
  /-- the non-option arguments -/
  nonOpt : List S
  /-- the extra parameters -/
  extra : List S
  /-- `argv` afterwards -/
  argv : List S
  deriving DecidableEq

/-- What can be seen of a result. -/
def view (r : Option Res) (names : List S) : Option View :=
  match r with
  | some (.ok o argv argc) => some ⟨names.map o.opt, o.nonOpt, o.extra, argv.take argc⟩
  | _ => none

/-- A program with an option `--file`/`-f` with value, a flag `-v`, a required positional
parameter and extra parameters after `--`. -/
def demo : List Call :=
  [.param "file:".toList "f".toList false, .param "verbose".toList "v".toList false,
   .positional "src".toList false, .activate "--".toList]

example : view (init literalRx (reg demo) true true {}
    (["prog", "-f", "a", "in", "--file=b", "-v", "rest", "--", "-x", "--y"].map String.toList))
    (["file", "verbose", "src"].map String.toList)
  = some ⟨[some "b".toList, some "yes".toList, some "in".toList], ["rest".toList],
      ["-x".toList, "--y".toList], ["prog".toList, "rest".toList]⟩ := by decide +kernel

/-- C39 (exact): `argv` is afterwards exactly the program name and the non-option arguments in order if
and only if no consumed argument has the same text as a non-option argument. -/
theorem c39_cleanup_iff (rx : S → S → Option S) (h : List Call) (strict : Bool)
    (prog : S) (args : List S) (o : Out) (argv : List S) (argc : Nat) (its : List Item)
    (hr : init rx (reg h) strict true {} (prog :: args) = some (.ok o argv argc))
    (hi : Items rx h strict false 0 args its) :
    argv.take argc = prog :: nonOptions its ↔
      ∀ it ∈ its, (∀ a, it ≠ .non a) → ∀ a ∈ it.args, a ∉ nonOptions its := by
  constructor
  · intro he it hit hn a ha hc
    obtain ⟨its', kept, hi', h1, h2, _, _⟩ := c39_cleanup_keeps_nonoptions _ _ _ _ _ _ _ _ hr
    obtain rfl := c38_unique _ _ _ _ _ _ _ _ hi hi'
    rw [h1, h2, ← c38_partition _ _ _ _ _ _ _ hi, List.cons.injEq] at he
    have key : ∀ l : List Item, (∀ a, .non a ∈ l → a ∈ nonOptions its) →
        (nonOptions l).length ≤ ((l.flatMap Item.args).filter (· ∈ nonOptions its)).length ∧
        (it ∈ l → (nonOptions l).length < ((l.flatMap Item.args).filter (· ∈ nonOptions its)).length) := by
      intro l
      induction l with
      | nil => intro _; simp [nonOptions]
      | cons x l ih =>
        intro q
        obtain ⟨i1, i2⟩ := ih (fun a ha => q a (List.mem_cons_of_mem _ ha))
        simp only [List.flatMap_cons, List.filter_append, List.length_append]
        have hx : (nonOptions (x :: l)).length ≤ (x.args.filter (· ∈ nonOptions its)).length + (nonOptions l).length ∧
            (x = it → (nonOptions (x :: l)).length < (x.args.filter (· ∈ nonOptions its)).length + (nonOptions l).length) := by
          have hpos : x = it → 0 < (x.args.filter (· ∈ nonOptions its)).length := by
            rintro rfl
            exact List.length_pos_of_mem (List.mem_filter.2 ⟨ha, by simpa using hc⟩)
          cases x with
          | non b =>
            have hb := q b List.mem_cons_self
            refine ⟨?_, fun e => absurd e.symm (hn b)⟩
            have e : nonOptions (.non b :: l) = b :: nonOptions l := by simp [nonOptions]
            rw [e]
            simp [Item.args, hb]
            omega
          | _ =>
            refine ⟨by simp [nonOptions], fun e => ?_⟩
            have := hpos e
            simp only [nonOptions, List.filterMap_cons] at *
            omega
        refine ⟨by omega, fun hm => ?_⟩
        rcases List.mem_cons.1 hm with e | hm
        · have := hx.2 e.symm; omega
        · have := i2 hm; omega
    have := (key its (fun a ha => by simp only [nonOptions, List.mem_filterMap]; exact ⟨_, ha, rfl⟩)).2 hit
    rw [he.2] at this
    omega
  · exact c39_cleanup_exact_partial rx h strict prog args o argv argc its hr hi

/-- C39 fails in general: an option value with the same text as a non-option argument stays
in `argv`. -/
theorem c39_equal_text_is_kept :
    view (init literalRx (reg demo) true true {}
      (["prog", "in", "-f", "x", "x"].map String.toList)) (["file"].map String.toList)
    = some ⟨[some "x".toList], ["x".toList], [], ["prog".toList, "x".toList, "x".toList]⟩ := by
  decide +kernel

/-- C38: `--file` without a value is accepted with the empty value, and a following argument
is not taken as the value. -/
theorem c38_long_value_not_taken_from_next :
    view (init literalRx (reg demo) true false {}
      (["prog", "in", "--file", "x"].map String.toList)) (["file"].map String.toList)
    = some ⟨[some []], ["x".toList], [], ["prog", "in", "--file", "x"].map String.toList⟩ := by
  decide +kernel

/-- C38: with two prefix options the alphabetically smaller one takes an argument that is
meant for the longer one. -/
theorem c38_shorter_prefix_wins :
    (init literalRx (reg [.param "o:".toList [] true, .param "opt:".toList [] true]) true false {}
      (["prog", "--optx=1"].map String.toList)).map (fun r => match r with
        | .ok o _ _ => (o.paramPrefixOpt "o".toList, o.paramPrefixOpt "opt".toList)
        | _ => ([], []))
    = some ([("ptx".toList, "1".toList)], []) := by decide +kernel

/-- C38: `initialize` does not remember that it ran; a second call parses again and appends
to the results of the first. -/
theorem c38_second_call_accumulates (rx : S → S → Option S) (h : List Call) (strict : Bool)
    (o o1 : Out) (prog : S) (args argv : List S) (argc : Nat) (its : List Item)
    (hi : Items rx h strict false 0 args its)
    (hr : init rx (reg h) strict false o (prog :: args) = some (.ok o1 argv argc)) :
    o1.nonOpt = o.nonOpt ++ nonOptions its ∧ o1.extra = o.extra ++ extras its := by
  have hs := scan_complete rx h strict hi { o with count := 0 } rfl
  simp only [init, hs] at hr
  obtain ⟨_, _, i3, i4, _⟩ := foldl_out its { o with count := 0 }
  split at hr
  · cases hr
  · split at hr
    · cases hr
    · simp only [Bool.false_eq_true, if_false, Option.some.injEq, Res.ok.injEq] at hr
      rw [← hr.1]
      exact ⟨i3, i4⟩

end Verif.Getopt
