import Verif.Config.GetoptSpec

/-! # Helper lemmas for the command line parser -/
namespace Verif.Getopt

theorem slt_trans {a b c : S} (h1 : slt a b = true) (h2 : slt b c = true) : slt a c = true := by
  induction a generalizing b c with
  | nil =>
    cases c with
    | nil => cases b <;> simp [slt] at h2
    | cons => simp [slt]
  | cons x xs ih =>
    cases b with
    | nil => simp [slt] at h1
    | cons y ys =>
      cases c with
      | nil => simp [slt] at h2
      | cons z zs =>
        simp only [slt] at h1 h2 ⊢
        split at h1
        · subst_vars
          split at h2
          · subst_vars; simp only [if_true]; exact ih h1 h2
          · rename_i hne; rw [if_neg hne]; exact h2
        · split at h2
          · rename_i hne he; subst he; rw [if_neg hne]; exact h1
          · simp only [decide_eq_true_eq] at h1 h2
            rw [if_neg (by rintro rfl; omega)]
            simp; omega

theorem slt_irrefl (a : S) : slt a a = false := by
  induction a with
  | nil => rfl
  | cons x xs ih => simp [slt, ih]

theorem slt_total (a b : S) (h : a ≠ b) (h2 : slt a b = false) : slt b a = true := by
  induction a generalizing b with
  | nil =>
    cases b with
    | nil => exact absurd rfl h
    | cons => simp [slt] at h2
  | cons x xs ih =>
    cases b with
    | nil => simp [slt]
    | cons y ys =>
      simp only [slt] at h2 ⊢
      by_cases he : x = y
      · subst he
        simp only [if_true] at h2 ⊢
        exact ih ys (by rintro rfl; exact h rfl) h2
      · rw [if_neg he] at h2
        rw [if_neg (fun e => he e.symm)]
        simp only [decide_eq_false_iff_not] at h2
        simp only [decide_eq_true_eq]
        have : x.toNat ≠ y.toNat := by
          intro e
          apply he
          apply Char.ext
          exact UInt32.toNat_inj.1 e
        omega

/-- The map is in strictly increasing key order. -/
def Sorted {α : Type} (m : List (S × α)) : Prop := m.Pairwise fun a b => slt a.1 b.1 = true

theorem ins_spec {α : Type} (k : S) (v : α) (m : List (S × α)) (hs : Sorted m) :
    Sorted (ins k v m) ∧
    ∀ q w, (q, w) ∈ ins k v m ↔ (q, w) ∈ m ∨ (q = k ∧ w = v ∧ ∀ w', (k, w') ∉ m) := by
  induction m with
  | nil => simp [ins, Sorted]
  | cons e r ih =>
    obtain ⟨k', v'⟩ := e
    simp only [Sorted, List.pairwise_cons] at hs
    obtain ⟨hs1, hs2⟩ := hs
    obtain ⟨ih1, ih2⟩ := ih hs2
    simp only [ins]
    by_cases h1 : k = k'
    · subst h1
      rw [if_pos rfl]
      refine ⟨List.pairwise_cons.2 ⟨hs1, hs2⟩, ?_⟩
      intro q w
      constructor
      · exact .inl
      · rintro (h | ⟨_, _, h⟩)
        · exact h
        · exact absurd (List.mem_cons_self) (h v')
    · rw [if_neg h1]
      by_cases h2 : slt k k' = true
      · rw [if_pos h2]
        have hlt : ∀ e ∈ (k', v') :: r, slt k e.1 = true := by
          intro e he
          rcases List.mem_cons.1 he with rfl | he
          · exact h2
          · exact slt_trans h2 (hs1 e he)
        refine ⟨List.pairwise_cons.2 ⟨hlt, List.pairwise_cons.2 ⟨hs1, hs2⟩⟩, ?_⟩
        intro q w
        rw [List.mem_cons]
        constructor
        · rintro (h | h)
          · cases h
            refine .inr ⟨rfl, rfl, ?_⟩
            intro w' hw'
            have := hlt _ hw'
            simp [slt_irrefl] at this
          · exact .inl h
        · rintro (h | ⟨rfl, rfl, _⟩)
          · exact .inr h
          · exact .inl rfl
      · rw [if_neg h2]
        have h2' : slt k' k = true := slt_total k k' h1 (by simpa using h2)
        refine ⟨List.pairwise_cons.2 ⟨?_, ih1⟩, ?_⟩
        · intro e he
          rcases (ih2 e.1 e.2).1 he with h | ⟨h, _⟩
          · exact hs1 e h
          · rw [h]; exact h2'
        · intro q w
          simp only [List.mem_cons, ih2, Prod.mk.injEq]
          constructor
          · rintro (h | h | ⟨rfl, rfl, h⟩)
            · exact .inl (.inl h)
            · exact .inl (.inr h)
            · refine .inr ⟨rfl, rfl, fun w' => ?_⟩
              rintro (⟨h', _⟩ | h')
              · exact h1 h'
              · exact h w' h'
          · rintro ((h | h) | ⟨rfl, rfl, h⟩)
            · exact .inl h
            · exact .inr (.inl h)
            · exact .inr (.inr ⟨rfl, rfl, fun w' hw' => h w' (.inr hw')⟩)

/-- The map `m` holds, for each key, the first of the entries `l`. -/
def Holds {α : Type} (m : List (S × α)) (l : List (S × α)) : Prop :=
  Sorted m ∧ ∀ k v, (k, v) ∈ m ↔ l.find? (fun e => e.1 == k) = some (k, v)

theorem Holds.nil {α : Type} : Holds ([] : List (S × α)) [] := by
  simp [Holds, Sorted]

theorem find?_key {α : Type} {l : List (S × α)} {k : S} {e : S × α}
    (h : l.find? (fun e => e.1 == k) = some e) : e.1 = k := by
  simpa using List.find?_some h

theorem Holds.ins {α : Type} {m l : List (S × α)} (h : Holds m l) (k : S) (v : α) :
    Holds (ins k v m) (l ++ [(k, v)]) := by
  obtain ⟨h1, h2⟩ := h
  obtain ⟨h3, h4⟩ := ins_spec k v m h1
  refine ⟨h3, ?_⟩
  intro q w
  rw [h4, h2, List.find?_append]
  constructor
  · rintro (h | ⟨rfl, rfl, h⟩)
    · rw [h]; rfl
    · have : l.find? (fun e => e.1 == q) = none := by
        cases hf : l.find? (fun e => e.1 == q) with
        | none => rfl
        | some e =>
          obtain ⟨a, b⟩ := e
          have hk := find?_key hf
          simp only at hk
          subst hk
          exact absurd ((h2 a b).2 hf) (h b)
      rw [this]
      simp
  · intro h
    cases hf : l.find? (fun e => e.1 == q) with
    | some e =>
      rw [hf] at h
      exact .inl h
    | none =>
      rw [hf] at h
      simp only [Option.none_or, List.find?_singleton] at h
      split at h
      · rename_i hk
        simp only [beq_iff_eq] at hk
        subst hk
        cases h
        refine .inr ⟨rfl, rfl, fun w' hw' => ?_⟩
        rw [h2, hf] at hw'
        cases hw'
      · cases h

theorem Holds.get {α : Type} {m l : List (S × α)} (h : Holds m l) (k : S) :
    get k m = (l.find? (fun e => e.1 == k)).map (·.2) := by
  obtain ⟨hs, h⟩ := h
  have key : ∀ m : List (S × α), Sorted m →
      (∀ v, Getopt.get k m = some v ↔ (k, v) ∈ m) := by
    intro m hs v
    induction m with
    | nil => simp [Getopt.get]
    | cons e r ih =>
      obtain ⟨k', v'⟩ := e
      simp only [Sorted, List.pairwise_cons] at hs
      simp only [Getopt.get, List.mem_cons, Prod.mk.injEq]
      split
      · rename_i he
        subst he
        have : (k, v) ∉ r := by
          intro hm
          have := hs.1 _ hm
          simp [slt_irrefl] at this
        simp [this, eq_comm]
      · rename_i he
        simp [he, ih hs.2]
  cases hg : Getopt.get k m with
  | some v =>
    have := (h k v).1 ((key m hs v).1 hg)
    rw [this]; rfl
  | none =>
    cases hf : l.find? (fun e => e.1 == k) with
    | none => rfl
    | some e =>
      obtain ⟨a, b⟩ := e
      have hk := find?_key hf
      simp only at hk
      subst hk
      have := (key m hs b).2 ((h a b).2 hf)
      rw [this] at hg
      cases hg

theorem findPrefix_none (rx : S → S → Option S) (name : S) (m : List (S × Param)) :
    findPrefix rx name m = none ↔ ∀ e ∈ m, rx e.1 name = none := by
  induction m with
  | nil => simp [findPrefix]
  | cons e r ih =>
    obtain ⟨k, p⟩ := e
    simp only [findPrefix, List.mem_cons, forall_eq_or_imp]
    split
    · rename_i s hs; simp [hs]
    · rename_i hs; simp [hs, ih]

theorem findPrefix_some (rx : S → S → Option S) (name : S) (m : List (S × Param)) (hs : Sorted m)
    (k : S) (p : Param) (sfx : S) :
    findPrefix rx name m = some (k, p, sfx) ↔
      (k, p) ∈ m ∧ rx k name = some sfx ∧ ∀ e ∈ m, slt e.1 k = true → rx e.1 name = none := by
  induction m with
  | nil => simp [findPrefix]
  | cons e r ih =>
    obtain ⟨k', p'⟩ := e
    simp only [Sorted, List.pairwise_cons] at hs
    simp only [findPrefix]
    split
    · rename_i s hs'
      constructor
      · intro h
        cases h
        refine ⟨List.mem_cons_self, hs', ?_⟩
        intro e he hlt
        rcases List.mem_cons.1 he with rfl | he
        · simp [slt_irrefl] at hlt
        · have := slt_trans hlt (hs.1 e he)
          simp [slt_irrefl] at this
      · rintro ⟨h1, h2, h3⟩
        rcases List.mem_cons.1 h1 with h1 | h1
        · cases h1
          rw [h2] at hs'
          cases hs'
          rfl
        · have h4 := h3 (k', p') List.mem_cons_self (hs.1 _ h1)
          simp only at h4
          rw [h4] at hs'
          cases hs'
    · rename_i hs'
      rw [ih hs.2]
      constructor
      · rintro ⟨h1, h2, h3⟩
        refine ⟨List.mem_cons_of_mem _ h1, h2, ?_⟩
        intro e he hlt
        rcases List.mem_cons.1 he with rfl | he
        · exact hs'
        · exact h3 e he hlt
      · rintro ⟨h1, h2, h3⟩
        refine ⟨?_, h2, fun e he => h3 e (List.mem_cons_of_mem _ he)⟩
        rcases List.mem_cons.1 h1 with h1 | h1
        · cases h1
          rw [h2] at hs'
          cases hs'
        · exact h1

/-! ### The registrations -/

/-- The entries of a map, from the registered options. -/
def entries (sel : Param → Bool) (key : Param → S) (ps : List Param) : List (S × Param) :=
  (ps.filter sel).map fun p => (key p, p)

/-- What the maps of a `Getopt` object hold. -/
structure RegInv (g : Reg) (h : List Call) : Prop where
  params : Holds g.params (entries (fun p => !p.isPrefix) Param.option (registered h))
  prefixes : Holds g.prefixes (entries (fun p => p.isPrefix) Param.option (registered h))
  shorts : Holds g.shorts
    (entries (fun p => !p.isPrefix && p.short != []) Param.short (registered h))
  shortPrefixes : Holds g.shortPrefixes
    (entries (fun p => p.isPrefix && p.short != []) Param.short (registered h))
  required : g.required = requiredNames h
  optional : g.optional = optionalNames h
  delim : g.delim = delimiter h

theorem entries_append (sel : Param → Bool) (key : Param → S) (ps : List Param) (p : Param) :
    entries sel key (ps ++ [p]) = entries sel key ps ++ (if sel p then [(key p, p)] else []) := by
  simp only [entries, List.filter_append, List.map_append]
  by_cases h : sel p = true
  · simp [h]
  · simp [h]

theorem RegInv.step {g : Reg} {h : List Call} (i : RegInv g h) (c : Call) :
    RegInv (c.run g) (h ++ [c]) := by
  cases c with
  | param o s b =>
    have hr : registered (h ++ [.param o s b]) = registered h ++ [mkParam o s b] := by
      simp [registered]
    have hp : ∀ x, (x = .param o s b) → requiredNames (h ++ [x]) = requiredNames h ∧
        optionalNames (h ++ [x]) = optionalNames h ∧ delimiter (h ++ [x]) = delimiter h := by
      rintro _ rfl
      refine ⟨?_, ?_, ?_⟩ <;> simp [requiredNames, optionalNames, delimiter]
    obtain ⟨hp1, hp2, hp3⟩ := hp _ rfl
    generalize hP : mkParam o s b = P at hr
    simp only [Call.run, hP, addParameter]
    by_cases hpre : P.isPrefix = true
    · by_cases hsh : P.short = []
      · simp only [hpre, hsh, if_true, ne_eq, not_true, if_false]
        constructor <;> simp only [hr, entries_append, hpre, hsh, hp1, hp2, hp3] <;>
          first
          | (simpa using i.prefixes.ins _ _)
          | (simpa using i.params)
          | (simpa using i.shorts)
          | (simpa using i.shortPrefixes)
          | (simpa using i.required)
          | (simpa using i.optional)
          | (simpa using i.delim)
      · simp only [hpre, hsh, if_true, ne_eq, not_false_eq_true]
        constructor <;> simp only [hr, entries_append, hpre, hsh, hp1, hp2, hp3] <;>
          first
          | (simpa using i.prefixes.ins _ _)
          | (simpa [hsh] using i.shortPrefixes.ins _ _)
          | (simpa using i.params)
          | (simpa using i.shorts)
          | (simpa using i.required)
          | (simpa using i.optional)
          | (simpa using i.delim)
    · have hpre' : P.isPrefix = false := by simpa using hpre
      by_cases hsh : P.short = []
      · simp only [hpre', hsh, ne_eq, not_true, if_false, Bool.false_eq_true]
        constructor <;> simp only [hr, entries_append, hpre', hsh, hp1, hp2, hp3] <;>
          first
          | (simpa using i.params.ins _ _)
          | (simpa using i.prefixes)
          | (simpa using i.shorts)
          | (simpa using i.shortPrefixes)
          | (simpa using i.required)
          | (simpa using i.optional)
          | (simpa using i.delim)
      · simp only [hpre', hsh, if_true, ne_eq, not_false_eq_true, Bool.false_eq_true, if_false]
        constructor <;> simp only [hr, entries_append, hpre', hsh, hp1, hp2, hp3] <;>
          first
          | (simpa using i.params.ins _ _)
          | (simpa [hsh] using i.shorts.ins _ _)
          | (simpa using i.prefixes)
          | (simpa using i.shortPrefixes)
          | (simpa using i.required)
          | (simpa using i.optional)
          | (simpa using i.delim)
  | positional n b =>
    have hr : registered (h ++ [.positional n b]) = registered h := by simp [registered]
    have hd : delimiter (h ++ [.positional n b]) = delimiter h := by simp [delimiter]
    cases b with
    | true =>
      constructor <;> simp only [Call.run, addPositional, hr, hd, if_true]
      · exact i.params
      · exact i.prefixes
      · exact i.shorts
      · exact i.shortPrefixes
      · simpa [requiredNames] using i.required
      · simpa [optionalNames] using i.optional
      · exact i.delim
    | false =>
      constructor <;> simp only [Call.run, addPositional, hr, hd, Bool.false_eq_true, if_false]
      · exact i.params
      · exact i.prefixes
      · exact i.shorts
      · exact i.shortPrefixes
      · simpa [requiredNames] using i.required
      · simpa [optionalNames] using i.optional
      · exact i.delim
  | activate d =>
    have hr : registered (h ++ [.activate d]) = registered h := by simp [registered]
    constructor <;> simp only [Call.run, hr]
    · exact i.params
    · exact i.prefixes
    · exact i.shorts
    · exact i.shortPrefixes
    · simpa [requiredNames] using i.required
    · simpa [optionalNames] using i.optional
    · simp [delimiter]

theorem regInv_new : RegInv newReg [] := by
  have e : newReg = { ({} : Reg) with
      params := ins ['h', 'e', 'l', 'p'] (mkParam ['h', 'e', 'l', 'p'] ['h'] false) []
      shorts := ins ['h'] (mkParam ['h', 'e', 'l', 'p'] ['h'] false) [] } := by
    rfl
  rw [e]
  constructor
  · exact Holds.nil.ins _ _
  · exact Holds.nil
  · exact Holds.nil.ins _ _
  · exact Holds.nil
  all_goals rfl

theorem regInv (h : List Call) : RegInv (reg h) h := by
  have : ∀ (h : List Call) (g : Reg) (h0 : List Call), RegInv g h0 →
      RegInv (h.foldl Call.run g) (h0 ++ h) := by
    intro h
    induction h with
    | nil => intro g h0 i; simpa using i
    | cons c h ih =>
      intro g h0 i
      have := ih (c.run g) (h0 ++ [c]) (i.step c)
      simpa using this
  have := this h newReg [] regInv_new
  simpa [reg] using this

theorem entries_find (sel : Param → Bool) (key : Param → S) (ps : List Param) (k : S) :
    ((entries sel key ps).find? fun e => e.1 == k)
      = (ps.find? fun p => sel p && key p == k).map fun p => (key p, p) := by
  simp only [entries, List.find?_map, List.find?_filter]
  congr 2
  funext p
  rw [Bool.eq_iff_iff]
  simp

theorem get_params (h : List Call) (name : S) : get name (reg h).params = longParam h name := by
  rw [(regInv h).params.get, entries_find, longParam, Option.map_map]
  exact Option.map_id_apply ..

theorem get_shorts (h : List Call) (name : S) (hn : name ≠ []) :
    get name (reg h).shorts = shortParam h name := by
  rw [(regInv h).shorts.get, entries_find, shortParam, Option.map_map]
  have : (fun p : Param => (!p.isPrefix && p.short != [] && p.short == name))
      = fun p => !p.isPrefix && p.short == name := by
    funext p
    rw [Bool.eq_iff_iff]
    simp only [Bool.and_eq_true, bne_iff_ne, beq_iff_eq]
    constructor
    · rintro ⟨⟨h1, _⟩, h2⟩; exact ⟨h1, h2⟩
    · rintro ⟨h1, h2⟩; exact ⟨⟨h1, h2 ▸ hn⟩, h2⟩
  rw [this]
  exact Option.map_id_apply ..

theorem mem_entries_map {m : List (S × Param)} {sel : Param → Bool} {key : Param → S}
    {ps : List Param} (hh : Holds m (entries sel key ps)) (k : S) (p : Param) :
    (k, p) ∈ m ↔ (ps.find? fun q => sel q && key q == k) = some p ∧ k = key p := by
  rw [hh.2, entries_find]
  simp only [Option.map_eq_some_iff, Prod.mk.injEq]
  constructor
  · rintro ⟨q, h1, h2, rfl⟩
    exact ⟨h1, h2.symm⟩
  · rintro ⟨h1, h2⟩
    exact ⟨p, h1, h2.symm, rfl⟩

theorem forall_map {m : List (S × Param)} {sel : Param → Bool} {key : Param → S}
    {ps : List Param} (hh : Holds m (entries sel key ps)) (P : S → Prop) :
    (∀ e ∈ m, P e.1) ↔ ∀ q ∈ ps, sel q → P (key q) := by
  constructor
  · intro h q hq hs
    have hf : (ps.find? fun x => sel x && key x == key q).isSome := by
      rw [List.find?_isSome]
      exact ⟨q, hq, by simp [hs]⟩
    obtain ⟨p, hp⟩ := Option.isSome_iff_exists.1 hf
    have hk : key q = key p := by
      have := List.find?_some hp
      simp only [Bool.and_eq_true, beq_iff_eq] at this
      exact this.2.symm
    exact h (key q, p) ((mem_entries_map hh _ _).2 ⟨hp, hk⟩)
  · intro h e he
    obtain ⟨k, p⟩ := e
    obtain ⟨h1, h2⟩ := (mem_entries_map hh _ _).1 he
    have h3 := List.find?_some h1
    simp only [Bool.and_eq_true, beq_iff_eq] at h3
    have := h p (List.mem_of_find?_eq_some h1) h3.1
    simp only [h2]
    exact this

theorem findPrefix_long (rx : S → S → Option S) (h : List Call) (name : S) :
    (findPrefix rx name (reg h).prefixes = none ↔ NoPrefix rx h Param.option (fun _ => True) name) ∧
    ∀ k p sfx, findPrefix rx name (reg h).prefixes = some (k, p, sfx) ↔
      k = p.option ∧ Chosen rx h Param.option (fun _ => True) name p sfx := by
  have hh := (regInv h).prefixes
  constructor
  · rw [findPrefix_none, forall_map hh (fun k => rx k name = none)]
    simp [NoPrefix]
  · intro k p sfx
    rw [findPrefix_some _ _ _ hh.1, mem_entries_map hh,
      forall_map hh (fun q => slt q k = true → rx q name = none)]
    constructor
    · rintro ⟨⟨h1, rfl⟩, h2, h3⟩
      exact ⟨rfl, h1, trivial, h2, fun q hq hp _ => h3 q hq hp⟩
    · rintro ⟨rfl, h1, _, h2, h3⟩
      exact ⟨⟨h1, rfl⟩, h2, fun q hq hp => h3 q hq hp trivial⟩

theorem findPrefix_short (rx : S → S → Option S) (h : List Call) (name : S) :
    (findPrefix rx name (reg h).shortPrefixes = none ↔
      NoPrefix rx h Param.short (fun q => q.short ≠ []) name) ∧
    ∀ p sfx, (∃ k, findPrefix rx name (reg h).shortPrefixes = some (k, p, sfx)) ↔
      Chosen rx h Param.short (fun q => q.short ≠ []) name p sfx := by
  have hh := (regInv h).shortPrefixes
  constructor
  · rw [findPrefix_none, forall_map hh (fun k => rx k name = none)]
    simp [NoPrefix]
  · intro p sfx
    have hf : ∀ k : S, k ≠ [] → (fun q : Param => (q.isPrefix && q.short != [] && q.short == k))
        = fun q => q.isPrefix && q.short == k := by
      intro k hk
      funext q
      rw [Bool.eq_iff_iff]
      simp only [Bool.and_eq_true, bne_iff_ne, beq_iff_eq]
      constructor
      · rintro ⟨⟨h1, _⟩, h2⟩; exact ⟨h1, h2⟩
      · rintro ⟨h1, h2⟩; exact ⟨⟨h1, h2 ▸ hk⟩, h2⟩
    constructor
    · rintro ⟨k, hk⟩
      rw [findPrefix_some _ _ _ hh.1, mem_entries_map hh,
        forall_map hh (fun q => slt q k = true → rx q name = none)] at hk
      obtain ⟨⟨h1, rfl⟩, h2, h3⟩ := hk
      have h4 := List.find?_some h1
      simp only [Bool.and_eq_true, bne_iff_ne] at h4
      rw [hf _ h4.1.2] at h1
      exact ⟨h1, h4.1.2, h2, fun q hq hp hn => h3 q hq (by simp [hp, hn])⟩
    · rintro ⟨h1, hn, h2, h3⟩
      refine ⟨p.short, ?_⟩
      rw [findPrefix_some _ _ _ hh.1, mem_entries_map hh,
        forall_map hh (fun q => slt q p.short = true → rx q name = none), hf _ hn]
      refine ⟨⟨h1, rfl⟩, h2, fun q hq hp => ?_⟩
      simp only [Bool.and_eq_true, bne_iff_ne] at hp
      exact h3 q hq hp.1 hp.2

/-! ### The forms of an argument -/

theorem takeWhile_ne (t : S) (v : Option S) (ht : '=' ∉ t) :
    (t ++ (match v with | none => [] | some w => '=' :: w)).takeWhile (· ≠ '=') = t ∧
    ((t ++ (match v with | none => [] | some w => '=' :: w)).dropWhile (· ≠ '=')).drop 1
      = v.getD [] := by
  induction t with
  | nil => cases v <;> simp
  | cons c t ih =>
    simp only [List.mem_cons, not_or] at ht
    have hc : ¬ c = '=' := fun e => ht.1 e.symm
    obtain ⟨i1, i2⟩ := ih ht.2
    constructor
    · rw [List.cons_append, List.takeWhile_cons]
      simp only [hc, decide_not, decide_false, Bool.not_false, if_true]
      simp only [decide_not] at i1
      rw [i1]
    · rw [List.cons_append, List.dropWhile_cons]
      simp only [hc, decide_not, decide_false, Bool.not_false, if_true]
      simp only [decide_not] at i2
      rw [i2]

theorem longOpt_iff (a name val : S) :
    longOpt a = some (name, val) ↔ ∃ v, LongForm a name v ∧ val = v.getD [] := by
  constructor
  · intro h
    unfold longOpt at h
    split at h
    · rename_i c r
      split at h
      · cases h
      · rename_i hc
        simp only [Option.some.injEq, Prod.mk.injEq] at h
        obtain ⟨rfl, rfl⟩ := h
        have hr := (List.takeWhile_append_dropWhile (p := (· ≠ '=')) (l := r)).symm
        have hnot : '=' ∉ r.takeWhile (· ≠ '=') := by
          intro hm
          have := List.all_takeWhile (p := (· ≠ '=')) (l := r)
          rw [List.all_eq_true] at this
          simpa using this _ hm
        cases hd : r.dropWhile (· ≠ '=') with
        | nil =>
          refine ⟨none, ⟨c, _, rfl, hc, hnot, ?_⟩, by simp⟩
          rw [hd] at hr
          simp only [List.append_nil] at hr ⊢
          rw [← hr]
        | cons x w =>
          have hx : x = '=' := by
            have h0 : (r.dropWhile (· ≠ '=')).head? = some x := by rw [hd]; rfl
            have h1 := List.head?_dropWhile_not (· ≠ '=') r
            rw [h0] at h1
            simpa using h1
          subst hx
          refine ⟨some w, ⟨c, _, rfl, hc, hnot, ?_⟩, by simp⟩
          rw [hd] at hr
          show '-' :: '-' :: c :: r = '-' :: '-' :: c :: (r.takeWhile (· ≠ '=') ++ '=' :: w)
          rw [← hr]
    · cases h
  · rintro ⟨v, ⟨c, t, rfl, hc, ht, rfl⟩, rfl⟩
    obtain ⟨h1, h2⟩ := takeWhile_ne t v ht
    simp only [longOpt, List.cons_append, if_neg hc]
    exact congrArg some (Prod.ext (congrArg (c :: ·) h1) h2)

theorem longForm_name_unique {a n1 n2 : S} {v1 v2 : Option S} (h1 : LongForm a n1 v1)
    (h2 : LongForm a n2 v2) : n1 = n2 ∧ v1.getD [] = v2.getD [] := by
  have e1 := (longOpt_iff a n1 _).2 ⟨v1, h1, rfl⟩
  have e2 := (longOpt_iff a n2 _).2 ⟨v2, h2, rfl⟩
  rw [e1] at e2
  simpa using e2

theorem shortOpt_iff (a name : S) : shortOpt a = some name ↔ ShortForm a name := by
  constructor
  · intro h
    unfold shortOpt at h
    split at h
    · rename_i c r
      split at h
      · cases h
      · rename_i hc
        cases h
        exact ⟨c, r, rfl, hc, rfl⟩
    · cases h
  · rintro ⟨c, t, rfl, hc, rfl⟩
    simp [shortOpt, hc]

theorem not_long_of_short {a name : S} (h : ShortForm a name) : longOpt a = none := by
  obtain ⟨c, t, rfl, hc, rfl⟩ := h
  unfold longOpt
  split
  · rename_i heq
    simp only [List.cons.injEq] at heq
    exact absurd heq.2.1 hc
  · rfl

theorem plain_iff (a : S) : Plain a ↔ longOpt a = none ∧ shortOpt a = none := by
  constructor
  · rintro ⟨h1, h2⟩
    constructor
    · cases hl : longOpt a with
      | none => rfl
      | some x =>
        obtain ⟨n, val⟩ := x
        obtain ⟨v, hv, _⟩ := (longOpt_iff a n val).1 hl
        exact absurd hv (h1 n v)
    · cases hl : shortOpt a with
      | none => rfl
      | some n => exact absurd ((shortOpt_iff a n).1 hl) (h2 n)
  · rintro ⟨h1, h2⟩
    constructor
    · intro n v h
      rw [(longOpt_iff a n _).2 ⟨v, h, rfl⟩] at h1
      cases h1
    · intro n h
      rw [(shortOpt_iff a n).2 h] at h2
      cases h2

end Verif.Getopt
