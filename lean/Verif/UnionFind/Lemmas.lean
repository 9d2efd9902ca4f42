import Verif.UnionFind.Spec

/-! Auxiliary lemmas: the forest invariant. -/
namespace Verif.UnionFind

/-- Parent of `x` (0 outside the range). -/
abbrev par (u : UF) (x : Nat) : Nat := u.parent.getD x 0
/-- Rank of `x`. -/
abbrev rnk (u : UF) (x : Nat) : Nat := u.rank.getD x 0

/-- Number of elements whose root is `r`. -/
def cnt (rep : Nat → Nat) (n r : Nat) : Nat := (List.range n).countP (fun z => rep z == r)

/-- Forest invariant with ghost root function. -/
structure Inv (u : UF) (rep : Nat → Nat) : Prop where
  len : u.rank.length = u.parent.length
  par_lt : ∀ x, x < size u → par u x < size u
  rep_lt : ∀ x, x < size u → rep x < size u
  rep_root : ∀ x, x < size u → par u (rep x) = rep x
  rep_par : ∀ x, x < size u → rep (par u x) = rep x
  root_rep : ∀ x, x < size u → par u x = x → rep x = x
  rank_par : ∀ x, x < size u → par u x ≠ x → rnk u x < rnk u (par u x)
  rank_rep : ∀ x, x < size u → rnk u x ≤ rnk u (rep x)
  card : ∀ x, x < size u → rep x = x → 2 ^ rnk u x ≤ cnt rep (size u) x

theorem getD_set (l : List Nat) (i j v : Nat) (hi : i < l.length) :
    (l.set i v).getD j 0 = if j = i then v else l.getD j 0 := by
  simp only [List.getD_eq_getElem?_getD, List.getElem?_set]
  by_cases h : i = j
  · subst h; simp [hi]
  · have : ¬ j = i := fun e => h e.symm
    simp [h, this]

theorem rep_idem {u rep} (h : Inv u rep) {x} (hx : x < size u) : rep (rep x) = rep x :=
  h.root_rep _ (h.rep_lt x hx) (h.rep_root x hx)

theorem rank_lt_rep {u rep} (h : Inv u rep) {x} (hx : x < size u) (hp : par u x ≠ x) :
    rnk u x < rnk u (rep x) := by
  have h1 := h.rank_par x hx hp
  have h2 := h.rank_rep _ (h.par_lt x hx)
  rw [h.rep_par x hx] at h2
  omega

/-- Path compression at one element preserves the invariant. -/
theorem compress {u rep} (h : Inv u rep) {x} (hx : x < size u) (hp : par u x ≠ x) :
    Inv { u with parent := u.parent.set x (rep x) } rep := by
  have hs : size { u with parent := u.parent.set x (rep x) } = size u := by simp [size]
  have hpar : ∀ y, par { u with parent := u.parent.set x (rep x) } y = if y = x then rep x else par u y :=
    fun y => getD_set _ _ _ _ hx
  have hxne : rep x ≠ x := by
    intro e
    have := h.rep_root x hx
    rw [e] at this; exact hp this
  constructor
  · simpa using h.len
  · intro y hy; rw [hs] at hy ⊢; rw [hpar]; split
    · exact h.rep_lt x hx
    · exact h.par_lt y hy
  · intro y hy; rw [hs] at hy ⊢; exact h.rep_lt y hy
  · intro y hy; rw [hs] at hy; rw [hpar]
    split
    · rename_i e
      exfalso
      have := h.rep_root y hy
      rw [e] at this; exact hp this
    · exact h.rep_root y hy
  · intro y hy; rw [hs] at hy; rw [hpar]; split
    · rename_i e; subst e; exact rep_idem h hy
    · exact h.rep_par y hy
  · intro y hy; rw [hs] at hy; rw [hpar]; split
    · rename_i e; subst e; exact id
    · exact h.root_rep y hy
  · intro y hy; rw [hs] at hy; rw [hpar]
    split
    · rename_i e; subst e; intro _; exact rank_lt_rep h hy hp
    · exact h.rank_par y hy
  · intro y hy; rw [hs] at hy; exact h.rank_rep y hy
  · intro y hy; rw [hs] at hy ⊢; exact h.card y hy

/-- `find` returns the root and keeps the invariant, within `rank(root) - rank(x) + 1` calls. -/
theorem find_ok (budget : Nat) : ∀ {u rep}, Inv u rep → ∀ {x}, x < size u →
    rnk u (rep x) - rnk u x < budget →
    ∃ u', find budget u x = some (.ok (rep x, u')) ∧ Inv u' rep ∧ size u' = size u ∧ u'.rank = u.rank := by
  induction budget with
  | zero => intro u rep h x hx hb; omega
  | succ budget ih =>
    intro u rep h x hx hb
    have hg : u.parent[x]? = some (par u x) := by
      simp only [par, List.getD_eq_getElem?_getD]
      rw [List.getElem?_eq_getElem hx]; rfl
    have hnot : ¬ x ≥ u.parent.length := by simp only [size] at hx; omega
    by_cases hp : par u x = x
    · refine ⟨u, ?_, h, rfl, rfl⟩
      simp only [find, hnot, if_false, hg, ne_eq, hp, not_true]
      rw [h.root_rep x hx hp]
    · have hr := h.rank_par x hx hp
      have hr2 := h.rank_rep _ (h.par_lt x hx)
      have hrp := h.rep_par x hx
      obtain ⟨u', h1, h2, h3, h4⟩ := ih h (h.par_lt x hx) (by rw [hrp] at hr2 ⊢; omega)
      rw [hrp] at h1
      -- the parent of x may only have changed to its root; compress at x
      have hx' : x < size u' := by omega
      by_cases hp' : par u' x = x
      · -- impossible: x is not a root
        exfalso
        have e1 := h2.root_rep x hx' hp'
        have e2 := h.rep_root x hx
        rw [e1] at e2
        exact hp e2
      · refine ⟨_, ?_, compress h2 hx' hp', ?_, h4⟩
        · simp only [find, hnot, if_false, hg, ne_eq, hp, not_false_eq_true, if_true, h1]
        · simp only [size, List.length_set] at *; exact h3

theorem cnt_le (rep : Nat → Nat) (n r : Nat) : cnt rep n r ≤ n := by
  have := List.countP_le_length (p := fun z => rep z == r) (l := List.range n)
  simpa [cnt] using this

theorem rank_le_log {u rep} (h : Inv u rep) {x} (hx : x < size u) :
    rnk u (rep x) ≤ Nat.log2 (size u) := by
  have h1 := h.card (rep x) (h.rep_lt x hx) (rep_idem h hx)
  have h2 := cnt_le rep (size u) (rep x)
  have h0 : size u ≠ 0 := by omega
  exact (Nat.le_log2 h0).2 (by omega)

theorem inv_init (n : Nat) : Inv (init n) id := by
  have hpar : ∀ x, x < n → par (init n) x = x := by
    intro x hx; simp [init, List.getD_eq_getElem?_getD, hx]
  have hs : size (init n) = n := by simp [size, init]
  have hr : ∀ x, rnk (init n) x = 0 := by
    intro x; simp [init, List.getD_eq_getElem?_getD, List.getElem?_replicate]; split <;> rfl
  constructor
  · simp [init]
  · intro x hx; rw [hs] at hx ⊢; rw [hpar x hx]; exact hx
  · intro x hx; exact hx
  · intro x hx; rw [hs] at hx; exact hpar x hx
  · intro x hx; rw [hs] at hx; exact hpar x hx
  · intro x _ _; rfl
  · intro x hx hne; rw [hs] at hx; exact absurd (hpar x hx) hne
  · intro x _; exact Nat.le_refl _
  · intro x hx _
    rw [hr]
    have : 0 < cnt id (size (init n)) x := by
      unfold cnt
      rw [List.countP_pos_iff]
      exact ⟨x, List.mem_range.2 hx, by simp⟩
    show 1 ≤ _
    exact this

theorem inv_grow {u rep} (h : Inv u rep) (k : Nat) :
    Inv (grow u k) (fun x => if x < size u then rep x else x) := by
  have hs : size (grow u k) = size u + k := by simp [size, grow]
  have hp1 : ∀ x, x < size u → par (grow u k) x = par u x := by
    intro x hx
    simp only [size] at hx
    simp [grow, List.getD_eq_getElem?_getD, List.getElem?_append, hx]
  have hp2 : ∀ x, ¬ x < size u → x < size u + k → par (grow u k) x = x := by
    intro x hx hx2
    simp only [size] at hx hx2
    have : x - u.parent.length < k := by omega
    simp [grow, List.getD_eq_getElem?_getD, List.getElem?_append, hx, List.getElem?_range', this]
    omega
  have hr1 : ∀ x, x < size u → rnk (grow u k) x = rnk u x := by
    intro x hx
    simp only [size, ← h.len] at hx
    simp [grow, List.getD_eq_getElem?_getD, List.getElem?_append, hx]
  have hr2 : ∀ x, ¬ x < size u → rnk (grow u k) x = 0 := by
    intro x hx
    simp only [size, ← h.len] at hx
    simp [grow, List.getD_eq_getElem?_getD, List.getElem?_append, hx, List.getElem?_replicate]
    split <;> rfl
  constructor
  · simp [grow, h.len]
  · intro x hx
    by_cases hx1 : x < size u
    · rw [hp1 x hx1, hs]; have := h.par_lt x hx1; omega
    · rw [hp2 x hx1 (by omega)]; exact hx
  · intro x hx; (try simp only []); split
    · rename_i hx1; have := h.rep_lt x hx1; omega
    · exact hx
  · intro x hx; (try simp only []); split
    · rename_i hx1; rw [hp1 _ (h.rep_lt x hx1)]; exact h.rep_root x hx1
    · rename_i hx1; exact hp2 x hx1 (by omega)
  · intro x hx
    by_cases hx1 : x < size u
    · rw [hp1 x hx1]; simp only [hx1, h.par_lt x hx1, if_true]; exact h.rep_par x hx1
    · rw [hp2 x hx1 (by omega)]
  · intro x hx; (try simp only []); split
    · rename_i hx1; rw [hp1 x hx1]; exact h.root_rep x hx1
    · intro _; rfl
  · intro x hx
    by_cases hx1 : x < size u
    · rw [hp1 x hx1, hr1 x hx1, hr1 _ (h.par_lt x hx1)]; exact h.rank_par x hx1
    · rw [hp2 x hx1 (by omega)]; intro hne; exact absurd rfl hne
  · intro x hx; (try simp only []); split
    · rename_i hx1; rw [hr1 x hx1, hr1 _ (h.rep_lt x hx1)]; exact h.rank_rep x hx1
    · exact Nat.le_refl _
  · intro x hx
    (try simp only [])
    intro hrep
    by_cases hx1 : x < size u
    · rw [hr1 x hx1]
      simp only [hx1, if_true] at hrep
      refine Nat.le_trans (h.card x hx1 hrep) ?_
      rw [hs]
      unfold cnt
      rw [List.range_add, List.countP_append]
      refine Nat.le_trans (Nat.le_of_eq ?_) (Nat.le_add_right _ _)
      apply List.countP_congr
      intro z hz
      have hz' : z < size u := List.mem_range.1 hz
      simp [hz']
    · rw [hr2 x hx1]
      have : 0 < cnt (fun x => if x < size u then rep x else x) (size (grow u k)) x := by
        unfold cnt
        rw [List.countP_pos_iff]
        exact ⟨x, List.mem_range.2 hx, by simp [hx1]⟩
      show 1 ≤ _
      exact this

theorem countP_or (l : List Nat) (p q : Nat → Bool) (hd : ∀ z, ¬ (p z = true ∧ q z = true)) :
    l.countP (fun z => p z || q z) = l.countP p + l.countP q := by
  induction l with
  | nil => rfl
  | cons z l ih =>
    simp only [List.countP_cons, ih]
    have := hd z
    cases hp : p z <;> cases hq : q z <;> simp_all <;> omega

/-- Linking the root `b` below the root `a`. -/
theorem inv_link {u rep} (h : Inv u rep) {a b ra : Nat} (ha : a < size u) (hb : b < size u)
    (hra : rep a = a) (hrb : rep b = b) (hab : a ≠ b)
    (hrank : (rnk u b < rnk u a ∧ ra = rnk u a) ∨ (rnk u a = rnk u b ∧ ra = rnk u a + 1)) :
    Inv { parent := u.parent.set b a, rank := u.rank.set a ra }
      (fun x => if rep x = b then a else rep x) := by
  have hs : size { parent := u.parent.set b a, rank := u.rank.set a ra } = size u := by simp [size]
  have hpar : ∀ y, par { parent := u.parent.set b a, rank := u.rank.set a ra } y
      = if y = b then a else par u y := fun y => getD_set _ _ _ _ hb
  have hrk : ∀ y, rnk { parent := u.parent.set b a, rank := u.rank.set a ra } y
      = if y = a then ra else rnk u y := fun y => getD_set _ _ _ _ (by rw [h.len]; exact ha)
  have hpb : par u b = b := by have := h.rep_root b hb; rwa [hrb] at this
  have hpa : par u a = a := by have := h.rep_root a ha; rwa [hra] at this
  constructor
  · simp [h.len]
  · intro y hy; rw [hs] at hy ⊢; rw [hpar]; split
    · exact ha
    · exact h.par_lt y hy
  · intro y hy; rw [hs] at hy ⊢; (try simp only []); split
    · exact ha
    · exact h.rep_lt y hy
  · intro y hy; rw [hs] at hy; rw [hpar]; (try simp only [])
    by_cases e : rep y = b
    · simp only [e, if_true, hab, if_false]; exact hpa
    · simp only [e, if_false]; exact h.rep_root y hy
  · intro y hy; rw [hs] at hy; rw [hpar]
    by_cases e : y = b
    · subst e; simp only [if_true, hra, hrb, hab, if_false]
    · simp only [e, if_false]; rw [h.rep_par y hy]
  · intro y hy; rw [hs] at hy; rw [hpar]; (try simp only [])
    by_cases e : y = b
    · subst e; simp only [if_true, hrb]; exact id
    · simp only [e, if_false]; intro hp
      have := h.root_rep y hy hp
      rw [this]; simp [e]
  · intro y hy; rw [hs] at hy; rw [hpar, hrk]
    by_cases e : y = b
    · subst e
      have hba : ¬ y = a := fun e => hab e.symm
      simp only [if_true, hba, if_false, hrk, if_pos]
      intro _; omega
    · simp only [e, if_false]; intro hp
      have hya : ¬ y = a := by intro e'; subst e'; exact hp hpa
      simp only [hya, if_false, hrk]
      have := h.rank_par y hy hp
      split
      · rename_i e'; rw [e'] at this; omega
      · exact this
  · intro y hy; rw [hs] at hy; rw [hrk, hrk]
    have h1 := h.rank_rep y hy
    by_cases e : rep y = b
    · simp only [e, if_true]
      rw [e] at h1
      split
      · exact Nat.le_refl _
      · omega
    · simp only [e, if_false]
      by_cases e2 : y = a
      · subst e2; simp [hra]
      · simp only [e2, if_false]
        split
        · rename_i e3; rw [e3] at h1; omega
        · exact h1
  · intro y hy; rw [hs] at hy ⊢; (try simp only []); rw [hrk]
    intro hrep
    by_cases e : rep y = b
    · simp only [e, if_true] at hrep
      subst hrep
      exact absurd (hra.symm.trans e) hab
    · simp only [e, if_false] at hrep
      have hc := h.card y hy hrep
      by_cases e2 : y = a
      · subst e2
        simp only [if_true]
        have hcb := h.card b hb hrb
        have : cnt (fun x => if rep x = b then y else rep x) (size u) y
            = cnt rep (size u) y + cnt rep (size u) b := by
          unfold cnt
          rw [← countP_or]
          · apply List.countP_congr
            intro z _
            by_cases hz : rep z = b <;> simp [hz]
          · intro z hz
            simp only [beq_iff_eq] at hz
            exact hab (hz.1.symm.trans hz.2)
        rw [this]
        rcases hrank with ⟨_, h2⟩ | ⟨h1, h2⟩
        · rw [h2]; omega
        · rw [h2, Nat.pow_succ]; rw [← h1] at hcb; omega
      · simp only [e2, if_false]
        refine Nat.le_trans hc (Nat.le_of_eq ?_)
        unfold cnt
        apply List.countP_congr
        intro z _
        by_cases hz : rep z = b
        · have hyb : ¬ b = y := by
            intro e3; subst e3; exact e hrep
          have hay : ¬ a = y := fun e3 => e2 e3.symm
          simp [hz, hay, hyb]
        · simp [hz]

/-- The connectivity part: the ghost root function decides the equivalence. -/
def Agrees (rep : Nat → Nat) (n : Nat) (E : List (Nat × Nat)) : Prop :=
  (∀ p ∈ E, p.1 < n ∧ p.2 < n) ∧ ∀ x y, x < n → y < n → (rep x = rep y ↔ Conn E x y)

theorem Conn.mono {E F : List (Nat × Nat)} (h : ∀ p ∈ E, p ∈ F) {x y} (c : Conn E x y) : Conn F x y := by
  induction c with
  | refl x => exact .refl x
  | edge e => exact .edge (h _ e)
  | symm _ ih => exact .symm ih
  | trans _ _ ih1 ih2 => exact .trans ih1 ih2

/-- Connectivity never leaves the range of the pairs except trivially. -/
theorem conn_range {n : Nat} {E : List (Nat × Nat)} (hE : ∀ p ∈ E, p.1 < n ∧ p.2 < n) {x y}
    (c : Conn E x y) : x = y ∨ (x < n ∧ y < n) := by
  induction c with
  | refl x => exact .inl rfl
  | edge e => exact .inr (hE _ e)
  | symm _ ih =>
    rcases ih with h | h
    · exact .inl h.symm
    · exact .inr ⟨h.2, h.1⟩
  | trans _ _ ih1 ih2 =>
    rcases ih1 with h | h
    · subst h; exact ih2
    · rcases ih2 with g | g
      · subst g; exact .inr h
      · exact .inr ⟨h.1, g.2⟩

theorem agrees_grow {rep n E} (h : Agrees rep n E) (k : Nat) (hlt : ∀ x, x < n → rep x < n) :
    Agrees (fun x => if x < n then rep x else x) (n + k) E := by
  refine ⟨fun p hp => ⟨by have := (h.1 p hp).1; omega, by have := (h.1 p hp).2; omega⟩, ?_⟩
  intro x y hx hy
  (try simp only [])
  by_cases h1 : x < n <;> by_cases h2 : y < n <;> simp only [h1, h2, if_true, if_false]
  · exact h.2 x y h1 h2
  · have := hlt x h1
    constructor
    · intro e; omega
    · intro c; rcases conn_range h.1 c with e | e <;> omega
  · have := hlt y h2
    constructor
    · intro e; omega
    · intro c; rcases conn_range h.1 c with e | e <;> omega
  · constructor
    · intro e; rw [e]; exact .refl _
    · intro c; rcases conn_range h.1 c with e | e
      · exact e
      · omega

/-- Adding an edge whose ends are already connected. -/
theorem agrees_same {rep n E} (h : Agrees rep n E) {x y} (hx : x < n) (hy : y < n)
    (e : rep x = rep y) : Agrees rep n (E ++ [(x, y)]) := by
  refine ⟨?_, ?_⟩
  · intro p hp
    rcases List.mem_append.1 hp with hp | hp
    · exact h.1 p hp
    · simp only [List.mem_singleton] at hp; subst hp; exact ⟨hx, hy⟩
  · intro a b ha hb
    rw [h.2 a b ha hb]
    constructor
    · exact Conn.mono (fun p hp => List.mem_append.2 (.inl hp))
    · intro c
      have hxy := (h.2 x y hx hy).1 e
      clear ha hb
      induction c with
      | refl x => exact .refl x
      | edge e =>
        rcases List.mem_append.1 e with e | e
        · exact .edge e
        · simp only [List.mem_singleton, Prod.mk.injEq] at e
          rw [e.1, e.2]; exact hxy
      | symm _ ih => exact .symm ih
      | trans _ _ ih1 ih2 => exact .trans ih1 ih2

/-- Adding an edge between two classes; one root replaces the other. -/
theorem agrees_link {rep n E} (h : Agrees rep n E) {x y a b} (hx : x < n) (hy : y < n)
    (hab : (rep x = a ∧ rep y = b) ∨ (rep x = b ∧ rep y = a)) :
    Agrees (fun z => if rep z = b then a else rep z) n (E ++ [(x, y)]) := by
  have hE : ∀ p ∈ E ++ [(x, y)], p.1 < n ∧ p.2 < n := by
    intro p hp
    rcases List.mem_append.1 hp with hp | hp
    · exact h.1 p hp
    · simp only [List.mem_singleton] at hp; subst hp; exact ⟨hx, hy⟩
  refine ⟨hE, ?_⟩
  have hxy : Conn (E ++ [(x, y)]) x y := .edge (by simp)
  -- elements of class b are connected to elements of class a
  have hba : ∀ z w, z < n → w < n → rep z = b → rep w = a → Conn (E ++ [(x, y)]) z w := by
    intro z w hz hw ez ew
    have mono := @Conn.mono E (E ++ [(x, y)]) (fun p hp => List.mem_append.2 (.inl hp))
    rcases hab with ⟨e1, e2⟩ | ⟨e1, e2⟩
    · exact .trans (mono ((h.2 z y hz hy).1 (by omega)))
        (.trans (.symm hxy) (mono ((h.2 x w hx hw).1 (by omega))))
    · exact .trans (mono ((h.2 z x hz hx).1 (by omega)))
        (.trans hxy (mono ((h.2 y w hy hw).1 (by omega))))
  intro p q hp hq
  constructor
  · have mono := @Conn.mono E (E ++ [(x, y)]) (fun p hp => List.mem_append.2 (.inl hp))
    (try simp only [])
    intro e
    by_cases h1 : rep p = b <;> by_cases h2 : rep q = b <;> simp only [h1, h2, if_true, if_false] at e
    · exact mono ((h.2 p q hp hq).1 (by omega))
    · exact hba p q hp hq h1 e.symm
    · exact .symm (hba q p hq hp h2 e)
    · exact mono ((h.2 p q hp hq).1 e)
  · intro c
    -- induction on the derivation, for arbitrary end points
    have key : ∀ p q, Conn (E ++ [(x, y)]) p q → p = q ∨
        (if rep p = b then a else rep p) = (if rep q = b then a else rep q) := by
      intro p q c
      induction c with
      | refl x => exact .inl rfl
      | @edge p q e =>
        right
        rcases List.mem_append.1 e with e | e
        · have hpq := h.1 _ e
          have := (h.2 p q hpq.1 hpq.2).2 (.edge e)
          rw [this]
        · simp only [List.mem_singleton, Prod.mk.injEq] at e
          rw [e.1, e.2]
          rcases hab with ⟨e1, e2⟩ | ⟨e1, e2⟩ <;> simp only [e1, e2, if_true] <;>
            (split <;> first | rfl | (rename_i e3; first | exact e3.symm | exact e3))
      | symm _ ih =>
        rcases ih with e | e
        · exact .inl e.symm
        · exact .inr e.symm
      | trans _ _ ih1 ih2 =>
        rcases ih1 with e | e
        · subst e; exact ih2
        · rcases ih2 with g | g
          · subst g; exact .inr e
          · exact .inr (e.trans g)
    rcases key p q c with e | e
    · rw [e]
    · exact e

end Verif.UnionFind
