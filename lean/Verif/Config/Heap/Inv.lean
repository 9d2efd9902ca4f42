import Verif.Config.Heap.Chain

/-!
# The representation invariant

`cs t` are the list cells of the tree `t` with their subtrees.
-/
namespace Verif.ATHeap

open Verif.AT (S newSubNode)

/-- The cells of every tree. -/
abbrev Cells := Nat → List (Nat × Nat)

/-- A forest without sharing and cycles. -/
structure Shape (cs : Cells) : Prop where
  nodupC : ∀ t, ((cs t).map Prod.fst).Nodup
  nodupS : ∀ t, ((cs t).map Prod.snd).Nodup
  disj : ∀ t t' c s s', (c, s) ∈ cs t → (c, s') ∈ cs t' → t = t'
  uniq : ∀ t t' c c' s, (c, s) ∈ cs t → (c', s) ∈ cs t' → t = t'
  rank : ∃ rank : Addr → Nat, ∀ t c s, (c, s) ∈ cs t → rank s < rank t

/-- The heap represents `cs`. -/
structure Inv (h : Heap) (cs : Cells) : Prop where
  shape : Shape cs
  freshT : ∀ t, h.fresh ≤ t → h.trees t = none
  freshC : ∀ c, h.fresh ≤ c → h.cells c = none
  chain : ∀ t n, h.trees t = some n → Chain h.cells n.list (cs t)
  dead : ∀ t, h.trees t = none → cs t = []
  kid : ∀ t c s, (c, s) ∈ cs t → ∃ n, h.trees s = some n ∧ n.parent = some t
  par : ∀ s n t, h.trees s = some n → n.parent = some t → ∃ c, (c, s) ∈ cs t

/-- Every list cell that exists is in the list of a tree. -/
def NoLeak (h : Heap) (cs : Cells) : Prop := ∀ c, h.cells c ≠ none → ∃ t s, (c, s) ∈ cs t

/-- The forest. -/
def absF (h : Heap) (cs : Cells) : Forest :=
  fun t => (h.trees t).map fun n => ⟨n.desc, n.changed, (cs t).map Prod.snd⟩

/-- `x` is `t` or below it. -/
inductive Sub (cs : Cells) (t : Addr) : Addr → Prop where
  | self : Sub cs t t
  | step {x c y : Addr} : Sub cs t x → (c, y) ∈ cs x → Sub cs t y

theorem chain_mem {cells : Addr → Option Cell} : ∀ {l : List (Addr × Addr)} {o : Option Addr},
    Chain cells o l → ∀ x ∈ l, ∃ n, cells x.1 = some ⟨n, some x.2⟩ := by
  intro l
  induction l with
  | nil => intro o _ x hx; cases hx
  | cons y l ih =>
    intro o h x hx
    obtain ⟨h1, n, h2, h3⟩ := h
    rcases List.mem_cons.1 hx with rfl | hx
    · exact ⟨n, h2⟩
    · exact ih h3 x hx

theorem Inv.live {h : Heap} {cs : Cells} (I : Inv h cs) {t c s : Addr} (hm : (c, s) ∈ cs t) :
    ∃ n, h.trees t = some n := by
  cases ht : h.trees t with
  | none => rw [I.dead t ht] at hm; cases hm
  | some n => exact ⟨n, rfl⟩

theorem Inv.cell {h : Heap} {cs : Cells} (I : Inv h cs) {t c s : Addr} (hm : (c, s) ∈ cs t) :
    ∃ n, h.cells c = some ⟨n, some s⟩ := by
  obtain ⟨n, hn⟩ := I.live hm
  exact chain_mem (I.chain t n hn) _ hm

theorem Inv.cell_lt {h : Heap} {cs : Cells} (I : Inv h cs) {t c : Addr} (hm : c ∈ (cs t).map Prod.fst) :
    c < h.fresh := by
  obtain ⟨⟨c', s⟩, hm', rfl⟩ := List.mem_map.1 hm
  obtain ⟨n, hn⟩ := I.cell hm'
  rcases Nat.lt_or_ge c' h.fresh with hl | hl
  · exact hl
  · rw [I.freshC _ hl] at hn; cases hn

theorem Inv.tree_lt {h : Heap} {cs : Cells} (I : Inv h cs) {t : Addr} {n : Node} (hm : h.trees t = some n) :
    t < h.fresh := by
  rcases Nat.lt_or_ge t h.fresh with hl | hl
  · exact hl
  · rw [I.freshT _ hl] at hm; cases hm

theorem child_iff {h : Heap} {cs : Cells} (I : Inv h cs) (t s : Addr) :
    Child (absF h cs) t s ↔ ∃ c, (c, s) ∈ cs t := by
  constructor
  · rintro ⟨n, h1, h2⟩
    simp only [absF, Option.map_eq_some_iff] at h1
    obtain ⟨m, hm, rfl⟩ := h1
    obtain ⟨⟨c, s'⟩, h3, rfl⟩ := List.mem_map.1 h2
    exact ⟨c, h3⟩
  · rintro ⟨c, hc⟩
    obtain ⟨n, hn⟩ := I.live hc
    exact ⟨_, by simp only [absF, hn, Option.map_some]; rfl, List.mem_map.2 ⟨_, hc, rfl⟩⟩

theorem below_iff {h : Heap} {cs : Cells} (I : Inv h cs) (t x : Addr) :
    Below (absF h cs) t x ↔ Sub cs t x := by
  constructor
  · intro hb
    induction hb with
    | self => exact .self
    | step _ hc ih =>
      obtain ⟨c, hc⟩ := (child_iff I _ _).1 hc
      exact .step ih hc
  · intro hb
    induction hb with
    | self => exact .self
    | step _ hc ih => exact .step ih ((child_iff I _ _).2 ⟨_, hc⟩)

/-! ### Facts about `Sub` -/

theorem Sub.trans {cs : Cells} {a b c : Addr} (h1 : Sub cs a b) (h2 : Sub cs b c) : Sub cs a c := by
  induction h2 with
  | self => exact h1
  | step _ hc ih => exact .step ih hc

theorem Sub.rank_le {cs : Cells} {rank : Addr → Nat} (hr : ∀ t c s, (c, s) ∈ cs t → rank s < rank t)
    {t x : Addr} (h : Sub cs t x) : rank x ≤ rank t := by
  induction h with
  | self => exact Nat.le_refl _
  | step _ hc ih => exact Nat.le_trans (Nat.le_of_lt (hr _ _ _ hc)) ih

/-- The parent of a tree strictly below `t` is below `t`. -/
theorem Sub.parent {cs : Cells} (sh : Shape cs) {t x p c : Addr} (h : Sub cs t x) (hne : x ≠ t)
    (hp : (c, x) ∈ cs p) : Sub cs t p := by
  cases h with
  | self => exact absurd rfl hne
  | step h1 h2 => exact sh.uniq _ _ _ _ _ h2 hp ▸ h1

/-- Trees with a common tree below are one below the other. -/
theorem Sub.linear {cs : Cells} (sh : Shape cs) {a b x : Addr} (ha : Sub cs a x) :
    Sub cs b x → Sub cs a b ∨ Sub cs b a := by
  induction ha with
  | self => intro hb; exact Or.inr hb
  | step ha hc ih =>
    intro hb
    cases hb with
    | self => exact Or.inl (.step ha hc)
    | step hb hc' =>
      have := sh.uniq _ _ _ _ _ hc hc'
      subst this
      exact ih hb

theorem Sub.of_child {cs : Cells} {t s c x : Addr} (hc : (c, s) ∈ cs t) (h : Sub cs s x) : Sub cs t x :=
  Sub.trans (.step .self hc) h

theorem not_sub_child {cs : Cells} (sh : Shape cs) {t s c : Addr} (hc : (c, s) ∈ cs t) : ¬ Sub cs s t := by
  obtain ⟨rank, hr⟩ := sh.rank
  intro h
  have := Sub.rank_le hr h
  have := hr _ _ _ hc
  omega

/-- Different siblings have nothing in common. -/
theorem sibling_disjoint {cs : Cells} (sh : Shape cs) {t s s' c c' x : Addr} (hc : (c, s) ∈ cs t)
    (hc' : (c', s') ∈ cs t) (hne : s ≠ s') (h : Sub cs s x) : ¬ Sub cs s' x := by
  intro h'
  rcases Sub.linear sh h h' with h1 | h1
  · exact not_sub_child sh hc (Sub.parent sh h1 hne.symm hc')
  · exact not_sub_child sh hc' (Sub.parent sh h1 hne hc)

theorem sub_iff_child {cs : Cells} {t x : Addr} :
    Sub cs t x ↔ x = t ∨ ∃ y ∈ cs t, Sub cs y.2 x := by
  constructor
  · intro h
    induction h with
    | self => exact Or.inl rfl
    | step h1 hc ih =>
      rcases ih with rfl | ⟨y, hy, h2⟩
      · exact Or.inr ⟨_, hc, .self⟩
      · exact Or.inr ⟨y, hy, .step h2 hc⟩
  · rintro (rfl | ⟨y, hy, h⟩)
    · exact .self
    · exact Sub.of_child hy h

/-! ### Changing one list -/

/-- Change the list of one tree. -/
def updL (cs : Cells) (p : Addr) (l : List (Addr × Addr)) : Cells := fun x => if x = p then l else cs x

theorem mem_updL {cs : Cells} {p x : Addr} {l : List (Addr × Addr)} {y : Addr × Addr} :
    y ∈ updL cs p l x ↔ (x = p ∧ y ∈ l) ∨ (x ≠ p ∧ y ∈ cs x) := by
  unfold updL
  by_cases h : x = p <;> simp [h]

open Classical in
/-- Linking a root below another tree. -/
theorem Inv.link {h h' : Heap} {cs : Cells} (I : Inv h cs) {p t c : Addr} {np nt np' nt' : Node}
    {l1 l2 : List (Addr × Addr)} (hp : h.trees p = some np) (ht : h.trees t = some nt)
    (hroot : nt.parent = none) (hnb : ¬ Sub cs t p) (hl : cs p = l1 ++ l2) (hc : h.fresh ≤ c)
    (hcf : c < h'.fresh) (ht' : h'.trees t = some nt') (hntp : nt'.parent = some p) (hntl : nt'.list = nt.list)
    (hp' : h'.trees p = some np') (hnpp : np'.parent = np.parent)
    (hch : Chain h'.cells np'.list (l1 ++ (c, t) :: l2))
    (hoth : ∀ x, x ≠ p → x ≠ t → h'.trees x = h.trees x)
    (hcells : ∀ x, x ∉ (cs p).map Prod.fst → x ≠ c → h'.cells x = h.cells x) :
    Inv h' (updL cs p (l1 ++ (c, t) :: l2)) := by
  have hpt : p ≠ t := fun e => hnb (e ▸ .self)
  have hnc : ∀ x, c ∉ (cs x).map Prod.fst := fun x hm => Nat.lt_irrefl _ (Nat.lt_of_lt_of_le (I.cell_lt hm) hc)
  have hnt : ∀ x c', (c', t) ∉ cs x := fun x c' hm => by
    obtain ⟨n, h1, h2⟩ := I.kid _ _ _ hm
    rw [ht] at h1
    cases h1
    rw [hroot] at h2
    cases h2
  have hmem : ∀ y, y ∈ l1 ++ (c, t) :: l2 ↔ y = (c, t) ∨ y ∈ cs p := by
    intro y; rw [hl]; simp only [List.mem_append, List.mem_cons]; grind
  have hmem' : ∀ x y, y ∈ updL cs p (l1 ++ (c, t) :: l2) x ↔ (x = p ∧ y = (c, t)) ∨ y ∈ cs x := by
    intro x y
    rw [mem_updL, hmem]
    by_cases e : x = p
    · subst e; simp
    · simp [e]
  have sh := I.shape
  constructor
  · constructor
    · intro x
      unfold updL
      by_cases e : x = p
      · rw [if_pos e]
        have h1 := sh.nodupC p
        rw [hl, List.map_append] at h1
        rw [List.map_append, List.map_cons, List.nodup_middle, List.nodup_cons]
        refine ⟨?_, h1⟩
        have := hnc p
        rwa [hl, List.map_append] at this
      · rw [if_neg e]; exact sh.nodupC x
    · intro x
      unfold updL
      by_cases e : x = p
      · rw [if_pos e]
        have h1 := sh.nodupS p
        rw [hl, List.map_append] at h1
        rw [List.map_append, List.map_cons, List.nodup_middle, List.nodup_cons]
        refine ⟨?_, h1⟩
        rw [← List.map_append, ← hl]
        intro hm
        obtain ⟨⟨c', s⟩, hm', e'⟩ := List.mem_map.1 hm
        simp only at e'
        subst e'
        exact hnt _ _ hm'
      · rw [if_neg e]; exact sh.nodupS x
    · intro x x' c' s s' h1 h2
      rw [hmem'] at h1 h2
      rcases h1 with ⟨rfl, h1⟩ | h1 <;> rcases h2 with ⟨rfl, h2⟩ | h2
      · rfl
      · cases h1
        exact absurd (List.mem_map.2 ⟨_, h2, rfl⟩) (hnc x')
      · cases h2
        exact absurd (List.mem_map.2 ⟨_, h1, rfl⟩) (hnc x)
      · exact sh.disj _ _ _ _ _ h1 h2
    · intro x x' c' c'' s h1 h2
      rw [hmem'] at h1 h2
      rcases h1 with ⟨rfl, h1⟩ | h1 <;> rcases h2 with ⟨rfl, h2⟩ | h2
      · rfl
      · cases h1; exact absurd h2 (hnt _ _)
      · cases h2; exact absurd h1 (hnt _ _)
      · exact sh.uniq _ _ _ _ _ h1 h2
    · obtain ⟨rank, hr⟩ := sh.rank
      refine ⟨fun x => if Sub cs t x then rank x else rank x + rank t + 1, fun x c' s hm => ?_⟩
      rw [hmem'] at hm
      show (if Sub cs t s then rank s else rank s + rank t + 1) < (if Sub cs t x then rank x else rank x + rank t + 1)
      rcases hm with ⟨rfl, hm⟩ | hm
      · cases hm
        rw [if_pos Sub.self, if_neg hnb]
        omega
      · have := hr _ _ _ hm
        by_cases h1 : Sub cs t x
        · rw [if_pos (Sub.step h1 hm), if_pos h1]
          exact this
        · by_cases h2 : Sub cs t s
          · rw [if_pos h2, if_neg h1]
            omega
          · rw [if_neg h2, if_neg h1]
            omega
  · intro x hx
    have h1 : x ≠ p := fun e => by have := I.tree_lt hp; subst e; omega
    have h2 : x ≠ t := fun e => by have := I.tree_lt ht; subst e; omega
    rw [hoth x h1 h2]
    exact I.freshT x (by omega)
  · intro x hx
    rw [hcells x (fun hm => by have := I.cell_lt hm; omega) (by omega)]
    exact I.freshC x (by omega)
  · intro x n hn
    unfold updL
    by_cases e : x = p
    · subst e
      rw [hp'] at hn
      cases hn
      rw [if_pos rfl]
      exact hch
    · rw [if_neg e]
      have hcong : ∀ y ∈ (cs x).map Prod.fst, h'.cells y = h.cells y := by
        intro y hy
        refine hcells y (fun hy' => ?_) (fun e => hnc x (e ▸ hy))
        obtain ⟨⟨y1, s1⟩, m1, rfl⟩ := List.mem_map.1 hy
        obtain ⟨⟨y2, s2⟩, m2, e2⟩ := List.mem_map.1 hy'
        simp only at e2
        subst e2
        exact e (sh.disj _ _ _ _ _ m1 m2)
      by_cases e' : x = t
      · subst e'
        rw [ht'] at hn
        cases hn
        rw [hntl]
        exact (I.chain x nt ht).congr hcong
      · rw [hoth x e e'] at hn
        exact (I.chain x n hn).congr hcong
  · intro x hx
    have h1 : x ≠ p := fun e => by subst e; rw [hp'] at hx; cases hx
    have h2 : x ≠ t := fun e => by subst e; rw [ht'] at hx; cases hx
    unfold updL
    rw [if_neg h1]
    rw [hoth x h1 h2] at hx
    exact I.dead x hx
  · intro x c' s hm
    rw [hmem'] at hm
    rcases hm with ⟨rfl, hm⟩ | hm
    · cases hm
      exact ⟨nt', ht', hntp⟩
    · obtain ⟨n, h1, h2⟩ := I.kid _ _ _ hm
      have hst : s ≠ t := fun e => hnt _ _ (e ▸ hm)
      by_cases e : s = p
      · subst e
        rw [hp] at h1
        cases h1
        exact ⟨np', hp', by rw [hnpp]; exact h2⟩
      · exact ⟨n, by rw [hoth s e hst]; exact h1, h2⟩
  · intro s n x hs hpar
    by_cases e : s = t
    · subst e
      rw [ht'] at hs
      cases hs
      rw [hntp] at hpar
      cases hpar
      exact ⟨c, (hmem' _ _).2 (Or.inl ⟨rfl, rfl⟩)⟩
    · by_cases e' : s = p
      · subst e'
        rw [hp'] at hs
        cases hs
        rw [hnpp] at hpar
        obtain ⟨c', hc'⟩ := I.par _ _ _ hp hpar
        exact ⟨c', (hmem' _ _).2 (Or.inr hc')⟩
      · rw [hoth s e' e] at hs
        obtain ⟨c', hc'⟩ := I.par _ _ _ hs hpar
        exact ⟨c', (hmem' _ _).2 (Or.inr hc')⟩

/-- Unlinking a tree. -/
theorem Inv.unlinked {h h' : Heap} {cs : Cells} (I : Inv h cs) {p t c : Addr} {np nt np' nt' : Node}
    {l1 l2 : List (Addr × Addr)} (hp : h.trees p = some np) (ht : h.trees t = some nt)
    (hl : cs p = l1 ++ (c, t) :: l2) (hf : h'.fresh = h.fresh)
    (ht' : h'.trees t = some nt') (hntp : nt'.parent = none) (hntl : nt'.list = nt.list)
    (hp' : h'.trees p = some np') (hnpp : np'.parent = np.parent)
    (hch : Chain h'.cells np'.list (l1 ++ l2))
    (hoth : ∀ x, x ≠ p → x ≠ t → h'.trees x = h.trees x)
    (hcells : ∀ x, x ∉ (cs p).map Prod.fst → h'.cells x = h.cells x) :
    Inv h' (updL cs p (l1 ++ l2)) := by
  have sh := I.shape
  have hct : (c, t) ∈ cs p := by rw [hl]; simp
  have hpt : t ≠ p := fun e => not_sub_child sh hct (e ▸ .self)
  have hsub : (l1 ++ l2).Sublist (cs p) := by
    rw [hl]
    exact List.Sublist.append_left (List.sublist_cons_self _ _) _
  have hmem : ∀ x y, y ∈ updL cs p (l1 ++ l2) x → y ∈ cs x := by
    intro x y hy
    rw [mem_updL] at hy
    rcases hy with ⟨rfl, hy⟩ | ⟨_, hy⟩
    · exact hsub.subset hy
    · exact hy
  have hmem2 : ∀ x c' s, (c', s) ∈ cs x → s ≠ t → (c', s) ∈ updL cs p (l1 ++ l2) x := by
    intro x c' s hm hne
    rw [mem_updL]
    by_cases e : x = p
    · subst e
      rw [hl] at hm
      simp only [List.mem_append, List.mem_cons, Prod.mk.injEq] at hm
      refine Or.inl ⟨rfl, ?_⟩
      simp only [List.mem_append]
      grind
    · exact Or.inr ⟨e, hm⟩
  have hnt : ∀ x c', (c', t) ∉ updL cs p (l1 ++ l2) x := by
    intro x c' hm
    have h1 := hmem _ _ hm
    have := sh.uniq _ _ _ _ _ h1 hct
    subst this
    rw [mem_updL] at hm
    rcases hm with ⟨_, hm⟩ | ⟨hn, _⟩
    · have h2 := sh.nodupS x
      rw [hl, List.map_append, List.map_cons, List.nodup_middle, List.nodup_cons] at h2
      apply h2.1
      rw [← List.map_append]
      exact List.mem_map.2 ⟨_, hm, rfl⟩
    · exact hn rfl
  constructor
  · constructor
    · intro x
      unfold updL
      by_cases e : x = p
      · rw [if_pos e]
        exact (sh.nodupC p).sublist (hsub.map _)
      · rw [if_neg e]; exact sh.nodupC x
    · intro x
      unfold updL
      by_cases e : x = p
      · rw [if_pos e]
        exact (sh.nodupS p).sublist (hsub.map _)
      · rw [if_neg e]; exact sh.nodupS x
    · exact fun x x' c' s s' h1 h2 => sh.disj _ _ _ _ _ (hmem _ _ h1) (hmem _ _ h2)
    · exact fun x x' c' s s' h1 h2 => sh.uniq _ _ _ _ _ (hmem _ _ h1) (hmem _ _ h2)
    · obtain ⟨rank, hr⟩ := sh.rank
      exact ⟨rank, fun x c' s hm => hr _ _ _ (hmem _ _ hm)⟩
  · intro x hx
    have h1 : x ≠ p := fun e => by have := I.tree_lt hp; subst e; omega
    have h2 : x ≠ t := fun e => by have := I.tree_lt ht; subst e; omega
    rw [hoth x h1 h2]
    exact I.freshT x (by omega)
  · intro x hx
    rw [hcells x (fun hm => by have := I.cell_lt hm; omega)]
    exact I.freshC x (by omega)
  · intro x n hn
    unfold updL
    by_cases e : x = p
    · subst e
      rw [hp'] at hn
      cases hn
      rw [if_pos rfl]
      exact hch
    · rw [if_neg e]
      have hcong : ∀ y ∈ (cs x).map Prod.fst, h'.cells y = h.cells y := by
        intro y hy
        refine hcells y (fun hy' => ?_)
        obtain ⟨⟨y1, s1⟩, m1, rfl⟩ := List.mem_map.1 hy
        obtain ⟨⟨y2, s2⟩, m2, e2⟩ := List.mem_map.1 hy'
        simp only at e2
        subst e2
        exact e (sh.disj _ _ _ _ _ m1 m2)
      by_cases e' : x = t
      · subst e'
        rw [ht'] at hn
        cases hn
        rw [hntl]
        exact (I.chain x nt ht).congr hcong
      · rw [hoth x e e'] at hn
        exact (I.chain x n hn).congr hcong
  · intro x hx
    have h1 : x ≠ p := fun e => by subst e; rw [hp'] at hx; cases hx
    have h2 : x ≠ t := fun e => by subst e; rw [ht'] at hx; cases hx
    unfold updL
    rw [if_neg h1]
    rw [hoth x h1 h2] at hx
    exact I.dead x hx
  · intro x c' s hm
    obtain ⟨n, h1, h2⟩ := I.kid _ _ _ (hmem _ _ hm)
    have hst : s ≠ t := fun e => hnt _ _ (e ▸ hm)
    by_cases e : s = p
    · subst e
      rw [hp] at h1
      cases h1
      exact ⟨np', hp', by rw [hnpp]; exact h2⟩
    · exact ⟨n, by rw [hoth s e hst]; exact h1, h2⟩
  · intro s n x hs hpar
    by_cases e : s = t
    · subst e
      rw [ht'] at hs
      cases hs
      rw [hntp] at hpar
      cases hpar
    · by_cases e' : s = p
      · subst e'
        rw [hp'] at hs
        cases hs
        rw [hnpp] at hpar
        obtain ⟨c', hc'⟩ := I.par _ _ _ hp hpar
        exact ⟨c', hmem2 _ _ _ hc' e⟩
      · rw [hoth s e' e] at hs
        obtain ⟨c', hc'⟩ := I.par _ _ _ hs hpar
        exact ⟨c', hmem2 _ _ _ hc' e⟩

end Verif.ATHeap
