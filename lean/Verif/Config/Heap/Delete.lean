import Verif.Config.Heap.Inv

/-!
# The destructors
-/
namespace Verif.ATHeap

open scoped Classical


/-- The heap without some trees and cells. -/
noncomputable def eraseH (h : Heap) (T C : Addr → Prop) : Heap where
  trees x := if T x then none else h.trees x
  cells x := if C x then none else h.cells x
  fresh := h.fresh

/-- The cells of a set of trees. -/
def cellsOf (cs : Cells) (T : Addr → Prop) (c : Addr) : Prop := ∃ x, T x ∧ c ∈ (cs x).map Prod.fst

/-- `t` and everything below it exists and is linked as in `cs` (the parent links do not matter). -/
def Local (cs : Cells) (h : Heap) (t : Addr) : Prop :=
  ∀ x, Sub cs t x → ∃ n, h.trees x = some n ∧ Chain h.cells n.list (cs x)

/-- `delete list` where `list` may be `NULL`. -/
def delOpt (k : Nat) (h : Heap) : Option Addr → Res Heap
  | some c => deleteCell k h c
  | none => .ok h

theorem heap_ext {h h' : Heap} (h1 : ∀ x, h.trees x = h'.trees x) (h2 : ∀ x, h.cells x = h'.cells x)
    (h3 : h.fresh = h'.fresh) : h = h' := by
  cases h; cases h'
  simp only at h1 h2 h3
  rw [funext h1, funext h2, h3]

/-- The trees below a list of cells. -/
def TL (cs : Cells) (l : List (Addr × Addr)) (x : Addr) : Prop := ∃ y ∈ l, Sub cs y.2 x

/-- The cells of a list and of everything below it. -/
def CL (cs : Cells) (l : List (Addr × Addr)) (c : Addr) : Prop :=
  c ∈ l.map Prod.fst ∨ cellsOf cs (TL cs l) c

theorem mem_fst {l : List (Addr × Addr)} {c : Addr} (h : c ∈ l.map Prod.fst) : ∃ s, (c, s) ∈ l := by
  obtain ⟨⟨c', s⟩, h1, h2⟩ := List.mem_map.1 h
  simp only at h2
  subst h2
  exact ⟨s, h1⟩

/-- A cell of `t` is not a cell of something below a subtree of `t`. -/
theorem cell_not_below {cs : Cells} (sh : Shape cs) {t s c c' s' : Addr} (hs : (c', s') ∈ cs t)
    (hc : (c, s) ∈ cs t) : ¬ cellsOf cs (Sub cs s') c := by
  rintro ⟨x, hx, hm⟩
  obtain ⟨s2, hm⟩ := mem_fst hm
  have := sh.disj _ _ _ _ _ hm hc
  subst this
  exact not_sub_child sh hs hx

theorem deleteList (cs : Cells) (sh : Shape cs) (t : Addr)
    (IH : ∀ c s, (c, s) ∈ cs t → ∀ h n, h.trees s = some n → n.parent = none → Local cs h s →
      ∃ k0, ∀ k ≥ k0, deleteTree k h s = .ok (eraseH h (Sub cs s) (cellsOf cs (Sub cs s)))) :
    ∀ (l l0 : List (Addr × Addr)) (h : Heap) (o : Option Addr), cs t = l0 ++ l → Chain h.cells o l →
      (∀ x ∈ l, Local cs h x.2) →
      ∃ k0, ∀ k ≥ k0, delOpt k h o = .ok (eraseH h (TL cs l) (CL cs l)) := by
  intro l
  induction l with
  | nil =>
    intro l0 h o _ hc _
    cases hc
    refine ⟨0, fun k _ => ?_⟩
    show Res.ok h = _
    congr 1
    refine heap_ext (fun x => ?_) (fun x => ?_) rfl
    · show _ = if TL cs [] x then none else h.trees x
      rw [if_neg (by rintro ⟨y, hy, _⟩; cases hy)]
    · show _ = if CL cs [] x then none else h.cells x
      rw [if_neg]
      rintro (h1 | ⟨y, ⟨z, hz, _⟩, _⟩)
      · cases h1
      · cases hz
  | cons y l ih =>
    intro l0 h o hl hc hloc
    obtain ⟨c, s⟩ := y
    obtain ⟨h1, n, h2, h3⟩ := hc
    simp only at h1 h2
    have hall : ∀ y ∈ (c, s) :: l, y ∈ cs t := fun y hy => by rw [hl]; exact List.mem_append_right _ hy
    have hcs : (c, s) ∈ cs t := hall _ (by simp)
    have hnd : c ∉ l.map Prod.fst := by
      have := sh.nodupC t
      rw [hl, List.map_append, List.map_cons, List.nodup_append] at this
      exact (List.nodup_cons.1 this.2.1).1
    have hns : ∀ y ∈ l, y.2 ≠ s := by
      have := sh.nodupS t
      rw [hl, List.map_append, List.map_cons, List.nodup_append] at this
      have := (List.nodup_cons.1 this.2.1).1
      intro y hy e
      exact this (List.mem_map.2 ⟨y, hy, e⟩)
    obtain ⟨ns, hs, hcs2⟩ := hloc (c, s) (by simp) s .self

    -- the subtree
    let hA : Heap := { h with trees := upd h.trees s (some { ns with parent := none }) }
    have hlocA : Local cs hA s := by
      intro x hx
      by_cases e : x = s
      · subst e
        exact ⟨_, upd_same _ _ _, hcs2⟩
      · obtain ⟨m, hm1, hm2⟩ := hloc (c, s) (by simp) x hx
        exact ⟨m, by rw [← hm1]; exact upd_ne _ _ e, hm2⟩
    obtain ⟨k1, hk1⟩ := IH c s hcs hA _ (upd_same _ _ _) rfl hlocA
    let hB : Heap := eraseH h (Sub cs s) (cellsOf cs (Sub cs s))
    have hAB : eraseH hA (Sub cs s) (cellsOf cs (Sub cs s)) = hB := by
      refine heap_ext (fun x => ?_) (fun x => rfl) rfl
      show (if Sub cs s x then none else upd h.trees s _ x) = if Sub cs s x then none else h.trees x
      by_cases e : Sub cs s x
      · rw [if_pos e, if_pos e]
      · rw [if_neg e, if_neg e]
        exact upd_ne _ _ (fun e' => e (e' ▸ .self))
    have hBc : ∀ d s', (d, s') ∈ cs t → hB.cells d = h.cells d := by
      intro d s' hd
      show (if cellsOf cs (Sub cs s) d then none else h.cells d) = _
      rw [if_neg (cell_not_below sh hcs hd)]
    -- the rest of the list
    have hchB : Chain hB.cells n l := h3.congr fun d hd => by
      obtain ⟨s', hd⟩ := mem_fst hd
      exact hBc d s' (hall _ (by simp [hd]))
    have hlocB : ∀ x ∈ l, Local cs hB x.2 := by
      intro x hx z hz
      obtain ⟨m, hm1, hm2⟩ := hloc x (by simp [hx]) z hz
      have hdis : ¬ Sub cs s z := by
        intro hsz
        obtain ⟨xc, xs⟩ := x
        exact sibling_disjoint sh hcs (hall (xc, xs) (by simp [hx])) (fun e => hns _ hx e.symm) hsz hz
      refine ⟨m, ?_, hm2.congr fun d hd => ?_⟩
      · show (if Sub cs s z then none else h.trees z) = _
        rw [if_neg hdis]
        exact hm1
      · show (if cellsOf cs (Sub cs s) d then none else h.cells d) = _
        rw [if_neg]
        rintro ⟨z', hz', hd'⟩
        obtain ⟨s1, hd⟩ := mem_fst hd
        obtain ⟨s2, hd'⟩ := mem_fst hd'
        have := sh.disj _ _ _ _ _ hd' hd
        subst this
        exact hdis hz'
    obtain ⟨k2, hk2⟩ := ih (l0 ++ [(c, s)]) hB n (by simp [hl]) hchB hlocB
    refine ⟨k1 + k2 + 1, fun k hk => ?_⟩
    obtain ⟨k, rfl⟩ : ∃ j, k = j + 1 := ⟨k - 1, by omega⟩
    rw [h1]
    simp only [delOpt, deleteCell, rdC_eq h2, Res.ok_bind, rdT_eq hs]
    rw [wrT_eq hs]
    simp only [Res.ok_bind]
    rw [show ({ trees := upd h.trees s (some { ns with parent := none }), cells := h.cells, fresh := h.fresh } : Heap) = hA from rfl,
      hk1 k (by omega), hAB]
    simp only [Res.ok_bind]
    have hBcell : hB.cells c = some ⟨n, some s⟩ := by rw [hBc c s hcs]; exact h2
    rw [rdC_eq hBcell]
    simp only [Res.ok_bind]
    have e2 := hk2 k (by omega)
    have e3 : ∀ n : Option Nat, (match n with
        | some nx => do
          let h ← deleteCell k hB nx
          freeC h c
        | none => freeC hB c) = (delOpt k hB n >>= fun h => freeC h c) := fun n => by cases n <;> rfl
    refine (e3 n).trans ?_
    rw [e2]
    simp only [Res.ok_bind]
    have hnot : ¬ CL cs l c := by
      rintro (h4 | ⟨x, ⟨y, hy, hx⟩, hm⟩)
      · exact hnd h4
      · obtain ⟨yc, ys⟩ := y
        exact cell_not_below sh (hall (yc, ys) (by simp [hy])) hcs ⟨x, hx, hm⟩
    have hCcell : (eraseH hB (TL cs l) (CL cs l)).cells c = some ⟨n, some s⟩ := by
      show (if CL cs l c then none else hB.cells c) = _
      rw [if_neg hnot]
      exact hBcell
    rw [freeC_eq hCcell]
    congr 1
    refine heap_ext (fun x => ?_) (fun x => ?_) rfl
    · show (if TL cs l x then none else if Sub cs s x then none else h.trees x) =
        if TL cs ((c, s) :: l) x then none else h.trees x
      have : TL cs ((c, s) :: l) x ↔ Sub cs s x ∨ TL cs l x := by simp [TL]
      by_cases e1 : TL cs l x
      · rw [if_pos e1, if_pos (this.2 (Or.inr e1))]
      · by_cases e2 : Sub cs s x
        · rw [if_neg e1, if_pos e2, if_pos (this.2 (Or.inl e2))]
        · rw [if_neg e1, if_neg e2, if_neg (fun hh => (this.1 hh).elim e2 e1)]
    · show upd (fun x => if CL cs l x then none else if cellsOf cs (Sub cs s) x then none else h.cells x) c none x =
        if CL cs ((c, s) :: l) x then none else h.cells x
      have : CL cs ((c, s) :: l) x ↔ x = c ∨ cellsOf cs (Sub cs s) x ∨ CL cs l x := by
        constructor
        · rintro (h4 | ⟨z, ⟨y, hy, hx⟩, hm⟩)
          · simp only [List.map_cons, List.mem_cons] at h4
            rcases h4 with h4 | h4
            · exact Or.inl h4
            · exact Or.inr (Or.inr (Or.inl h4))
          · rcases List.mem_cons.1 hy with rfl | hy
            · exact Or.inr (Or.inl ⟨z, hx, hm⟩)
            · exact Or.inr (Or.inr (Or.inr ⟨z, ⟨y, hy, hx⟩, hm⟩))
        · rintro (rfl | ⟨z, hz, hm⟩ | h4 | ⟨z, ⟨y, hy, hx⟩, hm⟩)
          · exact Or.inl (by simp)
          · exact Or.inr ⟨z, ⟨(c, s), by simp, hz⟩, hm⟩
          · exact Or.inl (by simp [h4])
          · exact Or.inr ⟨z, ⟨y, by simp [hy], hx⟩, hm⟩
      by_cases e0 : x = c
      · subst e0
        rw [upd_same, if_pos (this.2 (Or.inl rfl))]
      · rw [upd_ne _ _ e0]
        by_cases e1 : CL cs l x
        · rw [if_pos e1, if_pos (this.2 (Or.inr (Or.inr e1)))]
        · by_cases e2 : cellsOf cs (Sub cs s) x
          · rw [if_neg e1, if_pos e2, if_pos (this.2 (Or.inr (Or.inl e2)))]
          · rw [if_neg e1, if_neg e2, if_neg (fun hh => (this.1 hh).elim e0 (fun h => h.elim e2 e1))]

/-- The part of `~AttributeTree` before `unlink()`. -/
def delSubs (k : Nat) (h : Heap) (t : Addr) : Res Heap := do
  let n ← rdT h t
  match n.list with
  | some c => do
    let h ← deleteCell k h c
    let n ← rdT h t
    wrT h t { n with list := none }
  | none => .ok h

theorem deleteTree_succ (k : Nat) (h : Heap) (t : Addr) :
    deleteTree (k + 1) h t = (delSubs k h t >>= fun h => unlink k h t >>= fun h => freeT h t) := by
  simp only [deleteTree, delSubs, rdT]
  cases h.trees t with
  | none => rfl
  | some n =>
    simp only [Res.ok_bind]
    cases n.list with
    | none => rfl
    | some c =>
      simp only
      cases deleteCell k h c with
      | ub => rfl
      | fuel => rfl
      | ok h1 =>
        simp only [Res.ok_bind]
        cases h1.trees t <;> rfl


/-- After the subtrees of `t` were deleted. -/
noncomputable def subsGone (cs : Cells) (h : Heap) (t : Addr) (n : Node) : Heap where
  trees x := if x = t then some { n with list := none } else if Sub cs t x then none else h.trees x
  cells x := if cellsOf cs (Sub cs t) x then none else h.cells x
  fresh := h.fresh

theorem delSubs_spec (cs : Cells) (sh : Shape cs) (t : Addr)
    (IH : ∀ c s, (c, s) ∈ cs t → ∀ h n, h.trees s = some n → n.parent = none → Local cs h s →
      ∃ k0, ∀ k ≥ k0, deleteTree k h s = .ok (eraseH h (Sub cs s) (cellsOf cs (Sub cs s))))
    (h : Heap) (n : Node) (hn : h.trees t = some n) (hloc : Local cs h t) :
    ∃ k0, ∀ k ≥ k0, delSubs k h t = .ok (subsGone cs h t n) := by
  obtain ⟨n', hn', hc⟩ := hloc t .self
  rw [hn] at hn'
  cases hn'
  obtain ⟨k0, hk0⟩ := deleteList cs sh t IH (cs t) [] h n.list rfl hc
    (fun x hx z hz => hloc z (Sub.of_child (c := x.1) (s := x.2) hx hz))
  have hTL : ∀ x, Sub cs t x ↔ x = t ∨ TL cs (cs t) x := fun x => sub_iff_child
  have htt : ¬ TL cs (cs t) t := by
    rintro ⟨⟨c, s⟩, hy, hz⟩
    exact not_sub_child sh hy hz
  have hCL : ∀ c, CL cs (cs t) c ↔ cellsOf cs (Sub cs t) c := by
    intro c
    constructor
    · rintro (h1 | ⟨x, hx, hm⟩)
      · exact ⟨t, .self, h1⟩
      · exact ⟨x, (hTL x).2 (Or.inr hx), hm⟩
    · rintro ⟨x, hx, hm⟩
      rcases (hTL x).1 hx with rfl | hx
      · exact Or.inl hm
      · exact Or.inr ⟨x, hx, hm⟩
  refine ⟨k0, fun k hk => ?_⟩
  have e := hk0 k hk
  unfold delSubs
  rw [rdT_eq hn]
  simp only [Res.ok_bind]
  cases hlist : n.list with
  | none =>
    rw [hlist] at e hc
    have hnil : cs t = [] := by
      cases hcs : cs t with
      | nil => rfl
      | cons y l => rw [hcs] at hc; cases hc.1
    simp only
    congr 1
    refine heap_ext (fun x => ?_) (fun x => ?_) rfl
    · show _ = if x = t then some { n with list := none } else if Sub cs t x then none else h.trees x
      by_cases ex : x = t
      · subst ex
        rw [if_pos rfl, hn]
        cases n
        simp only at hlist
        subst hlist
        rfl
      · rw [if_neg ex, if_neg]
        intro hx
        rcases (hTL x).1 hx with hx | ⟨y, hy, _⟩
        · exact ex hx
        · rw [hnil] at hy; cases hy
    · show _ = if cellsOf cs (Sub cs t) x then none else h.cells x
      rw [if_neg]
      intro hx
      rcases (hCL x).2 hx with hx | ⟨z, ⟨y, hy, _⟩, _⟩
      · rw [hnil] at hx; cases hx
      · rw [hnil] at hy; cases hy
  | some c =>
    rw [hlist] at e
    simp only [delOpt] at e
    simp only [e, Res.ok_bind]
    have h2 : (eraseH h (TL cs (cs t)) (CL cs (cs t))).trees t = some n := by
      show (if TL cs (cs t) t then none else h.trees t) = _
      rw [if_neg htt]
      exact hn
    rw [rdT_eq h2]
    simp only [Res.ok_bind]
    rw [wrT_eq h2]
    congr 1
    refine heap_ext (fun x => ?_) (fun x => ?_) rfl
    · show upd (fun x => if TL cs (cs t) x then none else h.trees x) t _ x =
        if x = t then some { n with list := none } else if Sub cs t x then none else h.trees x
      by_cases ex : x = t
      · subst ex
        rw [if_pos rfl, upd_same]
      · rw [if_neg ex, upd_ne _ _ ex]
        by_cases hx : TL cs (cs t) x
        · rw [if_pos hx, if_pos ((hTL x).2 (Or.inr hx))]
        · rw [if_neg hx, if_neg (fun hh => ((hTL x).1 hh).elim ex hx)]
    · show (if CL cs (cs t) x then none else h.cells x) = if cellsOf cs (Sub cs t) x then none else h.cells x
      by_cases hx : CL cs (cs t) x
      · rw [if_pos hx, if_pos ((hCL x).1 hx)]
      · rw [if_neg hx, if_neg (fun hh => hx ((hCL x).2 hh))]

/-- The destructor of a tree without parent. -/
theorem deleteTree_root (cs : Cells) (sh : Shape cs) : ∀ (t : Addr) (h : Heap) (n : Node),
    h.trees t = some n → n.parent = none → Local cs h t →
      ∃ k0, ∀ k ≥ k0, deleteTree k h t = .ok (eraseH h (Sub cs t) (cellsOf cs (Sub cs t))) := by
  obtain ⟨rank, hr⟩ := sh.rank
  have key : ∀ r t, rank t < r → ∀ (h : Heap) (n : Node),
    h.trees t = some n → n.parent = none → Local cs h t →
      ∃ k0, ∀ k ≥ k0, deleteTree k h t = .ok (eraseH h (Sub cs t) (cellsOf cs (Sub cs t))) := by
    intro r
    induction r with
    | zero => intro t ht; omega
    | succ r ih =>
      intro t ht h n hn hpar hloc
      obtain ⟨k0, hk0⟩ := delSubs_spec cs sh t
        (fun c s hcs => ih s (by have := hr _ _ _ hcs; omega)) h n hn hloc
      refine ⟨k0 + 1, fun k hk => ?_⟩
      obtain ⟨k, rfl⟩ : ∃ j, k = j + 1 := ⟨k - 1, by omega⟩
      rw [deleteTree_succ, hk0 k (by omega)]
      simp only [Res.ok_bind]
      have h2 : (subsGone cs h t n).trees t = some { n with list := none } := by
        show (if t = t then _ else _) = _
        rw [if_pos rfl]
      simp only [unlink, rdT_eq h2, Res.ok_bind, hpar]
      rw [wrT_eq h2]
      simp only [Res.ok_bind]
      rw [freeT_eq (n := { n with list := none, parent := none }) (upd_same _ _ _)]
      congr 1
      refine heap_ext (fun x => ?_) (fun x => rfl) rfl
      show upd (upd (fun x => if x = t then some { n with list := none } else if Sub cs t x then none else h.trees x) t _) t none x =
        if Sub cs t x then none else h.trees x
      by_cases ex : x = t
      · subst ex
        rw [upd_same, if_pos Sub.self]
      · rw [upd_ne _ _ ex, upd_ne _ _ ex, if_neg ex]
  exact fun t => key (rank t + 1) t (by omega)

end Verif.ATHeap
