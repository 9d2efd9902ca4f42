import Verif.UnionFind.Lemmas

/-! # Properties of the union-find structure (C11, C12) -/
namespace Verif.UnionFind

theorem sizeAfter_le (ops : List Op) : ∀ n, n ≤ sizeAfter n ops := by
  induction ops with
  | nil => intro n; exact Nat.le_refl _
  | cons op ops ih =>
    intro n
    cases op with
    | grow k => exact Nat.le_trans (Nat.le_add_right n k) (ih (n + k))
    | merge x y => exact ih n
    | find x => exact ih n

theorem need_lt {u rep} (h : Inv u rep) {x m budget : Nat} (hx : x < size u) (hm : size u ≤ m)
    (hb : Nat.log2 m < budget) : rnk u (rep x) - rnk u x < budget := by
  have h1 := h.card (rep x) (h.rep_lt x hx) (rep_idem h hx)
  have h2 := cnt_le rep (size u) (rep x)
  have h3 : rnk u (rep x) ≤ Nat.log2 m := (Nat.le_log2 (by omega)).2 (by omega)
  omega

theorem step_find {u rep} (h : Inv u rep) {x m budget : Nat} (hx : x < size u) (hm : size u ≤ m)
    (hb : Nat.log2 m < budget) : ∃ u', step budget u (.find x) = some (.val (rep x), u') ∧
      Inv u' rep ∧ size u' = size u := by
  obtain ⟨u', h1, h2, h3, _⟩ := find_ok budget h hx (need_lt h hx hm hb)
  exact ⟨u', by simp only [step, h1], h2, h3⟩

theorem run_inv (ops : List Op) : ∀ {u rep E budget}, Inv u rep → Agrees rep (size u) E →
    Nat.log2 (sizeAfter (size u) ops) < budget →
    ∃ obs u' rep', run budget u ops = some (obs, u') ∧ Inv u' rep' ∧
      size u' = sizeAfter (size u) ops ∧ Agrees rep' (size u') (E ++ mergedPairs (size u) ops) ∧
      ∀ o ∈ obs, o ≠ .ub := by
  induction ops with
  | nil =>
    intro u rep E budget h ha _
    exact ⟨[], u, rep, rfl, h, rfl, by simpa [mergedPairs] using ha, by simp⟩
  | cons op ops ih =>
    intro u rep E budget h ha hb
    cases op with
    | grow k =>
      have hs : size (grow u k) = size u + k := by simp [size, grow]
      have ha' := agrees_grow ha k h.rep_lt
      obtain ⟨obs, u', rep', h1, h2, h3, h4, h5⟩ := ih (inv_grow h k) (by rw [hs]; exact ha')
        (by rw [hs]; exact hb)
      rw [hs] at h3 h4
      exact ⟨.unit :: obs, u', rep', by simp only [run, step, h1], h2, h3, h4, by simpa using h5⟩
    | find x =>
      by_cases hx : x < size u
      · obtain ⟨u1, e1, i1, s1⟩ := step_find h hx (sizeAfter_le (Op.find x :: ops) _) hb
        obtain ⟨obs, u', rep', h1, h2, h3, h4, h5⟩ := ih i1 (by rw [s1]; exact ha) (by rw [s1]; exact hb)
        rw [s1] at h3 h4
        exact ⟨.val (rep x) :: obs, u', rep', by simp only [run, e1, h1], h2, h3, h4, by simpa using h5⟩
      · obtain ⟨obs, u', rep', h1, h2, h3, h4, h5⟩ := ih h ha hb
        have e1 : step budget u (.find x) = some (.threw .outOfRange, u) := by
          obtain ⟨b, rfl⟩ : ∃ b, budget = b + 1 := ⟨budget - 1, by omega⟩
          have : x ≥ u.parent.length := by simp only [size] at hx; omega
          simp only [step, find, this, if_true]
        exact ⟨.threw .outOfRange :: obs, u', rep', by simp only [run, e1, h1], h2, h3, h4, by simpa using h5⟩
    | merge x y =>
      by_cases hr : x < size u ∧ y < size u
      · obtain ⟨hx, hy⟩ := hr
        have hm := sizeAfter_le (Op.merge x y :: ops) (size u)
        obtain ⟨u1, e1, i1, s1, k1⟩ := find_ok budget h hx (need_lt h hx hm hb)
        have hy1 : y < size u1 := by omega
        obtain ⟨u2, e2, i2, s2, k2⟩ := find_ok budget i1 hy1 (need_lt i1 hy1 (by omega) hb)
        have hs2 : size u2 = size u := by omega
        have hnr : ¬ (x ≥ u.parent.length ∨ y ≥ u.parent.length) := by
          simp only [size] at hx hy; omega
        have hrx : rep x < size u2 := by rw [hs2]; exact h.rep_lt x hx
        have hry : rep y < size u2 := by rw [hs2]; exact h.rep_lt y hy
        have hmerge : merge budget u x y = some (link u2 (rep x) (rep y)) := by
          simp only [merge, hnr, if_false, e1, e2]
        have hpairs : mergedPairs (size u) (.merge x y :: ops)
            = (x, y) :: mergedPairs (size u) ops := by simp [mergedPairs, hx, hy]
        -- the linked state
        have hl : ∃ u3 rep3, link u2 (rep x) (rep y) = .ok u3 ∧ Inv u3 rep3 ∧ size u3 = size u ∧
            Agrees rep3 (size u) (E ++ [(x, y)]) := by
          by_cases hxy : rep x = rep y
          · exact ⟨u2, rep, by simp [link, hxy], i2, hs2, agrees_same ha hx hy hxy⟩
          · have g1 : Outcome.vecGet u2.rank (rep x) = .ok (rnk u2 (rep x)) := by
              have : rep x < u2.rank.length := by rw [i2.len]; exact hrx
              simp [Outcome.vecGet, List.getD_eq_getElem?_getD, List.getElem?_eq_getElem this]
            have g2 : Outcome.vecGet u2.rank (rep y) = .ok (rnk u2 (rep y)) := by
              have : rep y < u2.rank.length := by rw [i2.len]; exact hry
              simp [Outcome.vecGet, List.getD_eq_getElem?_getD, List.getElem?_eq_getElem this]
            have ix := rep_idem h hx
            have iy := rep_idem h hy
            simp only [link, hxy, if_false, bind, Outcome.bind, g1, g2]
            by_cases c1 : rnk u2 (rep x) < rnk u2 (rep y)
            · simp only [c1, if_true]
              have := inv_link i2 hry hrx iy ix (fun e => hxy e.symm) (.inl ⟨c1, rfl⟩)
              have e : u2.rank.set (rep y) (rnk u2 (rep y)) = u2.rank := by
                apply List.ext_getElem?
                intro i
                rw [List.getElem?_set]
                split
                · rename_i e; subst e
                  have hlt : rep y < u2.rank.length := by rw [i2.len]; exact hry
                  simp [hlt, List.getD_eq_getElem?_getD]
                · rfl
              rw [e] at this
              exact ⟨_, _, rfl, this, by simpa [size] using hs2, agrees_link ha hx hy (.inr ⟨rfl, rfl⟩)⟩
            · simp only [c1, if_false]
              by_cases c2 : rnk u2 (rep x) > rnk u2 (rep y)
              · simp only [c2, if_true]
                have := inv_link i2 hrx hry ix iy hxy (.inl ⟨c2, rfl⟩)
                have e : u2.rank.set (rep x) (rnk u2 (rep x)) = u2.rank := by
                  apply List.ext_getElem?
                  intro i
                  rw [List.getElem?_set]
                  split
                  · rename_i e; subst e
                    have hlt : rep x < u2.rank.length := by rw [i2.len]; exact hrx
                    simp [hlt, List.getD_eq_getElem?_getD]
                  · rfl
                rw [e] at this
                exact ⟨_, _, rfl, this, by simpa [size] using hs2, agrees_link ha hx hy (.inl ⟨rfl, rfl⟩)⟩
              · simp only [c2, if_false]
                have := inv_link i2 hrx hry ix iy hxy (.inr ⟨by omega, rfl⟩)
                exact ⟨_, _, rfl, this, by simpa [size] using hs2, agrees_link ha hx hy (.inl ⟨rfl, rfl⟩)⟩
        obtain ⟨u3, rep3, l1, l2, l3, l4⟩ := hl
        obtain ⟨obs, u', rep', h1, h2, h3, h4, h5⟩ := ih l2 (by rw [l3]; exact l4) (by rw [l3]; exact hb)
        rw [l3] at h3 h4
        refine ⟨.unit :: obs, u', rep', by simp only [run, step, hmerge, l1, h1], h2, h3, ?_, by simpa using h5⟩
        rw [hpairs]
        simpa using h4
      · obtain ⟨obs, u', rep', h1, h2, h3, h4, h5⟩ := ih h ha hb
        have hc : x ≥ u.parent.length ∨ y ≥ u.parent.length := by simp only [size] at hr; omega
        have e1 : step budget u (.merge x y) = some (.threw .outOfRange, u) := by
          simp only [step, merge, hc, if_true]
        have hpairs : mergedPairs (size u) (.merge x y :: ops) = mergedPairs (size u) ops := by
          simp only [mergedPairs, hr, if_false]
        exact ⟨.threw .outOfRange :: obs, u', rep', by simp only [run, e1, h1], h2, h3,
          by rw [hpairs]; exact h4, by simpa using h5⟩

theorem init_run (n : Nat) (ops : List Op) {budget} (hb : Nat.log2 (sizeAfter n ops) < budget) :
    ∃ obs u rep, run budget (init n) ops = some (obs, u) ∧ Inv u rep ∧
      size u = sizeAfter n ops ∧ Agrees rep (size u) (mergedPairs n ops) := by
  have hs : size (init n) = n := by simp [size, init]
  have ha : Agrees id (size (init n)) [] := by
    refine ⟨by simp, ?_⟩
    intro x y hx hy
    clear hx hy
    constructor
    · intro e; simp only [id] at e; rw [e]; exact .refl _
    · intro c
      induction c with
      | refl x => rfl
      | edge e => simp at e
      | symm _ ih => exact ih.symm
      | trans _ _ ih1 ih2 => exact ih1.trans ih2
  obtain ⟨obs, u, rep, h1, h2, h3, h4, _⟩ := run_inv ops (inv_init n) ha (by rw [hs]; exact hb)
  rw [hs] at h3 h4
  exact ⟨obs, u, rep, h1, h2, h3, by simpa using h4⟩

/-- C11. After every history of `grow`, `merge` and `find` calls on a fresh structure of any
size, two elements have the same representative iff they are connected by the merged pairs;
the representative is itself an element of the class.  (`budget` is the depth of nested
calls; C12 says how little suffices.) -/
theorem c11_find_iff_connected (n : Nat) (ops : List Op) (budget : Nat)
    (hb : Nat.log2 (sizeAfter n ops) < budget) :
    ∃ obs u, run budget (init n) ops = some (obs, u) ∧ size u = sizeAfter n ops ∧
      ∀ x y, x < size u → y < size u →
        ∃ a u1 b u2, step budget u (.find x) = some (.val a, u1) ∧
          step budget u1 (.find y) = some (.val b, u2) ∧
          (a = b ↔ Conn (mergedPairs n ops) x y) ∧
          a < size u ∧ Conn (mergedPairs n ops) x a := by
  obtain ⟨obs, u, rep, h1, h2, h3, h4⟩ := init_run n ops hb
  refine ⟨obs, u, h1, h3, ?_⟩
  intro x y hx hy
  have hm : size u ≤ sizeAfter n ops := by omega
  obtain ⟨u1, e1, i1, s1⟩ := step_find h2 hx hm hb
  obtain ⟨u2, e2, i2, s2⟩ := step_find i1 (x := y) (by omega) (by omega) hb
  refine ⟨rep x, u1, rep y, u2, e1, e2, h4.2 x y hx hy, h2.rep_lt x hx, ?_⟩
  exact (h4.2 x (rep x) hx (h2.rep_lt x hx)).1 (rep_idem h2 hx).symm

/-- C11. Out-of-range arguments throw `std::out_of_range` and change nothing, in every state
whatsoever. -/
theorem c11_out_of_range (budget : Nat) (u : UF) (x y : Nat) :
    (x ≥ size u → step (budget + 1) u (.find x) = some (.threw .outOfRange, u)) ∧
    (x ≥ size u ∨ y ≥ size u →
      step (budget + 1) u (.merge x y) = some (.threw .outOfRange, u)) := by
  constructor
  · intro h; simp only [size] at h; simp only [step, find, h, if_true]
  · intro h; simp only [size] at h; simp only [step, merge, h, if_true]

/-- C12 (termination and logarithmic depth). After every history, every call — with any
arguments, in range or not — completes within `log2(size) + 1` nested calls of `find`
(`size` the number of elements after the call), never by undefined behaviour. -/
theorem c12_logarithmic_depth (n : Nat) (ops : List Op) (op : Op) :
    ∃ obs u o u', run (Nat.log2 (sizeAfter n (ops ++ [op])) + 1) (init n) ops = some (obs, u) ∧
      step (Nat.log2 (sizeAfter n (ops ++ [op])) + 1) u op = some (o, u') ∧ o ≠ .ub := by
  have hmono : sizeAfter n ops ≤ sizeAfter n (ops ++ [op]) := by
    have : ∀ (ops : List Op) n, sizeAfter n ops ≤ sizeAfter n (ops ++ [op]) := by
      intro ops
      induction ops with
      | nil => intro n; exact sizeAfter_le [op] n
      | cons o ops ih => intro n; cases o <;> exact ih _
    exact this ops n
  have hb : Nat.log2 (sizeAfter n ops) < Nat.log2 (sizeAfter n (ops ++ [op])) + 1 := by
    by_cases h0 : sizeAfter n ops = 0
    · rw [h0]; simp
    · have h1 : 2 ^ Nat.log2 (sizeAfter n ops) ≤ sizeAfter n ops := Nat.log2_self_le h0
      have := (Nat.le_log2 (n := sizeAfter n (ops ++ [op])) (k := Nat.log2 (sizeAfter n ops))
        (by omega)).2 (by omega)
      omega
  obtain ⟨obs, u, rep, h1, h2, h3, h4⟩ := init_run n ops hb
  have hfin : sizeAfter (size u) [op] = sizeAfter n (ops ++ [op]) := by
    rw [h3]
    have : ∀ (ops : List Op) n, sizeAfter (sizeAfter n ops) [op] = sizeAfter n (ops ++ [op]) := by
      intro ops
      induction ops with
      | nil => intro n; rfl
      | cons o ops ih => intro n; cases o <;> exact ih _
    exact this ops n
  obtain ⟨obs', u', rep', g1, g2, g3, g4, g5⟩ := run_inv [op] h2 h4
    (budget := Nat.log2 (sizeAfter n (ops ++ [op])) + 1) (by rw [hfin]; omega)
  simp only [run] at g1
  cases hst : step (Nat.log2 (sizeAfter n (ops ++ [op])) + 1) u op with
  | none => rw [hst] at g1; simp at g1
  | some r =>
    rw [hst] at g1
    simp only [Option.some.injEq, Prod.mk.injEq] at g1
    exact ⟨obs, u, r.1, r.2, h1, hst, g5 r.1 (by rw [← g1.1]; simp)⟩

/-- C12 (find is observably pure). After every history, a `find(x)` changes no later answer:
any `find(z)` gives the same representative before and after it, and asking for the
representative of the representative returns it. -/
theorem c12_find_idempotent (n : Nat) (ops : List Op) (budget : Nat)
    (hb : Nat.log2 (sizeAfter n ops) < budget) :
    ∃ obs u, run budget (init n) ops = some (obs, u) ∧
      ∀ x z, x < size u → z < size u →
        ∃ a u1 c v w, step budget u (.find x) = some (.val a, u1) ∧
          step budget u (.find z) = some (.val c, v) ∧
          step budget u1 (.find z) = some (.val c, w) ∧
          ∃ v', step budget u1 (.find a) = some (.val a, v') := by
  obtain ⟨obs, u, rep, h1, h2, h3, h4⟩ := init_run n ops hb
  refine ⟨obs, u, h1, ?_⟩
  intro x z hx hz
  have hm : size u ≤ sizeAfter n ops := by omega
  obtain ⟨u1, e1, i1, s1⟩ := step_find h2 hx hm hb
  obtain ⟨v, e2, i2, s2⟩ := step_find h2 hz hm hb
  obtain ⟨w, e3, i3, s3⟩ := step_find i1 (x := z) (by omega) (by omega) hb
  obtain ⟨v', e4, _⟩ := step_find i1 (x := rep x) (by have := h2.rep_lt x hx; omega) (by omega) hb
  rw [rep_idem h2 hx] at e4
  exact ⟨rep x, u1, rep z, v, w, e1, e2, e3, v', e4⟩

/-- A history in which the ranks grow to 2 and the bound `log2(4)+1 = 3` is met. -/
example : run 3 (init 3) [.grow 1, .merge 0 1, .merge 2 3, .merge 1 3, .find 3, .merge 7 0]
    = some ([.unit, .unit, .unit, .unit, .val 0, .threw .outOfRange],
        ⟨[0, 0, 0, 0], [2, 0, 1, 0]⟩) := by decide
example : sizeAfter 3 [.grow 1, .merge 0 1] = 4 ∧ mergedPairs 3 [.grow 1, .merge 0 1, .merge 9 0] = [(0, 1)] := by
  decide
/-- Two nested calls are not always enough on four elements. -/
example : run 2 (init 4) [.merge 0 1, .merge 2 3, .merge 0 2, .find 3] = none := by decide

end Verif.UnionFind
