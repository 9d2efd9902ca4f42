import Verif.Config.Heap.Delete

/-!
# Every legal call does what the specification says
-/
namespace Verif.ATHeap

open Verif.AT (S newSubNode)
open scoped Classical

/-! ### More ways to change a heap -/

theorem Inv.relabel {h h' : Heap} {cs : Cells} (I : Inv h cs)
    (ht : ∀ x, (h'.trees x).map (fun n => (n.parent, n.list)) = (h.trees x).map fun n => (n.parent, n.list))
    (hc : h'.cells = h.cells) (hf : h'.fresh = h.fresh) : Inv h' cs := by
  have hback : ∀ {x n'}, h'.trees x = some n' → ∃ n, h.trees x = some n ∧ n.parent = n'.parent ∧ n.list = n'.list := by
    intro x n' hx
    have := ht x
    rw [hx] at this
    cases hh : h.trees x with
    | none => rw [hh] at this; cases this
    | some n =>
      rw [hh] at this
      simp only [Option.map_some, Option.some.injEq, Prod.mk.injEq] at this
      exact ⟨n, rfl, this.1.symm, this.2.symm⟩
  have hforth : ∀ {x n}, h.trees x = some n → ∃ n', h'.trees x = some n' ∧ n.parent = n'.parent ∧ n.list = n'.list := by
    intro x n' hx
    have := ht x
    rw [hx] at this
    cases hh : h'.trees x with
    | none => rw [hh] at this; cases this
    | some n =>
      rw [hh] at this
      simp only [Option.map_some, Option.some.injEq, Prod.mk.injEq] at this
      exact ⟨n, rfl, this.1.symm, this.2.symm⟩
  have hnone : ∀ {x}, h'.trees x = none ↔ h.trees x = none := by
    intro x
    have := ht x
    cases h1 : h.trees x <;> cases h2 : h'.trees x <;> simp_all
  refine ⟨I.shape, fun t h1 => hnone.2 (I.freshT t (hf ▸ h1)), fun c h1 => by rw [hc]; exact I.freshC c (hf ▸ h1),
    fun t n hn => ?_, fun t h1 => I.dead t (hnone.1 h1), fun t c s hm => ?_, fun s n t hs hp => ?_⟩
  · obtain ⟨n', h1, _, h2⟩ := hback hn
    rw [hc, ← h2]
    exact I.chain t n' h1
  · obtain ⟨n, h1, h2⟩ := I.kid t c s hm
    obtain ⟨n', h3, h4, _⟩ := hforth h1
    exact ⟨n', h3, h4 ▸ h2⟩
  · obtain ⟨n', h1, h2, _⟩ := hback hs
    exact I.par s n' t h1 (h2.trans hp)

theorem Inv.setNode {h : Heap} {cs : Cells} (I : Inv h cs) {t : Addr} {n n' : Node} (hn : h.trees t = some n)
    (h1 : n'.parent = n.parent) (h2 : n'.list = n.list) :
    Inv { h with trees := upd h.trees t (some n') } cs := by
  refine I.relabel (fun x => ?_) rfl rfl
  show (upd h.trees t (some n') x).map _ = _
  by_cases e : x = t
  · subst e
    rw [upd_same, hn]
    simp [h1, h2]
  · rw [upd_ne _ _ e]

theorem Inv.alloc {h : Heap} {cs : Cells} (I : Inv h cs) (d : Option S) (b : Bool) :
    Inv (allocT h ⟨d, b, none, none⟩) cs := by
  have hf := I.freshT h.fresh (Nat.le_refl _)
  have hcs := I.dead _ hf
  have hold : ∀ x n, h.trees x = some n → (allocT h ⟨d, b, none, none⟩).trees x = some n := by
    intro x n hx
    show upd _ _ _ _ = _
    rw [upd_ne _ _ (fun e => by rw [e, hf] at hx; cases hx)]
    exact hx
  refine ⟨I.shape, fun t h1 => ?_, fun c h1 => I.freshC c (Nat.le_trans (Nat.le_succ _) h1),
    fun t n hn => ?_, fun t h1 => ?_, fun t c s hm => ?_, fun s n t hs hp => ?_⟩
  · have h1 : h.fresh + 1 ≤ t := h1
    show upd _ _ _ _ = _
    rw [upd_ne _ _ (by omega)]
    exact I.freshT t (by omega)
  · by_cases e : t = h.fresh
    · subst e
      have : (allocT h ⟨d, b, none, none⟩).trees h.fresh = some ⟨d, b, none, none⟩ := upd_same _ _ _
      rw [this] at hn
      cases hn
      rw [hcs]
      rfl
    · have : h.trees t = some n := by
        rw [← hn]; exact (upd_ne _ _ e).symm
      exact I.chain t n this
  · by_cases e : t = h.fresh
    · rw [e]; exact hcs
    · exact I.dead t (by rw [← h1]; exact (upd_ne _ _ e).symm)
  · obtain ⟨n, h1, h2⟩ := I.kid t c s hm
    exact ⟨n, hold _ _ h1, h2⟩
  · by_cases e : s = h.fresh
    · subst e
      have : (allocT h ⟨d, b, none, none⟩).trees h.fresh = some ⟨d, b, none, none⟩ := upd_same _ _ _
      rw [this] at hs
      cases hs
      cases hp
    · have : h.trees s = some n := by
        rw [← hs]; exact (upd_ne _ _ e).symm
      exact I.par s n t this hp

theorem Inv.root_not_kid {h : Heap} {cs : Cells} (I : Inv h cs) {t : Addr} {n : Node} (hn : h.trees t = some n)
    (hp : n.parent = none) (x c : Addr) : (c, t) ∉ cs x := by
  intro hm
  obtain ⟨m, h1, h2⟩ := I.kid _ _ _ hm
  rw [hn] at h1
  cases h1
  rw [hp] at h2
  cases h2

/-- Freeing a root without subtrees. -/
theorem Inv.free {h : Heap} {cs : Cells} (I : Inv h cs) {t : Addr} {n : Node} (hn : h.trees t = some n)
    (hp : n.parent = none) (hc : cs t = []) : Inv { h with trees := upd h.trees t none } cs := by
  have hback : ∀ {x m}, upd h.trees t none x = some m → x ≠ t ∧ h.trees x = some m := by
    intro x m hx
    by_cases e : x = t
    · subst e; rw [upd_same] at hx; cases hx
    · rw [upd_ne _ _ e] at hx; exact ⟨e, hx⟩
  refine ⟨I.shape, fun x h1 => ?_, I.freshC, fun x m hm => I.chain x m (hback hm).2, fun x h1 => ?_,
    fun x c s hm => ?_, fun s m x hs hpar => I.par s m x (hback hs).2 hpar⟩
  · show upd _ _ _ _ = _
    by_cases e : x = t
    · subst e; exact upd_same _ _ _
    · rw [upd_ne _ _ e]; exact I.freshT x h1
  · by_cases e : x = t
    · rw [e]; exact hc
    · exact I.dead x (by rw [← upd_ne h.trees none e]; exact h1)
  · obtain ⟨m, h1, h2⟩ := I.kid x c s hm
    have : s ≠ t := fun e => I.root_not_kid hn hp x c (e ▸ hm)
    exact ⟨m, by show upd _ _ _ _ = _; rw [upd_ne _ _ this]; exact h1, h2⟩

/-! ### `unlink` -/

/-- The heap after `t` was taken from the list of `p`. -/
structure Unlinked (h h' : Heap) (cs cs' : Cells) (p t : Addr) (np n : Node) : Prop where
  inv : Inv h' cs'
  leak : NoLeak h cs → NoLeak h' cs'
  tree : h'.trees t = some { n with parent := none }
  parent : ∃ o, h'.trees p = some { np with list := o, changed := true }
  other : ∀ x, x ≠ p → x ≠ t → h'.trees x = h.trees x
  kids : (cs' p).map Prod.snd = ((cs p).map Prod.snd).filter (· ≠ t)
  kids' : ∀ x, x ≠ p → cs' x = cs x
  ne : p ≠ t

theorem unlink_linked {h : Heap} {cs : Cells} (I : Inv h cs) {t p : Addr} {n : Node} (hn : h.trees t = some n)
    (hp : n.parent = some p) : ∃ h' cs' np k0, h.trees p = some np ∧ t ∈ (cs p).map Prod.snd ∧
      (∀ k ≥ k0, unlink k h t = .ok h') ∧ Unlinked h h' cs cs' p t np n := by
  obtain ⟨c1, hm⟩ := I.par t n p hn hp
  obtain ⟨np, hnp⟩ := I.live hm
  obtain ⟨l1, l2, hl⟩ := List.append_of_mem hm
  have hch := I.chain p np hnp
  rw [hl] at hch
  have hndS := I.shape.nodupS p
  rw [hl, List.map_append, List.map_cons] at hndS
  have hndS' := (List.nodup_middle.1 hndS)
  rw [List.nodup_cons, List.mem_append, not_or] at hndS'
  have hndC := I.shape.nodupC p
  rw [hl] at hndC
  obtain ⟨c, hc⟩ : ∃ c, np.list = some c := by
    cases l1 with
    | nil => exact ⟨_, hch.1⟩
    | cons y l => exact ⟨_, hch.1⟩
  rw [hc] at hch
  have hpt : p ≠ t := fun e => not_sub_child I.shape hm (e ▸ .self)
  -- run
  obtain ⟨cell, hcell⟩ : ∃ cell, h.cells c = some cell := by
    cases l1 with
    | nil =>
      obtain ⟨e, m, e2, _⟩ := hch
      cases e
      exact ⟨_, e2⟩
    | cons y l =>
      obtain ⟨e, m, e2, _⟩ := hch
      cases e
      exact ⟨_, e2⟩
  let o : Option Nat := if cell.sub = some t then cell.next else some c
  let hA : Heap := { h with trees := upd h.trees p (some { np with list := o }) }
  have hfirst : (if cell.sub = some t then wrT h p { np with list := cell.next } else Res.ok h) = .ok hA := by
    by_cases e : cell.sub = some t
    · rw [if_pos e, wrT_eq hnp]
      simp only [hA, o, e, if_true]
    · rw [if_neg e]
      congr 1
      refine heap_ext (fun x => ?_) (fun _ => rfl) rfl
      show _ = upd _ _ _ _
      by_cases ex : x = p
      · subst ex
        rw [upd_same, hnp]
        simp only [o, e, if_false]
        cases np
        simp only at hc
        subst hc
        rfl
      · rw [upd_ne _ _ ex]
  have hAp : hA.trees p = some { np with list := o } := upd_same _ _ _
  have hAt : hA.trees t = some n := by
    show upd _ _ _ _ = _
    rw [upd_ne _ _ (Ne.symm hpt)]
    exact hn
  obtain ⟨h1, q2, q3, q4, q5, q6, q7⟩ :=
    unlinkCell_spec t c1 l1 l2 hA c cell hcell hch hndS'.1.1 hndC
  have h1p : h1.trees p = some { np with list := o } := by rw [q3]; exact hAp
  let hB : Heap := { h1 with trees := upd h1.trees p (some { np with list := o, changed := true }) }
  have hBt : hB.trees t = some n := by
    show upd _ _ _ _ = _
    rw [upd_ne _ _ (Ne.symm hpt), q3]
    exact hAt
  let hZ : Heap := { hB with trees := upd hB.trees t (some { n with parent := none }) }
  have zt : hZ.trees t = some { n with parent := none } := upd_same _ _ _
  have zp : hZ.trees p = some { np with list := o, changed := true } := by
    show upd (upd h1.trees p _) t _ p = _
    rw [upd_ne _ _ hpt, upd_same]
  have zo : ∀ x, x ≠ p → x ≠ t → hZ.trees x = h.trees x := by
    intro x h1x h2x
    show upd (upd h1.trees p _) t _ x = _
    rw [upd_ne _ _ h2x, upd_ne _ _ h1x, q3]
    exact upd_ne _ _ h1x
  have zc : ∀ x, x ∉ (cs p).map Prod.fst → hZ.cells x = h.cells x := by
    intro x hx
    rw [hl] at hx
    exact q7 x hx
  have hkids : (updL cs p (l1 ++ l2) p).map Prod.snd = ((cs p).map Prod.snd).filter (· ≠ t) := by
    unfold updL
    rw [if_pos rfl, hl, List.map_append, List.map_append, List.map_cons, List.filter_append, List.filter_cons]
    have e1 : (l1.map Prod.snd).filter (fun x => decide (x ≠ t)) = l1.map Prod.snd :=
      List.filter_eq_self.2 fun x hx => by
        have : x ≠ t := fun e => hndS'.1.1 (e ▸ hx)
        simpa using this
    have e2 : (l2.map Prod.snd).filter (fun x => decide (x ≠ t)) = l2.map Prod.snd :=
      List.filter_eq_self.2 fun x hx => by
        have : x ≠ t := fun e => hndS'.1.2 (e ▸ hx)
        simpa using this
    simp only [ne_eq, not_true_eq_false, decide_false, Bool.false_eq_true, if_false]
    simp only [ne_eq] at e1 e2
    rw [e1, e2]
  have leak : NoLeak h cs → NoLeak hZ (updL cs p (l1 ++ l2)) := by
    intro L x hx
    by_cases hxp : x ∈ (cs p).map Prod.fst
    · obtain ⟨s, hs⟩ := mem_fst hxp
      refine ⟨p, s, mem_updL.2 (Or.inl ⟨rfl, ?_⟩)⟩
      rw [hl] at hs
      simp only [List.mem_append, List.mem_cons, Prod.mk.injEq] at hs ⊢
      rcases hs with hs | ⟨rfl, rfl⟩ | hs
      · exact Or.inl hs
      · exact absurd q6 hx
      · exact Or.inr hs
    · rw [zc x hxp] at hx
      obtain ⟨t', s, hm'⟩ := L x hx
      refine ⟨t', s, mem_updL.2 (Or.inr ⟨fun e => hxp ?_, hm'⟩)⟩
      subst e
      exact List.mem_map.2 ⟨_, hm', rfl⟩
  refine ⟨hZ, updL cs p (l1 ++ l2), np, l1.length + l2.length + 2, hnp, ?_, fun k hk => ?_,
    ⟨?_, leak, zt, ⟨o, zp⟩, zo, hkids, ?_, hpt⟩⟩
  · rw [hl]; simp
  · have g : unlink k h t = ((if cell.sub = some t then wrT h p { np with list := cell.next } else .ok h) >>=
        fun h => unlinkCell k h none c t >>= fun h => rdT h p >>= fun np =>
          wrT h p { np with changed := true } >>= fun h => rdT h t >>= fun n =>
            wrT h t { n with parent := none }) := by
      simp only [unlink, rdT_eq hn, Res.ok_bind, hp, rdT_eq hnp, hc, rdC_eq hcell]
      by_cases e : cell.sub = some t
      · simp only [if_pos e]
      · simp only [if_neg e]; rfl
    rw [g, hfirst]
    simp only [Res.ok_bind]
    rw [q2 k (by omega)]
    simp only [Res.ok_bind]
    rw [rdT_eq h1p]
    simp only [Res.ok_bind]
    rw [wrT_eq h1p]
    simp only [Res.ok_bind]
    rw [show ({ trees := upd h1.trees p (some { np with list := o, changed := true }), cells := h1.cells, fresh := h1.fresh } : Heap) = hB from rfl,
      rdT_eq hBt]
    simp only [Res.ok_bind]
    rw [wrT_eq hBt]
  · exact I.unlinked hnp hn hl q4 zt rfl rfl zp rfl q5 zo zc
  · intro x hx
    unfold updL
    rw [if_neg hx]

/-- `unlink` of a tree without parent. -/
theorem unlink_root {h : Heap} {t : Addr} {n : Node} (hn : h.trees t = some n)
    (hp : n.parent = none) (k : Nat) : unlink k h t = .ok h := by
  simp only [unlink, rdT_eq hn, Res.ok_bind, hp]
  rw [wrT_eq hn]
  congr 1
  refine heap_ext (fun x => ?_) (fun _ => rfl) rfl
  show upd _ _ _ _ = _
  by_cases e : x = t
  · subst e
    rw [upd_same, hn]
    cases n
    simp only at hp
    subst hp
    rfl
  · rw [upd_ne _ _ e]

theorem absF_some {h : Heap} {cs : Cells} {t : Addr} {n : Node} (hn : h.trees t = some n) :
    absF h cs t = some ⟨n.desc, n.changed, (cs t).map Prod.snd⟩ := by
  simp [absF, hn]

theorem absF_inv {h : Heap} {cs : Cells} {t : Addr} {m : SNode} (hm : absF h cs t = some m) :
    ∃ n, h.trees t = some n ∧ m = ⟨n.desc, n.changed, (cs t).map Prod.snd⟩ := by
  simp only [absF, Option.map_eq_some_iff] at hm
  obtain ⟨n, h1, h2⟩ := hm
  exact ⟨n, h1, h2.symm⟩

/-- A tree that is in no list is not cut from any. -/
theorem cut_root {h : Heap} {cs : Cells} (I : Inv h cs) {t : Addr} {n : Node} (hn : h.trees t = some n)
    (hp : n.parent = none) (x : Addr) : (absF h cs x).map (cut t) = absF h cs x := by
  cases hx : absF h cs x with
  | none => rfl
  | some m =>
    obtain ⟨m', _, rfl⟩ := absF_inv hx
    simp only [Option.map_some, cut]
    rw [if_neg]
    intro hm
    obtain ⟨⟨c, s⟩, h1, h2⟩ := List.mem_map.1 hm
    simp only at h2
    subst h2
    exact I.root_not_kid hn hp _ _ h1

theorem Unlinked.abs {h h' : Heap} {cs cs' : Cells} {p t : Addr} {np n : Node} (I : Inv h cs)
    (hn : h.trees t = some n) (hnp : h.trees p = some np) (hm : t ∈ (cs p).map Prod.snd)
    (U : Unlinked h h' cs cs' p t np n) (x : Addr) :
    absF h' cs' x = (absF h cs x).map (cut t) := by
  obtain ⟨⟨c, s⟩, h1, h2⟩ := List.mem_map.1 hm
  simp only at h2
  subst h2
  have hnot : ∀ y, y ≠ p → s ∉ (cs y).map Prod.snd := by
    intro y hy hmy
    obtain ⟨⟨c', s'⟩, h3, h4⟩ := List.mem_map.1 hmy
    simp only at h4
    subst h4
    exact hy (I.shape.uniq _ _ _ _ _ h3 h1)
  by_cases e : x = p
  · subst e
    obtain ⟨o, ho⟩ := U.parent
    rw [absF_some ho, absF_some hnp, U.kids]
    simp only [Option.map_some, cut, hm, if_true]
  · by_cases e' : x = s
    · subst e'
      rw [absF_some U.tree, absF_some hn, U.kids' _ e]
      simp only [Option.map_some, cut, hnot _ e, if_false]
    · cases hx : h.trees x with
      | none =>
        have : h'.trees x = none := by rw [U.other x e e']; exact hx
        simp [absF, hx, this]
      | some m =>
        have : h'.trees x = some m := by rw [U.other x e e']; exact hx
        rw [absF_some hx, absF_some this, U.kids' _ e]
        simp only [Option.map_some, cut, hnot _ e, if_false]

/-- The heap represents the forest; `tight`: there are no stray list cells. -/
def Rep (tight : Prop) (h : Heap) (f : Forest) : Prop :=
  ∃ cs, Inv h cs ∧ f = absF h cs ∧ (tight → NoLeak h cs)

/-- What has to be shown for a call. -/
def Good (tight : Prop) (h : Heap) (f : Forest) (op : Op) : Prop :=
  ∃ r h' f', Runs h op r h' ∧ SStep f op r f' ∧ Rep (tight ∧ ∀ t, op ≠ .unlinkSub t) h' f'

theorem good_unlink {tight : Prop} {h : Heap} {f : Forest} (R : Rep tight h f) (t : Addr)
    (hl : Legal f (.unlink t)) : Good tight h f (.unlink t) := by
  obtain ⟨cs, I, rfl, L⟩ := R
  obtain ⟨m, hm⟩ := Option.isSome_iff_exists.1 hl
  obtain ⟨n, hn, rfl⟩ := absF_inv hm
  cases hp : n.parent with
  | none =>
    refine ⟨none, h, absF h cs, ⟨0, fun k _ => ?_⟩, ⟨rfl, ?_⟩, cs, I, rfl, fun ht => L ht.1⟩
    · show (ATHeap.unlink k h t >>= _) = _
      rw [unlink_root hn hp]
      rfl
    · funext x
      exact (cut_root I hn hp x).symm
  | some p =>
    obtain ⟨h', cs', np, k0, h1, h2, h3, U⟩ := unlink_linked I hn hp
    refine ⟨none, h', absF h' cs', ⟨k0, fun k hk => ?_⟩, ⟨rfl, ?_⟩, cs', U.inv, rfl, fun ht => U.leak (L ht.1)⟩
    · show (ATHeap.unlink k h t >>= _) = _
      rw [h3 k hk]
      rfl
    · funext x
      exact U.abs I hn h1 h2 x

/-! ### `delete` -/

theorem Inv.local {h : Heap} {cs : Cells} (I : Inv h cs) {t : Addr} {n : Node} (hn : h.trees t = some n) :
    Local cs h t := by
  intro x hx
  have : ∃ m, h.trees x = some m := by
    cases hx with
    | self => exact ⟨n, hn⟩
    | step _ hc =>
      obtain ⟨m, h1, _⟩ := I.kid _ _ _ hc
      exact ⟨m, h1⟩
  obtain ⟨m, hm⟩ := this
  exact ⟨m, hm, I.chain x m hm⟩

/-- `cs` without what is below `t`. -/
noncomputable def cutCells (cs : Cells) (t : Nat) : Cells := fun x => if Sub cs t x then [] else cs x

theorem mem_cutCells {cs : Cells} {t x : Nat} {y : Nat × Nat} : y ∈ cutCells cs t x ↔ ¬ Sub cs t x ∧ y ∈ cs x := by
  unfold cutCells
  by_cases e : Sub cs t x <;> simp [e]

theorem Inv.subsGone {h : Heap} {cs : Cells} (I : Inv h cs) {t : Addr} {n : Node} (hn : h.trees t = some n) :
    Inv (subsGone cs h t n) (cutCells cs t) := by
  have sh := I.shape
  have tself : (ATHeap.subsGone cs h t n).trees t = some { n with list := none } := by
    show (if t = t then _ else _) = _
    rw [if_pos rfl]
  have tother : ∀ x, ¬ Sub cs t x → (ATHeap.subsGone cs h t n).trees x = h.trees x := by
    intro x hx
    show (if x = t then _ else if Sub cs t x then none else h.trees x) = _
    rw [if_neg (fun (e : x = t) => hx (by rw [e]; exact .self)), if_neg hx]
  have tgone : ∀ x, Sub cs t x → x ≠ t → (ATHeap.subsGone cs h t n).trees x = none := by
    intro x hx hne
    show (if x = t then _ else if Sub cs t x then none else h.trees x) = _
    rw [if_neg hne, if_pos hx]
  have cother : ∀ x, ¬ Sub cs t x → ∀ c ∈ (cs x).map Prod.fst, (ATHeap.subsGone cs h t n).cells c = h.cells c := by
    intro x hx c hc
    show (if cellsOf cs (Sub cs t) c then none else h.cells c) = _
    rw [if_neg]
    rintro ⟨y, hy, hm⟩
    obtain ⟨s, hm⟩ := mem_fst hm
    obtain ⟨s', hc⟩ := mem_fst hc
    exact hx (sh.disj _ _ _ _ _ hm hc ▸ hy)
  refine ⟨⟨fun x => ?_, fun x => ?_, ?_, ?_, ?_⟩, fun x hx => ?_, fun c hc => ?_, fun x m hm => ?_, fun x hx => ?_,
    fun x c s hm => ?_, fun s m x hs hp => ?_⟩
  · unfold cutCells
    by_cases e : Sub cs t x
    · rw [if_pos e]; exact List.nodup_nil
    · rw [if_neg e]; exact sh.nodupC x
  · unfold cutCells
    by_cases e : Sub cs t x
    · rw [if_pos e]; exact List.nodup_nil
    · rw [if_neg e]; exact sh.nodupS x
  · exact fun x x' c s s' h1 h2 => sh.disj _ _ _ _ _ (mem_cutCells.1 h1).2 (mem_cutCells.1 h2).2
  · exact fun x x' c c' s h1 h2 => sh.uniq _ _ _ _ _ (mem_cutCells.1 h1).2 (mem_cutCells.1 h2).2
  · obtain ⟨rank, hr⟩ := sh.rank
    exact ⟨rank, fun x c s hm => hr _ _ _ (mem_cutCells.1 hm).2⟩
  · by_cases e : Sub cs t x
    · have hne : x ≠ t := fun e => by
        have h1 := I.tree_lt hn
        have h2 : h.fresh ≤ x := hx
        omega
      exact tgone x e hne
    · rw [tother x e]; exact I.freshT x hx
  · show (if cellsOf cs (Sub cs t) c then none else h.cells c) = _
    rw [I.freshC c hc]
    split <;> rfl
  · by_cases e : Sub cs t x
    · by_cases hne : x = t
      · subst hne
        rw [tself] at hm
        cases hm
        unfold cutCells
        rw [if_pos e]
        rfl
      · rw [tgone x e hne] at hm; cases hm
    · rw [tother x e] at hm
      unfold cutCells
      rw [if_neg e]
      exact (I.chain x m hm).congr (cother x e)
  · unfold cutCells
    by_cases e : Sub cs t x
    · rw [if_pos e]
    · rw [if_neg e]
      rw [tother x e] at hx
      exact I.dead x hx
  · obtain ⟨hx, hm⟩ := mem_cutCells.1 hm
    obtain ⟨m, h1, h2⟩ := I.kid x c s hm
    by_cases e : s = t
    · subst e
      rw [hn] at h1
      cases h1
      exact ⟨_, tself, h2⟩
    · have : ¬ Sub cs t s := fun hs => hx (Sub.parent sh hs e hm)
      exact ⟨m, by rw [tother s this]; exact h1, h2⟩
  · by_cases e : s = t
    · subst e
      rw [tself] at hs
      cases hs
      obtain ⟨c, hc⟩ := I.par _ _ _ hn hp
      exact ⟨c, mem_cutCells.2 ⟨not_sub_child sh hc, hc⟩⟩
    · by_cases es : Sub cs t s
      · rw [tgone s es e] at hs; cases hs
      · rw [tother s es] at hs
        obtain ⟨c, hc⟩ := I.par _ _ _ hs hp
        exact ⟨c, mem_cutCells.2 ⟨fun hx => es (.step hx hc), hc⟩⟩

theorem good_delete {tight : Prop} {h : Heap} {f : Forest} (R : Rep tight h f) (t : Addr)
    (hl : Legal f (.delete t)) : Good tight h f (.delete t) := by
  obtain ⟨cs, I, rfl, L⟩ := R
  obtain ⟨m, hm⟩ := Option.isSome_iff_exists.1 hl
  obtain ⟨n, hn, rfl⟩ := absF_inv hm
  have sh := I.shape
  obtain ⟨k1, hk1⟩ := delSubs_spec cs sh t (fun c s _ => deleteTree_root cs sh s) h n hn (I.local hn)
  have J := I.subsGone hn
  have tself : (ATHeap.subsGone cs h t n).trees t = some { n with list := none } := by
    show (if t = t then _ else _) = _
    rw [if_pos rfl]
  have LJ : tight → NoLeak (ATHeap.subsGone cs h t n) (cutCells cs t) := by
    intro ht c hc
    have hc : (if cellsOf cs (Sub cs t) c then none else h.cells c) ≠ none := hc
    by_cases e : cellsOf cs (Sub cs t) c
    · rw [if_pos e] at hc; exact absurd rfl hc
    · rw [if_neg e] at hc
      obtain ⟨x, s, hx⟩ := L ht c hc
      exact ⟨x, s, mem_cutCells.2 ⟨fun hs => e ⟨x, hs, List.mem_map.2 ⟨_, hx, rfl⟩⟩, hx⟩⟩
  have hcsT : cutCells cs t t = [] := by unfold cutCells; rw [if_pos Sub.self]
  have absJ : ∀ x, x ≠ t → absF (ATHeap.subsGone cs h t n) (cutCells cs t) x =
      if Sub cs t x then none else absF h cs x := by
    intro x hx
    simp only [absF, ATHeap.subsGone, cutCells]
    rw [if_neg hx]
    by_cases e : Sub cs t x
    · simp only [if_pos e]; rfl
    · simp only [if_neg e]
  have spec : ∀ (h' : Heap) (cs' : Cells) (n' : Node), h'.trees t = some n' → (∀ x, absF h' cs' x = (absF (ATHeap.subsGone cs h t n) (cutCells cs t) x).map (cut t)) →
      absF { h' with trees := upd h'.trees t none } cs' =
        fun x => if Below (absF h cs) t x then none else (absF h cs x).map (cut t) := by
    intro h' cs' n' hn' hab
    funext x
    have hb : Below (absF h cs) t x ↔ Sub cs t x := below_iff I t x
    by_cases e : x = t
    · subst e
      rw [if_pos (hb.2 .self)]
      simp [absF]
    · have : absF { h' with trees := upd h'.trees t none } cs' x = absF h' cs' x := by
        simp only [absF, upd_ne _ _ e]
      rw [this, hab, absJ x e]
      by_cases es : Sub cs t x
      · rw [if_pos es, if_pos (hb.2 es)]; rfl
      · rw [if_neg es, if_neg (fun hh => es (hb.1 hh))]
  cases hp : n.parent with
  | none =>
    refine ⟨none, _, _, ⟨k1 + 1, fun k hk => ?_⟩, ⟨rfl, rfl⟩, cutCells cs t,
      J.free tself hp hcsT, (spec _ _ _ tself (fun x => (cut_root J tself hp x).symm)).symm, fun ht => LJ ht.1⟩
    obtain ⟨k, rfl⟩ : ∃ j, k = j + 1 := ⟨k - 1, by omega⟩
    show (deleteTree (k + 1) h t >>= _) = _
    rw [deleteTree_succ, hk1 k (by omega)]
    simp only [Res.ok_bind]
    rw [unlink_root tself hp]
    simp only [Res.ok_bind]
    rw [freeT_eq tself]
    rfl
  | some p =>
    obtain ⟨h', cs', np, k0, h1, h2, h3, U⟩ := unlink_linked J tself hp
    have hct : cs' t = [] := by rw [U.kids' t (Ne.symm U.ne)]; exact hcsT
    refine ⟨none, _, _, ⟨k0 + k1 + 1, fun k hk => ?_⟩, ⟨rfl, rfl⟩, cs', U.inv.free U.tree rfl hct,
      (spec _ _ _ U.tree (fun x => U.abs J tself h1 h2 x)).symm, fun ht => U.leak (LJ ht.1)⟩
    obtain ⟨k, rfl⟩ : ∃ j, k = j + 1 := ⟨k - 1, by omega⟩
    show (deleteTree (k + 1) h t >>= _) = _
    rw [deleteTree_succ, hk1 k (by omega)]
    simp only [Res.ok_bind]
    rw [h3 k (by omega)]
    simp only [Res.ok_bind]
    rw [freeT_eq U.tree]
    rfl

end Verif.ATHeap
