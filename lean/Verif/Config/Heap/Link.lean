import Verif.Config.Heap.Ops

/-!
# Every legal call does what the specification says: the calls that link trees
-/
namespace Verif.ATHeap

open Verif.AT (S newSubNode)
open scoped Classical

theorem descs_abs (h : Heap) (cs : Cells) (l : List Nat) :
    descs (absF h cs) l = l.map fun s => (h.trees s).bind Node.desc := by
  unfold descs
  congr 1
  funext s
  unfold absF
  cases h.trees s <;> rfl

theorem absF_of_dead {h : Heap} {cs : Cells} {t : Addr} (hn : h.trees t = none) : absF h cs t = none := by
  simp [absF, hn]

/-- Linking a root below another tree, and the forest. -/
theorem link_rep {h h' : Heap} {cs : Cells} (I : Inv h cs) {p t c : Addr} {np nt : Node} {d' : Option S}
    {o : Option Addr}
    {l1 l2 : List (Addr × Addr)} (hp : h.trees p = some np) (ht : h.trees t = some nt)
    (hroot : nt.parent = none) (hnb : ¬ Sub cs t p) (hl : cs p = l1 ++ l2) (hc : h.fresh ≤ c)
    (hcf : c < h'.fresh) (ht' : h'.trees t = some { nt with desc := d', parent := some p })
    (hp' : h'.trees p = some { np with list := o })
    (hch : Chain h'.cells o (l1 ++ (c, t) :: l2))
    (hoth : ∀ x, x ≠ p → x ≠ t → h'.trees x = h.trees x)
    (hcells : ∀ x, x ∉ (cs p).map Prod.fst → x ≠ c → h'.cells x = h.cells x) :
    ∃ cs', Inv h' cs' ∧ (NoLeak h cs → NoLeak h' cs') ∧
      absF h' cs' = setF (setF (absF h cs) t (some ⟨d', nt.changed, (cs t).map Prod.snd⟩)) p
        (some ⟨np.desc, np.changed, (l1 ++ (c, t) :: l2).map Prod.snd⟩) := by
  have hpt : p ≠ t := fun e => hnb (e ▸ .self)
  refine ⟨updL cs p (l1 ++ (c, t) :: l2),
    I.link hp ht hroot hnb hl hc hcf ht' rfl rfl hp' rfl hch hoth hcells, fun L x hx => ?_, ?_⟩
  · by_cases e : x = c
    · exact ⟨p, t, mem_updL.2 (Or.inl ⟨rfl, by rw [e]; simp⟩)⟩
    · by_cases hxp : x ∈ (cs p).map Prod.fst
      · obtain ⟨s, hs⟩ := mem_fst hxp
        rw [hl] at hs
        refine ⟨p, s, mem_updL.2 (Or.inl ⟨rfl, ?_⟩)⟩
        simp only [List.mem_append, List.mem_cons] at hs ⊢
        rcases hs with hs | hs
        · exact Or.inl hs
        · exact Or.inr (Or.inr hs)
      · rw [hcells x hxp e] at hx
        obtain ⟨t', s, hm⟩ := L x hx
        refine ⟨t', s, mem_updL.2 (Or.inr ⟨fun e => hxp ?_, hm⟩)⟩
        subst e
        exact List.mem_map.2 ⟨_, hm, rfl⟩
  · funext x
    by_cases e : x = p
    · subst e
      rw [absF_some hp']
      simp [setF, updL]
    · by_cases e' : x = t
      · subst e'
        rw [absF_some ht']
        simp [setF, updL, e]
      · simp only [setF, absF, updL, if_neg e, if_neg e', hoth x e e']

/-! ### `new` -/

theorem abs_alloc {h : Heap} {cs : Cells} (I : Inv h cs) (d : Option S) (b : Bool) :
    absF (allocT h ⟨d, b, none, none⟩) cs = setF (absF h cs) h.fresh (some ⟨d, b, []⟩) := by
  have hcs := I.dead _ (I.freshT h.fresh (Nat.le_refl _))
  funext x
  by_cases e : x = h.fresh
  · subst e
    simp [absF, allocT, setF, hcs]
  · simp [absF, allocT, setF, e, upd_ne]

theorem good_new {tight : Prop} {h : Heap} {f : Forest} (R : Rep tight h f) (d : Option S) :
    Good tight h f (.new d) := by
  obtain ⟨cs, I, rfl, L⟩ := R
  refine ⟨some h.fresh, allocT h ⟨d, false, none, none⟩, _, ⟨0, fun k _ => rfl⟩,
    ⟨h.fresh, rfl, absF_of_dead (I.freshT _ (Nat.le_refl _)), rfl⟩, cs, I.alloc d false, (abs_alloc I d false).symm, fun ht => L ht.1⟩

theorem good_newIn {tight : Prop} {h : Heap} {f : Forest} (R : Rep tight h f) (d : Option S) (p : Addr)
    (hl : Legal f (.newIn d p)) : Good tight h f (.newIn d p) := by
  obtain ⟨cs, I, rfl, L⟩ := R
  obtain ⟨m, hm⟩ := Option.isSome_iff_exists.1 hl
  obtain ⟨np, hnp, rfl⟩ := absF_inv hm
  have hlt := I.tree_lt hnp
  have hcs := I.dead _ (I.freshT h.fresh (Nat.le_refl _))
  have I0 := I.alloc d false
  have hpf : p ≠ h.fresh := by omega
  let h0 := allocT h ⟨d, false, none, none⟩
  let h1 := allocT h ⟨d, false, some p, none⟩
  have h0p : h0.trees p = some np := by
    show upd _ _ _ _ = _
    rw [upd_ne _ _ hpf]; exact hnp
  have h1p : h1.trees p = some np := by
    show upd _ _ _ _ = _
    rw [upd_ne _ _ hpf]; exact hnp
  let h2 := allocC h1 ⟨np.list, some h.fresh⟩
  have h2p : h2.trees p = some np := h1p
  let h3 : Heap := { h2 with trees := upd h2.trees p (some { np with list := some (h.fresh + 1) }) }
  have hnb : ¬ Sub cs h.fresh p := by
    intro hs
    rcases sub_iff_child.1 hs with e | ⟨c, hc, _⟩
    · exact hpf e
    · rw [hcs] at hc; cases hc
  have hchain : Chain h3.cells (some (h.fresh + 1)) ([] ++ (h.fresh + 1, h.fresh) :: cs p) := by
    refine ⟨rfl, np.list, upd_same _ _ _, ?_⟩
    refine (I.chain p np hnp).congr fun c hc => ?_
    have := I.cell_lt hc
    show upd _ _ _ _ = _
    exact upd_ne _ _ (by show c ≠ h.fresh + 1; omega)
  obtain ⟨cs', J, LJ, A⟩ := link_rep (h' := h3) (d' := d) (c := h.fresh + 1) (l1 := []) (l2 := cs p) I0 h0p
    (upd_same _ _ _) rfl hnb rfl (Nat.le_refl _) (Nat.lt_succ_self _)
    (by
      show upd (upd h.trees h.fresh _) p _ _ = _
      rw [upd_ne _ _ (Ne.symm hpf), upd_same])
    (upd_same _ _ _) hchain
    (by
      intro x h1x h2x
      show upd (upd h.trees h.fresh _) p _ x = upd h.trees h.fresh _ x
      rw [upd_ne _ _ h1x, upd_ne _ _ h2x, upd_ne _ _ h2x])
    (by
      intro x _ hx
      exact upd_ne _ _ hx)
  refine ⟨some h.fresh, h3, _, ⟨0, fun k _ => ?_⟩, ⟨h.fresh, _, rfl, absF_of_dead (I.freshT _ (Nat.le_refl _)), hm, rfl⟩,
    cs', J, ?_, fun ht => LJ (L ht.1)⟩
  · show (newTree h d (some p) >>= _) = _
    have : newTree h d (some p) = .ok (h.fresh, h3) := by
      show (rdT h1 p >>= _) = _
      rw [rdT_eq h1p]
      simp only [Res.ok_bind]
      show (wrT h2 p _ >>= _) = _
      rw [wrT_eq h2p]
      rfl
    rw [this]
    rfl
  · rw [A, abs_alloc I d false, hcs]
    funext x
    simp only [setF]
    by_cases e : x = p
    · simp only [e, if_true]; rfl
    · by_cases e' : x = h.fresh <;> simp [e, e']

/-! ### `addSubTree` -/

theorem rename_spec {h : Heap} {cs : Cells} (I : Inv h cs) {p t c : Addr} {np nt : Node} {d : S}
    (hp : h.trees p = some np) (ht : h.trees t = some nt) (hc : np.list = some c) (hd : nt.desc = some d)
    (hnew : some d ∈ descs (absF h cs) ((cs p).map Prod.snd) →
      ∃ d', newSubNode (descs (absF h cs) ((cs p).map Prod.snd)) d = .ok d') :
    ∃ d', NewDesc (absF h cs) ⟨np.desc, np.changed, (cs p).map Prod.snd⟩ ⟨nt.desc, nt.changed, (cs t).map Prod.snd⟩ d' ∧
      ∀ k > (cs p).length, rename k h c t d = .ok { h with trees := upd h.trees t (some { nt with desc := d' }) } := by
  have hch := I.chain p np hp
  rw [hc] at hch
  have hlive : ∀ x ∈ cs p, ∃ n, h.trees x.2 = some n := fun x hx => by
    obtain ⟨n, h1, _⟩ := I.kid p x.1 x.2 hx
    exact ⟨n, h1⟩
  rw [descs_abs] at hnew
  unfold NewDesc
  simp only [descs_abs]
  by_cases hm : some d ∈ ((cs p).map Prod.snd).map fun s => (h.trees s).bind Node.desc
  · obtain ⟨d', hd'⟩ := hnew hm
    refine ⟨some d', ⟨d, hd, by rw [if_pos hm]; exact ⟨d', hd', rfl⟩⟩, fun k hk => ?_⟩
    unfold rename
    rw [findName_spec h d _ _ k hch hlive hk]
    have : ∃ s, ((cs p).map Prod.snd).find? (fun s => (h.trees s).bind Node.desc == some d) = some s := by
      rw [← Option.isSome_iff_exists, List.find?_isSome]
      obtain ⟨s, h1, h2⟩ := List.mem_map.1 hm
      exact ⟨s, h1, by simp [h2]⟩
    obtain ⟨s, hs⟩ := this
    rw [hs]
    simp only [Res.ok_bind]
    rw [names_spec h _ _ k hch hlive hk]
    simp only [Res.ok_bind, hd', rdT_eq ht]
    rw [wrT_eq ht]
  · refine ⟨some d, ⟨d, hd, by rw [if_neg hm]⟩, fun k hk => ?_⟩
    unfold rename
    rw [findName_spec h d _ _ k hch hlive hk]
    have : ((cs p).map Prod.snd).find? (fun s => (h.trees s).bind Node.desc == some d) = none := by
      rw [List.find?_eq_none]
      intro s hs he
      exact hm (List.mem_map.2 ⟨s, hs, by simpa using he⟩)
    rw [this]
    simp only [Res.ok_bind]
    congr 1
    refine heap_ext (fun x => ?_) (fun _ => rfl) rfl
    show _ = upd _ _ _ _
    by_cases e : x = t
    · subst e
      rw [upd_same, ht]
      cases nt
      simp only at hd
      subst hd
      rfl
    · rw [upd_ne _ _ e]

/-- Everything that `addSubTree` needs, in terms of the heap. -/
theorem mayAdd_inv {h : Heap} {cs : Cells} (I : Inv h cs) {p t : Addr} (hl : MayAdd (absF h cs) p t) :
    ∃ np nt d c, h.trees p = some np ∧ h.trees t = some nt ∧ np.list = some c ∧ nt.desc = some d ∧
      nt.parent = none ∧ ¬ Sub cs t p ∧ p ≠ t ∧
      (some d ∈ descs (absF h cs) ((cs p).map Prod.snd) →
        ∃ d', newSubNode (descs (absF h cs) ((cs p).map Prod.snd)) d = .ok d') := by
  obtain ⟨mp, mt, d, h1, h2, h3, h4, h5, h6, h7⟩ := hl
  obtain ⟨np, hnp, rfl⟩ := absF_inv h1
  obtain ⟨nt, hnt, rfl⟩ := absF_inv h2
  have hnb : ¬ Sub cs t p := fun hs => h5 ((below_iff I t p).2 hs)
  have hch := I.chain p np hnp
  have : ∃ c, np.list = some c := by
    cases hcs : cs p with
    | nil => simp [hcs] at h3
    | cons x l =>
      rw [hcs] at hch
      exact ⟨_, hch.1⟩
  obtain ⟨c, hc⟩ := this
  refine ⟨np, nt, d, c, hnp, hnt, hc, h6, ?_, hnb, fun e => hnb (e ▸ .self), h7⟩
  cases hpar : nt.parent with
  | none => rfl
  | some q =>
    obtain ⟨c', hc'⟩ := I.par t nt q hnt hpar
    exact absurd ((child_iff I q t).2 ⟨c', hc'⟩) (h4 q)

/-- `addSubTree` once the description is settled: `ins` inserts the cell. -/
theorem add_core {h : Heap} {cs : Cells} (I : Inv h cs) {p t c : Addr} {np nt : Node} {d : S}
    (hnp : h.trees p = some np) (hnt : h.trees t = some nt) (hc : np.list = some c) (hd : nt.desc = some d)
    (hroot : nt.parent = none) (hnb : ¬ Sub cs t p) (hpt : p ≠ t) (after : Option Addr) {d' : Option S}
    {l1 l2 : List (Addr × Addr)} (hl : cs p = l1 ++ l2)
    (hren : ∀ k > (cs p).length, rename k h c t d = .ok { h with trees := upd h.trees t (some { nt with desc := d' }) })
    (hins : ∀ h1 : Heap, h1.trees p = some np → h1.cells = h.cells → h1.fresh = h.fresh → ∃ h2 o, (∀ k > (cs p).length, insertCell k h1 p c t after = .ok h2) ∧
      h2.fresh = h1.fresh + 1 ∧ h2.trees p = some { np with list := o } ∧ (∀ x, x ≠ p → h2.trees x = h1.trees x) ∧
      Chain h2.cells o (l1 ++ (h.fresh, t) :: l2) ∧
      (∀ x, x ∉ (cs p).map Prod.fst → x ≠ h.fresh → h2.cells x = h1.cells x)) :
    ∃ h' cs', (∀ k > (cs p).length, addSubTree k h p t after = .ok h') ∧ Inv h' cs' ∧ (NoLeak h cs → NoLeak h' cs') ∧
      absF h' cs' = setF (setF (absF h cs) t (some ⟨d', nt.changed, (cs t).map Prod.snd⟩)) p
        (some ⟨np.desc, np.changed, (l1 ++ (h.fresh, t) :: l2).map Prod.snd⟩) := by
  let h1 : Heap := { h with trees := upd h.trees t (some { nt with desc := d' }) }
  have h1p : h1.trees p = some np := by
    show upd _ _ _ _ = _
    rw [upd_ne _ _ hpt]; exact hnp
  have h1t : h1.trees t = some { nt with desc := d' } := upd_same _ _ _
  obtain ⟨h2, o, q1, q2, q3, q4, q5, q6⟩ := hins h1 h1p rfl rfl
  have h2t : h2.trees t = some { nt with desc := d' } := by rw [q4 t (Ne.symm hpt)]; exact h1t
  let h3 : Heap := { h2 with trees := upd h2.trees t (some { nt with desc := d', parent := some p }) }
  obtain ⟨cs', J, LJ, A⟩ := link_rep (h' := h3) (d' := d') (c := h.fresh) (o := o) (l1 := l1) (l2 := l2) I hnp hnt hroot hnb hl (Nat.le_refl _)
    (by show h.fresh < h2.fresh; rw [q2]; exact Nat.lt_succ_self _) (upd_same _ _ _)
    (by
      show upd _ _ _ _ = _
      rw [upd_ne _ _ hpt]; exact q3)
    q5
    (by
      intro x hx1 hx2
      show upd _ _ _ _ = _
      rw [upd_ne _ _ hx2, q4 x hx1]
      exact upd_ne _ _ hx2)
    q6
  refine ⟨h3, cs', fun k hk => ?_, J, LJ, A⟩
  unfold addSubTree
  simp only [rdT_eq hnp, rdT_eq hnt, Res.ok_bind, hc, hd]
  rw [hren k hk]
  simp only [Res.ok_bind]
  rw [q1 k hk]
  simp only [Res.ok_bind]
  rw [rdT_eq h2t]
  simp only [Res.ok_bind]
  rw [wrT_eq h2t]

theorem good_add {tight : Prop} {h : Heap} {f : Forest} (R : Rep tight h f) (p t : Addr)
    (hl : Legal f (.add p t)) : Good tight h f (.add p t) := by
  obtain ⟨cs, I, rfl, L⟩ := R
  obtain ⟨np, nt, d, c, hnp, hnt, hc, hd, hroot, hnb, hpt, hnew⟩ := mayAdd_inv I hl
  obtain ⟨d', hN, hren⟩ := rename_spec I hnp hnt hc hd hnew
  obtain ⟨h', cs', q1, J, LJ, A⟩ := add_core I hnp hnt hc hd hroot hnb hpt none (l1 := []) (l2 := cs p) rfl hren (by
    intro h1 h1p h1c h1f
    refine ⟨{ allocC h1 ⟨np.list, some t⟩ with trees := upd h1.trees p (some { np with list := some h1.fresh }) }, some h1.fresh,
      fun k _ => ?_, rfl, upd_same _ _ _, fun x hx => upd_ne _ _ hx, ⟨congrArg some h1f, np.list, ?_, ?_⟩, fun x _ hx => ?_⟩
    · unfold insertCell
      simp only [rdT_eq h1p, Res.ok_bind]
      have : (allocC h1 ⟨np.list, some t⟩).trees p = some np := h1p
      rw [wrT_eq this]
      rfl
    · show upd _ _ _ _ = _
      rw [← h1f, upd_same]
    · refine (I.chain p np hnp).congr fun x hx => ?_
      have := I.cell_lt hx
      show upd _ _ _ _ = _
      rw [upd_ne _ _ (by omega), h1c]
    · show upd _ _ _ _ = _
      rw [upd_ne _ _ (by omega)])
  refine ⟨none, h', _, ⟨(cs p).length + 1, fun k hk => ?_⟩, ⟨rfl, _, _, d', absF_some hnp, absF_some hnt, hN, rfl⟩, cs', J, ?_, fun ht => LJ (L ht.1)⟩
  · show (addSubTree k h p t none >>= _) = _
    rw [q1 k (by omega)]
    rfl
  · rw [A]
    rfl

theorem insertAfter_mid (a t : Nat) (l2 : List Nat) : ∀ (l1 : List Nat), a ∉ l1 →
    insertAfter a t (l1 ++ a :: l2) = l1 ++ a :: t :: l2 := by
  intro l1
  induction l1 with
  | nil => intro _; simp [insertAfter]
  | cons x l1 ih =>
    intro hn
    rw [List.mem_cons, not_or] at hn
    simp only [List.cons_append, insertAfter, if_neg (Ne.symm hn.1), ih hn.2]

theorem good_addNext {tight : Prop} {h : Heap} {f : Forest} (R : Rep tight h f) (a t : Addr)
    (hl : Legal f (.addNext a t)) : Good tight h f (.addNext a t) := by
  obtain ⟨cs, I, rfl, L⟩ := R
  obtain ⟨ha, hadd⟩ := hl
  obtain ⟨m, hm⟩ := Option.isSome_iff_exists.1 ha
  obtain ⟨na, hna, rfl⟩ := absF_inv hm
  cases hpar : na.parent with
  | none =>
    refine ⟨none, h, _, ⟨0, fun k _ => ?_⟩, ⟨rfl, Or.inl ⟨fun p hc => ?_, rfl⟩⟩, cs, I, rfl, fun ht => L ht.1⟩
    · show (addNextTree k h a t >>= _) = _
      simp only [addNextTree, rdT_eq hna, Res.ok_bind, hpar]
    · obtain ⟨c, hc⟩ := (child_iff I p a).1 hc
      exact I.root_not_kid hna hpar p c hc
  | some p =>
    obtain ⟨c1, hc1⟩ := I.par a na p hna hpar
    have hchild := (child_iff I p a).2 ⟨c1, hc1⟩
    obtain ⟨np, nt, d, c, hnp, hnt, hc, hd, hroot, hnb, hpt, hnew⟩ := mayAdd_inv I (hadd p hchild)
    obtain ⟨d', hN, hren⟩ := rename_spec I hnp hnt hc hd hnew
    obtain ⟨l1, l2, hl⟩ := List.append_of_mem hc1
    have hch := I.chain p np hnp
    rw [hl, hc] at hch
    have hndS := I.shape.nodupS p
    rw [hl, List.map_append, List.map_cons] at hndS
    have hndS' := (List.nodup_middle.1 hndS)
    rw [List.nodup_cons, List.mem_append, not_or] at hndS'
    have hndC := I.shape.nodupC p
    have hfr : h.fresh ∉ (cs p).map Prod.fst := fun hm => Nat.lt_irrefl _ (I.cell_lt hm)
    rw [hl] at hndC hfr
    obtain ⟨h', cs', q1, J, LJ, A⟩ := add_core I hnp hnt hc hd hroot hnb hpt (some a) (l1 := l1 ++ [(c1, a)]) (l2 := l2) (by rw [hl]; simp) hren (by
      intro h1 h1p h1c h1f
      rw [← h1f] at hfr
      rw [← h1c] at hch
      obtain ⟨h2, r1, r2, r3, r4, r5⟩ := newSubTreeList_spec t a c1 l2 l1 h1 c hch hndS'.1.1 hndC hfr
      refine ⟨h2, some c, fun k hk => r1 k ?_, r3, ?_, fun x _ => by rw [r2], ?_, fun x hx hx' => r5 x ?_ (by rw [h1f]; exact hx')⟩
      · rw [hl] at hk
        simp only [List.length_append, List.length_cons] at hk
        omega
      · rw [r2, h1p]
        cases np
        simp only at hc
        subst hc
        rfl
      · rw [← h1f, List.append_assoc]; exact r4
      · rw [hl] at hx; exact hx)
    refine ⟨none, h', _, ⟨(cs p).length + 1, fun k hk => ?_⟩,
      ⟨rfl, Or.inr ⟨p, _, _, d', hchild, absF_some hnp, absF_some hnt, hN, rfl⟩⟩, cs', J, ?_, fun ht => LJ (L ht.1)⟩
    · show (addNextTree k h a t >>= _) = _
      have : addNextTree k h a t = addSubTree k h p t (some a) := by
        simp only [addNextTree, rdT_eq hna, Res.ok_bind, hpar]
      rw [this, q1 k (by omega)]
      rfl
    · rw [A]
      have : insertAfter a t ((cs p).map Prod.snd) = (l1 ++ [(c1, a)] ++ (h.fresh, t) :: l2).map Prod.snd := by
        rw [hl]
        simp only [List.map_append, List.map_cons, List.map_nil, List.append_assoc, List.cons_append, List.nil_append]
        exact insertAfter_mid a t _ _ hndS'.1.1
      rw [this]

/-! ### `unlinkSub` -/

theorem unlinkParent_spec : ∀ (l : List (Addr × Addr)) (h : Heap) (o : Option Addr),
    Chain h.cells o l → (∀ x ∈ l, ∃ n, h.trees x.2 = some n) → (l.map Prod.snd).Nodup →
    ∃ h', (∀ k > l.length, unlinkParent k h o = .ok h') ∧ h'.cells = h.cells ∧ h'.fresh = h.fresh ∧
      (∀ x, x ∈ l.map Prod.snd → h'.trees x = (h.trees x).map fun n => { n with parent := none }) ∧
      (∀ x, x ∉ l.map Prod.snd → h'.trees x = h.trees x) := by
  intro l
  induction l with
  | nil =>
    intro h o hc _ _
    have hc : o = none := hc
    subst hc
    refine ⟨h, fun k hk => ?_, rfl, rfl, fun x hx => by simp at hx, fun _ _ => rfl⟩
    obtain ⟨j, rfl⟩ : ∃ j, k = j + 1 := ⟨k - 1, by simp at hk; omega⟩
    rfl
  | cons y l ih =>
    intro h o hc hlive hnd
    obtain ⟨e, m, hcell, hch⟩ := hc
    subst e
    obtain ⟨n, hn⟩ := hlive y (by simp)
    rw [List.map_cons, List.nodup_cons] at hnd
    let h1 : Heap := { h with trees := upd h.trees y.2 (some { n with parent := none }) }
    obtain ⟨h', q1, q2, q3, q4, q5⟩ := ih h1 m hch (fun x hx => by
      obtain ⟨n', hn'⟩ := hlive x (List.mem_cons_of_mem _ hx)
      refine ⟨n', ?_⟩
      show upd _ _ _ _ = _
      rw [upd_ne _ _ (fun (e : x.2 = y.2) => hnd.1 (by rw [← e]; exact List.mem_map.2 ⟨x, hx, rfl⟩))]
      exact hn') hnd.2
    refine ⟨h', fun k hk => ?_, q2, q3, fun x hx => ?_, fun x hx => ?_⟩
    · simp only [List.length_cons] at hk
      obtain ⟨j, rfl⟩ : ∃ j, k = j + 1 := ⟨k - 1, by omega⟩
      simp only [unlinkParent, rdC_eq hcell, Res.ok_bind, rdT_eq hn]
      rw [wrT_eq hn]
      simp only [Res.ok_bind]
      exact q1 j (by omega)
    · by_cases e : x = y.2
      · subst e
        rw [q5 _ hnd.1, hn]
        exact upd_same _ _ _
      · rw [List.map_cons, List.mem_cons] at hx
        rcases hx with hx | hx
        · exact absurd hx e
        · rw [q4 x hx]
          show (upd _ _ _ _).map _ = _
          rw [upd_ne _ _ e]
    · rw [List.map_cons, List.mem_cons, not_or] at hx
      rw [q5 x hx.2]
      exact upd_ne _ _ hx.1

theorem good_unlinkSub {tight : Prop} {h : Heap} {f : Forest} (R : Rep tight h f) (t : Addr)
    (hl : Legal f (.unlinkSub t)) : Good tight h f (.unlinkSub t) := by
  obtain ⟨cs, I, rfl, L⟩ := R
  obtain ⟨m, hm⟩ := Option.isSome_iff_exists.1 hl
  obtain ⟨n, hn, rfl⟩ := absF_inv hm
  have hch := I.chain t n hn
  have sh := I.shape
  have sf : SStep (absF h cs) (.unlinkSub t) none (setF (absF h cs) t ((absF h cs t).map fun n => { n with kids := [] })) := ⟨rfl, rfl⟩
  cases hlist : n.list with
  | none =>
    have hcs : cs t = [] := by
      rw [hlist] at hch
      cases hc : cs t with
      | nil => rfl
      | cons x l => rw [hc] at hch; cases hch.1
    refine ⟨none, h, _, ⟨0, fun k _ => ?_⟩, sf, cs, I, ?_, fun ht => L ht.1⟩
    · show (ATHeap.unlinkSub k h t >>= _) = _
      simp only [ATHeap.unlinkSub, rdT_eq hn, Res.ok_bind, hlist]
    · funext x
      by_cases e : x = t
      · subst e
        simp [setF, absF, hn, hcs]
      · simp [setF, e]
  | some c =>
    obtain ⟨h1, q1, q2, q3, q4, q5⟩ := unlinkParent_spec (cs t) h n.list hch (fun x hx => by
      obtain ⟨n, h1, _⟩ := I.kid t x.1 x.2 hx
      exact ⟨n, h1⟩) (sh.nodupS t)
    have htk : t ∉ (cs t).map Prod.snd := by
      intro hm
      obtain ⟨⟨c', s⟩, h1, h2⟩ := List.mem_map.1 hm
      simp only at h2
      subst h2
      exact not_sub_child sh h1 .self
    have h1t : h1.trees t = some n := by rw [q5 t htk]; exact hn
    let h2 : Heap := { h1 with trees := upd h1.trees t (some { n with list := none }) }
    have ht2 : h2.trees t = some { n with list := none } := upd_same _ _ _
    have hin : ∀ x, x ∈ (cs t).map Prod.snd → h2.trees x = (h.trees x).map fun n => { n with parent := none } := by
      intro x hx
      show upd _ _ _ _ = _
      rw [upd_ne _ _ (fun (e : x = t) => htk (by rw [e] at hx; exact hx)), q4 x hx]
    have hout : ∀ x, x ≠ t → x ∉ (cs t).map Prod.snd → h2.trees x = h.trees x := by
      intro x hx hx'
      show upd _ _ _ _ = _
      rw [upd_ne _ _ hx, q5 x hx']
    have hnone : ∀ x, h2.trees x = none ↔ h.trees x = none := by
      intro x
      by_cases e : x = t
      · subst e
        simp [ht2, hn]
      · by_cases e' : x ∈ (cs t).map Prod.snd
        · simp [hin x e']
        · rw [hout x e e']
    have hmem : ∀ x y, y ∈ updL cs t [] x ↔ x ≠ t ∧ y ∈ cs x := by
      intro x y
      rw [mem_updL]
      simp
    refine ⟨none, h2, _, ⟨(cs t).length + 1, fun k hk => ?_⟩, sf, updL cs t [],
      ⟨⟨fun x => ?_, fun x => ?_, ?_, ?_, ?_⟩, fun x hx => ?_, fun x hx => ?_, fun x m hx => ?_, fun x hx => ?_, fun x c' s hx => ?_, fun s m x hs hp => ?_⟩, ?_, fun ht => absurd rfl (ht.2 t)⟩
    · show (ATHeap.unlinkSub k h t >>= _) = _
      simp only [ATHeap.unlinkSub, rdT_eq hn, Res.ok_bind, hlist]
      rw [← hlist, q1 k (by omega)]
      simp only [Res.ok_bind]
      rw [rdT_eq h1t]
      simp only [Res.ok_bind]
      rw [wrT_eq h1t]
      rfl
    · unfold updL
      by_cases e : x = t
      · rw [if_pos e]; exact List.nodup_nil
      · rw [if_neg e]; exact sh.nodupC x
    · unfold updL
      by_cases e : x = t
      · rw [if_pos e]; exact List.nodup_nil
      · rw [if_neg e]; exact sh.nodupS x
    · exact fun x x' c s s' h1 h2 => sh.disj _ _ _ _ _ ((hmem _ _).1 h1).2 ((hmem _ _).1 h2).2
    · exact fun x x' c c' s h1 h2 => sh.uniq _ _ _ _ _ ((hmem _ _).1 h1).2 ((hmem _ _).1 h2).2
    · obtain ⟨rank, hr⟩ := sh.rank
      exact ⟨rank, fun x c s hm => hr _ _ _ ((hmem _ _).1 hm).2⟩
    · have hx : h1.fresh ≤ x := hx
      exact (hnone x).2 (I.freshT x (by omega))
    · have hx : h1.fresh ≤ x := hx
      show h1.cells x = none
      rw [q2]
      exact I.freshC x (by omega)
    · show Chain h1.cells _ _
      rw [q2]
      by_cases e : x = t
      · subst e
        rw [ht2] at hx
        cases hx
        unfold updL
        rw [if_pos rfl]
        rfl
      · unfold updL
        rw [if_neg e]
        by_cases e' : x ∈ (cs t).map Prod.snd
        · rw [hin x e'] at hx
          obtain ⟨m', h3, rfl⟩ := Option.map_eq_some_iff.1 hx
          exact I.chain x m' h3
        · rw [hout x e e'] at hx
          exact I.chain x m hx
    · unfold updL
      by_cases e : x = t
      · rw [if_pos e]
      · rw [if_neg e]; exact I.dead x ((hnone x).1 hx)
    · obtain ⟨hxt, hx⟩ := (hmem _ _).1 hx
      obtain ⟨m, h3, h4⟩ := I.kid x c' s hx
      have hs' : s ∉ (cs t).map Prod.snd := by
        intro hm
        obtain ⟨⟨c'', s'⟩, h5, h6⟩ := List.mem_map.1 hm
        simp only at h6
        subst h6
        exact hxt (sh.uniq _ _ _ _ _ hx h5)
      by_cases e : s = t
      · subst e
        rw [hn] at h3
        cases h3
        exact ⟨_, ht2, h4⟩
      · exact ⟨m, by rw [hout s e hs']; exact h3, h4⟩
    · by_cases e : s = t
      · subst e
        rw [ht2] at hs
        cases hs
        obtain ⟨c', hc'⟩ := I.par _ _ _ hn hp
        exact ⟨c', (hmem _ _).2 ⟨fun e => not_sub_child sh hc' (e ▸ .self), hc'⟩⟩
      · by_cases e' : s ∈ (cs t).map Prod.snd
        · rw [hin s e'] at hs
          obtain ⟨m', h3, rfl⟩ := Option.map_eq_some_iff.1 hs
          cases hp
        · rw [hout s e e'] at hs
          obtain ⟨c', hc'⟩ := I.par _ _ _ hs hp
          refine ⟨c', (hmem _ _).2 ⟨fun ex => e' ?_, hc'⟩⟩
          subst ex
          exact List.mem_map.2 ⟨_, hc', rfl⟩
    · funext x
      by_cases e : x = t
      · subst e
        simp [setF, absF, hn, ht2, updL]
      · simp only [setF, if_neg e]
        by_cases e' : x ∈ (cs t).map Prod.snd
        · simp only [absF, hin x e', updL, if_neg e]
          cases h.trees x <;> rfl
        · simp only [absF, hout x e e', updL, if_neg e]

/-! ### `setDescription` -/

theorem good_setDesc {tight : Prop} {h : Heap} {f : Forest} (R : Rep tight h f) (t : Addr) (d : Option S)
    (hl : Legal f (.setDesc t d)) : Good tight h f (.setDesc t d) := by
  obtain ⟨cs, I, rfl, L⟩ := R
  obtain ⟨m, hm⟩ := Option.isSome_iff_exists.1 hl
  obtain ⟨n, hn, rfl⟩ := absF_inv hm
  refine ⟨none, _, _, ⟨0, fun k _ => ?_⟩, ⟨rfl, rfl⟩, cs, I.setNode (n' := { n with desc := d }) hn rfl rfl, ?_, fun ht => L ht.1⟩
  · show (setDescription h t d >>= _) = _
    simp only [setDescription, rdT_eq hn, Res.ok_bind]
    rw [wrT_eq hn]
    rfl
  · funext x
    by_cases e : x = t
    · subst e
      simp [setF, absF, hn]
    · simp [setF, e, absF, upd_ne]

/-- Every legal call. -/
theorem good {tight : Prop} {h : Heap} {f : Forest} (R : Rep tight h f) (op : Op) (hl : Legal f op) :
    Good tight h f op := by
  cases op with
  | new d => exact good_new R d
  | newIn d p => exact good_newIn R d p hl
  | add p t => exact good_add R p t hl
  | addNext a t => exact good_addNext R a t hl
  | unlink t => exact good_unlink R t hl
  | unlinkSub t => exact good_unlinkSub R t hl
  | delete t => exact good_delete R t hl
  | setDesc t d => exact good_setDesc R t d hl

end Verif.ATHeap
