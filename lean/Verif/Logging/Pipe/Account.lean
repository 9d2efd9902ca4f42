import Verif.Logging.Pipe.Steps

/-!
# The whole path of a log message: accounting
-/
namespace Verif.Logging.Pipe

open Pool (PC Msg pendingTop)
open Worker (PPC pmsg)

/-- Every statement is inserted into the queue of the output or is being executed. -/
def MInv (c : Conf) (s : State) : Prop :=
  ∀ o t, (s.log t).filter (want c o) = byT t (ins (s.W o) (s.names o)) ++ pend c s o t

theorem pend_congr {c : Conf} {s s' : State} {o t : Nat} (hb : s'.busy t = s.busy t)
    (h : ∀ a, s.busy t = some a → pendingTop ((s'.S a).pc t) = pendingTop ((s.S a).pc t) ∧
      (pendingTop ((s.S a).pc t) ≠ [] → (notYet s' a o t ↔ notYet s a o t))) :
    pend c s' o t = pend c s o t := by
  unfold pend
  rw [hb]
  cases hbt : s.busy t with
  | none => rfl
  | some a =>
    obtain ⟨h1, h2⟩ := h a hbt
    simp only [h1]
    by_cases he : pendingTop ((s.S a).pc t) = []
    · simp [he]
    · simp only [h2 he]

theorem pend_filter {c : Conf} {s : State} {o t a l : Nat} {x : List Nat} (hb : s.busy t = some a)
    (hp : pendingTop ((s.S a).pc t) = [(l, x)]) :
    pend c s o t = if notYet s a o t ∧ o ∈ c.conn a ∧ c.lv o ≤ l then [(a, l, x)] else [] := by
  unfold pend
  rw [hb]
  simp only [hp, List.map_cons, List.map_nil]
  by_cases h1 : notYet s a o t <;> by_cases h2 : o ∈ c.conn a ∧ c.lv o ≤ l <;>
    simp [h1, h2, want, List.filter_cons]

theorem pend_eq {c : Conf} {s s' : State} {o t a l : Nat} {x : List Nat} (hb : s.busy t = some a)
    (hp : pendingTop ((s.S a).pc t) = [(l, x)]) (hb' : s'.busy t = some a)
    (hp' : pendingTop ((s'.S a).pc t) = [(l, x)])
    (h : (notYet s a o t ∧ o ∈ c.conn a ∧ c.lv o ≤ l) ↔ (notYet s' a o t ∧ o ∈ c.conn a ∧ c.lv o ≤ l)) :
    pend c s o t = pend c s' o t := by
  rw [pend_filter hb hp, pend_filter hb' hp']
  simp only [h]

theorem ins_names {w : Worker.State} {ns : List (Nat × Msg)} (e : Nat × Msg) (h : ∀ m ∈ w.pushed, m < ns.length) :
    ins w (ns ++ [e]) = ins w ns := by
  unfold ins
  revert h
  induction w.pushed with
  | nil => intro _; rfl
  | cons m ms ih =>
    intro h
    rw [List.filterMap_cons, List.filterMap_cons, List.getElem?_append_left (h m List.mem_cons_self),
      ih (fun k hk => h k (List.mem_cons_of_mem _ hk))]

theorem ins_pushed {w w' : Worker.State} {ns : List (Nat × Msg)} (h : w'.pushed = w.pushed) : ins w' ns = ins w ns := by
  unfold ins; rw [h]

theorem minv_init (c : Conf) (n : Nat) : MInv c (init n) := by
  intro o t
  simp [init, pend, ins, Worker.init, byT]

theorem notYet_congr {s s' : State} {a o t : Nat} (h1 : s'.loop a = s.loop a) (h2 : (s'.W o).pc a = (s.W o).pc a) :
    notYet s' a o t ↔ notYet s a o t := by
  unfold notYet; rw [h1, h2]

theorem notYet_none {s : State} {a o t : Nat} (h : ∀ L, s.loop a = some L → L.t ≠ t) : notYet s a o t :=
  fun L hL e => absurd e (h L hL)

theorem notYet_some {s : State} {a o t : Nat} {r : List Nat} {e : Bool} (h : s.loop a = some ⟨t, r, e⟩) :
    notYet s a o t ↔ o ∈ r ∧ (r.head? = some o → e = true → pmsg ((s.W o).pc a) ≠ none) := by
  unfold notYet
  rw [h]
  constructor
  · intro hh; exact hh _ rfl rfl
  · intro hh L hL _; cases hL; exact hh

theorem pend_idle {c : Conf} {s : State} {o t : Nat} (h : s.busy t = none) : pend c s o t = [] := by
  unfold pend; rw [h]

set_option maxHeartbeats 4000000 in
theorem minv_tr {c : Conf} (hnd : ∀ a, (c.conn a).Nodup) {s s' : State} (h : PInv c s) (hm : MInv c s) (ht : Tr c s s') :
    MInv c s' := by
  have hP := h
  cases ht with
  | call t a l txt p hb hs =>
    have hidle : (s.S a).pc t = .idle := by
      by_cases e : (s.S a).pc t = .idle
      · exact e
      · rw [h.bz a t e] at hb; cases hb
    obtain ⟨hpc, hou⟩ := pool_call hidle hs
    intro o u
    have hmo := hm o u
    by_cases hu : u = t
    · subst hu
      rw [pend_idle hb, List.append_nil] at hmo
      have hny : notYet (setB (logged (setS s a p) u (a, l, txt)) u (some a)) a o u := by
        refine notYet_none fun L hL e => ?_
        have := h.lp a L hL
        rw [e, hidle] at this; cases this
      rw [pend_filter (a := a) (l := l) (x := txt) (by simp [setB]) (by simp [setB, logged, setS, hpc, pendingTop])]
      simp only [hny, true_and]
      simp only [setB, logged, setS, if_true, List.filter_append, hmo]
      congr 1
      by_cases h2 : o ∈ c.conn a ∧ c.lv o ≤ l <;> simp [want, List.filter_cons, h2]
    · rw [pend_congr (s := s) (by simp [setB, logged, setS, hu])]
      · simpa [setB, logged, setS, hu] using hmo
      · intro b hb'
        refine ⟨?_, fun _ => Iff.rfl⟩
        by_cases e : b = a
        · subst e; simp [setB, logged, setS, hpc, hu]
        · simp [setB, logged, setS, e]
  | inner t a p hb hs h1 h2 h3 =>
    obtain ⟨q, hpc, hou, htr⟩ := pool_go (h.ou a t) hs
    have hq : pendingTop q = pendingTop ((s.S a).pc t) := by
      generalize hpp : (s.S a).pc t = pp at htr
      cases htr with
      | fw i l x => exact absurd hpp (h2 _ _ _)
      | push i l x => rw [hpp] at h1; cases h1
      | reset i => exact absurd hpp (h3 _)
      | inner _ _ h1 h2 h3 h4 h5 h6 h7 => exact h7
    intro o u
    show (s.log u).filter _ = byT u (ins (s.W o) (s.names o)) ++ _
    rw [hm o u]
    congr 1
    symm
    refine pend_congr rfl ?_
    · intro b hb'
      refine ⟨?_, fun _ => Iff.rfl⟩
      by_cases e : b = a
      · subst e
        by_cases hu : u = t
        · subst hu; simp [setS, hpc, hq]
        · simp [setS, hpc, hu]
      · simp [setS, e]
  | fw t a p i l x hb hp hs =>
    have hl := fw_loop hP hp hs
    obtain ⟨q, hpc, hou, htr⟩ := pool_go (h.ou a t) hs
    have hq : q = .push i l x := by
      rw [hp] at htr
      cases htr with
      | fw => rfl
      | inner _ _ h1 h2 h3 h4 h5 h6 h7 => exact absurd rfl (h5 _ _ _)
    subst hq
    intro o u
    show (s.log u).filter _ = byT u (ins (s.W o) (s.names o)) ++ _
    rw [hm o u]
    congr 1
    by_cases hu : u = t
    · subst hu
      refine pend_eq (a := a) (l := l) (x := x) hb (by rw [hp]; rfl) hb (by simp [setL, setS, hpc, pendingTop]) ?_
      have n1 : notYet s a o u := notYet_none fun L hL _ => by rw [hl] at hL; cases hL
      have n2 : notYet (setL (setS s a p) a (some ⟨u, c.conn a, false⟩)) a o u ↔ o ∈ c.conn a := by
        rw [notYet_some (r := c.conn a) (e := false) (by simp [setL])]
        simp
      simp only [n1, n2, true_and, ← and_assoc, and_self]
    · symm
      refine pend_congr (by simp [setL, setS]) fun b hb' => ?_
      by_cases e : b = a
      · subst e
        refine ⟨by simp [setL, setS, hpc, hu], fun _ => ?_⟩
        constructor
        · intro _; exact notYet_none fun L hL _ => by rw [hl] at hL; cases hL
        · intro _
          refine notYet_none fun L hL e => ?_
          simp only [setL, if_true, Option.some.injEq] at hL
          subst hL; exact hu e.symm
      · refine ⟨by simp [setL, setS, e], fun _ => notYet_congr (by simp [setL, setS, e]) rfl⟩
  | leave t a p i l x hb hp hl hs =>
    obtain ⟨q, hpc, hou, htr⟩ := pool_go (h.ou a t) hs
    have hq : q = .release i l := by
      rw [hp] at htr
      cases htr with
      | push => rfl
      | inner _ _ h1 h2 h3 h4 h5 h6 h7 => cases h1
    subst hq
    obtain ⟨L, hL, hLt⟩ := h.pl a t (by rw [hp]; rfl)
    have hL0 : ∃ e, s.loop a = some ⟨t, [], e⟩ := by
      rcases L with ⟨v, _ | ⟨o, r⟩, e⟩
      · exact ⟨e, by rw [hL]; simpa using hLt⟩
      · exact absurd hL (hl _ _ _ _)
    obtain ⟨e, hL0⟩ := hL0
    intro o u
    show (s.log u).filter _ = byT u (ins (s.W o) (s.names o)) ++ _
    rw [hm o u]
    congr 1
    by_cases hu : u = t
    · subst hu
      rw [pend_filter (a := a) (l := l) (x := x) hb (by rw [hp]; rfl), if_neg]
      · symm
        unfold pend
        simp [setL, setS, hb, hpc, pendingTop]
      · rw [notYet_some hL0]; simp
    · symm
      refine pend_congr (by simp [setL, setS]) fun b hb' => ?_
      by_cases e : b = a
      · subst e
        refine ⟨by simp [setL, setS, hpc, hu], fun _ => ?_⟩
        constructor
        · intro _
          refine notYet_none fun L hL e => ?_
          rw [hL0] at hL; cases hL; exact hu e.symm
        · intro _
          refine notYet_none fun L hL e => ?_
          simp [setL] at hL
      · refine ⟨by simp [setL, setS, e], fun _ => notYet_congr (by simp [setL, setS, e]) rfl⟩
  | reset t a p i hb hp hs =>
    obtain ⟨q, hpc, hou, htr⟩ := pool_go (h.ou a t) hs
    intro o u
    show (s.log u).filter _ = byT u (ins (s.W o) (s.names o)) ++ _
    rw [hm o u]
    congr 1
    by_cases hu : u = t
    · subst hu
      rw [pend_idle (s := setB (setS s a p) u none) (by simp [setB])]
      simp [pend, hb, hp, pendingTop]
    · symm
      refine pend_congr (by simp [setB, setS, hu]) fun b hb' => ?_
      refine ⟨?_, fun _ => Iff.rfl⟩
      by_cases e : b = a
      · subst e; simp [setB, setS, hpc, hu]
      · simp [setB, setS, e]
  | skip t a i l x u o r hb hp hl hv =>
    have hu := loop_t hP hp hl
    simp only at hu; subst hu
    intro o' v
    show (s.log v).filter _ = byT v (ins (s.W o') (s.names o')) ++ _
    rw [hm o' v]
    congr 1
    by_cases hv' : v = u
    · subst hv'
      refine pend_eq (a := a) (l := l) (x := x) hb (by rw [hp]; rfl) (by exact hb)
        (by show pendingTop ((s.S a).pc v) = _; rw [hp]; rfl) ?_
      rw [notYet_some hl, notYet_some (r := r) (e := false) (by simp [setL])]
      by_cases ho : o' = o
      · subst ho
        simp [hv]
      · simp [ho, Ne.symm ho]
    · symm
      refine pend_congr rfl fun b hb' => ?_
      refine ⟨rfl, fun _ => ?_⟩
      by_cases e : b = a
      · subst e
        constructor
        · intro _; exact notYet_none fun L hL e => by rw [hl] at hL; cases hL; exact hv' e.symm
        · intro _
          refine notYet_none fun L hL e => ?_
          simp only [setL, if_true, Option.some.injEq] at hL
          subst hL; exact hv' e.symm
      · exact notYet_congr (by simp [setL, e]) rfl
  | done t a i l x u o r hb hp hl hv =>
    have hu := loop_t hP hp hl
    simp only at hu; subst hu
    have hnd' : (o :: r).Nodup := (h.sf a _ hl).sublist.nodup (hnd a)
    have hor : o ∉ r := (List.nodup_cons.1 hnd').1
    intro o' v
    show (s.log v).filter _ = byT v (ins (s.W o') (s.names o')) ++ _
    rw [hm o' v]
    congr 1
    by_cases hv' : v = u
    · subst hv'
      refine pend_eq (a := a) (l := l) (x := x) hb (by rw [hp]; rfl) (by exact hb)
        (by show pendingTop ((s.S a).pc v) = _; rw [hp]; rfl) ?_
      rw [notYet_some hl, notYet_some (r := r) (e := false) (by simp [setL])]
      by_cases ho : o' = o
      · subst ho
        simp [hv, hor, Worker.ptab]
      · simp [ho, Ne.symm ho]
    · symm
      refine pend_congr rfl fun b hb' => ?_
      refine ⟨rfl, fun _ => ?_⟩
      by_cases e : b = a
      · subst e
        constructor
        · intro _; exact notYet_none fun L hL e => by rw [hl] at hL; cases hL; exact hv' e.symm
        · intro _
          refine notYet_none fun L hL e => ?_
          simp only [setL, if_true, Option.some.injEq] at hL
          subst hL; exact hv' e.symm
      · exact notYet_congr (by simp [setL, e]) rfl
  | enter t a i l x u o r w hb hp hl hv hs =>
    have hu := loop_t hP hp hl
    simp only at hu; subst hu
    obtain ⟨hidle, hpc, hnx, hpd⟩ := worker_call hs
    have hnd' : (o :: r).Nodup := (h.sf a _ hl).sublist.nodup (hnd a)
    intro o' v
    have e1 : byT v (ins ((name (setL (setW s o w) a (some ⟨u, o :: r, true⟩)) o a ⟨u, l, (s.S a).buf i, x⟩).W o')
        ((name (setL (setW s o w) a (some ⟨u, o :: r, true⟩)) o a ⟨u, l, (s.S a).buf i, x⟩).names o')) =
        byT v (ins (s.W o') (s.names o')) := by
      by_cases ho : o' = o
      · subst ho
        simp only [name, setL, setW, if_true]
        rw [ins_names, ins_pushed hpd]
        intro m hm'
        rw [hpd] at hm'
        rw [← h.nx o']
        exact (h.wi o').pn m hm'
      · simp [name, setL, setW, ho]
    rw [e1]
    show (s.log v).filter _ = _
    rw [hm o' v]
    congr 1
    by_cases hv' : v = u
    · subst hv'
      refine pend_eq (a := a) (l := l) (x := x) hb (by rw [hp]; rfl) (by exact hb)
        (by show pendingTop ((s.S a).pc v) = _; rw [hp]; rfl) ?_
      rw [notYet_some hl, notYet_some (r := o :: r) (e := true) (by simp [name, setL, setW])]
      by_cases ho : o' = o
      · subst ho
        simp [name, setL, setW, hpc, Worker.ptab]
      · simp [Ne.symm ho]
    · symm
      refine pend_congr rfl fun b hb' => ?_
      refine ⟨rfl, fun _ => ?_⟩
      by_cases e : b = a
      · subst e
        constructor
        · intro _; exact notYet_none fun L hL e => by rw [hl] at hL; cases hL; exact hv' e.symm
        · intro _
          refine notYet_none fun L hL e => ?_
          simp only [name, setL, setW, if_true, Option.some.injEq] at hL
          subst hL; exact hv' e.symm
      · refine notYet_congr (by simp [name, setL, setW, e]) ?_
        by_cases ho : o' = o
        · subst ho; simp [name, setL, setW, hpc, e]
        · simp [name, setL, setW, ho]
  | prod t a i l x u o r w hb hp hl hs =>
    have hu := loop_t hP hp hl
    simp only at hu; subst hu
    obtain ⟨q, hpc, hnx, hni, hpd⟩ := worker_p hs
    have hin : o ∈ c.conn a := (h.sf a _ hl).subset List.mem_cons_self
    -- other threads, other outputs
    have hoth : ∀ o' v, (o' ≠ o ∨ v ≠ u) → pend c (setW s o w) o' v = pend c s o' v := by
      intro o' v hne
      refine pend_congr rfl fun b hb' => ⟨rfl, fun _ => ?_⟩
      by_cases ho : o' = o
      · subst ho
        have hvu : v ≠ u := by rcases hne with h | h; exact absurd rfl h; exact h
        by_cases e : b = a
        · subst e
          constructor
          · intro _; exact notYet_none fun L hL e => by rw [hl] at hL; cases hL; exact hvu e.symm
          · intro _; exact notYet_none fun L hL e => by
              have hL' : s.loop b = some L := hL
              rw [hl] at hL'; cases hL'; exact hvu e.symm
        · exact notYet_congr rfl (by simp [setW, hpc, e])
      · exact notYet_congr rfl (by simp [setW, ho])
    intro o' v
    show (s.log v).filter _ = byT v (ins ((setW s o w).W o') (s.names o')) ++ _
    rw [hm o' v]
    by_cases ho : o' = o
    · subst ho
      have hW : (setW s o' w).W o' = w := by simp [setW]
      rw [hW]
      have hpw : ∀ v, v = u → pend c (setW s o' w) o' v = if pmsg q ≠ none ∧ c.lv o' ≤ l then [(a, l, x)] else [] := by
        intro v hv; subst hv
        rw [pend_filter (a := a) (l := l) (x := x) (by exact hb) (by show pendingTop ((s.S a).pc v) = _; rw [hp]; rfl)]
        simp [notYet_some (s := setW s o' w) (r := o' :: r) (e := true) hl, hW, hpc, hin]
      have hps : ∀ v, v = u → pend c s o' v = if pmsg ((s.W o').pc a) ≠ none ∧ c.lv o' ≤ l then [(a, l, x)] else [] := by
        intro v hv; subst hv
        rw [pend_filter (a := a) (l := l) (x := x) hb (by rw [hp]; rfl)]
        simp [notYet_some hl, hin]
      rcases hpd with ⟨hpd, hq⟩ | ⟨m, hm1, hm2, hpd⟩
      · rw [ins_pushed hpd]
        congr 1
        by_cases hv : v = u
        · rw [hpw v hv, hps v hv, hq]
        · rw [hoth o' v (Or.inr hv)]
      · obtain ⟨t', r', i', l', b', x', n1, n2, n3, n4⟩ := h.nm o' a m hm1
        rw [hl] at n1
        cases n1
        rw [hp] at n2
        cases n2
        have hins : ins w (s.names o') = ins (s.W o') (s.names o') ++ [(a, ⟨u, l, b', x⟩)] := by
          unfold ins
          rw [hpd, List.filterMap_append]
          simp [n4]
        rw [hins]
        by_cases hv : v = u
        · rw [hpw v hv, hps v hv, hm1, hm2]
          subst hv
          simp [byT, n3, List.filter_append, List.filter_cons]
        · rw [hoth o' v (Or.inr hv)]
          simp [byT, List.filter_append, List.filter_cons, Ne.symm hv]
    · rw [hoth o' v (Or.inl ho)]
      simp [setW, ho]
  | out o x w hs =>
    obtain ⟨hpc, hnx, hpd⟩ := worker_other hs
    intro o' v
    show (s.log v).filter _ = byT v (ins ((setW s o w).W o') (s.names o')) ++ _
    rw [hm o' v]
    have e1 : ins ((setW s o w).W o') (s.names o') = ins (s.W o') (s.names o') := by
      by_cases ho : o' = o
      · subst ho; simp only [setW, if_true]; exact ins_pushed hpd
      · simp [setW, ho]
    rw [e1]
    congr 1
    symm
    refine pend_congr rfl fun b hb' => ⟨rfl, fun _ => notYet_congr rfl ?_⟩
    by_cases ho : o' = o
    · subst ho; simp [setW, hpc]
    · simp [setW, ho]

theorem inv_exec {c : Conf} (hnd : ∀ a, (c.conn a).Nodup) {s s' : State} (h : PInv c s) (hm : MInv c s) (as : List Act)
    (he : exec c s as = some s') : PInv c s' ∧ MInv c s' := by
  induction as generalizing s with
  | nil => cases he; exact ⟨h, hm⟩
  | cons a as ih =>
    obtain ⟨s1, h1, h2⟩ := Option.bind_eq_some_iff.1 he
    exact ih (pinv_tr h (step_tr h1)) (minv_tr hnd h hm (step_tr h1)) h2

end Verif.Logging.Pipe
