import Verif.Logging.Pipe.Props

/-!
# C128: the messages of one stream have the same order in all outputs
-/
namespace Verif.Logging.Pipe

open Pool (PC Msg pendingTop)
open Worker (PPC pmsg)

/-! ## Specification -/

/-- What identifies a message: thread, level, pieces of the statement. -/
def key (m : Msg) : Nat × Nat × List Nat := (m.thread, m.level, m.meant)

/-- The messages of stream `a` of level at least `v` that output `o` has written, in the order of writing. -/
def streamOf (s : State) (o a v : Nat) : List (Nat × Nat × List Nat) :=
  (((s.W o).written.filterMap fun m => (s.names o)[m]?).filter fun e => e.1 = a ∧ v ≤ e.2.level).map fun e => key e.2

/-! ## Proofs -/

/-- The same of the queue insertions. -/
def sel (a v : Nat) (l : List (Nat × Msg)) : List (Nat × Nat × List Nat) :=
  (l.filter fun e => decide (e.1 = a ∧ v ≤ e.2.level)).map fun e => key e.2

/-- The messages that have been given to all outputs. -/
def outs (v : Nat) (l : List Msg) : List (Nat × Nat × List Nat) := (l.filter fun m => decide (v ≤ m.level)).map key

/-- The message being given to the outputs, if output `o` already has it. -/
def cur (c : Conf) (s : State) (a o : Nat) : List (Nat × Nat × List Nat) :=
  match s.loop a with
  | none => []
  | some L =>
    match (s.S a).pc L.t with
    | .push _ l x => if c.lv o ≤ l ∧ ¬ notYet s a o L.t then [(L.t, l, x)] else []
    | _ => []

/-- Order. -/
def OInv (c : Conf) (s : State) : Prop :=
  ∀ a o, o ∈ c.conn a → sel a 0 (ins (s.W o) (s.names o)) = outs (c.lv o) (s.S a).out ++ cur c s a o

theorem oinv_init (c : Conf) (n : Nat) : OInv c (init n) := by
  intro a o _
  simp [init, cur, ins, Worker.init, sel, outs, Pool.init]

theorem pool_out {c : Pool.Cfg} {p p' : Pool.State} {t : Nat} {x : Pool.Act} (h : Pool.step c p t x = some p') :
    (isPush (p.pc t) = false → p'.out = p.out) ∧
    (∀ i l y, p.pc t = .push i l y → p'.out = p.out ++ [⟨t, l, p.buf i, y⟩]) := by
  unfold Pool.step at h
  rcases hp : p.pc t with _ | ⟨l, txt⟩ | ⟨l, txt⟩ | ⟨i, l, txt⟩ | f | ⟨i, l, txt⟩ | ⟨i, l, txt⟩ | ⟨i, l⟩ | i | i <;>
    rw [hp] at h <;> cases x <;> simp only [reduceCtorEq] at h
  all_goals (try split at h)
  all_goals (try (cases h; done))
  all_goals cases h
  all_goals refine ⟨fun h => ?_, fun i l y h => ?_⟩
  all_goals first | rfl | cases h
  rfl

/-- `cur` when the loop runs. -/
theorem cur_some {c : Conf} {s : State} {a o t i l : Nat} {x r : List Nat} {e : Bool} (hl : s.loop a = some ⟨t, r, e⟩)
    (hp : (s.S a).pc t = .push i l x) :
    cur c s a o = if c.lv o ≤ l ∧ ¬ (o ∈ r ∧ (r.head? = some o → e = true → pmsg ((s.W o).pc a) ≠ none))
      then [(t, l, x)] else [] := by
  unfold cur
  simp only [hl, hp, notYet_some hl]

theorem cur_none {c : Conf} {s : State} {a o : Nat} (h : s.loop a = none) : cur c s a o = [] := by
  unfold cur; rw [h]

theorem cur_congr {c : Conf} {s s' : State} {a o : Nat} (hl : s'.loop a = s.loop a)
    (h1 : ∀ L, s.loop a = some L → (s'.S a).pc L.t = (s.S a).pc L.t) (h2 : (s'.W o).pc a = (s.W o).pc a) :
    cur c s' a o = cur c s a o := by
  unfold cur
  rw [hl]
  cases hL : s.loop a with
  | none => rfl
  | some L =>
    simp only [h1 L hL, notYet_congr hl h2]

theorem sel_append (a v : Nat) (l m : List (Nat × Msg)) : sel a v (l ++ m) = sel a v l ++ sel a v m := by
  simp [sel]

set_option maxHeartbeats 4000000 in
theorem oinv_tr {c : Conf} (hnd : Sets c) {s s' : State} (h : PInv c s) (hm : OInv c s) (ht : Tr c s s') : OInv c s' := by
  have hP := h
  cases ht with
  | call t a l txt p hb hs =>
    have hidle : (s.S a).pc t = .idle := by
      by_cases e : (s.S a).pc t = .idle
      · exact e
      · rw [h.bz a t e] at hb; cases hb
    obtain ⟨hpc, hou⟩ := pool_call hidle hs
    have hout := (pool_out hs).1 (by rw [hidle]; rfl)
    intro b o hbo
    have e0 := hm b o hbo
    have e1 : cur c (setB (logged (setS s a p) t (a, l, txt)) t (some a)) b o = cur c s b o := by
      refine cur_congr rfl (fun L hL => ?_) rfl
      by_cases e : b = a
      · subst e
        have hne : L.t ≠ t := by
          intro e; have := h.lp b L hL; rw [e, hidle] at this; cases this
        simp [setB, logged, setS, hpc, hne]
      · simp [setB, logged, setS, e]
    rw [e1]
    show sel b 0 (ins (s.W o) (s.names o)) = outs (c.lv o) ((setS s a p).S b).out ++ _
    rw [e0]
    congr 2
    by_cases e : b = a
    · subst e; simp [setS, hout]
    · simp [setS, e]
  | inner t a p hb hs h1 h2 h3 =>
    obtain ⟨q, hpc, hou, htr⟩ := pool_go (h.ou a t) hs
    have hout := (pool_out hs).1 h1
    intro b o hbo
    have e0 := hm b o hbo
    have e1 : cur c (setS s a p) b o = cur c s b o := by
      refine cur_congr rfl (fun L hL => ?_) rfl
      by_cases e : b = a
      · subst e
        have hne : L.t ≠ t := by
          intro e; have := h.lp b L hL; rw [e, h1] at this; cases this
        simp [setS, hpc, hne]
      · simp [setS, e]
    rw [e1]
    show sel b 0 (ins (s.W o) (s.names o)) = outs (c.lv o) ((setS s a p).S b).out ++ _
    rw [e0]
    congr 2
    by_cases e : b = a
    · subst e; simp [setS, hout]
    · simp [setS, e]
  | fw t a p i l x hb hp hs =>
    have hl := fw_loop hP hp hs
    obtain ⟨q, hpc, hou, htr⟩ := pool_go (h.ou a t) hs
    have hout := (pool_out hs).1 (by rw [hp]; rfl)
    have hq : q = .push i l x := by
      rw [hp] at htr
      cases htr with
      | fw => rfl
      | inner _ _ h1 h2 h3 h4 h5 h6 h7 => exact absurd rfl (h5 _ _ _)
    subst hq
    intro b o hbo
    have e0 := hm b o hbo
    have e1 : cur c (setL (setS s a p) a (some ⟨t, c.conn a, false⟩)) b o = cur c s b o := by
      by_cases e : b = a
      · subst e
        rw [cur_none hl, cur_some (t := t) (r := c.conn b) (e := false) (i := i) (l := l) (x := x)
          (by simp [setL]) (by simp [setL, setS, hpc])]
        simp [hbo]
      · exact cur_congr (by simp [setL, setS, e]) (fun L hL => by simp [setL, setS, e]) rfl
    rw [e1]
    show sel b 0 (ins (s.W o) (s.names o)) = outs (c.lv o) ((setS s a p).S b).out ++ _
    rw [e0]
    congr 2
    by_cases e : b = a
    · subst e; simp [setS, hout]
    · simp [setS, e]
  | leave t a p i l x hb hp hl hs =>
    obtain ⟨q, hpc, hou, htr⟩ := pool_go (h.ou a t) hs
    have hout := (pool_out hs).2 i l x hp
    obtain ⟨L, hL, hLt⟩ := h.pl a t (by rw [hp]; rfl)
    have hL0 : ∃ e, s.loop a = some ⟨t, [], e⟩ := by
      rcases L with ⟨v, _ | ⟨o, r⟩, e⟩
      · exact ⟨e, by rw [hL]; simpa using hLt⟩
      · exact absurd hL (hl _ _ _ _)
    obtain ⟨e, hL0⟩ := hL0
    intro b o hbo
    have e0 := hm b o hbo
    show sel b 0 (ins (s.W o) (s.names o)) = outs (c.lv o) ((setS s a p).S b).out ++ _
    rw [e0]
    by_cases e : b = a
    · subst e
      rw [cur_none (s := setL (setS s b p) b none) (by simp [setL]), cur_some hL0 hp]
      simp only [setS, if_true, hout]
      by_cases hv : c.lv o ≤ l <;> simp [outs, List.filter_append, List.filter_cons, hv, key]
    · congr 1
      · simp [setS, e]
      · symm; exact cur_congr (by simp [setL, setS, e]) (fun L hL => by simp [setL, setS, e]) rfl
  | reset t a p i hb hp hs =>
    obtain ⟨q, hpc, hou, htr⟩ := pool_go (h.ou a t) hs
    have hout := (pool_out hs).1 (by rw [hp]; rfl)
    intro b o hbo
    have e0 := hm b o hbo
    have e1 : cur c (setB (setS s a p) t none) b o = cur c s b o := by
      refine cur_congr rfl (fun L hL => ?_) rfl
      by_cases e : b = a
      · subst e
        have hne : L.t ≠ t := by
          intro e; have := h.lp b L hL; rw [e, hp] at this; cases this
        simp [setB, setS, hpc, hne]
      · simp [setB, setS, e]
    rw [e1]
    show sel b 0 (ins (s.W o) (s.names o)) = outs (c.lv o) ((setS s a p).S b).out ++ _
    rw [e0]
    congr 2
    by_cases e : b = a
    · subst e; simp [setS, hout]
    · simp [setS, e]
  | skip t a i l x u o r hb hp hl hv =>
    have hu := loop_t hP hp hl
    simp only at hu; subst hu
    intro b o' hbo
    show sel b 0 (ins (s.W o') (s.names o')) = outs (c.lv o') (s.S b).out ++ _
    rw [hm b o' hbo]
    congr 1
    by_cases e : b = a
    · subst e
      rw [cur_some hl hp, cur_some (s := setL s b _) (t := u) (r := r) (e := false) (i := i) (l := l) (x := x)
        (by simp [setL]) hp]
      by_cases ho : o' = o
      · subst ho; simp [hv]
      · simp [ho, Ne.symm ho]
    · symm; exact cur_congr (by simp [setL, e]) (fun L hL => rfl) rfl
  | done t a i l x u o r hb hp hl hv =>
    have hu := loop_t hP hp hl
    simp only at hu; subst hu
    have hnd' : (o :: r).Nodup := (h.sf a _ hl).sublist.nodup (hnd a)
    have hor : o ∉ r := (List.nodup_cons.1 hnd').1
    intro b o' hbo
    show sel b 0 (ins (s.W o') (s.names o')) = outs (c.lv o') (s.S b).out ++ _
    rw [hm b o' hbo]
    congr 1
    by_cases e : b = a
    · subst e
      rw [cur_some hl hp, cur_some (s := setL s b _) (t := u) (r := r) (e := false) (i := i) (l := l) (x := x)
        (by simp [setL]) hp]
      by_cases ho : o' = o
      · subst ho; simp [hv, hor, Worker.ptab]
      · simp [ho, Ne.symm ho]
    · symm; exact cur_congr (by simp [setL, e]) (fun L hL => rfl) rfl
  | enter t a i l x u o r w hb hp hl hv hs =>
    have hu := loop_t hP hp hl
    simp only at hu; subst hu
    obtain ⟨hidle, hpc, hnx, hpd⟩ := worker_call hs
    intro b o' hbo
    have e1 : (ins ((name (setL (setW s o w) a (some ⟨u, o :: r, true⟩)) o a ⟨u, l, (s.S a).buf i, x⟩).W o')
        ((name (setL (setW s o w) a (some ⟨u, o :: r, true⟩)) o a ⟨u, l, (s.S a).buf i, x⟩).names o')) =
        (ins (s.W o') (s.names o')) := by
      by_cases ho : o' = o
      · subst ho
        simp only [name, setL, setW, if_true]
        rw [ins_names, ins_pushed hpd]
        intro m hm'
        rw [hpd] at hm'
        rw [← h.nx o']
        exact (h.wi o').pn m hm'
      · simp [name, setL, setW, ho]
    rw [e1]
    show _ = outs (c.lv o') (s.S b).out ++ _
    rw [hm b o' hbo]
    congr 1
    by_cases e : b = a
    · subst e
      rw [cur_some hl hp, cur_some (s := name (setL (setW s o w) b (some ⟨u, o :: r, true⟩)) o b ⟨u, l, (s.S b).buf i, x⟩) (t := u) (r := o :: r) (e := true) (i := i) (l := l) (x := x)
        (by simp [name, setL, setW]) hp]
      by_cases ho : o' = o
      · subst ho; simp [name, setL, setW, hpc, Worker.ptab]
      · simp [Ne.symm ho]
    · symm
      refine cur_congr (by simp [name, setL, setW, e]) (fun L hL => rfl) ?_
      by_cases ho : o' = o
      · subst ho; simp [name, setL, setW, hpc, e]
      · simp [name, setL, setW, ho]
  | prod t a i l x u o r w hb hp hl hs =>
    have hu := loop_t hP hp hl
    simp only at hu; subst hu
    obtain ⟨q, hpc, hnx, hni, hpd⟩ := worker_p hs
    intro b o' hbo
    show sel b 0 (ins ((setW s o w).W o') (s.names o')) = outs (c.lv o') (s.S b).out ++ _
    by_cases ho : o' = o
    · subst ho
      have hW : (setW s o' w).W o' = w := by simp [setW]
      rw [hW]
      rcases hpd with ⟨hpd, hq⟩ | ⟨m, hm1, hm2, hpd⟩
      · rw [ins_pushed hpd, hm b o' hbo]
        congr 1
        by_cases e : b = a
        · subst e
          rw [cur_some hl hp, cur_some (s := setW s o' w) (t := u) (r := o' :: r) (e := true) (i := i) (l := l) (x := x) hl hp]
          simp [hW, hpc, hq]
        · symm; exact cur_congr rfl (fun L hL => rfl) (by simp [setW, hpc, e])
      · obtain ⟨t', r', i', l', b', x', n1, n2, n3, n4⟩ := h.nm o' a m hm1
        rw [hl] at n1
        cases n1
        rw [hp] at n2
        cases n2
        have hins : ins w (s.names o') = ins (s.W o') (s.names o') ++ [(a, ⟨u, l, b', x⟩)] := by
          unfold ins
          rw [hpd, List.filterMap_append]
          simp [n4]
        rw [hins, sel_append, hm b o' hbo, List.append_assoc]
        congr 1
        by_cases e : b = a
        · subst e
          rw [cur_some hl hp, cur_some (s := setW s o' w) (t := u) (r := o' :: r) (e := true) (i := i) (l := l) (x := x) hl hp]
          simp [hW, hpc, hm1, hm2, sel, key, List.filter_cons, n3]
        · rw [show cur c (setW s o' w) b o' = cur c s b o' from
            cur_congr rfl (fun L hL => rfl) (by simp [setW, hpc, e])]
          simp [sel, List.filter_cons, Ne.symm e]
    · have : (setW s o w).W o' = s.W o' := by simp [setW, ho]
      rw [this, hm b o' hbo]
      congr 1
      symm; exact cur_congr rfl (fun L hL => rfl) (by rw [this])
  | out o x w hs =>
    obtain ⟨hpc, hnx, hpd⟩ := worker_other hs
    intro b o' hbo
    show sel b 0 (ins ((setW s o w).W o') (s.names o')) = outs (c.lv o') (s.S b).out ++ _
    have e1 : ins ((setW s o w).W o') (s.names o') = ins (s.W o') (s.names o') := by
      by_cases ho : o' = o
      · subst ho; simp only [setW, if_true]; exact ins_pushed hpd
      · simp [setW, ho]
    rw [e1, hm b o' hbo]
    congr 1
    symm
    refine cur_congr rfl (fun L hL => rfl) ?_
    by_cases ho : o' = o
    · subst ho; simp [setW, hpc]
    · simp [setW, ho]

theorem oinv_exec {c : Conf} (hnd : Sets c) {s s' : State} (h : PInv c s) (hm : OInv c s) (as : List Act)
    (he : exec c s as = some s') : OInv c s' := by
  induction as generalizing s with
  | nil => cases he; exact hm
  | cons a as ih =>
    obtain ⟨s1, h1, h2⟩ := Option.bind_eq_some_iff.1 he
    exact ih (pinv_tr h (step_tr h1)) (oinv_tr hnd h hm (step_tr h1)) h2

theorem sel_filter (a v : Nat) (l : List (Nat × Msg)) : sel a v l = (sel a 0 l).filter fun k => decide (v ≤ k.2.1) := by
  induction l with
  | nil => rfl
  | cons e es ih =>
    simp only [sel, List.filter_cons] at ih ⊢
    by_cases h1 : e.1 = a <;> by_cases h2 : v ≤ e.2.level <;> simp [h1, h2, key, List.filter_cons] <;> simpa [h1, key] using ih

theorem outs_filter {v w : Nat} (hvw : w ≤ v) (l : List Msg) : (outs w l).filter (fun k => decide (v ≤ k.2.1)) = outs v l := by
  induction l with
  | nil => rfl
  | cons m ms ih =>
    simp only [outs, List.filter_cons] at ih ⊢
    by_cases h2 : v ≤ m.level
    · have : w ≤ m.level := Nat.le_trans hvw h2
      simp only [h2, this, decide_true, if_true, List.map_cons, List.filter_cons, key]
      exact congrArg _ ih
    · by_cases h3 : w ≤ m.level
      · simp only [h2, h3, decide_true, decide_false, if_true, List.map_cons, List.filter_cons, key]
        simpa using ih
      · simpa [h2, h3] using ih

/-- `cur` is the one message being pushed. -/
theorem cur_cases (c : Conf) (s : State) (a : Nat) : ∃ k, ∀ o, cur c s a o = [] ∨ cur c s a o = [k] := by
  cases hl : s.loop a with
  | none => exact ⟨(0, 0, []), fun o => Or.inl (cur_none hl)⟩
  | some L =>
    cases hp : (s.S a).pc L.t
    case push i l x =>
      refine ⟨(L.t, l, x), fun o => ?_⟩
      unfold cur
      simp only [hl, hp]
      split
      · exact Or.inr rfl
      · exact Or.inl rfl
    all_goals exact ⟨(0, 0, []), fun o => Or.inl (by unfold cur; simp only [hl, hp])⟩

theorem comparable {α : Type} {X a b : List α} {k : α} (ha : a = [] ∨ a = [k]) (hb : b = [] ∨ b = [k]) :
    X ++ a <+: X ++ b ∨ X ++ b <+: X ++ a := by
  rcases ha with rfl | rfl <;> rcases hb with rfl | rfl
  · exact Or.inl (List.prefix_refl _)
  · left; rw [List.append_nil]; exact List.prefix_append _ _
  · right; rw [List.append_nil]; exact List.prefix_append _ _
  · exact Or.inl (List.prefix_refl _)

theorem prefix_comparable {α : Type} {a b A B : List α} (ha : a <+: A) (hb : b <+: B) (h : A <+: B ∨ B <+: A) :
    a <+: b ∨ b <+: a := by
  rcases h with h | h
  · exact List.prefix_or_prefix_of_prefix (ha.trans h) hb
  · exact List.prefix_or_prefix_of_prefix ha (hb.trans h)

theorem filter_one {α : Type} {p : α → Bool} {l : List α} {k : α} (h : l = [] ∨ l = [k]) :
    l.filter p = [] ∨ l.filter p = [k] := by
  rcases h with rfl | rfl
  · exact Or.inl rfl
  · by_cases hp : p k = true
    · right; simp [hp]
    · left; simp [hp]

theorem streamOf_prefix {c : Conf} {s : State} (h : PInv c s) (o a v : Nat) :
    streamOf s o a v <+: sel a v (ins (s.W o) (s.names o)) := by
  obtain ⟨r, hr⟩ := written_prefix h o
  unfold streamOf sel ins
  rw [← hr, List.filterMap_append, List.filter_append, List.map_append]
  exact List.prefix_append _ _

/-- C128: at any time, under every schedule, of two outputs connected to a stream one has written exactly the first
part of what the other has written of that stream's messages (of the levels that both write): the order of the
messages of one stream, of all threads, is the same in all outputs. -/
theorem c128_same_order (c : Conf) (hc : Sets c) (n : Nat) (sched : List Act) (s : State)
    (he : exec c (init n) sched = some s) (a o o' v : Nat) (ho : o ∈ c.conn a) (ho' : o' ∈ c.conn a)
    (hv : c.lv o ≤ v) (hv' : c.lv o' ≤ v) :
    streamOf s o a v <+: streamOf s o' a v ∨ streamOf s o' a v <+: streamOf s o a v := by
  obtain ⟨h, _⟩ := reach hc he
  have hO := oinv_exec hc (pinv_init c n) (oinv_init c n) sched he
  obtain ⟨k, hk⟩ := cur_cases c s a
  have e : ∀ q, q ∈ c.conn a → c.lv q ≤ v → sel a v (ins (s.W q) (s.names q)) =
      outs v (s.S a).out ++ (cur c s a q).filter fun k => decide (v ≤ k.2.1) := by
    intro q hq hqv
    rw [sel_filter, hO a q hq, List.filter_append, outs_filter hqv]
  refine prefix_comparable (streamOf_prefix h o a v) (streamOf_prefix h o' a v) ?_
  rw [e o ho hv, e o' ho' hv']
  exact comparable (filter_one (hk o)) (filter_one (hk o'))

/-- C128: and an output writes nothing of a stream it is not connected to. -/
theorem c128_connected (c : Conf) (hc : Sets c) (n : Nat) (sched : List Act) (s : State)
    (he : exec c (init n) sched = some s) (a o : Nat) (ho : o ∉ c.conn a) : streamOf s o a 0 = [] := by
  obtain ⟨h, hm⟩ := reach hc he
  have hw := streamOf_prefix h o a 0
  suffices hh : sel a 0 (ins (s.W o) (s.names o)) = [] by rw [hh] at hw; exact List.prefix_nil.1 hw
  refine Classical.byContradiction fun hne => ?_
  obtain ⟨k, hk⟩ := List.exists_mem_of_ne_nil _ hne
  obtain ⟨e, he', _⟩ := List.mem_map.1 hk
  obtain ⟨h1, h2⟩ := List.mem_filter.1 he'
  have h3 : e.1 = a := by simpa using h2
  have h4 : (e.1, e.2.level, e.2.meant) ∈ byT e.2.thread (ins (s.W o) (s.names o)) :=
    List.mem_map.2 ⟨e, List.mem_filter.2 ⟨h1, by simp⟩, rfl⟩
  have h5 := List.mem_append_left (pend c s o e.2.thread) h4
  rw [← hm o e.2.thread] at h5
  have h6 := (List.mem_filter.1 h5).2
  simp only [want, decide_eq_true_eq] at h6
  rw [h3] at h6
  exact ho h6.1

/-! ## Examples -/

/-- Both streams are connected to both outputs. -/
def allConf : Conf := { conn := fun _ => [0, 1], lv := fun _ => 0, racy := false }

/-- Threads 1 and 2 log on one stream while the outputs are running at different speeds. -/
def ordSched : List Act :=
  [.output 0 .start, .output 1 .start, .call 1 0 2 [5]] ++ gos 1 17 ++ [.call 2 0 2 [6]] ++ gos 1 5 ++ gos 2 17 ++
  List.replicate 15 (.output 0 .worker) ++ List.replicate 8 (.output 1 .worker)

example : ∃ s, exec allConf (init 2) ordSched = some s ∧ streamOf s 0 0 0 = [(1, 2, [5]), (2, 2, [6])] ∧
    streamOf s 1 0 0 = [(1, 2, [5])] :=
  ⟨_, rfl, by decide⟩

/-- Thread 1 logs "5" on stream 0, thread 2 logs "6" on stream 1, and they meet between the two outputs. -/
def crossSched : List Act :=
  [.output 0 .start, .output 1 .start, .call 1 0 2 [5], .call 2 1 2 [6]] ++ gos 1 12 ++ gos 2 22 ++ gos 1 10 ++
  List.replicate 15 (.output 0 .worker) ++ List.replicate 15 (.output 1 .worker)

/-- Two statements on different streams can appear in different orders in two outputs. -/
theorem c128_streams_differ : ∃ s, exec allConf (init 2) crossSched = some s ∧
    ((s.W 0).written.filterMap fun m => (s.names 0)[m]?).map (fun e => (e.1, e.2.text)) = [(0, [5]), (1, [6])] ∧
    ((s.W 1).written.filterMap fun m => (s.names 1)[m]?).map (fun e => (e.1, e.2.text)) = [(1, [6]), (0, [5])] :=
  ⟨_, rfl, by decide⟩

end Verif.Logging.Pipe
