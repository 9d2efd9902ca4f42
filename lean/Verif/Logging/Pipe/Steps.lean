import Verif.Logging.Pipe.Lemmas

/-!
# The whole path of a log message: the invariants are kept
-/
namespace Verif.Logging.Pipe

open Pool (PC Msg pendingTop)
open Worker (PPC pmsg)

theorem suffix_tail {α : Type} {o : α} {r l : List α} (h : o :: r <:+ l) : r <:+ l :=
  (List.suffix_cons o r).trans h

set_option maxHeartbeats 4000000 in
theorem pinv_tr {c : Conf} {s s' : State} (h : PInv c s) (ht : Tr c s s') : PInv c s' := by
  have hpu := fun (a : Nat) {t u : Nat} => push_unique (h.pi a) (t := t) (u := u)
  have hP := h
  obtain ⟨pi, ti, wi, w2, ou, bz, bo, lp, pl, sf, wp, nx, nm, tx⟩ := h
  cases ht with
  | call t a l txt p hb hs =>
    have hidle : (s.S a).pc t = .idle := by
      by_cases e : (s.S a).pc t = .idle
      · exact e
      · rw [bz a t e] at hb; cases hb
    obtain ⟨hpc, hou⟩ := pool_call hidle hs
    have hi : Pool.Inv p := Pool.inv_step rfl (pi a) t _ hs
    have ht : c.racy = false → Pool.TInv p := fun hr => Pool.tinv_step rfl hr (pi a) (ti hr a) t _ hs
    refine ⟨?_, ?_, wi, w2, ?_, ?_, ?_, ?_, ?_, sf, wp, nx, ?_, tx⟩ <;> simp only [setB, logged, setS]
    · intro b; by_cases e : b = a <;> simp [e, hi, pi]
    · intro hr b; by_cases e : b = a <;> simp [e, ht hr, ti hr]
    · intro b u; by_cases e : b = a <;> simp [e, hou, ou]
    · grind
    · grind
    · grind [isPush]
    · grind [isPush]
    · intro o b m hm
      obtain ⟨t', r, i, l, y, x, h1, h2, h3, h4⟩ := nm o b m hm
      refine ⟨t', r, i, l, y, x, h1, ?_, h3, h4⟩
      grind
  | inner t a p hb hs h1 h2 h3 =>
    obtain ⟨q, hpc, hou, htr⟩ := pool_go (ou a t) hs
    have hi : Pool.Inv p := Pool.inv_step rfl (pi a) t _ hs
    have ht : c.racy = false → Pool.TInv p := fun hr => Pool.tinv_step rfl hr (pi a) (ti hr a) t _ hs
    have hq : isPush q = false ∧ q ≠ .idle := by
      generalize hpp : (s.S a).pc t = pp at htr
      cases htr with
      | fw i l x => exact absurd hpp (h2 _ _ _)
      | push i l x => rw [hpp] at h1; cases h1
      | reset i => exact absurd hpp (h3 _)
      | inner _ _ h1 h2 h3 h4 h5 h6 h7 => exact ⟨h2, h4⟩
    refine ⟨?_, ?_, wi, w2, ?_, ?_, ?_, ?_, ?_, sf, wp, nx, ?_, tx⟩ <;> simp only [setS]
    · intro b; by_cases e : b = a <;> simp [e, hi, pi]
    · intro hr b; by_cases e : b = a <;> simp [e, ht hr, ti hr]
    · intro b u; by_cases e : b = a <;> simp [e, hou, ou]
    · grind
    · grind
    · grind [isPush]
    · grind [isPush]
    · intro o b m hm
      obtain ⟨t', r, i, l, y, x, h1, h2, h3, h4⟩ := nm o b m hm
      refine ⟨t', r, i, l, y, x, h1, ?_, h3, h4⟩
      grind [isPush]
  | fw t a p i l x hb hp hs =>
    have hl := fw_loop hP hp hs
    obtain ⟨q, hpc, hou, htr⟩ := pool_go (ou a t) hs
    have hi : Pool.Inv p := Pool.inv_step rfl (pi a) t _ hs
    have ht : c.racy = false → Pool.TInv p := fun hr => Pool.tinv_step rfl hr (pi a) (ti hr a) t _ hs
    have hq : q = .push i l x := by
      rw [hp] at htr
      cases htr with
      | fw => rfl
      | inner _ _ h1 h2 h3 h4 h5 h6 h7 => exact absurd rfl (h5 _ _ _)
    subst hq
    refine ⟨?_, ?_, wi, w2, ?_, ?_, ?_, ?_, ?_, ?_, ?_, nx, ?_, tx⟩ <;> simp only [setS, setL]
    · intro b; by_cases e : b = a <;> simp [e, hi, pi]
    · intro hr b; by_cases e : b = a <;> simp [e, ht hr, ti hr]
    · intro b u; by_cases e : b = a <;> simp [e, hou, ou]
    · grind
    · grind
    · intro b L
      split
      · next e => subst e; intro e; cases e; rw [hpc]; simp [isPush]
      · exact lp b L
    · intro b u
      split
      · next e =>
        subst e
        rw [hpc]
        intro hu
        simp only at hu
        refine ⟨_, rfl, ?_⟩
        split at hu
        · next e => exact e.symm
        · obtain ⟨L, hL, _⟩ := pl b u hu
          rw [hl] at hL; cases hL
      · exact pl b u
    · intro b L
      split
      · next e => subst e; intro e; cases e; exact List.suffix_refl _
      · exact sf b L
    · intro o b hh
      obtain ⟨t', r, h1⟩ := wp o b hh
      refine ⟨t', r, ?_⟩
      grind
    · intro o b m hm
      obtain ⟨t', r, i, l, y, x, h1, h2, h3, h4⟩ := nm o b m hm
      refine ⟨t', r, i, l, y, x, ?_, ?_, h3, h4⟩ <;> grind [isPush]
  | leave t a p i l x hb hp hl hs =>
    obtain ⟨q, hpc, hou, htr⟩ := pool_go (ou a t) hs
    have hi : Pool.Inv p := Pool.inv_step rfl (pi a) t _ hs
    have ht : c.racy = false → Pool.TInv p := fun hr => Pool.tinv_step rfl hr (pi a) (ti hr a) t _ hs
    have hq : q = .release i l := by
      rw [hp] at htr
      cases htr with
      | push => rfl
      | inner _ _ h1 h2 h3 h4 h5 h6 h7 => cases h1
    subst hq
    have hpush : isPush ((s.S a).pc t) = true := by rw [hp]; rfl
    have huniq : ∀ u, isPush ((s.S a).pc u) = true → u = t := fun u hu => hpu a hu hpush
    refine ⟨?_, ?_, wi, w2, ?_, ?_, ?_, ?_, ?_, ?_, ?_, nx, ?_, tx⟩ <;> simp only [setS, setL]
    · intro b; by_cases e : b = a <;> simp [e, hi, pi]
    · intro hr b; by_cases e : b = a <;> simp [e, ht hr, ti hr]
    · intro b u; by_cases e : b = a <;> simp [e, hou, ou]
    · grind
    · grind
    · intro b L
      split
      · intro e; cases e
      · exact lp b L
    · intro b u
      split
      · next e =>
        subst e
        rw [hpc]
        intro hu
        simp only at hu
        split at hu
        · cases hu
        · next e => exact absurd (huniq u hu) e
      · exact pl b u
    · grind
    · intro o b hh
      obtain ⟨t', r, h1⟩ := wp o b hh
      refine ⟨t', r, ?_⟩
      grind
    · intro o b m hm
      obtain ⟨t', r, i, l, y, x, h1, h2, h3, h4⟩ := nm o b m hm
      refine ⟨t', r, i, l, y, x, ?_, ?_, h3, h4⟩ <;> grind [isPush]
  | reset t a p i hb hp hs =>
    obtain ⟨q, hpc, hou, htr⟩ := pool_go (ou a t) hs
    have hi : Pool.Inv p := Pool.inv_step rfl (pi a) t _ hs
    have ht : c.racy = false → Pool.TInv p := fun hr => Pool.tinv_step rfl hr (pi a) (ti hr a) t _ hs
    have hq : q = .idle := by
      rw [hp] at htr
      cases htr with
      | reset => rfl
      | inner _ _ h1 h2 h3 h4 h5 h6 h7 => exact absurd rfl (h6 _)
    subst hq
    refine ⟨?_, ?_, wi, w2, ?_, ?_, ?_, ?_, ?_, sf, wp, nx, ?_, tx⟩ <;> simp only [setB, setS]
    · intro b; by_cases e : b = a <;> simp [e, hi, pi]
    · intro hr b; by_cases e : b = a <;> simp [e, ht hr, ti hr]
    · intro b u; by_cases e : b = a <;> simp [e, hou, ou]
    · grind
    · grind
    · grind [isPush]
    · grind [isPush]
    · intro o b m hm
      obtain ⟨t', r, i, l, y, x, h1, h2, h3, h4⟩ := nm o b m hm
      refine ⟨t', r, i, l, y, x, h1, ?_, h3, h4⟩
      grind [isPush]
  | skip t a i l x u o r hb hp hl hv =>
    have hu := loop_t hP hp hl
    refine ⟨pi, ti, wi, w2, ou, bz, bo, ?_, ?_, ?_, ?_, nx, ?_, tx⟩ <;> simp only [setL]
    · grind [isPush]
    · intro b v hv
      obtain ⟨L, hL, e⟩ := pl b v hv
      grind
    · grind [suffix_tail]
    · grind
    · intro o' b m hm
      obtain ⟨t', r, i, l, y, x, h1, h2, h3, h4⟩ := nm o' b m hm
      refine ⟨t', r, i, l, y, x, ?_, h2, h3, h4⟩
      grind
  | done t a i l x u o r hb hp hl hv =>
    have hu := loop_t hP hp hl
    refine ⟨pi, ti, wi, w2, ou, bz, bo, ?_, ?_, ?_, ?_, nx, ?_, tx⟩ <;> simp only [setL]
    · grind [isPush]
    · intro b v hv
      obtain ⟨L, hL, e⟩ := pl b v hv
      grind
    · grind [suffix_tail]
    · grind
    · intro o' b m hm
      have := Worker.ptab
      obtain ⟨t', r, i, l, y, x, h1, h2, h3, h4⟩ := nm o' b m hm
      refine ⟨t', r, i, l, y, x, ?_, h2, h3, h4⟩
      grind
  | enter t a i l x u o r w hb hp hl hv hs =>
    have hu := loop_t hP hp hl
    obtain ⟨hidle, hpc, hnx, hpd⟩ := worker_call hs
    have hi : Worker.Inv w := Worker.inv_stepP (wi o) a (Or.inr (Or.inr hs))
    have h2 : Worker.Inv2 w := Worker.inv2_stepP (w2 o) a (Or.inr hs)
    refine ⟨pi, ti, ?_, ?_, ou, bz, bo, ?_, ?_, ?_, ?_, ?_, ?_, ?_⟩ <;> simp only [name, setL, setW]
    · intro b; by_cases e : b = o <;> simp [e, hi, wi]
    · intro b; by_cases e : b = o <;> simp [e, h2, w2]
    · grind [isPush]
    · intro b v hv
      obtain ⟨L, hL, e⟩ := pl b v hv
      grind
    · grind
    · intro o' b
      by_cases hb' : b = a
      · subst hb'
        by_cases ho : o' = o
        · subst ho; intro _; exact ⟨u, r, by simp⟩
        · rw [if_neg ho]
          intro hh
          obtain ⟨t', r', h1⟩ := wp o' b hh
          rw [hl] at h1; cases h1
      · rw [if_neg hb']
        intro hh
        refine wp o' b ?_
        by_cases ho : o' = o
        · subst ho; rw [if_pos rfl, hpc] at hh; simpa [hb'] using hh
        · rwa [if_neg ho] at hh
    · intro o'
      by_cases ho : o' = o
      · subst ho; simp [hnx, nx]
      · simp [ho, nx]
    · intro o' b m hm
      by_cases hb' : b = a
      · subst hb'
        by_cases ho : o' = o
        · subst ho
          rw [if_pos rfl, hpc] at hm
          simp only [if_true, Worker.ptab, Option.some.injEq] at hm
          subst hm
          exact ⟨u, r, i, l, (s.S b).buf i, x, by simp, by rw [show u = t from hu]; exact hp, hv,
            by simp [nx o', show u = t from hu]⟩
        · rw [if_neg ho] at hm
          obtain ⟨t', r', _, _, _, _, h1, _⟩ := nm o' b m hm
          rw [hl] at h1; cases h1
      · by_cases ho : o' = o
        · subst ho
          rw [if_pos rfl, hpc] at hm
          simp only [hb', if_false] at hm
          obtain ⟨t', r', i', l', b', x', h1, h2, h3, h4⟩ := nm o' b m hm
          refine ⟨t', r', i', l', b', x', by simpa [hb'] using h1, h2, h3, ?_⟩
          have hlt : m < (s.names o').length := (List.getElem?_eq_some_iff.1 h4).1
          simpa [List.getElem?_append_left hlt] using h4
        · rw [if_neg ho] at hm
          obtain ⟨t', r', i', l', b', x', h1, h2, h3, h4⟩ := nm o' b m hm
          exact ⟨t', r', i', l', b', x', by simpa [hb'] using h1, h2, h3, by simpa [ho] using h4⟩
    · intro hr o' e he
      by_cases ho : o' = o
      · subst ho
        simp only [if_true, List.mem_append, List.mem_singleton] at he
        rcases he with he | rfl
        · exact tx hr o' e he
        · exact (ti hr a).tx t i x (by rw [hp]; rfl)
      · simp only [ho, if_false] at he
        exact tx hr o' e he
  | prod t a i l x u o r w hb hp hl hs =>
    obtain ⟨q, hpc, hnx, hni, hpd⟩ := worker_p hs
    have hi : Worker.Inv w := Worker.inv_stepP (wi o) a (Or.inl hs)
    have h2 : Worker.Inv2 w := Worker.inv2_stepP (w2 o) a (Or.inl hs)
    refine ⟨pi, ti, ?_, ?_, ou, bz, bo, lp, pl, sf, ?_, ?_, ?_, tx⟩ <;> simp only [setW]
    · intro b; by_cases e : b = o <;> simp [e, hi, wi]
    · intro b; by_cases e : b = o <;> simp [e, h2, w2]
    · intro o' b hh
      by_cases ho : o' = o
      · subst ho
        by_cases hb' : b = a
        · subst hb'; exact ⟨u, r, hl⟩
        · exact wp o' b (by simpa [hpc, hb'] using hh)
      · exact wp o' b (by simpa [ho] using hh)
    · grind
    · intro o' b m hm
      by_cases ho : o' = o
      · subst ho
        by_cases hb' : b = a
        · subst hb'
          refine nm o' b m ?_
          rw [if_pos rfl, hpc] at hm
          simp only [if_true] at hm
          rcases hpd with ⟨_, e⟩ | ⟨_, _, e, _⟩
          · rw [← e]; exact hm
          · rw [e] at hm; cases hm
        · exact nm o' b m (by simpa [hpc, hb'] using hm)
      · exact nm o' b m (by simpa [ho] using hm)
  | out o x w hs =>
    obtain ⟨hpc, hnx, hpd⟩ := worker_other hs
    have hi : Worker.Inv w := Worker.inv_step (wi o) x.act hs
    have h2 : Worker.Inv2 w := Worker.inv2_step (wi o) (w2 o) x.act hs
    refine ⟨pi, ti, ?_, ?_, ou, bz, bo, lp, pl, sf, ?_, ?_, ?_, tx⟩ <;> simp only [setW]
    · intro b; by_cases e : b = o <;> simp [e, hi, wi]
    · intro b; by_cases e : b = o <;> simp [e, h2, w2]
    · intro o' b hh
      refine wp o' b ?_
      by_cases ho : o' = o
      · subst ho; rw [if_pos rfl, hpc] at hh; exact hh
      · rwa [if_neg ho] at hh
    · grind
    · intro o' b m hm
      refine nm o' b m ?_
      by_cases ho : o' = o
      · subst ho; rw [if_pos rfl, hpc] at hm; exact hm
      · rwa [if_neg ho] at hm

end Verif.Logging.Pipe
