import Verif.Logging.Pipe.Props

/-!
# C129: log statements finish (remaining work of a thread)
-/
namespace Verif.Logging.Pipe

open Pool (PC Msg)
open Worker (PPC)

/-- Steps left inside `push` of one output. -/
def pRank : PPC → Nat
  | .idle => 1
  | .post => 2
  | .unlock => 3
  | .push _ => 4
  | .lock _ => 5

/-- Steps left in the loop over the outputs. -/
def lRank (s : State) (a : Nat) : Option Loop → Nat
  | some ⟨_, o :: r, true⟩ => 7 * r.length + pRank ((s.W o).pc a)
  | some L => 7 * L.rest.length
  | none => 0

/-- Steps left outside the loop, for `k` outputs. -/
def cRank (k : Nat) : PC → Nat
  | .idle => 0
  | .reset _ => 1
  | .post _ => 2
  | .release _ _ => 3
  | .push _ _ _ => 4
  | .flushWait _ _ _ => 5 + 7 * k
  | .write f => 6 + 7 * k + f.rest.length
  | .unlock _ _ x => 7 + 7 * k + x.length
  | .look _ x => 8 + 7 * k + x.length
  | .acq _ x => 9 + 7 * k + x.length

/-- Upper bound of the steps thread `t` still has to make to finish its log statement. -/
def work (c : Conf) (s : State) (t : Nat) : Nat :=
  match s.busy t with
  | none => 0
  | some a =>
    cRank (c.conn a).length ((s.S a).pc t) + if isPush ((s.S a).pc t) then lRank s a (s.loop a) else 0

theorem pool_rank {c : Pool.Cfg} {p p' : Pool.State} {t : Nat} (ho : p.outer t = []) (k : Nat)
    (h : Pool.step c p t .go = some p') (h1 : isPush (p.pc t) = false) (h2 : ∀ i l x, p.pc t ≠ .flushWait i l x) :
    cRank k (p'.pc t) < cRank k (p.pc t) ∧ isPush (p'.pc t) = false := by
  unfold Pool.step at h
  rcases hp : p.pc t with _ | ⟨l, txt⟩ | ⟨l, txt⟩ | ⟨i, l, txt⟩ | f | ⟨i, l, txt⟩ | ⟨i, l, txt⟩ | ⟨i, l⟩ | i | i <;>
    rw [hp] at h h1 h2 <;> simp only [reduceCtorEq, ho] at h
  case flushWait => exact absurd rfl (h2 _ _ _)
  case push => cases h1
  case write =>
    split at h
    · next x r hr => cases h; simp [Pool.setPc, Pool.setBuf, cRank, isPush, hr]
    · cases h; simp [Pool.setPc, cRank, isPush]; omega
  all_goals (try split at h)
  all_goals (try (cases h; done))
  all_goals cases h
  all_goals simp [Pool.setPc, Pool.setBuf, cRank, isPush] <;> omega

theorem p_rank {w w' : Worker.State} {a : Nat} (h : Worker.stepP w a = some w') : pRank (w'.pc a) < pRank (w.pc a) := by
  unfold Worker.stepP at h
  rcases hp : w.pc a with _ | m | m | _ | _ <;> rw [hp] at h <;> simp only [reduceCtorEq] at h
  all_goals (try split at h)
  all_goals (try (cases h; done))
  all_goals cases h
  all_goals simp [Worker.setPc, pRank]

theorem lRank_congr {s s' : State} {a : Nat} {l : Option Loop} (h : ∀ o, (s'.W o).pc a = (s.W o).pc a) :
    lRank s' a l = lRank s a l := by
  unfold lRank
  split <;> simp [*]

theorem work_congr {c : Conf} {s s' : State} {t : Nat} (hb : s'.busy t = s.busy t)
    (h : ∀ a, s.busy t = some a → (s'.S a).pc t = (s.S a).pc t ∧
      (isPush ((s.S a).pc t) = true → s'.loop a = s.loop a ∧ ∀ o, (s'.W o).pc a = (s.W o).pc a)) :
    work c s' t = work c s t := by
  unfold work
  rw [hb]
  cases hbt : s.busy t with
  | none => rfl
  | some a =>
    obtain ⟨h1, h2⟩ := h a hbt
    simp only [h1]
    cases hp : isPush ((s.S a).pc t) with
    | false => rfl
    | true =>
      obtain ⟨h3, h4⟩ := h2 hp
      simp only [h3, lRank_congr h4]

/-- A step of thread `t`. -/
theorem go_work {c : Conf} {s s' : State} (h : PInv c s) (t : Nat) (hs : step c s (.go t) = some s') :
    work c s' t < work c s t ∧ ∀ u, u ≠ t → work c s' u = work c s u ∧ s'.busy u = s.busy u := by
  simp only [step, Option.bind_eq_some_iff] at hs
  obtain ⟨a, hb, hs⟩ := hs
  -- the other threads, when only stream `a`'s state, loop and producer change
  have other : ∀ s2 : State, (∀ u, u ≠ t → s2.busy u = s.busy u) → (∀ b, b ≠ a → s2.S b = s.S b) →
      (∀ u, u ≠ t → (s2.S a).pc u = (s.S a).pc u) → (∀ b, b ≠ a → s2.loop b = s.loop b) →
      (∀ o b, b ≠ a → (s2.W o).pc b = (s.W o).pc b) →
      (isPush ((s.S a).pc t) = true ∨ (s2.loop a = s.loop a ∧ ∀ o, (s2.W o).pc a = (s.W o).pc a) ∨ s.loop a = none) →
      ∀ u, u ≠ t → work c s2 u = work c s u ∧ s2.busy u = s.busy u := by
    intro s2 q1 q2 q3 q4 q5 q6 u hu
    refine ⟨work_congr (q1 u hu) fun b hb' => ?_, q1 u hu⟩
    by_cases e : b = a
    · subst e
      refine ⟨q3 u hu, fun hp => ?_⟩
      rcases q6 with q6 | q6 | q6
      · exact absurd (push_unique (h.pi b) hp q6) hu
      · exact q6
      · obtain ⟨L, hL, _⟩ := h.pl b u hp
        rw [q6] at hL; cases hL
    · exact ⟨by rw [q2 b e], fun _ => ⟨q4 b e, fun o => q5 o b e⟩⟩
  unfold goStep at hs
  split at hs
  · next i l txt hp =>
    have hpush : isPush ((s.S a).pc t) = true := by rw [hp]; rfl
    split at hs
    · next u o r e hl =>
      have hu := loop_t h hp hl
      simp only at hu; subst hu
      unfold loopStep at hs
      cases e
      · simp only [Bool.false_eq_true, if_false] at hs
        split at hs
        · simp only [Option.map_eq_some_iff] at hs
          obtain ⟨w, hw, rfl⟩ := hs
          obtain ⟨hidle, hpc, hnx, hpd⟩ := worker_call hw
          refine ⟨?_, other _ (fun _ _ => rfl) (fun _ _ => rfl) (fun _ _ => rfl) (fun b hb => by simp [name, setL, hb, setW])
            (fun q b hb => ?_) (Or.inl hpush)⟩
          · simp [work, name, setL, setW, hb, hp, isPush, hl, lRank, hpc, pRank]; omega
          · by_cases e : q = o
            · subst e; simp [name, setL, setW, hpc, hb]
            · simp [name, setL, setW, e]
        · cases hs
          refine ⟨?_, other _ (fun _ _ => rfl) (fun _ _ => rfl) (fun _ _ => rfl) (fun b hb => by simp [setL, hb])
            (fun q b hb => rfl) (Or.inl hpush)⟩
          simp [work, setL, hb, hp, isPush, hl, lRank]
      · simp only [if_true] at hs
        split at hs
        · next hv =>
          cases hs
          refine ⟨?_, other _ (fun _ _ => rfl) (fun _ _ => rfl) (fun _ _ => rfl) (fun b hb => by simp [setL, hb])
            (fun q b hb => rfl) (Or.inl hpush)⟩
          simp [work, setL, hb, hp, isPush, hl, lRank, hv, pRank]
        · simp only [Option.map_eq_some_iff] at hs
          obtain ⟨w, hw, rfl⟩ := hs
          obtain ⟨q, hpc, _⟩ := worker_p hw
          have hr := p_rank hw
          refine ⟨?_, other _ (fun _ _ => rfl) (fun _ _ => rfl) (fun _ _ => rfl) (fun b hb => rfl)
            (fun q b hb => ?_) (Or.inl hpush)⟩
          · simpa [work, setW, hb, hp, isPush, hl, lRank] using hr
          · by_cases e : q = o
            · subst e; simp [setW, hpc, hb]
            · simp [setW, e]
    · next hl =>
      simp only [poolStep, Option.map_eq_some_iff] at hs
      obtain ⟨_, ⟨p, hq, rfl⟩, rfl⟩ := hs
      obtain ⟨q, hpc, hou, htr⟩ := pool_go (h.ou a t) hq
      have hq' : q = .release i l := by
        rw [hp] at htr
        cases htr with
        | push => rfl
        | inner _ _ h1 h2 h3 h4 h5 h6 h7 => cases h1
      subst hq'
      refine ⟨?_, other _ (fun _ _ => rfl) (fun b hb => by simp [setL, setS, hb]) (fun u hu => by simp [setL, setS, hpc, hu])
        (fun b hb => by simp [setL, setS, hb]) (fun _ _ _ => rfl) (Or.inl hpush)⟩
      simp [work, setL, setS, hb, hp, hpc, isPush, cRank]
      omega
  · next i l x hp =>
    simp only [poolStep, Option.map_eq_some_iff] at hs
    obtain ⟨_, ⟨p, hq, rfl⟩, rfl⟩ := hs
    have hl := fw_loop h hp hq
    obtain ⟨q, hpc, hou, htr⟩ := pool_go (h.ou a t) hq
    have hq' : q = .push i l x := by
      rw [hp] at htr
      cases htr with
      | fw => rfl
      | inner _ _ h1 h2 h3 h4 h5 h6 h7 => exact absurd rfl (h5 _ _ _)
    subst hq'
    refine ⟨?_, other _ (fun _ _ => rfl) (fun b hb => by simp [setL, setS, hb]) (fun u hu => by simp [setL, setS, hpc, hu])
      (fun b hb => by simp [setL, setS, hb]) (fun _ _ _ => rfl) (Or.inr (Or.inr hl))⟩
    simp [work, setL, setS, hb, hp, hpc, isPush, cRank, lRank]
  · next i hp =>
    simp only [poolStep, Option.map_eq_some_iff] at hs
    obtain ⟨_, ⟨p, hq, rfl⟩, rfl⟩ := hs
    obtain ⟨q, hpc, hou, htr⟩ := pool_go (h.ou a t) hq
    refine ⟨?_, other _ (fun u hu => by simp [setB, setS, hu]) (fun b hb => by simp [setB, setS, hb])
      (fun u hu => by simp [setB, setS, hpc, hu]) (fun _ _ => rfl) (fun _ _ _ => rfl)
      (Or.inr (Or.inl ⟨rfl, fun _ => rfl⟩))⟩
    simp [work, setB, setS, hb, hp, cRank]; omega
  · next h1 h2 h3 =>
    simp only [poolStep, Option.map_eq_some_iff] at hs
    obtain ⟨p, hq, rfl⟩ := hs
    obtain ⟨q, hpc, hou, htr⟩ := pool_go (h.ou a t) hq
    have hnp : isPush ((s.S a).pc t) = false := by
      cases hp : (s.S a).pc t <;> first | rfl | (exact absurd hp (h1 _ _ _))
    obtain ⟨hr1, hr2⟩ := pool_rank (h.ou a t) (c.conn a).length hq hnp (fun i l x hh => h2 i l x hh)
    refine ⟨?_, other _ (fun u hu => rfl) (fun b hb => by simp [setS, hb])
      (fun u hu => by simp [setS, hpc, hu]) (fun _ _ => rfl) (fun _ _ _ => rfl)
      (Or.inr (Or.inl ⟨rfl, fun _ => rfl⟩))⟩
    unfold work
    have e1 : (setS s a p).busy t = some a := hb
    have e2 : (setS s a p).S a = p := by simp [setS]
    rw [e1, hb]
    simp only [e2, hr2, hnp]
    simpa using hr1

/-- Other actions do not add work. -/
theorem out_work {c : Conf} {s s' : State} (o : Nat) (x : OAct) (hs : step c s (.output o x) = some s') (t : Nat) :
    work c s' t = work c s t ∧ s'.busy t = s.busy t := by
  simp only [step, Option.map_eq_some_iff] at hs
  obtain ⟨w, hw, rfl⟩ := hs
  refine ⟨work_congr rfl fun a _ => ⟨rfl, fun _ => ⟨rfl, fun q => ?_⟩⟩, rfl⟩
  by_cases e : q = o
  · subst e; simp [setW, (worker_other hw).1]
  · simp [setW, e]

theorem call_work {c : Conf} {s s' : State} (h : PInv c s) (t a l : Nat) (x : List Nat)
    (hs : step c s (.call t a l x) = some s') (u : Nat) (hu : u ≠ t) :
    work c s' u = work c s u ∧ s'.busy u = s.busy u := by
  simp only [step] at hs
  split at hs
  · next hb =>
    simp only [poolStep, Option.map_eq_some_iff] at hs
    obtain ⟨_, ⟨p, hp, rfl⟩, rfl⟩ := hs
    have hidle : (s.S a).pc t = .idle := by
      by_cases e : (s.S a).pc t = .idle
      · exact e
      · rw [h.bz a t e] at hb; cases hb
    obtain ⟨hpc, _⟩ := pool_call hidle hp
    refine ⟨work_congr (by simp [setB, logged, setS, hu]) fun b _ => ⟨?_, fun _ => ⟨rfl, fun _ => rfl⟩⟩, by simp [setB, logged, setS, hu]⟩
    by_cases e : b = a
    · subst e; simp [setB, logged, setS, hpc, hu]
    · simp [setB, logged, setS, e]
  · cases hs

end Verif.Logging.Pipe
