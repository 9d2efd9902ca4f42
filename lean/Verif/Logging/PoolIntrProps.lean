import Verif.Logging.PoolIntr

/-!
# C132: interrupted waits and the size of the pool of thread streams
-/
namespace Verif.Logging.Pool.Intr
open Verif.Logging.Pool

theorem execI_ind {c : Cfg} {P : IS → Prop} (hstep : ∀ x x' t a, P x → stepI c x t a = some x' → P x')
    {x x' : IS} (h : P x) (as : List (Nat × IAct)) (he : execI c x as = some x') : P x' := by
  induction as generalizing x with
  | nil => cases he; exact h
  | cons a as ih =>
    obtain ⟨x1, h1, h2⟩ := Option.bind_eq_some_iff.1 he
    exact ih (hstep x x1 a.1 a.2 h h1) h2

theorem execI_append (c : Cfg) (x : IS) (as bs : List (Nat × IAct)) :
    execI c x (as ++ bs) = (execI c x as).bind fun x' => execI c x' bs := by
  induction as generalizing x with
  | nil => rfl
  | cons a as ih =>
    simp only [List.cons_append, execI]
    cases stepI c x a.1 a.2 with
    | none => rfl
    | some x' => exact ih x'

/-- The levels of the statements of a thread that hold or look for a stream. -/
def levels (s : State) (t : Nat) : List Nat :=
  ((top (s.pc t)).map (·.2)).toList ++ (wants (s.pc t)).toList ++ (s.outer t).map (·.l)

theorem levels_length (s : State) (t : Nat) : (levels s t).length ≤ underWay s t := by
  unfold levels underWay
  cases s.pc t <;> simp [top, wants] <;> omega

theorem flatMap_length_le (ts : List Nat) (s : State) :
    (ts.flatMap fun t => (levels s t).map fun l => (t, l)).length ≤ (ts.map (underWay s)).sum := by
  induction ts with
  | nil => simp
  | cons t ts ih =>
    have := levels_length s t
    simp only [List.flatMap_cons, List.length_append, List.length_map, List.map_cons, List.sum_cons]
    omega

theorem full_pairs {pool : List (Option (Nat × Nat))} (h : none ∉ pool) :
    ∃ ps : List (Nat × Nat), pool = ps.map some := by
  induction pool with
  | nil => exact ⟨[], rfl⟩
  | cons o pool ih =>
    simp only [List.mem_cons, not_or] at h
    obtain ⟨ps, e⟩ := ih h.2
    cases o with
    | none => exact absurd rfl h.1
    | some p => exact ⟨p :: ps, by rw [e]; rfl⟩

/-- A thread that is not in `ts` has done nothing. -/
def Quiet (ts : List Nat) (x : IS) : Prop :=
  ∀ t, t ∉ ts → x.s.pc t = .idle ∧ x.s.outer t = []

theorem pc_other {c : Cfg} {x x' : IS} {t : Nat} {a : IAct} (hs : stepI c x t a = some x') (u : Nat) (hu : u ≠ t) :
    x'.s.pc u = x.s.pc u ∧ x'.s.outer u = x.s.outer u := by
  obtain ⟨s, lost⟩ := x
  cases a with
  | intr =>
    simp only [stepI] at hs
    split at hs <;> cases hs <;> simp [setPc, hu]
  | act a =>
    simp only [stepI] at hs
    obtain ⟨s', hs, rfl⟩ := Option.map_eq_some_iff.1 hs
    unfold step at hs
    split at hs
    all_goals (try split at hs)
    all_goals cases hs
    all_goals simp [setPc, setBuf, record, suspend, hu]

theorem quiet_step {c : Cfg} {ts : List Nat} {x x' : IS} {t : Nat} {a : IAct} (ht : t ∈ ts) (h : Quiet ts x)
    (hs : stepI c x t a = some x') : Quiet ts x' := by
  intro u hu
  have hne : u ≠ t := fun e => hu (e ▸ ht)
  obtain ⟨e1, e2⟩ := pc_other hs u hne
  rw [e1, e2]; exact h u hu

/-- The pool only grows in `threadStream`, when every stream is assigned to another (thread, level). -/
theorem grow_step {c : Cfg} {x x' : IS} {t : Nat} {a : IAct} (hs : stepI c x t a = some x') :
    x'.s.pool.length = x.s.pool.length ∨
    (x'.s.pool.length = x.s.pool.length + 1 ∧ none ∉ x.s.pool ∧
      ∃ l txt, x.s.pc t = .look l txt ∧ some (t, l) ∉ x.s.pool) := by
  obtain ⟨s, lost⟩ := x
  cases a with
  | intr =>
    simp only [stepI] at hs
    split at hs <;> cases hs <;> simp [setPc]
  | act a =>
    simp only [stepI] at hs
    obtain ⟨s', hs, rfl⟩ := Option.map_eq_some_iff.1 hs
    unfold step at hs
    rcases hp : s.pc t with _ | ⟨l, txt⟩ | ⟨l, txt⟩ | ⟨i, l, txt⟩ | f | ⟨i, l, txt⟩ | ⟨i, l, txt⟩ | ⟨i, l⟩ | i | i <;>
      cases a <;> rw [hp] at hs <;> simp only [reduceCtorEq] at hs
    case act.look.go =>
      split at hs
      · cases hs
        dsimp only
        cases h1 : s.pool.findIdx? (· = some (t, l)) with
        | some i => left; simp [setPc, lookup, h1]
        | none =>
          cases h2 : s.pool.findIdx? (· = none) with
          | some i => left; simp [setPc, lookup, h1, h2]
          | none =>
            right
            refine ⟨by simp [setPc, lookup, h1, h2], fun hm => ?_, l, txt, rfl, fun hm => ?_⟩
            · simpa using List.findIdx?_eq_none_iff.1 h2 _ hm
            · simpa using List.findIdx?_eq_none_iff.1 h1 _ hm
      · cases hs
    all_goals (try split at hs)
    all_goals (try (cases hs; done))
    all_goals cases hs
    all_goals left
    all_goals simp [setPc, setBuf, record, suspend]

/-- One step cannot make the pool larger than the number of statements under way plus the number of
pairs whose flush failed. -/
theorem bound_step {c : Cfg} {ts : List Nat} {x x' : IS} {t : Nat} {a : IAct} (hts : t ∈ ts) (hU : UInv x)
    (hQ : Quiet ts x) (hs : stepI c x t a = some x') (P : List (Nat × Nat)) (hP : ∀ m ∈ x.lost, (m.1, m.2.1) ∈ P) :
    x'.s.pool.length ≤ max x.s.pool.length ((ts.map (underWay x.s)).sum + P.length) := by
  rcases grow_step hs with h | ⟨hl, hn, l, txt, hpc, hno⟩
  · omega
  obtain ⟨ps, e⟩ := full_pairs hn
  have hnd : ((t, l) :: ps).Nodup := by
    refine List.nodup_cons.2 ⟨fun hm => hno (by rw [e]; exact List.mem_map.2 ⟨_, hm, rfl⟩), ?_⟩
    refine List.pairwise_iff_getElem.2 fun i j hi hj hij he => ?_
    have := hU.ud i j ps[i] (by rw [e]; simp [hi]) (by rw [e]; simp [he, hj])
    omega
  have hsub : ((t, l) :: ps) ⊆ (ts.flatMap fun t => (levels x.s t).map fun l => (t, l)) ++ P := by
    intro p hp
    rcases List.mem_cons.1 hp with rfl | hp
    · refine List.mem_append_left _ (List.mem_flatMap.2 ⟨t, hts, List.mem_map.2 ⟨l, ?_, rfl⟩⟩)
      simp [levels, hpc, wants]
    · obtain ⟨i, hi, hpi⟩ := List.getElem_of_mem hp
      have hin : x.s.pool[i]? = some (some (p.1, p.2)) := by rw [e]; simp [hi, hpi]
      rcases hU.us p.1 i p.2 hin with h | ⟨f, hf, _, h⟩ | ⟨txt', h⟩
      · refine List.mem_append_left _ (List.mem_flatMap.2 ⟨p.1, ?_, List.mem_map.2 ⟨p.2, ?_, rfl⟩⟩)
        · refine Classical.byContradiction fun hc => ?_
          rw [(hQ p.1 hc).1] at h; cases h
        · simp [levels, h]
      · refine List.mem_append_left _ (List.mem_flatMap.2 ⟨p.1, ?_, List.mem_map.2 ⟨p.2, ?_, rfl⟩⟩)
        · refine Classical.byContradiction fun hc => ?_
          rw [(hQ p.1 hc).2] at hf; cases hf
        · simp only [levels, List.mem_append, List.mem_map]
          exact Or.inr ⟨f, hf, h⟩
      · exact List.mem_append_right _ (hP _ h)
  have hlen := (List.subperm_of_subset hnd hsub).length_le
  have hfl := flatMap_length_le ts x.s
  have : x.s.pool.length = ps.length := by rw [e]; simp
  simp only [List.length_cons, List.length_append] at hlen
  omega

theorem lost_mono {c : Cfg} {x x' : IS} {t : Nat} {a : IAct} (hs : stepI c x t a = some x') : x.lost ⊆ x'.lost := by
  obtain ⟨s, lost⟩ := x
  cases a with
  | intr =>
    simp only [stepI] at hs
    split at hs <;> cases hs <;> simp
  | act a =>
    simp only [stepI] at hs
    obtain ⟨s', hs, rfl⟩ := Option.map_eq_some_iff.1 hs
    simp

theorem lost_mono_exec {c : Cfg} {x x' : IS} (as : List (Nat × IAct)) (he : execI c x as = some x') : x.lost ⊆ x'.lost := by
  induction as generalizing x with
  | nil => cases he; simp
  | cons a as ih =>
    obtain ⟨x1, h1, h2⟩ := Option.bind_eq_some_iff.1 he
    exact List.Subset.trans (lost_mono h1) (ih h2)

theorem bound_exec {c : Cfg} {ts : List Nat} {K n : Nat} {P : List (Nat × Nat)} {x x' : IS} (sched : List (Nat × IAct))
    (hU : UInv x) (hQ : Quiet ts x) (hn : x.s.pool.length ≤ max n (K + P.length))
    (hts : ∀ a ∈ sched, a.1 ∈ ts)
    (hK : ∀ k y, execI c x (sched.take k) = some y → (ts.map (underWay y.s)).sum ≤ K)
    (he : execI c x sched = some x') (hP : ∀ m ∈ x'.lost, (m.1, m.2.1) ∈ P) :
    x'.s.pool.length ≤ max n (K + P.length) := by
  induction sched generalizing x with
  | nil => cases he; exact hn
  | cons a as ih =>
    obtain ⟨x1, h1, h2⟩ := Option.bind_eq_some_iff.1 he
    have hat := hts a (by simp)
    have hK0 := hK 0 x rfl
    have hb := bound_step hat hU hQ h1 P fun m hm => hP m (lost_mono_exec as h2 (lost_mono h1 hm))
    refine ih (uinv_step hU a.1 a.2 h1) (quiet_step hat hQ h1) (by omega) (fun b hb => hts b (by simp [hb])) ?_ h2
    intro k y hy
    exact hK (k + 1) y (by simp only [List.take_succ_cons, execI, h1, Option.bind_some]; exact hy)

/-- C132, the bound: a log stream never has more thread streams than the larger of its initial pool
size `n` and `K` plus the number of (thread, level) pairs for which the wait in a flush failed, where `K`
is the largest number of log statements under way at the same time. For any number of threads, any
interleaving, with nested statements, and any waits failing. -/
theorem c132_pool_bound (c : Cfg) (n K : Nat) (ts : List Nat) (P : List (Nat × Nat)) (sched : List (Nat × IAct)) (x : IS)
    (hts : ∀ a ∈ sched, a.1 ∈ ts) (he : execI c (initI n) sched = some x)
    (hK : ∀ k y, execI c (initI n) (sched.take k) = some y → (ts.map (underWay y.s)).sum ≤ K)
    (hP : ∀ m ∈ x.lost, (m.1, m.2.1) ∈ P) : x.s.pool.length ≤ max n (K + P.length) :=
  bound_exec sched (uinv_init n) (fun _ _ => ⟨rfl, rfl⟩)
    (by have : (initI n).s.pool.length = n := by simp [initI, init]
        omega) hts hK he hP

/-- C132: without failing waits the bound is the number of statements under way at the same time. -/
theorem c132_pool_bound_no_intr (c : Cfg) (n K : Nat) (ts : List Nat) (sched : List (Nat × IAct)) (x : IS)
    (hts : ∀ a ∈ sched, a.1 ∈ ts) (he : execI c (initI n) sched = some x)
    (hK : ∀ k y, execI c (initI n) (sched.take k) = some y → (ts.map (underWay y.s)).sum ≤ K)
    (hno : x.lost = []) : x.s.pool.length ≤ max n K := by
  have := c132_pool_bound c n K ts [] sched x hts he hK (by simp [hno])
  simpa using this

/-- C132, accounting: under every interleaving and whichever waits fail, when a thread has finished all
its log statements, each of them was pushed to the outputs exactly once or was lost because the wait in
its flush failed, and not both. -/
theorem c132_accounted (c : Cfg) (n : Nat) (sched : List (Nat × IAct)) (x : IS)
    (he : execI c (initI n) sched = some x) (t : Nat) (hidle : x.s.pc t = .idle) (hout : x.s.outer t = []) :
    (x.s.called t).Perm (((x.s.out.filter (·.thread = t)).map fun m => (m.level, m.meant)) ++
      (x.lost.filter (·.1 = t)).map (·.2)) := by
  have h := execI_ind (P := AInv) (fun _ _ t a h hs => ainv_step h t a hs) (ainv_init n) sched he t
  simpa [pending, pendingTop, hidle, hout, meantOf, lostOf] using h

/-- C132: failing waits do not make threads share streams (no nesting in a statement of the same level,
as in `c45_exclusive_partial`). -/
theorem c132_exclusive_partial (n : Nat) (racy : Bool) (sched : List (Nat × IAct)) (x : IS)
    (he : execI ⟨false, racy⟩ (initI n) sched = some x) (t u i l l' : Nat) (h1 : Holds x.s t i l) (h2 : Holds x.s u i l') :
    t = u ∧ l = l' := by
  have hI := execI_ind (P := OInv) (fun _ _ t a h hs => oinv_step rfl h t a hs) (oinv_init n) sched he
  have key : ∀ t l, Holds x.s t i l → x.s.pool[i]? = some (some (t, l)) := by
    intro t l hh
    rcases hh with ⟨txt, hh | hh | hh⟩ | hh | ⟨d, r, hh⟩ | ⟨f, hf, rfl, rfl⟩
    · exact hI.tp t i l (by rw [hh]; rfl)
    · exact hI.tp t i l (by rw [hh]; rfl)
    · exact hI.tp t i l (by rw [hh]; rfl)
    · exact hI.tp t i l (by rw [hh]; rfl)
    · exact hI.tp t i l (by rw [hh]; rfl)
    · exact hI.ot t f hf
  have e := (key t l h1).symm.trans (key u l' h2)
  simp only [Option.some.injEq, Prod.mk.injEq] at e
  exact e

/-- C132: a failed wait corrupts no other message: under the hypotheses of `c45_text_partial`, every
message that was pushed is exactly the text of its log statement, whichever waits failed before. -/
theorem c132_text_partial (n : Nat) (sched : List (Nat × IAct)) (x : IS)
    (he : execI ⟨false, false⟩ (initI n) sched = some x) (m : Msg) (hm : m ∈ x.s.out) : m.text = m.meant := by
  have hI := execI_ind (P := fun x => OInv x ∧ TXInv x)
    (fun _ _ t a h hs => ⟨oinv_step rfl h.1 t a hs, txinv_step rfl rfl h.1 h.2 t a hs⟩)
    ⟨oinv_init n, txinv_init n⟩ sched he
  exact hI.2.ms m hm

/-! ## The bounds are reached -/

/-- `k` actions of thread `t`. -/
def goI (t k : Nat) : List (Nat × IAct) := List.replicate k (t, .act .go)

/-- Thread `t` starts a statement and keeps the stream. -/
def take (t : Nat) : List (Nat × IAct) := (t, .act (.call 0 [])) :: goI t 3

/-- Thread `t` executes one statement; the wait in its flush fails. -/
def lose (t : Nat) : List (Nat × IAct) := (t, .act (.call 0 [])) :: (goI t 4 ++ [(t, .intr)] ++ goI t 1)

/-- Threads 0, …, k-1 take a stream each. -/
def takes : Nat → List (Nat × IAct)
  | 0 => []
  | k + 1 => takes k ++ take k

/-- Threads 0, …, k-1 execute one statement each, one after the other; the waits in the flushes fail. -/
def loses : Nat → List (Nat × IAct)
  | 0 => []
  | k + 1 => loses k ++ lose k

theorem others_exec {c : Cfg} {t : Nat} {x y : IS} (as : List (Nat × IAct)) (hall : ∀ a ∈ as, a.1 = t)
    (he : execI c x as = some y) (u : Nat) (hu : u ≠ t) : y.s.pc u = x.s.pc u ∧ y.s.outer u = x.s.outer u := by
  induction as generalizing x with
  | nil => cases he; exact ⟨rfl, rfl⟩
  | cons a as ih =>
    obtain ⟨x1, h1, h2⟩ := Option.bind_eq_some_iff.1 he
    have e := hall a (by simp)
    obtain ⟨e1, e2⟩ := pc_other (t := t) (by rw [← e]; exact h1) u hu
    obtain ⟨e3, e4⟩ := ih (fun b hb => hall b (by simp [hb])) h2
    exact ⟨e3.trans e1, e4.trans e2⟩

/-- What one `take` does. -/
theorem take_run (x : IS) (t : Nat) (hm : x.s.mutex = none) (hpc : x.s.pc t = .idle) (ho : x.s.outer t = []) :
    (∃ x1, execI anyCfg x (take t) = some x1 ∧ x1.s.pool = (lookup x.s.pool t 0).2 ∧ x1.s.mutex = none ∧
      x1.lost = x.lost ∧ x1.s.outer t = []) ∧
    ∀ k y, execI anyCfg x ((take t).take k) = some y → y.s.outer t = [] := by
  constructor
  · simp [take, goI, execI, stepI, step, setPc, record, hm, hpc, ho, anyCfg, List.replicate]
  · intro k y
    rcases k with _ | _ | _ | _ | k
    all_goals simp [take, goI, execI, stepI, step, setPc, record, hm, hpc, ho, anyCfg, List.replicate]
    all_goals (intro e; rw [← e]; exact ho)

/-- What one `lose` does. -/
theorem lose_run (x : IS) (t : Nat) (hm : x.s.mutex = none) (hpc : x.s.pc t = .idle) (ho : x.s.outer t = []) :
    (∃ x1, execI anyCfg x (lose t) = some x1 ∧ x1.s.pool = (lookup x.s.pool t 0).2 ∧ x1.s.mutex = none ∧
      x1.lost = x.lost ++ [(t, 0, [])] ∧ x1.s.outer t = [] ∧ x1.s.pc t = .idle) ∧
    ∀ k y, execI anyCfg x ((lose t).take k) = some y → y.s.outer t = [] := by
  constructor
  · simp [lose, goI, execI, stepI, step, setPc, setBuf, record, hm, hpc, ho, anyCfg, List.replicate]
  · intro k y
    rcases k with _ | _ | _ | _ | _ | _ | _ | k
    all_goals simp [lose, goI, execI, stepI, step, setPc, setBuf, record, hm, hpc, ho, anyCfg, List.replicate]
    all_goals (intro e; rw [← e]; exact ho)

/-- One more (thread, level) pair that has no stream takes a free stream or a new one. -/
theorem lookup_new (pool : List (Option (Nat × Nat))) (t n k : Nat) (hno : some (t, 0) ∉ pool)
    (hl : pool.length = max n k) (hc : pool.count none = n - k) :
    (lookup pool t 0).2.length = max n (k + 1) ∧ (lookup pool t 0).2.count none = n - (k + 1) ∧
    ∀ p ∈ (lookup pool t 0).2, p = some (t, 0) ∨ p ∈ pool := by
  have h1 : pool.findIdx? (· = some (t, 0)) = none := by
    refine List.findIdx?_eq_none_iff.2 fun p hp => ?_
    have : p ≠ some (t, 0) := fun e => hno (e ▸ hp)
    simp [this]
  cases h2 : pool.findIdx? (· = none) with
  | some i =>
    obtain ⟨hi, hi2, _⟩ := List.findIdx?_eq_some_iff_getElem.1 h2
    have hi3 : pool[i] = none := by simpa using hi2
    have hpos : 0 < pool.count none := List.count_pos_iff.2 (hi3 ▸ List.getElem_mem hi)
    simp only [lookup, h1, h2]
    refine ⟨by simp only [List.length_set]; omega, ?_, fun p hp => ?_⟩
    · rw [List.count_set hi, hi3]; simp; omega
    · rcases List.mem_or_eq_of_mem_set hp with h | h
      · exact Or.inr h
      · exact Or.inl h
  | none =>
    have h3 : pool.count none = 0 := by
      refine List.count_eq_zero.2 fun hm => ?_
      simpa using List.findIdx?_eq_none_iff.1 h2 _ hm
    simp only [lookup, h1, h2]
    refine ⟨by simp only [List.length_append, List.length_singleton]; omega, ?_, fun p hp => ?_⟩
    · rw [List.count_append, h3]; simp; omega
    · rcases List.mem_append.1 hp with h | h
      · exact Or.inr h
      · exact Or.inl (by simpa using h)

theorem takes_run (n k : Nat) :
    (∃ x, execI anyCfg (initI n) (takes k) = some x ∧ x.s.pool.length = max n k ∧ x.s.pool.count none = n - k ∧
      (∀ t, some (t, 0) ∈ x.s.pool → t < k) ∧ x.s.mutex = none ∧ x.lost = [] ∧ (∀ t, x.s.outer t = []) ∧
      ∀ t, k ≤ t → x.s.pc t = .idle) ∧
    (∀ a ∈ takes k, a.1 < k) ∧ ∀ m y, execI anyCfg (initI n) ((takes k).take m) = some y → ∀ t, y.s.outer t = [] := by
  induction k with
  | zero =>
    refine ⟨⟨initI n, rfl, by simp [initI, init], by simp [initI, init], by simp [initI, init], rfl, rfl,
      fun _ => rfl, fun _ _ => rfl⟩, by simp [takes], fun m y h => ?_⟩
    simp only [takes, List.take_nil, execI, Option.some.injEq] at h
    subst h; exact fun _ => rfl
  | succ k ih =>
    obtain ⟨⟨x, e, h1, h2, h3, h4, h5, h6, h7⟩, ht, hpre⟩ := ih
    obtain ⟨⟨x1, e1, g1, g2, g3, g4⟩, gp⟩ := take_run x k h4 (h7 k (Nat.le_refl k)) (h6 k)
    obtain ⟨l1, l2, l3⟩ := lookup_new x.s.pool k n k (fun h => Nat.lt_irrefl _ (h3 k h)) h1 h2
    have hall : ∀ a ∈ take k, a.1 = k := by simp [take, goI]
    refine ⟨⟨x1, ?_, by rw [g1, l1], by rw [g1, l2], ?_, g2, by rw [g3, h5], ?_, ?_⟩, ?_, ?_⟩
    · rw [takes, execI_append, e]; exact e1
    · intro t htm
      rw [g1] at htm
      rcases l3 _ htm with h | h
      · simp only [Option.some.injEq, Prod.mk.injEq, and_true] at h; omega
      · have := h3 t h; omega
    · intro t
      by_cases htk : t = k
      · rw [htk]; exact g4
      · rw [(others_exec _ hall e1 t htk).2]; exact h6 t
    · intro t htk
      rw [(others_exec _ hall e1 t (by omega)).1]; exact h7 t (by omega)
    · intro a ha
      rcases List.mem_append.1 ha with h | h
      · have := ht a h; omega
      · have := hall a h; omega
    · intro m y hy t
      rw [takes, List.take_append, execI_append] at hy
      by_cases hm : m ≤ (takes k).length
      · rw [Nat.sub_eq_zero_of_le hm] at hy
        simp only [List.take_zero, execI, Option.bind_fun_some] at hy
        exact hpre m _ hy t
      · rw [List.take_of_length_le (by omega), e] at hy
        simp only [Option.bind_some] at hy
        by_cases htk : t = k
        · rw [htk]; exact gp _ y hy
        · rw [(others_exec _ (fun a ha => hall a (List.mem_of_mem_take ha)) hy t htk).2]; exact h6 t

theorem sum_le_length {f : Nat → Nat} (ts : List Nat) (h : ∀ t ∈ ts, f t ≤ 1) : (ts.map f).sum ≤ ts.length := by
  induction ts with
  | nil => simp
  | cons t ts ih =>
    have := h t (by simp)
    have := ih fun u hu => h u (by simp [hu])
    simp only [List.map_cons, List.sum_cons, List.length_cons]; omega

/-- C132: the bound without failing waits is reached: `K` threads can be logging at the same time and
make the stream create `K` thread streams (and `c132_pool_bound_no_intr` applies to that run). -/
theorem c132_pool_bound_tight (n K : Nat) : ∃ (sched : List (Nat × IAct)) (x : IS),
    (∀ a ∈ sched, a.1 ∈ List.range K) ∧ execI anyCfg (initI n) sched = some x ∧
    (∀ k y, execI anyCfg (initI n) (sched.take k) = some y → ((List.range K).map (underWay y.s)).sum ≤ K) ∧
    x.lost = [] ∧ x.s.pool.length = max n K := by
  obtain ⟨⟨x, e, h1, _, _, _, h5, _, _⟩, ht, hpre⟩ := takes_run n K
  refine ⟨takes K, x, fun a ha => List.mem_range.2 (ht a ha), e, fun k y hy => ?_, h5, h1⟩
  have := sum_le_length (f := underWay y.s) (List.range K) fun t _ => by
    simp only [underWay, hpre k y hy t, List.length_nil]; split <;> omega
  simpa using this

theorem loses_run (n k : Nat) :
    (∃ x, execI anyCfg (initI n) (loses k) = some x ∧ x.s.pool.length = max n k ∧ x.s.pool.count none = n - k ∧
      (∀ t, some (t, 0) ∈ x.s.pool → t < k) ∧ x.s.mutex = none ∧ x.lost = (List.range k).map (fun t => (t, 0, [])) ∧
      (∀ t, x.s.outer t = []) ∧ ∀ t, x.s.pc t = .idle) ∧
    (∀ a ∈ loses k, a.1 < k) ∧ ∀ m y, execI anyCfg (initI n) ((loses k).take m) = some y →
      ∃ u, ∀ t, underWay y.s t ≤ if t = u then 1 else 0 := by
  induction k with
  | zero =>
    refine ⟨⟨initI n, rfl, by simp [initI, init], by simp [initI, init], by simp [initI, init], rfl, rfl,
      fun _ => rfl, fun _ => rfl⟩, by simp [loses], fun m y h => ?_⟩
    simp only [loses, List.take_nil, execI, Option.some.injEq] at h
    subst h; exact ⟨0, fun t => by simp [underWay, initI, init]⟩
  | succ k ih =>
    obtain ⟨⟨x, e, h1, h2, h3, h4, h5, h6, h7⟩, ht, hpre⟩ := ih
    obtain ⟨⟨x1, e1, g1, g2, g3, g4, g5⟩, gp⟩ := lose_run x k h4 (h7 k) (h6 k)
    obtain ⟨l1, l2, l3⟩ := lookup_new x.s.pool k n k (fun h => Nat.lt_irrefl _ (h3 k h)) h1 h2
    have hall : ∀ a ∈ lose k, a.1 = k := by simp [lose, goI]
    refine ⟨⟨x1, ?_, by rw [g1, l1], by rw [g1, l2], ?_, g2, by rw [g3, h5, List.range_succ]; simp, ?_, ?_⟩, ?_, ?_⟩
    · rw [loses, execI_append, e]; exact e1
    · intro t htm
      rw [g1] at htm
      rcases l3 _ htm with h | h
      · simp only [Option.some.injEq, Prod.mk.injEq, and_true] at h; omega
      · have := h3 t h; omega
    · intro t
      by_cases htk : t = k
      · rw [htk]; exact g4
      · rw [(others_exec _ hall e1 t htk).2]; exact h6 t
    · intro t
      by_cases htk : t = k
      · rw [htk]; exact g5
      · rw [(others_exec _ hall e1 t htk).1]; exact h7 t
    · intro a ha
      rcases List.mem_append.1 ha with h | h
      · have := ht a h; omega
      · have := hall a h; omega
    · intro m y hy
      rw [loses, List.take_append, execI_append] at hy
      by_cases hm : m ≤ (loses k).length
      · rw [Nat.sub_eq_zero_of_le hm] at hy
        simp only [List.take_zero, execI, Option.bind_fun_some] at hy
        exact hpre m _ hy
      · rw [List.take_of_length_le (by omega), e] at hy
        simp only [Option.bind_some] at hy
        refine ⟨k, fun t => ?_⟩
        by_cases htk : t = k
        · rw [if_pos htk, htk, underWay, gp _ y hy, List.length_nil]; split <;> omega
        · obtain ⟨e2, e3⟩ := others_exec _ (fun a ha => hall a (List.mem_of_mem_take ha)) hy t htk
          rw [if_neg htk, underWay, e2, e3, h6, h7]; simp

theorem sum_one (ts : List Nat) (hn : ts.Nodup) (f : Nat → Nat) (u : Nat) (h : ∀ t, f t ≤ if t = u then 1 else 0) :
    (ts.map f).sum ≤ 1 := by
  have key : ∀ ts : List Nat, (u ∉ ts → (ts.map f).sum = 0) := by
    intro ts
    induction ts with
    | nil => simp
    | cons t ts ih =>
      intro hm
      simp only [List.mem_cons, not_or] at hm
      have := h t
      rw [if_neg (fun e => hm.1 e.symm)] at this
      have := ih hm.2
      simp only [List.map_cons, List.sum_cons]; omega
  induction ts with
  | nil => simp
  | cons t ts ih =>
    have hn' := List.nodup_cons.1 hn
    have ht := h t
    simp only [List.map_cons, List.sum_cons]
    by_cases e : t = u
    · rw [if_pos e] at ht
      have := key ts (e ▸ hn'.1)
      omega
    · rw [if_neg e] at ht
      have := ih hn'.2
      omega

/-- Finding: a failed wait in a flush leaves the stream assigned to its thread and level. If that thread
ends, nobody ever uses it again: for every `k` there is a run in which never more than one log statement
is under way, all threads have finished, no message came out, and the stream has created `k` thread
streams (beyond the initial pool). -/
theorem c132_leak (n k : Nat) : ∃ (sched : List (Nat × IAct)) (x : IS),
    (∀ a ∈ sched, a.1 ∈ List.range k) ∧ execI anyCfg (initI n) sched = some x ∧
    (∀ j y, execI anyCfg (initI n) (sched.take j) = some y → ((List.range k).map (underWay y.s)).sum ≤ 1) ∧
    (∀ t, x.s.pc t = .idle ∧ x.s.outer t = []) ∧ x.lost.length = k ∧ x.s.pool.length = max n k := by
  obtain ⟨⟨x, e, h1, _, _, _, h5, h6, h7⟩, ht, hpre⟩ := loses_run n k
  refine ⟨loses k, x, fun a ha => List.mem_range.2 (ht a ha), e, fun j y hy => ?_, fun t => ⟨h7 t, h6 t⟩, by simp [h5], h1⟩
  obtain ⟨u, hu⟩ := hpre j y hy
  exact sum_one _ List.nodup_range _ u hu

/-! ## Concrete runs -/

/-- Thread 1 logs [5] at level 2, its flush fails; it logs [6] at level 2 (the same stream is used again and
starts empty), while thread 2 logs [7]. -/
def mixSched : List (Nat × IAct) :=
  [(1, .act (.call 2 [5]))] ++ goI 1 1 ++ [(2, .act (.call 2 [7])), (2, .intr)] ++ goI 1 4 ++ [(1, .intr)] ++ goI 1 1 ++
  [(1, .act (.call 2 [6]))] ++ goI 1 3 ++ goI 2 4 ++ goI 1 2 ++ goI 2 6 ++ goI 1 5

/-- The hypotheses of `c132_accounted`, `c132_text_partial` and `c132_pool_bound` are met by a run with a
lost message and a retried wait. -/
example : ∃ x, execI ⟨false, false⟩ (initI 2) mixSched = some x ∧ x.s.pc 1 = .idle ∧ x.s.outer 1 = [] ∧
    x.s.out = [⟨2, 2, [7], [7]⟩, ⟨1, 2, [6], [6]⟩] ∧ x.lost = [(1, 2, [5])] ∧ x.s.called 1 = [(2, [5]), (2, [6])] ∧
    x.s.pool = [none, none] :=
  ⟨_, rfl, by decide⟩

end Verif.Logging.Pool.Intr
