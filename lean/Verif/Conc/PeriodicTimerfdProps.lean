import Verif.Conc.PeriodicTimerfd

/-!
# C87: the cycles of a periodic thread
-/
namespace Verif.Conc.Timerfd
open Verif.Time

/-- The object's timer runs since `t0` with period `p`; `r` expirations have been reported. -/
def Running (o : Obj) (os : Os) (t0 p r : Int) : Prop :=
  ∃ f : Nat, o.fd = some (f : Int) ∧ os.fds[f]? = some (some ⟨t0 + p, p, r⟩) ∧
    o.missed = some (r % 18446744073709551616)

theorem wait_running {o : Obj} {os : Os} {t0 p r : Int} (hp : 0 < p) (hr : 0 ≤ r) (h : Running o os t0 p r)
    (t : Int) (d : Nat) :
    ∃ o' os', o.waitPeriod os t d = .ok (.woke (max t (t0 + (r + 1) * p) + d) o' os') ∧
      Running o' os' t0 p ((max t (t0 + (r + 1) * p) + d - t0) / p) := by
  obtain ⟨f, h1, h2, h3⟩ := h
  have e1 : t0 + p + r * p = t0 + (r + 1) * p := by rw [Int.add_mul]; omega
  have nn : (0 : Int) ≤ r * p := Int.mul_nonneg hr (by omega)
  generalize hw : max t (t0 + (r + 1) * p) + d = w
  have hge : t0 + p ≤ w := by omega
  have e2 : (Timer.mk (t0 + p) p r).expirations w = (w - t0) / p := by
    unfold Timer.expirations
    rw [if_neg (by simp; omega)]
    show (w - (t0 + p)) / p + 1 = _
    rw [show w - t0 = (w - (t0 + p)) + 1 * p by omega, Int.add_mul_ediv_right _ _ (by omega)]
  have hlt : f < os.fds.length := (List.getElem?_eq_some_iff.mp h2).1
  have hr' : os.read f t d = .woke w ((w - t0) / p - r)
      { os with fds := os.fds.set f (some ⟨t0 + p, p, (w - t0) / p⟩) } := by
    simp only [Os.read, Int.toNat_natCast, h2]
    rw [if_neg (by omega), e1, hw, e2]
  refine ⟨{ o with missed := some ((r % 18446744073709551616 + ((w - t0) / p - r)) % 18446744073709551616) },
    _, by simp only [Obj.waitPeriod, h1, hr', h3]; rfl, f, h1, ?_, ?_⟩
  · simp [hlt]
  · simp only [Option.some.injEq]
    rw [Int.emod_add_emod]
    congr 1; omega

/-- Specification of the wake-up times: each call returns at the next multiple of the period after the
previous return (counted from the start `t0`), or at once if the thread has been busy beyond that,
plus the delay of the scheduler. `prev` is the time of the previous return. -/
def Exact (t0 p : Int) : Int → List (Nat × Nat) → List Int → Prop
  | _, [], ws => ws = []
  | prev, (busy, delay) :: cs, ws => ∃ w rest, ws = w :: rest ∧
      w = max (prev + busy) (t0 + ((prev - t0) / p + 1) * p) + delay ∧ Exact t0 p w cs rest

theorem cycles_exact {t0 p : Int} (hp : 0 < p) (cs : List (Nat × Nat)) : ∀ {o : Obj} {os : Os} {prev : Int},
    t0 ≤ prev → Running o os t0 p ((prev - t0) / p) →
    ∃ ws o', cycles o os prev cs = some (ws, o') ∧ Exact t0 p prev cs ws ∧
      o'.missed = some (((ws.getLast?.getD prev - t0) / p) % 18446744073709551616) := by
  induction cs with
  | nil =>
    intro o os prev _ h
    obtain ⟨f, _, _, h3⟩ := h
    exact ⟨[], o, rfl, rfl, by simpa using h3⟩
  | cons c cs ih =>
    intro o os prev hge h
    obtain ⟨b, d⟩ := c
    have hr : 0 ≤ (prev - t0) / p := Int.ediv_nonneg (by omega) (by omega)
    obtain ⟨o', os', e, h'⟩ := wait_running hp hr h (prev + b) d
    obtain ⟨ws, o'', e2, hx, hm⟩ := ih (o := o') (os := os') (by omega) h'
    refine ⟨_ :: ws, o'', by simp only [cycles, e, e2], ⟨_, _, rfl, rfl, hx⟩, ?_⟩
    rw [hm, List.getLast?_cons]; simp

/-- A period that the timer takes as it is: positive, canonical, less than 2^32 s (136 years). -/
def Good (p : TB) : Prop := Normalised p ∧ 0 < total p ∧ p.secs < 4294967296

theorem good_fields {p : TB} (h : Good p) :
    wrapU32 p.secs = p.secs ∧ wrapU32 p.nsecs = p.nsecs ∧ 0 ≤ p.nsecs ∧ p.nsecs < 1000000000 := by
  obtain ⟨⟨_, _, _, h3, h4⟩, h5, h6⟩ := h
  unfold total at h5; unfold wrapU32
  omega

/-- `makePeriodic()` with a free descriptor starts the timer. -/
theorem makePeriodic_running (p : TB) (hg : Good p) (o : Obj) (ho : o.period = p) (os : Os)
    (hfree : os.fds.length < os.limit) (t0 : Int) :
    ∃ o' os', o.makePeriodic os t0 = .ok (o', os') ∧ Running o' os' t0 (total p) 0 := by
  obtain ⟨g1, g2, g3, g4⟩ := good_fields hg
  have hpos := hg.2.1
  simp only [Obj.makePeriodic, Os.create, if_pos hfree, bind, Outcome.bind, Obj.setPeriod]
  rw [if_pos (by simp)]
  simp only [ho, g1, g2, Os.settime]
  rw [if_neg (by simp), if_neg (by omega), if_neg (by unfold total at hpos; omega)]
  refine ⟨_, _, rfl, os.fds.length, rfl, ?_, rfl⟩
  simp [total]

/-- C87. For every period (positive, below 2^32 s), every amount of work in every cycle and every
scheduling delay: after `makePeriodic()` at `t0`, each `waitPeriod()` returns at the first multiple of
the period (counted from `t0`) after the previous return, or at once if the work took longer than that,
plus the scheduler's delay. -/
theorem c87_cycles_exact (p : TB) (hg : Good p) (o : Obj) (ho : o.period = p) (os : Os)
    (hfree : os.fds.length < os.limit) (t0 : Int) (cs : List (Nat × Nat)) :
    ∃ o' os' ws o'', o.makePeriodic os t0 = .ok (o', os') ∧ cycles o' os' t0 cs = some (ws, o'') ∧
      Exact t0 (total p) t0 cs ws := by
  obtain ⟨o', os', e, hr⟩ := makePeriodic_running p hg o ho os hfree t0
  have h0 : (t0 - t0) / total p = 0 := by simp
  obtain ⟨ws, o'', e2, hx, _⟩ := cycles_exact hg.2.1 cs (Int.le_refl t0) (by rw [h0]; exact hr)
  exact ⟨o', os', ws, o'', e, e2, hx⟩

theorem exact_length {t0 p : Int} (cs : List (Nat × Nat)) : ∀ {prev : Int} {ws : List Int},
    Exact t0 p prev cs ws → ws.length = cs.length := by
  induction cs with
  | nil => intro prev ws h; cases h; rfl
  | cons c cs ih =>
    intro prev ws h
    obtain ⟨w, rest, rfl, _, h2⟩ := h
    simp [ih h2]

theorem exact_late {t0 p : Int} (hp : 0 < p) (cs : List (Nat × Nat)) : ∀ {prev : Int} {ws : List Int} (k : Nat),
    t0 + k * p ≤ prev → Exact t0 p prev cs ws → ∀ (i : Nat) (h : i < ws.length), t0 + (k + i + 1) * p ≤ ws[i] := by
  induction cs with
  | nil => intro prev ws k _ h i hi; cases h; simp at hi
  | cons c cs ih =>
    intro prev ws k hk h i hi
    obtain ⟨w, rest, rfl, hw, h2⟩ := h
    have a1 : (k : Int) ≤ (prev - t0) / p := (Int.le_ediv_iff_mul_le hp).mpr (by omega)
    have a2 : ((k : Int) + 1) * p ≤ ((prev - t0) / p + 1) * p := Int.mul_le_mul_of_nonneg_right (by omega) (by omega)
    have a3 : t0 + ((k : Int) + 1) * p ≤ w := by omega
    cases i with
    | zero => simpa using a3
    | succ i =>
      have := ih (k + 1) (by push_cast; exact a3) h2 i (by simpa using hi)
      simp only [List.getElem_cons_succ]
      push_cast at this ⊢
      rw [show (k : Int) + (i + 1) + 1 = k + 1 + i + 1 by omega]
      exact this

/-- C87. Never early: the `n`-th `waitPeriod()` after `makePeriodic()` returns at least `n` periods
after it, whatever the work and the delays. -/
theorem c87_never_early (p : TB) (hg : Good p) (o : Obj) (ho : o.period = p) (os : Os)
    (hfree : os.fds.length < os.limit) (t0 : Int) (cs : List (Nat × Nat)) :
    ∃ o' os' ws o'', o.makePeriodic os t0 = .ok (o', os') ∧ cycles o' os' t0 cs = some (ws, o'') ∧
      ws.length = cs.length ∧ ∀ (i : Nat) (h : i < ws.length), t0 + (i + 1) * total p ≤ ws[i] := by
  obtain ⟨o', os', ws, o'', e1, e2, hx⟩ := c87_cycles_exact p hg o ho os hfree t0 cs
  refine ⟨o', os', ws, o'', e1, e2, exact_length cs hx, fun i h => ?_⟩
  have := exact_late hg.2.1 cs 0 (by simp) hx i h
  simpa using this

/-- The work of each cycle fits: delay of the previous cycle and work together take no longer than the
period, and no delay is as long as the period. -/
def Fits (p : Int) : Int → List (Nat × Nat) → Prop
  | _, [] => True
  | late, (busy, delay) :: cs => late + busy ≤ p ∧ (delay : Int) < p ∧ Fits p delay cs

theorem exact_fits {t0 p : Int} (hp : 0 < p) (cs : List (Nat × Nat)) : ∀ {late : Int} {ws : List Int} (k : Nat),
    0 ≤ late → late < p → Fits p late cs → Exact t0 p (t0 + k * p + late) cs ws →
    ∀ (i : Nat) (h : i < cs.length), ws[i]? = some (t0 + (k + i + 1) * p + (cs[i].2 : Int)) := by
  induction cs with
  | nil => intro late ws k _ _ _ _ i hi; simp at hi
  | cons c cs ih =>
    intro late ws k h0 h1 hf h i hi
    obtain ⟨b, d⟩ := c
    obtain ⟨f1, f2, f3⟩ := hf
    obtain ⟨w, rest, rfl, hw, h2⟩ := h
    have a1 : (t0 + k * p + late - t0) / p = k := by
      rw [show t0 + k * p + late - t0 = late + k * p by omega, Int.add_mul_ediv_right _ _ (by omega),
        Int.ediv_eq_zero_of_lt h0 h1]; omega
    rw [a1] at hw
    have a2 : ((k : Int) + 1) * p = k * p + p := by rw [Int.add_mul]; omega
    have a3 : w = t0 + ((k : Int) + 1) * p + d := by omega
    cases i with
    | zero => simp [a3]
    | succ i =>
      have := ih (k + 1) (by omega) f2 f3 (by push_cast; rw [← a3]; exact h2) i (by simpa using hi)
      simp only [List.getElem?_cons_succ, this, List.getElem_cons_succ]
      push_cast
      rw [show (k : Int) + (i + 1) + 1 = k + 1 + i + 1 by omega]

/-- C87. No drift: if the work of every cycle fits into the period, then the `n`-th return is exactly
`n` periods after the start plus the delay of this cycle alone; delays of earlier cycles do not add up. -/
theorem c87_no_drift (p : TB) (hg : Good p) (o : Obj) (ho : o.period = p) (os : Os)
    (hfree : os.fds.length < os.limit) (t0 : Int) (cs : List (Nat × Nat)) (hfit : Fits (total p) 0 cs) :
    ∃ o' os' ws o'', o.makePeriodic os t0 = .ok (o', os') ∧ cycles o' os' t0 cs = some (ws, o'') ∧
      ws.length = cs.length ∧
      ∀ (i : Nat) (h : i < cs.length), ws[i]? = some (t0 + (i + 1) * total p + (cs[i].2 : Int)) := by
  obtain ⟨o', os', ws, o'', e1, e2, hx⟩ := c87_cycles_exact p hg o ho os hfree t0 cs
  refine ⟨o', os', ws, o'', e1, e2, exact_length cs hx, fun i h => ?_⟩
  have := exact_fits hg.2.1 cs (late := 0) 0 (by omega) hg.2.1 hfit (by simpa using hx) i h
  simpa using this

/-- C87. The counter of the object is the number of whole periods that have passed at the last return
(modulo 2^64): it counts every cycle, not only the missed ones. -/
theorem c87_count (p : TB) (hg : Good p) (o : Obj) (ho : o.period = p) (os : Os)
    (hfree : os.fds.length < os.limit) (t0 : Int) (cs : List (Nat × Nat)) :
    ∃ o' os' ws o'', o.makePeriodic os t0 = .ok (o', os') ∧ cycles o' os' t0 cs = some (ws, o'') ∧
      o''.missed = some (((ws.getLast?.getD t0 - t0) / total p) % 18446744073709551616) := by
  obtain ⟨o', os', e, hr⟩ := makePeriodic_running p hg o ho os hfree t0
  have h0 : (t0 - t0) / total p = 0 := by simp
  obtain ⟨ws, o'', e2, _, hm⟩ := cycles_exact hg.2.1 cs (Int.le_refl t0) (by rw [h0]; exact hr)
  exact ⟨o', os', ws, o'', e, e2, hm⟩

/-- The hypotheses are met: 10 ms, three cycles, the second one 3 ms late. -/
example : Good ⟨0, 10000000⟩ ∧ Fits 10000000 0 [(2000000, 0), (4000000, 3000000), (7000000, 1)] ∧
    (cycles ⟨⟨0, 10000000⟩, true, some 0, some 0⟩ ⟨[some ⟨10000000, 10000000, 0⟩], 5⟩ 0
      [(2000000, 0), (4000000, 3000000), (7000000, 1)]).map (·.1) = some [10000000, 23000000, 30000001] := by
  refine ⟨⟨⟨⟨by decide, by decide⟩, by decide, by decide, by decide, by decide⟩, by decide, by decide⟩,
    ⟨by decide, by decide, by decide, by decide, by decide, by decide, trivial⟩, by decide⟩

/-- C87. What `setPeriod()` does once `makePeriodic()` has succeeded, for every period: it succeeds iff
the nanoseconds are not negative, the timer then runs with the seconds reduced modulo 2^32 from now on,
or is switched off if both are 0; `period()` returns the new period in any case. -/
theorem c87_setPeriod_exact (o : Obj) (os : Os) (f : Nat) (h1 : o.created = true) (h2 : o.fd = some (f : Int))
    (h3 : f < os.fds.length) (p : TB) (hp : Normalised p) (now : Int) :
    o.setPeriod os p now = .ok ({ o with period := p },
      if p.nsecs < 0 then os
      else { os with fds := os.fds.set f (if p.secs % 4294967296 = 0 ∧ p.nsecs = 0 then none
        else some ⟨now + (p.secs % 4294967296 * 1000000000 + p.nsecs),
          p.secs % 4294967296 * 1000000000 + p.nsecs, 0⟩) },
      decide (0 ≤ p.nsecs)) := by
  obtain ⟨_, b1, b2, _, _⟩ := hp
  simp only [Obj.setPeriod, h1, if_true, h2, Os.settime, Int.toNat_natCast]
  rw [if_neg (by omega)]
  by_cases hn : p.nsecs < 0
  · have hw : ¬ (wrapU32 p.nsecs < 1000000000) := by unfold wrapU32; omega
    rw [if_pos (by omega), if_pos hn]
    simp [hn]
  · have hw : wrapU32 p.nsecs = p.nsecs := by unfold wrapU32; omega
    rw [hw, if_neg (by omega), if_neg hn]
    have e : (wrapU32 p.secs * 1000000000 + p.nsecs = 0) ↔ (p.secs % 4294967296 = 0 ∧ p.nsecs = 0) := by
      unfold wrapU32; omega
    have hd : decide (0 ≤ p.nsecs) = true := by simp; omega
    rw [hd]
    simp only [e]
    rfl

/-- C87. A period set before the thread has called `makePeriodic()` is reported as a failure but is the
one that is used. -/
theorem c87_setPeriod_before (p q : TB) (os : Os) (now : Int) :
    ∃ o, (Obj.new p).setPeriod os q now = .ok (o, os, false) ∧ o = Obj.new q := ⟨_, rfl, rfl⟩

/-- C87. With the period 0 the first `waitPeriod()` never returns. -/
theorem c87_zero_period_blocks (os : Os) (hfree : os.fds.length < os.limit) (t0 t : Int) (d : Nat) :
    ∃ o os', (Obj.new ⟨0, 0⟩).makePeriodic os t0 = .ok (o, os') ∧ o.waitPeriod os' t d = .ok .never := by
  simp only [Obj.makePeriodic, Os.create, if_pos hfree, bind, Outcome.bind, Obj.setPeriod, Obj.new]
  rw [if_pos (by simp)]
  simp only [Os.settime]
  rw [if_neg (by simp), if_neg (by decide), if_pos (by decide)]
  refine ⟨_, _, rfl, ?_⟩
  have h : ¬ ((os.fds.length : Int) < 0) := by omega
  simp [Obj.waitPeriod, Os.read, h]

/-- C87. A negative whole number of seconds is taken as a period of up to 136 years: setPeriod(-1 s)
succeeds and the next cycle starts after 4294967295 s. -/
theorem c87_negative_period :
    ∃ o os, (Obj.new ⟨-1, 0⟩).makePeriodic ⟨[], 1⟩ 0 = .ok (o, os) ∧
      (cycles o os 0 [(0, 0)]).map (·.1) = some [4294967295000000000] := by
  refine ⟨_, _, rfl, by decide⟩

/-- C87. `waitPeriod()` before `makePeriodic()` reads an uninitialised descriptor. -/
theorem c87_wait_before_makePeriodic (p : TB) (os : Os) (t : Int) (d : Nat) :
    (Obj.new p).waitPeriod os t d = .ub := rfl

/-- A periodic thread object that is created, made periodic, and destroyed. -/
def lifecycle (p : TB) (os : Os) : Outcome Os := do
  let (o, os') ← (Obj.new p).makePeriodic os 0
  .ok (o.destroy os')

/-- `n` such objects, one after the other. -/
def lifecycles (p : TB) : Nat → Os → Outcome Os
  | 0, os => .ok os
  | n + 1, os => do
    let os' ← lifecycle p os
    lifecycles p n os'

theorem settime_length (os : Os) (fd sec nsec now : Int) :
    (os.settime fd sec nsec now).1.fds.length = os.fds.length ∧ (os.settime fd sec nsec now).1.limit = os.limit := by
  unfold Os.settime
  split
  · exact ⟨rfl, rfl⟩
  · split
    · exact ⟨rfl, rfl⟩
    · simp

theorem lifecycle_length (p : TB) (os : Os) :
    ∃ os', lifecycle p os = .ok os' ∧ os'.limit = os.limit ∧
      os'.fds.length = if os.fds.length < os.limit then os.fds.length + 1 else os.fds.length := by
  by_cases h : os.fds.length < os.limit
  · simp only [lifecycle, Obj.makePeriodic, Os.create, if_pos h, bind, Outcome.bind, Obj.setPeriod, Obj.new]
    rw [if_pos (by simp)]
    refine ⟨_, rfl, ?_⟩
    obtain ⟨a, b⟩ := settime_length { os with fds := os.fds ++ [none] } os.fds.length (wrapU32 p.secs) (wrapU32 p.nsecs) 0
    exact ⟨b, by simpa [Obj.destroy] using a⟩
  · simp only [lifecycle, Obj.makePeriodic, Os.create, if_neg h, bind, Outcome.bind, Obj.setPeriod, Obj.new]
    rw [if_neg (by simp)]
    exact ⟨_, rfl, rfl, rfl⟩

/-- C87. Every periodic thread that has ever been created keeps its descriptor: after `n` threads have
been created and destroyed, `n` descriptors are open (up to the limit). -/
theorem c87_descriptors_leak (p : TB) (n : Nat) (os : Os) (hle : os.fds.length ≤ os.limit) :
    ∃ os', lifecycles p n os = .ok os' ∧ os'.limit = os.limit ∧
      os'.fds.length = min (os.fds.length + n) os.limit := by
  induction n generalizing os with
  | zero => exact ⟨os, rfl, rfl, by omega⟩
  | succ n ih =>
    obtain ⟨o1, e1, l1, n1⟩ := lifecycle_length p os
    obtain ⟨o2, e2, l2, n2⟩ := ih o1 (by rw [l1, n1]; split <;> omega)
    refine ⟨o2, by simp only [lifecycles, e1, bind, Outcome.bind, e2], by omega, ?_⟩
    rw [n2, l1, n1]
    split <;> omega

/-- C87. Once the limit is reached, a new periodic thread does not wait at all: `makePeriodic()` returns
normally, every `waitPeriod()` returns at once and `setPeriod()` fails. -/
theorem c87_no_wait_without_descriptor (p q : TB) (os : Os) (hfull : os.limit ≤ os.fds.length) (t0 t : Int) (d : Nat) :
    ∃ o, (Obj.new p).makePeriodic os t0 = .ok (o, os) ∧ o.waitPeriod os t d = .ok .failed ∧
      ∃ o', o.setPeriod os q t = .ok (o', os, false) := by
  simp only [Obj.makePeriodic, Os.create, if_neg (show ¬ os.fds.length < os.limit by omega), bind, Outcome.bind,
    Obj.setPeriod, Obj.new]
  rw [if_neg (by simp)]
  exact ⟨_, rfl, by simp [Obj.waitPeriod, Os.read], by simp⟩

/-- C87. The emulation (other systems) does not wait in the first cycle: the last execution time starts
at the epoch. -/
theorem c87_emulated_first_cycle (period t : Int) (busy delay : Nat) (h0 : 0 < period) (h : period ≤ t) :
    emulated period 0 t [(busy, delay)] = some [t + busy] := by
  have a : ¬ ((t + (busy : Int)) < 0 + period) := by omega
  have b : ¬ ((0 : Int) + period - (t + busy) > period) := by omega
  have c : ¬ ((0 : Int) + period - (t + busy) > 0) := by omega
  simp only [emulated, Periodic.waitPeriod, if_true, if_neg a, ite_self, if_neg b, Periodic.loop, if_neg c]

/-- C87. The emulation drifts: if every cycle continues `delay` ns late, the `n`-th return is
`n * delay` ns behind; for every number of cycles. -/
theorem c87_emulated_drifts (period t : Int) (busy delay : Nat) (hb : busy < period) (n : Nat) :
    emulated period t t (List.replicate n (busy, delay)) =
      some ((List.range n).map fun (i : Nat) => t + ((i : Int) + 1) * (period + delay)) := by
  induction n generalizing t with
  | zero => rfl
  | succ n ih =>
    have a : (t + (busy : Int)) < t + period := by omega
    have b : ¬ (t + period - (t + (busy : Int)) > period) := by omega
    have c : t + period - (t + (busy : Int)) > 0 := by omega
    have e : ¬ (t + period - (t + period + (delay : Int)) > 0) := by omega
    have h2 : ¬ (1 + 1 = 0) := by decide
    simp only [List.replicate_succ, emulated, Periodic.waitPeriod, if_true, a, if_neg b, Periodic.loop, if_pos c,
      Nat.one_ne_zero, if_false, if_neg e, h2, ih, List.range_succ_eq_map, List.map_cons, List.map_map]
    simp only [Option.some.injEq, List.cons.injEq]
    refine ⟨by simp; omega, List.map_congr_left fun i _ => ?_⟩
    simp only [Function.comp]
    push_cast
    rw [Int.add_mul (↑i + 1) 1]; omega

/-- Period 10, 3 ns late in every cycle: the third cycle is 9 ns late. -/
example : emulated 10 100 100 (List.replicate 3 (2, 3)) = some [113, 126, 139] := by decide

end Verif.Conc.Timerfd
