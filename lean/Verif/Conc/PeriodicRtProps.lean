import Verif.Conc.PeriodicRt

/-!
# C104: periodic threads under LXRT and QNX
-/
namespace Verif.Conc.PeriodicRt
open Verif.Time

/-! ## LXRT -/

/-- The calls of the loop up to its end. -/
theorem lxWait_spec (clock : Nat → Int) (p : Int) : ∀ (fuel i : Nat) (r : Int) (k' : Task),
    lxWaitPeriod clock fuel i ⟨r, p⟩ = some k' →
    ∃ n : Nat, 1 ≤ n ∧ k' = ⟨r + n * p, p⟩ ∧ clock (i + n - 1) < r + n * p ∧
      ∀ j : Nat, 1 ≤ j → j < n → r + j * p ≤ clock (i + j - 1) := by
  intro fuel
  induction fuel with
  | zero => intro i r k' h; cases h
  | succ f ih =>
    intro i r k' h
    simp only [lxWaitPeriod, rtWaitPeriod] at h
    by_cases hc : clock i < r + p
    · rw [decide_eq_true hc] at h
      simp only [Option.some.injEq] at h
      exact ⟨1, Nat.le_refl _, by rw [← h]; simp, by simpa using hc, by intro j h1 h2; omega⟩
    · rw [decide_eq_false hc] at h
      simp only at h
      obtain ⟨n, hn, hk, hlt, hall⟩ := ih _ _ _ h
      refine ⟨n + 1, by omega, ?_, ?_, ?_⟩
      · rw [hk]; congr 1; rw [Int.natCast_add, Int.add_mul]; omega
      · have e : i + (n + 1) - 1 = i + 1 + n - 1 := by omega
        rw [e, Int.natCast_add, Int.add_mul]; omega
      · intro j h1 h2
        by_cases hj : j = 1
        · subst hj; simpa using Int.not_lt.mp hc
        · have := hall (j - 1) (by omega) (by omega)
          have e : i + 1 + (j - 1) - 1 = i + j - 1 := by omega
          rw [e] at this
          have e2 : ((j - 1 : Nat) : Int) = (j : Int) - 1 := by omega
          rw [e2, Int.sub_mul] at this; omega

/-- The loop ends if the calls are faster than the period. -/
theorem lxWait_ends (t p : Int) (c : Nat) (hc : (c : Int) < p) : ∀ (d i : Nat) (r : Int), t + i * c - r ≤ d →
    ∀ fuel, d < fuel → ∃ k', lxWaitPeriod (fun i => t + i * c) fuel i ⟨r, p⟩ = some k' := by
  intro d
  induction d with
  | zero =>
    intro i r h fuel hf
    obtain ⟨f, rfl⟩ : ∃ f, fuel = f + 1 := ⟨fuel - 1, by omega⟩
    refine ⟨⟨r + p, p⟩, ?_⟩
    simp only [lxWaitPeriod, rtWaitPeriod]
    rw [decide_eq_true (show t + i * c < r + p by omega)]
  | succ d ih =>
    intro i r h fuel hf
    obtain ⟨f, rfl⟩ : ∃ f, fuel = f + 1 := ⟨fuel - 1, by omega⟩
    simp only [lxWaitPeriod, rtWaitPeriod]
    by_cases hlt : t + i * c < r + p
    · exact ⟨⟨r + p, p⟩, by rw [decide_eq_true hlt]⟩
    · rw [decide_eq_false hlt]
      simp only
      refine ih (i + 1) (r + p) ?_ f (by omega)
      rw [Int.natCast_add, Int.add_mul]; omega

/-- Specification: each call returns at a release `t0 + m * p` (plus the scheduler's delay) that is later than
the call and later than the release of the previous cycle; the releases in between had all passed when the loop
looked at them. `m` is the number of the previous release, `prev` the previous return. -/
def Released (t0 p : Int) : Nat → Int → List Cycle → List Int → Prop
  | _, _, [], ws => ws = []
  | m, prev, c :: cs, ws => ∃ n rest, m < n ∧ ws = (t0 + (n : Int) * p + (c.delay : Int)) :: rest ∧
      prev + c.busy < t0 + (n : Int) * p ∧
      (∀ j : Nat, m < j → j < n → t0 + (j : Int) * p ≤ prev + c.busy + ((j - m - 1 : Nat) : Int) * (c.cost : Int)) ∧
      Released t0 p n (t0 + (n : Int) * p + c.delay) cs rest

theorem lxCycles_released (t0 p : Int) (fuel : Nat) (cs : List Cycle) : ∀ (m : Nat) (prev : Int) (ws : List Int),
    lxCycles fuel ⟨t0 + m * p, p⟩ prev cs = some ws → Released t0 p m prev cs ws := by
  induction cs with
  | nil => intro m prev ws h; simp [lxCycles] at h; simp [Released, h]
  | cons c cs ih =>
    intro m prev ws h
    simp only [lxCycles] at h
    cases hw : lxWaitPeriod (fun i => prev + c.busy + i * c.cost) fuel 0 ⟨t0 + m * p, p⟩ with
    | none => rw [hw] at h; cases h
    | some k' =>
      rw [hw] at h
      simp only at h
      cases hr : lxCycles fuel k' (k'.resume + c.delay) cs with
      | none => rw [hr] at h; cases h
      | some rest =>
        rw [hr] at h
        simp only [Option.some.injEq] at h
        obtain ⟨n, h1, hk, h2, h3⟩ := lxWait_spec _ _ _ _ _ _ hw
        have hk' : k' = ⟨t0 + ((m + n : Nat) : Int) * p, p⟩ := by
          rw [hk]; congr 1; rw [Int.natCast_add, Int.add_mul]; omega
        rw [hk'] at hr h
        have hcost : (0 : Int) ≤ ((0 + n - 1 : Nat) : Int) * (c.cost : Int) := Int.mul_nonneg (by omega) (by omega)
        refine ⟨m + n, rest, by omega, h.symm, ?_, ?_, ih _ _ _ hr⟩
        · rw [Int.natCast_add, Int.add_mul]; omega
        · intro j hj1 hj2
          have := h3 (j - m) (by omega) (by omega)
          have e : ((j - m : Nat) : Int) = (j : Int) - m := by omega
          have e2 : 0 + (j - m) - 1 = j - m - 1 := by omega
          rw [e, Int.sub_mul, e2] at this
          omega

theorem lxCycles_more (p : Int) (hp : 0 < p) (cs : List Cycle) (hc : ∀ c ∈ cs, (c.cost : Int) < p) : ∀ (r prev : Int),
    ∃ fuel0, ∀ fuel, fuel0 ≤ fuel → ∃ ws, lxCycles fuel ⟨r, p⟩ prev cs = some ws := by
  induction cs with
  | nil => intro r prev; exact ⟨0, fun _ _ => ⟨[], rfl⟩⟩
  | cons c cs ih =>
    intro r prev
    have hcc : (c.cost : Int) < p := hc c (by simp)
    let d := (prev + c.busy - r).toNat
    have hd : prev + c.busy + ((0 : Nat) : Int) * c.cost - r ≤ d := by simp only [d]; omega
    obtain ⟨k', hk⟩ := lxWait_ends (prev + c.busy) p c.cost hcc d 0 r hd (d + 1) (by omega)
    have hkp : k'.period = p := by
      obtain ⟨n, _, h, _⟩ := lxWait_spec _ _ _ _ _ _ hk
      rw [h]
    obtain ⟨f1, hf1⟩ := ih (fun c hc' => hc c (by simp [hc'])) k'.resume (k'.resume + c.delay)
    refine ⟨max (d + 1) f1, fun fuel hf => ?_⟩
    have mono : ∀ (fuel i : Nat) (k k' : Task) (clock : Nat → Int) (f2 : Nat), lxWaitPeriod clock fuel i k = some k' → fuel ≤ f2 →
        lxWaitPeriod clock f2 i k = some k' := by
      intro fuel
      induction fuel with
      | zero => intro i k k' clock f2 h; cases h
      | succ f ih =>
        intro i k k' clock f2 h hle
        obtain ⟨g, rfl⟩ : ∃ g, f2 = g + 1 := ⟨f2 - 1, by omega⟩
        simp only [lxWaitPeriod] at h ⊢
        rcases hq : rtWaitPeriod k (clock i) with ⟨k1, b⟩
        rw [hq] at h
        cases b with
        | true => exact h
        | false => exact ih _ _ _ _ _ h (by omega)
    obtain ⟨ws, hws⟩ := hf1 fuel (by omega)
    refine ⟨(k'.resume + c.delay) :: ws, ?_⟩
    simp only [lxCycles]
    rw [mono _ _ _ _ _ fuel hk (by omega)]
    have : k' = ⟨k'.resume, p⟩ := by cases k'; simp only at hkp; rw [hkp]
    rw [← this] at hws
    simp only [hws]

theorem makePeriodic_ok {o : LxObj} (hn : Normalised o.period) (hi : I64 (total o.period)) (t0 : Int) :
    o.makePeriodic t0 = .ok { o with task := some ⟨t0, total o.period⟩ } := by
  simp only [LxObj.makePeriodic, (c08_to hn).2.2 hi, bind, Outcome.bind]

/-- C104, LXRT: for every positive period (below 292 years), every amount of work in every cycle and every delay,
as long as asking RTAI is faster than the period: after `makePeriodic()` at `t0` every `waitPeriod()` returns, and
the times of return are the releases specified by `Released`. (Part: as long as the period is not changed.) -/
theorem c104_lxrt_cycles_partial (o : LxObj) (hn : Normalised o.period) (hpos : 0 < total o.period) (hi : I64 (total o.period))
    (t0 : Int) (cs : List Cycle) (hc : ∀ c ∈ cs, (c.cost : Int) < total o.period) :
    ∃ k fuel ws, o.makePeriodic t0 = .ok { o with task := some k } ∧ lxCycles fuel k t0 cs = some ws ∧
      Released t0 (total o.period) 0 t0 cs ws := by
  obtain ⟨f, hf⟩ := lxCycles_more _ hpos cs hc t0 t0
  obtain ⟨ws, hws⟩ := hf f (Nat.le_refl _)
  refine ⟨_, f, ws, makePeriodic_ok hn hi t0, hws, ?_⟩
  apply lxCycles_released (fuel := f)
  simpa using hws

/-- The result does not depend on the fuel: every run of the loop meets the specification. -/
theorem c104_lxrt_all_runs (o o' : LxObj) (hn : Normalised o.period) (hi : I64 (total o.period)) (t0 : Int) (k : Task)
    (hm : o.makePeriodic t0 = .ok o') (hk : o'.task = some k) (cs : List Cycle) (fuel : Nat) (ws : List Int)
    (h : lxCycles fuel k t0 cs = some ws) : Released t0 (total o.period) 0 t0 cs ws := by
  rw [makePeriodic_ok hn hi t0] at hm
  cases hm
  cases hk
  apply lxCycles_released (fuel := fuel)
  simpa using h

theorem released_length {t0 p : Int} (cs : List Cycle) : ∀ {m : Nat} {prev : Int} {ws : List Int},
    Released t0 p m prev cs ws → ws.length = cs.length := by
  induction cs with
  | nil => intro m prev ws h; cases h; rfl
  | cons c cs ih => intro m prev ws h; obtain ⟨n, rest, _, rfl, _, _, h⟩ := h; simp [ih h]

theorem released_late {t0 p : Int} (hp : 0 < p) (cs : List Cycle) : ∀ {m : Nat} {prev : Int} {ws : List Int},
    Released t0 p m prev cs ws → ∀ (i : Nat) (h : i < ws.length), t0 + (m + i + 1) * p ≤ ws[i] := by
  induction cs with
  | nil => intro m prev ws h i hi; cases h; simp at hi
  | cons c cs ih =>
    intro m prev ws h i hi
    obtain ⟨n, rest, hmn, rfl, _, _, h⟩ := h
    cases i with
    | zero =>
      have : ((m : Int) + 1) * p ≤ n * p := Int.mul_le_mul_of_nonneg_right (by omega) (by omega)
      simp only [List.getElem_cons_zero]
      have e : ((m : Int) + ((0 : Nat) : Int) + 1) = m + 1 := by omega
      rw [e]; omega
    | succ i =>
      have := ih h i (by simpa using hi)
      simp only [List.getElem_cons_succ]
      have h2 : ((m : Int) + ((i + 1 : Nat) : Int) + 1) * p ≤ ((n : Int) + i + 1) * p :=
        Int.mul_le_mul_of_nonneg_right (by omega) (by omega)
      omega

/-- C104, LXRT: never early: the `n`-th `waitPeriod()` returns at least `n` periods after `makePeriodic()`. -/
theorem c104_lxrt_never_early {t0 p : Int} (hp : 0 < p) {cs : List Cycle} {ws : List Int} (h : Released t0 p 0 t0 cs ws)
    (n : Nat) (hn : n < ws.length) : t0 + (n + 1) * p ≤ ws[n] := by
  have := released_late hp cs h n hn
  simpa using this

/-- The work of each cycle ends before the next release; `late` is the delay of the previous cycle. -/
def Fits (p : Int) : Int → List Cycle → Prop
  | _, [] => True
  | late, c :: cs => late + c.busy < p ∧ Fits p c.delay cs

theorem released_fits {t0 p : Int} (_hp : 0 < p) (cs : List Cycle) : ∀ {m : Nat} {late : Int} {ws : List Int}, 0 ≤ late →
    Fits p late cs → Released t0 p m (t0 + m * p + late) cs ws →
    ∀ (i : Nat) (h : i < ws.length) (h' : i < cs.length), ws[i] = t0 + (m + i + 1) * p + cs[i].delay := by
  induction cs with
  | nil => intro m late ws _ _ h i hi; cases h; simp at hi
  | cons c cs ih =>
    intro m late ws hl hf h i hi hi'
    obtain ⟨n, rest, hmn, rfl, hlt, hall, h⟩ := h
    obtain ⟨hf1, hf2⟩ := hf
    have hn : n = m + 1 := by
      apply Nat.le_antisymm _ hmn
      apply Nat.le_of_not_lt
      intro hgt
      have := hall (m + 1) (by omega) hgt
      have e : m + 1 - m - 1 = 0 := by omega
      rw [e, Int.natCast_add, Int.add_mul] at this
      simp at this
      omega
    subst hn
    cases i with
    | zero => simp
    | succ i =>
      simp only [List.getElem_cons_succ]
      rw [ih (by omega) hf2 h i (by simpa using hi) (by simpa using hi')]
      have e : ((m + 1 : Nat) : Int) + i + 1 = m + ((i + 1 : Nat) : Int) + 1 := by omega
      rw [e]

/-- C104, LXRT: no drift: if the work of every cycle ends before the next release, the `n`-th `waitPeriod()`
returns exactly `n` periods after `makePeriodic()` plus the delay of that cycle alone. -/
theorem c104_lxrt_no_drift {t0 p : Int} (hp : 0 < p) {cs : List Cycle} {ws : List Int} (hf : Fits p 0 cs)
    (h : Released t0 p 0 t0 cs ws) (n : Nat) (hn : n < ws.length) (hn' : n < cs.length) :
    ws[n] = t0 + (n + 1) * p + cs[n].delay := by
  have := released_fits (m := 0) (late := 0) hp cs (Int.le_refl _) hf (by simpa using h) n hn hn'
  simpa using this

/-- C104, LXRT: missed periods are skipped, never made up: each `waitPeriod()` sleeps, whatever the thread did. -/
theorem c104_lxrt_always_sleeps {t0 p : Int} {m : Nat} {prev : Int} {c : Cycle} {cs : List Cycle} {w : Int} {ws : List Int}
    (h : Released t0 p m prev (c :: cs) (w :: ws)) : prev + c.busy < w - c.delay ∧ ∃ n : Nat, w - c.delay = t0 + n * p := by
  obtain ⟨n, rest, _, e, h1, _, _⟩ := h
  cases e
  exact ⟨by omega, n, by omega⟩

/-- C104 (violation), LXRT: with the period 0, or a negative one, `waitPeriod()` never returns: a thread in hard real
time mode occupies the processor for ever. -/
theorem c104_lxrt_freezes (k : Task) (hp : k.period ≤ 0) (clock : Nat → Int) (hm : ∀ i, clock i ≤ clock (i + 1))
    (h0 : k.resume ≤ clock 0) (fuel : Nat) : lxWaitPeriod clock fuel 0 k = none := by
  suffices ∀ fuel i (k : Task), k.period ≤ 0 → k.resume ≤ clock i → lxWaitPeriod clock fuel i k = none from this fuel 0 k hp h0
  intro fuel
  induction fuel with
  | zero => intro i k _ _; rfl
  | succ f ih =>
    intro i k hp h
    simp only [lxWaitPeriod, rtWaitPeriod]
    rw [decide_eq_false (by omega)]
    exact ih _ _ hp (by have := hm i; simp only; omega)

/-- C104 (violation), LXRT: once the thread is periodic, `setPeriod()` reports success and `period()` shows the new
period, but the task keeps the old one. -/
theorem c104_lxrt_setPeriod (o : LxObj) (p : TB) :
    (o.setPeriod p).2 = true ∧ (o.setPeriod p).1.period = p ∧ (o.setPeriod p).1.task = o.task := ⟨rfl, rfl, rfl⟩

/-- C104, LXRT: a period set before the thread becomes periodic is used. -/
theorem c104_lxrt_setPeriod_before (p q : TB) (hn : Normalised q) (hi : I64 (total q)) (t0 : Int) :
    (((LxObj.new p).setPeriod q).1).makePeriodic t0 = .ok ⟨q, some ⟨t0, total q⟩⟩ :=
  makePeriodic_ok (o := ((LxObj.new p).setPeriod q).1) hn hi t0

-- 10 ns; the second cycle works for 33 ns and skips to the release at 50
example : lxCycles 9 ⟨0, 10⟩ 0 [⟨3, 1, 2⟩, ⟨33, 1, 1⟩, ⟨0, 0, 0⟩] = some [12, 51, 60] := by decide
example : Fits 10 0 [⟨3, 1, 2⟩, ⟨5, 1, 1⟩] := ⟨by decide, by decide, trivial⟩

/-! ## QNX -/

/-- The timer runs since `t0` with period `p`, `got` pulses have been received and none is left from before. -/
def QRunning (o : QObj) (t0 p : Int) (got : Nat) : Prop := o.chan = some ⟨0, some (t0 + p, p, got)⟩

/-- Specification: the `n`-th call returns at `t0 + n * p`, or at once if that has passed. -/
def QExact (t0 p : Int) : Nat → Int → List (Nat × Nat) → List Int → Prop
  | _, _, [], ws => ws = []
  | n, prev, (busy, delay) :: cs, ws => ∃ rest, ws = (max (prev + busy) (t0 + ((n : Int) + 1) * p) + (delay : Int)) :: rest ∧
      QExact t0 p (n + 1) (max (prev + busy) (t0 + ((n : Int) + 1) * p) + (delay : Int)) cs rest

theorem qCycles_exact (t0 p : Int) (cs : List (Nat × Nat)) : ∀ (o : QObj) (n : Nat) (prev : Int), QRunning o t0 p n →
    ∃ ws, qCycles o prev cs = some ws ∧ QExact t0 p n prev cs ws := by
  induction cs with
  | nil => intro o n prev _; exact ⟨[], rfl, rfl⟩
  | cons c cs ih =>
    intro o n prev h
    obtain ⟨b, d⟩ := c
    have e : t0 + p + (n : Int) * p = t0 + ((n : Int) + 1) * p := by rw [Int.add_mul]; omega
    have hw : o.waitPeriod (prev + b) d = .woke (max (prev + b) (t0 + ((n : Int) + 1) * p) + (d : Int))
        { o with chan := some ⟨0, some (t0 + p, p, n + 1)⟩ } := by
      unfold QRunning at h
      simp [QObj.waitPeriod, h, e]
    obtain ⟨ws, h1, h2⟩ := ih { o with chan := some ⟨0, some (t0 + p, p, n + 1)⟩ } (n + 1)
      (max (prev + b) (t0 + ((n : Int) + 1) * p) + (d : Int)) rfl
    exact ⟨_ :: ws, by simp only [qCycles, hw, h1], ws, rfl, h2⟩

theorem q_make (p : TB) (hn : Normalised p) (hpos : 0 < total p) (t0 : Int) :
    QRunning ((QObj.new p true).makePeriodic true true t0) t0 (total p) 0 := by
  obtain ⟨_, _, _, h3, h4⟩ := hn
  unfold total at hpos
  simp only [QRunning, QObj.makePeriodic, QObj.new, QObj.setPeriod, Chan.settime, if_true]
  rw [if_neg (by simp), if_neg (by simp), if_neg (by simp)]
  simp only [Option.map_some]
  rw [if_neg (by omega), if_neg (by omega)]
  simp [total]

/-- C104, QNX: for every positive period, every amount of work in every cycle and every delay: after
`makePeriodic()` at `t0` the `n`-th `waitPeriod()` returns at `t0 + n * period`, or at once if that has passed.
(Part: as long as the period is not changed.) -/
theorem c104_qnx_cycles_partial (p : TB) (hn : Normalised p) (hpos : 0 < total p) (t0 : Int) (cs : List (Nat × Nat)) :
    ∃ ws, qCycles ((QObj.new p true).makePeriodic true true t0) t0 cs = some ws ∧ QExact t0 (total p) 0 t0 cs ws :=
  qCycles_exact _ _ cs _ 0 t0 (q_make p hn hpos t0)

/-- C104, QNX: never early. -/
theorem c104_qnx_never_early {t0 p : Int} {cs : List (Nat × Nat)} {m : Nat} {prev : Int} {ws : List Int}
    (h : QExact t0 p m prev cs ws) (n : Nat) (hn : n < ws.length) : t0 + ((m : Int) + n + 1) * p ≤ ws[n] := by
  induction cs generalizing m prev ws n with
  | nil => cases h; simp at hn
  | cons c cs ih =>
    obtain ⟨b, d⟩ := c
    obtain ⟨rest, rfl, h⟩ := h
    cases n with
    | zero => simp; omega
    | succ n =>
      have := ih h n (by simpa using hn)
      simp only [List.getElem_cons_succ]
      have e : ((m : Int) + ((n + 1 : Nat) : Int) + 1) = ((m + 1 : Nat) : Int) + n + 1 := by omega
      rw [e]; exact this

/-- C104, QNX: no drift, even after long cycles: whenever the thread asks before the `n`-th multiple of the period, it
is woken exactly there (plus the delay of that cycle alone). -/
theorem c104_qnx_no_drift {t0 p : Int} {n : Nat} {prev : Int} {b d : Nat} {cs : List (Nat × Nat)} {w : Int} {ws : List Int}
    (h : QExact t0 p n prev ((b, d) :: cs) (w :: ws)) (hb : prev + b ≤ t0 + ((n : Int) + 1) * p) :
    w = t0 + ((n : Int) + 1) * p + d := by
  obtain ⟨rest, e, _⟩ := h
  cases e
  omega

/-- C104, QNX: missed periods are made up back to back: after the thread was busy for `k` periods beyond the next
release, the following calls do not sleep at all until it has caught up. -/
theorem c104_qnx_burst {t0 p : Int} (hp : 0 < p) {n : Nat} {prev : Int} (k : Nat) {ws : List Int}
    (hk : t0 + ((n : Int) + k) * p ≤ prev) (h : QExact t0 p n prev (List.replicate k (0, 0)) ws) :
    ws = List.replicate k prev := by
  induction k generalizing n ws with
  | zero => exact h
  | succ k ih =>
    obtain ⟨rest, rfl, h⟩ := h
    have hle : ((n : Int) + 1) * p ≤ ((n : Int) + ((k + 1 : Nat) : Int)) * p := Int.mul_le_mul_of_nonneg_right (by omega) (by omega)
    have e : max (prev + ((0 : Nat) : Int)) (t0 + ((n : Int) + 1) * p) + ((0 : Nat) : Int) = prev := by omega
    rw [e] at h ⊢
    have := ih (n := n + 1) (by
      have e2 : ((n + 1 : Nat) : Int) + k = (n : Int) + ((k + 1 : Nat) : Int) := by omega
      rw [e2]; exact hk) h
    rw [this]; rfl

/-- C104 (violation), QNX: `setPeriod()` always reports success, also for a period the timer refuses; then nothing has
changed but the value returned by `period()`. -/
theorem c104_qnx_setPeriod (o : QObj) (p : TB) (now : Int) : (o.setPeriod p now).2 = true ∧ (o.setPeriod p now).1.period = p ∧
    (total p < 0 → Normalised p → (o.setPeriod p now).1.chan = o.chan) := by
  refine ⟨by unfold QObj.setPeriod; split <;> rfl, by unfold QObj.setPeriod; split <;> rfl, ?_⟩
  intro ht ⟨_, _, _, h3, h4⟩
  have hneg : p.nsecs < 0 ∨ 1000000000 ≤ p.nsecs ∨ p.secs < 0 := by unfold total at ht; omega
  unfold QObj.setPeriod
  split
  · simp only [Chan.settime, if_pos hneg]
    cases o.chan <;> rfl
  · rfl

/-- C104, QNX: a positive period takes effect from the time of the call. The pulses still queued are delivered first. -/
theorem c104_qnx_setPeriod_effect {o : QObj} {t0 p : Int} {got : Nat} (h : QRunning o t0 p got) (hm : o.made = true)
    (q : TB) (hn : Normalised q) (hpos : 0 < total q) (now : Int) :
    (o.setPeriod q now).1.chan = some ⟨expired (t0 + p) p now - got, some (now + total q, total q, 0)⟩ := by
  obtain ⟨_, _, _, h3, h4⟩ := hn
  unfold QRunning at h
  unfold total at hpos
  simp only [QObj.setPeriod, hm, if_true, h, Option.map_some, Chan.settime]
  rw [if_neg (by omega), if_neg (by omega)]
  simp [total]

/-- C104, QNX: a period set before `makePeriodic()` (at any time, by any number of calls) counts as if the
thread had been constructed with it; the earlier period leaves no trace. -/
theorem c104_qnx_setPeriod_before (p : TB) (ok : Bool) (ps : List (TB × Int)) (q : TB) (now : Int) :
    ((ps.foldl (fun o x => (o.setPeriod x.1 x.2).1) (QObj.new p ok)).setPeriod q now).1 = QObj.new q ok := by
  have key : ∀ (ps : List (TB × Int)) (p : TB), ∃ r, ps.foldl (fun o x => (o.setPeriod x.1 x.2).1) (QObj.new p ok) = QObj.new r ok := by
    intro ps
    induction ps with
    | nil => exact fun p => ⟨p, rfl⟩
    | cons x ps ih => exact fun p => ih x.1
  obtain ⟨r, hr⟩ := key ps p
  rw [hr]
  simp [QObj.new, QObj.setPeriod]

/-- C104 (violation), QNX: an old pulse ends the first wait after `setPeriod()` at once: 1 s, the thread is busy for
1.5 s, sets the period 10 s and does not wait. -/
theorem c104_qnx_setPeriod_stale : ∃ o w o', o = (((QObj.new ⟨1, 0⟩ true).makePeriodic true true 0).setPeriod ⟨10, 0⟩ 1500000000).1 ∧
    o.waitPeriod 1500000000 0 = .woke w o' ∧ w = 1500000000 := ⟨_, _, _, rfl, rfl, by decide⟩

/-- C104 (violation), QNX: if the channel could not be created, `waitPeriod()` returns at once for ever; if the timer could
not be created, it never returns. `makePeriodic()` reports neither. -/
theorem c104_qnx_no_resource (p : TB) (t0 t : Int) (d : Nat) (a c : Bool) :
    ((QObj.new p false).makePeriodic a c t0).waitPeriod t d = .failed ∧
    ((a && c) = false → ((QObj.new p true).makePeriodic a c t0).waitPeriod t d = .never ∧
      (QObj.new p true).makePeriodic a c t0 = QObj.new p true) := by
  constructor
  · simp [QObj.new, QObj.makePeriodic, QObj.waitPeriod]
  · intro h
    cases a <;> cases c <;> simp_all [QObj.new, QObj.makePeriodic, QObj.waitPeriod]

/-- C104 (violation), QNX: with the period 0 the first `waitPeriod()` never returns. -/
theorem c104_qnx_zero_period (t0 t : Int) (d : Nat) :
    ((QObj.new ⟨0, 0⟩ true).makePeriodic true true t0).waitPeriod t d = .never := by
  simp [QObj.new, QObj.makePeriodic, QObj.setPeriod, QObj.waitPeriod, Chan.settime]

/-- C104 (violation): the platforms differ after a long cycle: period 10 ns, the first cycle works for 35 ns. LXRT goes
on at 40; QNX runs three cycles at once. -/
theorem c104_platforms_differ : lxCycles 9 ⟨0, 10⟩ 0 [⟨35, 0, 0⟩, ⟨0, 0, 0⟩, ⟨0, 0, 0⟩, ⟨0, 0, 0⟩] = some [40, 50, 60, 70] ∧
    qCycles ((QObj.new ⟨0, 10⟩ true).makePeriodic true true 0) 0 [(35, 0), (0, 0), (0, 0), (0, 0)] = some [35, 35, 35, 40] := by
  decide

end Verif.Conc.PeriodicRt
