import Verif.Conc.Registry.PerfSpec
import Verif.Conc.Registry.Lemmas

/-!
# The calls of C143 do what the model of C58 does, and which of them only read
-/
namespace Verif.Registry.Mon
open Verif.Perf Verif.StrMap Race

variable {A : Type}

/-- Program `p` on the monitor `m` ends as `q` on the monitor `m'`. -/
def To (p : P A) (m : Perf.Mon) (b : Bool) (q : P A) (m' : Perf.Mon) (b' : Bool) : Prop :=
  ∃ tr, ∀ n, alone p (mem m b) n =
    ((alone q (mem m' b') n).1, (alone q (mem m' b') n).2.1, (alone q (mem m' b') n).2.2.1, tr ++ (alone q (mem m' b') n).2.2.2)

theorem To.refl (p : P A) (m : Perf.Mon) (b : Bool) : To p m b p m b := ⟨[], fun _ => rfl⟩

theorem To.trans {p q r : P A} {m m' m'' : Perf.Mon} {b b' b'' : Bool} (h1 : To p m b q m' b') (h2 : To q m' b' r m'' b'') :
    To p m b r m'' b'' := by
  obtain ⟨t, h1⟩ := h1
  obtain ⟨t', h2⟩ := h2
  exact ⟨t ++ t', fun n => by rw [h1, h2]; simp⟩

theorem To.rd {m m' : Perf.Mon} {b b' : Bool} {q : P A} (v : Var) (k : Val v → P A) {x : Val v} (hx : mem m b v = x)
    (h : To (k x) m b q m' b') : To (.rd v k) m b q m' b' := by
  subst hx
  obtain ⟨t, h⟩ := h
  exact ⟨.rd v :: t, fun n => by simp only [alone]; rw [h]; rfl⟩

theorem To.wr {m m₁ m' : Perf.Mon} {b b₁ b' : Bool} {p q : P A} (v : Var) (x : Val v) (hm : set (mem m b) v x = mem m₁ b₁)
    (h : To p m₁ b₁ q m' b') : To (.wr v x p) m b q m' b' := by
  obtain ⟨t, h⟩ := h
  exact ⟨.wr v :: t, fun n => by simp only [alone]; rw [hm, h]; rfl⟩

theorem set_eq {m : ∀ v, Val v} {m' : ∀ v, Val v} {v : Var} {x : Val v} (h1 : m' v = x) (h2 : ∀ u, u ≠ v → m' u = m u) :
    set m v x = m' := by
  funext u
  by_cases h : u = v
  · subst h; simp [set, h1]
  · simp [set, h, h2 u h]

macro "upd" : tactic => `(tactic| (apply set_eq; rfl; intro u hu; cases u <;> first | rfl | exact absurd rfl hu))

theorem to_getInstance (p : P A) (m : Perf.Mon) (b : Bool) : To (getInstance p) m b p m true := by
  cases b with
  | true => exact .rd .inst _ (x := (true : Bool)) rfl (.rd .inst _ rfl (.refl _ _ _))
  | false => exact .rd .inst _ (x := (false : Bool)) rfl (.wr .inst true (m₁ := m) (b₁ := true) (by upd) (.rd .inst _ rfl (.refl _ _ _)))

theorem to_isEnabled (pfx : S) (k : Bool → P A) (m : Perf.Mon) (b : Bool) :
    To (isEnabled pfx k) m b (k (Perf.isEnabled m pfx)) m b := by
  unfold Perf.isEnabled
  cases he : m.enabled with
  | false =>
    refine .rd .enabled _ (x := (false : Bool)) he (.rd .all _ (x := m.all) rfl ?_)
    simpa using To.refl _ m b
  | true =>
    refine .rd .enabled _ (x := (true : Bool)) he (.rd .prefixes _ (x := m.prefixes) rfl ?_)
    cases hg : (get m.prefixes pfx).isSome with
    | true => simpa [hg] using To.refl _ m b
    | false =>
      simp only [Bool.false_eq_true, if_false]
      refine .rd .all _ (x := m.all) rfl ?_
      simpa using To.refl _ m b

theorem to_enablePrefix (pfx : S) (p : P A) (m : Perf.Mon) (b : Bool) :
    To (enablePrefix pfx p) m b p (Perf.enablePrefix m pfx) true := by
  refine (to_getInstance _ m b).trans (.rd .prefixes _ (x := m.prefixes) rfl ?_)
  unfold Perf.enablePrefix
  cases get m.prefixes pfx with
  | none => exact .wr .prefixes (put m.prefixes pfx true) (by upd) (.refl _ _ _)
  | some _ => exact .refl _ _ _

theorem to_disablePrefix (pfx : S) (p : P A) (m : Perf.Mon) (b : Bool) :
    To (disablePrefix pfx p) m b p (Perf.disablePrefix m pfx) true := by
  refine (to_getInstance _ m b).trans (.rd .prefixes _ (x := m.prefixes) rfl ?_)
  unfold Perf.disablePrefix
  cases get m.prefixes pfx with
  | none => exact .refl _ _ _
  | some _ => exact .wr .prefixes (del m.prefixes pfx) (by upd) (.refl _ _ _)

theorem to_initMonitor (num : Nat) (p : P A) (m : Perf.Mon) (b : Bool) :
    To (initMonitor num p) m b p (Perf.initMonitor m num) true := by
  refine (to_getInstance _ m b).trans ?_
  refine .wr .data ([] : List (S × List ℚ)) (m₁ := { m with data := [] }) (b₁ := true) (by upd) ?_
  refine .wr .nontime ([] : List (S × List ℚ)) (m₁ := { m with data := [], nontime := [] }) (b₁ := true) (by upd) ?_
  refine .rd .buffer _ (x := m.buffer) rfl ?_
  refine .wr .buffer _ (m₁ := { m with data := [], nontime := [], buffer :=
    (m.buffer.reverse.take num ++ List.replicate (num - (m.buffer.reverse.take num).length) []).reverse }) (b₁ := true) (by upd) ?_
  exact to_enablePrefix [] p _ true

theorem to_start (t : S) (now : Int) (p : P A) (m : Perf.Mon) (b : Bool) :
    To (start t now p) m b p (Perf.start m t now) true := by
  refine (to_getInstance _ m b).trans (.rd .enabled _ (x := m.enabled) rfl ?_)
  unfold Perf.start
  cases he : m.enabled with
  | false => simpa using To.refl p m true
  | true =>
    simp only [if_true]
    refine (to_getInstance _ m true).trans (.rd .timers _ (x := m.timers) rfl ?_)
    exact .wr .timers (put m.timers t now) (m₁ := { m with timers := put m.timers t now }) (b₁ := true) (by upd) (by rw [he]; exact .refl _ _ _)

theorem to_addEvent (pfx name : S) (x : ℚ) (p : P A) (m : Perf.Mon) (b : Bool) :
    To (addEvent pfx name x p) m b p (Perf.addEvent m pfx name x) true := by
  refine (to_getInstance _ m b).trans ((to_isEnabled pfx _ m true).trans ?_)
  unfold Perf.addEvent
  cases Perf.isEnabled m pfx with
  | false => simpa using To.refl p m true
  | true =>
    simp only [if_true]
    refine .rd .data _ (x := m.data) rfl ?_
    unfold newVector
    cases get m.data (makeName pfx name) with
    | some _ => exact .wr .data _ (by upd) (.refl _ _ _)
    | none =>
      refine .wr .data _ (m₁ := { m with data := put m.data (makeName pfx name) [] }) (b₁ := true) (by upd) ?_
      refine .rd .buffer _ (x := m.buffer) rfl ?_
      cases hb : m.buffer with
      | nil =>
        refine .rd .data _ rfl ?_
        exact .wr .data _ (m₁ := { m with data := push (put m.data (makeName pfx name) []) (makeName pfx name) x, buffer := [] })
          (b₁ := true) (by apply set_eq; rfl; intro u hu; cases u <;> first | rfl | exact hb.symm | exact absurd rfl hu) (.refl _ _ _)
      | cons v r =>
        refine .wr .data _ (m₁ := { m with data := put m.data (makeName pfx name) v }) (b₁ := true) (by apply set_eq; rfl; intro u hu; cases u <;> first | rfl | exact hb | exact hb.symm | exact absurd rfl hu) ?_
        refine .wr .buffer r (m₁ := { m with data := put m.data (makeName pfx name) v, buffer := r }) (b₁ := true) (by upd) ?_
        refine .rd .data _ rfl ?_
        exact .wr .data _ (by upd) (.refl _ _ _)

theorem to_addNonTimeEvent (pfx name : S) (x : ℚ) (p : P A) (m : Perf.Mon) (b : Bool) :
    To (addNonTimeEvent pfx name x p) m b p (Perf.addNonTimeEvent m pfx name x) true := by
  refine (to_getInstance _ m b).trans ((to_isEnabled pfx _ m true).trans ?_)
  unfold Perf.addNonTimeEvent
  cases Perf.isEnabled m pfx with
  | false => simpa using To.refl p m true
  | true =>
    simp only [if_true]
    refine .rd .nontime _ (x := m.nontime) rfl ?_
    unfold newVector
    cases get m.nontime (makeName pfx name) with
    | some _ => exact .wr .nontime _ (by upd) (.refl _ _ _)
    | none =>
      refine .wr .nontime _ (m₁ := { m with nontime := put m.nontime (makeName pfx name) [] }) (b₁ := true) (by upd) ?_
      refine .rd .buffer _ (x := m.buffer) rfl ?_
      cases hb : m.buffer with
      | nil =>
        refine .rd .nontime _ rfl ?_
        exact .wr .nontime _ (m₁ := { m with nontime := push (put m.nontime (makeName pfx name) []) (makeName pfx name) x, buffer := [] })
          (b₁ := true) (by apply set_eq; rfl; intro u hu; cases u <;> first | rfl | exact hb.symm | exact absurd rfl hu) (.refl _ _ _)
      | cons v r =>
        refine .wr .nontime _ (m₁ := { m with nontime := put m.nontime (makeName pfx name) v }) (b₁ := true) (by apply set_eq; rfl; intro u hu; cases u <;> first | rfl | exact hb | exact hb.symm | exact absurd rfl hu) ?_
        refine .wr .buffer r (m₁ := { m with nontime := put m.nontime (makeName pfx name) v, buffer := r }) (b₁ := true) (by upd) ?_
        refine .rd .nontime _ rfl ?_
        exact .wr .nontime _ (by upd) (.refl _ _ _)

theorem put_same {V : Type} {l : List (S × V)} (h : Ok l) {k : S} {v : V} (hg : get l k = some v) : put l k v = l :=
  StrMap.ext (ok_put h k v) h fun q => by
    rw [get_put h]; split
    · next hq => rw [hq, hg]
    · rfl

theorem to_timerOf (t : S) (k : Int → P A) (m : Perf.Mon) (b : Bool) (hok : Ok m.timers) :
    To (timerOf t k) m b (k ((get m.timers t).getD 0))
      { m with timers := put m.timers t ((get m.timers t).getD 0) } b := by
  refine .rd .timers _ (x := m.timers) rfl ?_
  cases hg : get m.timers t with
  | some x => simp only [Option.getD_some, put_same hok hg]; exact .refl _ _ _
  | none => exact .wr .timers (put m.timers t 0) (by upd) (.refl _ _ _)

theorem addEvent_timers (m : Perf.Mon) (pfx name : S) (x : ℚ) : (Perf.addEvent m pfx name x).timers = m.timers := by
  unfold Perf.addEvent; split <;> rfl

theorem To.done {p : P A} {m m' : Perf.Mon} {b b' : Bool} {a : A} (h : To p m b (.ret a) m' b') :
    ∃ tr, ∀ n, alone p (mem m b) n = (a, mem m' b', n, tr) := by
  obtain ⟨t, h⟩ := h
  exact ⟨t, fun n => by rw [h]; simp [alone]⟩

theorem to_call (op : Op) (m : Perf.Mon) (b : Bool) (hok : Ok m.timers) :
    To (call op) m b (.ret (answer m op)) (Perf.step m op) true := by
  cases op with
  | init n => exact to_initMonitor n _ m b
  | setEnabled x => exact (to_getInstance _ m b).trans (.wr .enabled x (by upd) (.refl _ _ _))
  | enableAll x => exact (to_getInstance _ m b).trans (.wr .all x (by upd) (.refl _ _ _))
  | enablePrefix p => exact to_enablePrefix p _ m b
  | disablePrefix p => exact to_disablePrefix p _ m b
  | start t now => exact to_start t now _ m b
  | measurement t d pfx now =>
    refine (to_getInstance _ m b).trans ((to_isEnabled pfx _ m true).trans ?_)
    simp only [answer, Perf.step, measurement]
    cases Perf.isEnabled m pfx with
    | false => simpa using To.refl _ m true
    | true =>
      simp only [if_true]
      exact (to_timerOf t _ m true hok).trans ((to_addEvent pfx d _ _ _ true).trans (to_getInstance _ _ true))
  | startStop t d pfx now =>
    refine (to_getInstance _ m b).trans ((to_isEnabled pfx _ m true).trans ?_)
    simp only [answer, Perf.step, startStop]
    cases Perf.isEnabled m pfx with
    | false => simpa using To.refl _ m true
    | true =>
      simp only [if_true]
      refine (to_getInstance _ m true).trans ((to_timerOf t _ m true hok).trans ?_)
      by_cases hb : (get m.timers t).getD 0 ≠ 0
      · rw [if_pos hb, if_pos hb]
        refine (to_addEvent pfx d _ _ _ true).trans (.rd .timers _ rfl ?_)
        exact .wr .timers _ (by upd) (to_getInstance _ _ true)
      · rw [if_neg hb, if_neg hb]
        exact to_start t now _ _ true
  | addData n x pfx =>
    refine (to_getInstance _ m b).trans ((to_isEnabled pfx _ m true).trans ?_)
    simp only [answer, Perf.step, addData]
    cases Perf.isEnabled m pfx with
    | false => simpa using To.refl _ m true
    | true =>
      simp only [if_true]
      exact (to_getInstance _ m true).trans (to_addEvent pfx n x _ m true)
  | addNonTimeData n x pfx =>
    refine (to_getInstance _ m b).trans ((to_isEnabled pfx _ m true).trans ?_)
    simp only [answer, Perf.step, addNonTimeData]
    cases Perf.isEnabled m pfx with
    | false => simpa using To.refl _ m true
    | true =>
      simp only [if_true]
      exact (to_getInstance _ m true).trans (to_addNonTimeEvent pfx n x _ m true)
  | addStaticData n x pfx =>
    refine (to_getInstance _ m b).trans ((to_isEnabled pfx _ m true).trans ?_)
    simp only [answer, Perf.step, addStaticData]
    cases Perf.isEnabled m pfx with
    | false => simpa using To.refl _ m true
    | true =>
      simp only [if_true]
      exact (to_getInstance _ m true).trans (.rd .static _ rfl (.wr .static _ (by upd) (.refl _ _ _)))

/-! ## Which calls only read -/

theorem quiet_rd {m : ∀ v, Val v} (v : Var) (k : Val v → P A) {x : Val v} (h : m v = x) :
    Quiet m (.rd v k) ↔ Quiet m (k x) := by subst h; rfl

theorem outs_rd {m : ∀ v, Val v} (v : Var) (k : Val v → P A) {x : Val v} (h : m v = x) {a : A} :
    Outs m (.rd v k) a ↔ Outs m (k x) a := by subst h; rfl

theorem quiet_getInstance (p : P A) (m : Perf.Mon) : Quiet (mem m true) (getInstance p) ↔ Quiet (mem m true) p := Iff.rfl

theorem quiet_isEnabled (pfx : S) (k : Bool → P A) (m : Perf.Mon) (b : Bool) :
    Quiet (mem m b) (isEnabled pfx k) ↔ Quiet (mem m b) (k (Perf.isEnabled m pfx)) := by
  unfold Perf.isEnabled
  cases he : m.enabled with
  | false =>
    refine (quiet_rd (m := mem m b) .enabled _ (x := (false : Bool)) he).trans ?_
    refine (quiet_rd (m := mem m b) .all _ (x := m.all) rfl).trans ?_
    simp
  | true =>
    refine (quiet_rd (m := mem m b) .enabled _ (x := (true : Bool)) he).trans ?_
    refine (quiet_rd (m := mem m b) .prefixes _ (x := m.prefixes) rfl).trans ?_
    cases hg : (get m.prefixes pfx).isSome with
    | true => simp
    | false =>
      simp only [Bool.false_eq_true, if_false]
      refine (quiet_rd (m := mem m b) .all _ (x := m.all) rfl).trans ?_
      simp

theorem outs_isEnabled (pfx : S) (k : Bool → P A) (m : Perf.Mon) (b : Bool) (a : A) :
    Outs (mem m b) (isEnabled pfx k) a ↔ Outs (mem m b) (k (Perf.isEnabled m pfx)) a := by
  unfold Perf.isEnabled
  cases he : m.enabled with
  | false =>
    refine (outs_rd (m := mem m b) .enabled _ (x := (false : Bool)) he).trans ?_
    refine (outs_rd (m := mem m b) .all _ (x := m.all) rfl).trans ?_
    simp
  | true =>
    refine (outs_rd (m := mem m b) .enabled _ (x := (true : Bool)) he).trans ?_
    refine (outs_rd (m := mem m b) .prefixes _ (x := m.prefixes) rfl).trans ?_
    cases hg : (get m.prefixes pfx).isSome with
    | true => simp
    | false =>
      simp only [Bool.false_eq_true, if_false]
      refine (outs_rd (m := mem m b) .all _ (x := m.all) rfl).trans ?_
      simp

theorem records_iff (m : Perf.Mon) (pfx : S) : Perf.isEnabled m pfx = true ↔ Records m pfx := by
  simp [Perf.isEnabled, Records]

theorem quiet_addEvent (pfx name : S) (x : ℚ) (p : P A) (m : Perf.Mon) (h : Perf.isEnabled m pfx = true) :
    ¬ Quiet (mem m true) (addEvent pfx name x p) := by
  rw [addEvent, quiet_getInstance, quiet_isEnabled, h, if_pos rfl]
  intro hq
  have := (quiet_rd (m := mem m true) .data _ (x := m.data) rfl).1 hq
  cases hg : get m.data (makeName pfx name) <;> simp [hg, Quiet] at this

theorem quiet_addNonTimeEvent (pfx name : S) (x : ℚ) (p : P A) (m : Perf.Mon) (h : Perf.isEnabled m pfx = true) :
    ¬ Quiet (mem m true) (addNonTimeEvent pfx name x p) := by
  rw [addNonTimeEvent, quiet_getInstance, quiet_isEnabled, h, if_pos rfl]
  intro hq
  have := (quiet_rd (m := mem m true) .nontime _ (x := m.nontime) rfl).1 hq
  cases hg : get m.nontime (makeName pfx name) <;> simp [hg, Quiet] at this

theorem quiet_start (t : S) (now : Int) (p : P A) (m : Perf.Mon) :
    Quiet (mem m true) (start t now p) ↔ m.enabled = false ∧ Quiet (mem m true) p := by
  rw [start, quiet_getInstance]
  refine (quiet_rd (m := mem m true) .enabled _ (x := m.enabled) rfl).trans ?_
  cases m.enabled with
  | false => simp
  | true => simp [quiet_getInstance, Quiet]

theorem quiet_call (op : Op) (m : Perf.Mon) : Quiet (mem m true) (call op) ↔ OnlyReads m op := by
  cases op with
  | init n => simp [call, initMonitor, quiet_getInstance, Quiet, OnlyReads]
  | setEnabled x => simp [call, quiet_getInstance, Quiet, OnlyReads]
  | enableAll x => simp [call, quiet_getInstance, Quiet, OnlyReads]
  | enablePrefix p =>
    rw [call, enablePrefix, quiet_getInstance]
    refine (quiet_rd (m := mem m true) .prefixes _ (x := m.prefixes) rfl).trans ?_
    cases hg : get m.prefixes p <;> simp [OnlyReads, Quiet, hg]
  | disablePrefix p =>
    rw [call, disablePrefix, quiet_getInstance]
    refine (quiet_rd (m := mem m true) .prefixes _ (x := m.prefixes) rfl).trans ?_
    cases hg : get m.prefixes p <;> simp [OnlyReads, Quiet, hg]
  | start t now => simp [call, quiet_start, OnlyReads, Quiet]
  | measurement t d pfx now =>
    rw [call, quiet_getInstance, quiet_isEnabled, OnlyReads, ← records_iff]
    cases h : Perf.isEnabled m pfx with
    | false => simp [Quiet]
    | true =>
      simp only [if_true, not_true, iff_false]
      intro hq
      have := (quiet_rd (m := mem m true) .timers _ (x := m.timers) rfl).1 hq
      cases hg : get m.timers t with
      | none => simp [hg, Quiet] at this
      | some b => rw [hg] at this; exact quiet_addEvent _ _ _ _ m h this
  | startStop t d pfx now =>
    rw [call, quiet_getInstance, quiet_isEnabled, OnlyReads, ← records_iff]
    cases h : Perf.isEnabled m pfx with
    | false => simp [Quiet]
    | true =>
      simp only [if_true, not_true, false_or]
      rw [quiet_getInstance]
      refine (quiet_rd (m := mem m true) .timers _ (x := m.timers) rfl).trans ?_
      cases hg : get m.timers t with
      | none => simp [Quiet]
      | some b =>
        by_cases hb : b = 0
        · simp [hb, quiet_start, Quiet]
        · simp [hb, quiet_addEvent _ _ _ _ m h]
  | addData n x pfx =>
    rw [call, quiet_getInstance, quiet_isEnabled, OnlyReads, ← records_iff]
    cases h : Perf.isEnabled m pfx with
    | false => simp [Quiet]
    | true => simp [quiet_getInstance, quiet_addEvent _ _ _ _ m h]
  | addNonTimeData n x pfx =>
    rw [call, quiet_getInstance, quiet_isEnabled, OnlyReads, ← records_iff]
    cases h : Perf.isEnabled m pfx with
    | false => simp [Quiet]
    | true => simp [quiet_getInstance, quiet_addNonTimeEvent _ _ _ _ m h]
  | addStaticData n x pfx =>
    rw [call, quiet_getInstance, quiet_isEnabled, OnlyReads, ← records_iff]
    cases h : Perf.isEnabled m pfx with
    | false => simp [Quiet]
    | true => simp [quiet_getInstance, Quiet]

/-- A call that only reads answers 0. -/
theorem answer_onlyReads (op : Op) (m : Perf.Mon) (h : OnlyReads m op) : answer m op = 0 := by
  cases op with
  | measurement t d pfx now =>
    have : ¬ Perf.isEnabled m pfx = true := fun hh => h ((records_iff m pfx).1 hh)
    simp [answer, measurement, this]
  | startStop t d pfx now =>
    rcases h with h | ⟨-, h⟩
    · have : ¬ Perf.isEnabled m pfx = true := fun hh => h ((records_iff m pfx).1 hh)
      simp [answer, startStop, this]
    · simp [answer, startStop, h]
      split <;> rfl
  | _ => rfl

theorem outs_getInstance (p : P A) (m : Perf.Mon) (a : A) : Outs (mem m true) (getInstance p) a ↔ Outs (mem m true) p a := Iff.rfl

theorem outs_start (t : S) (now : Int) (p : P A) (m : Perf.Mon) (h : m.enabled = false) (a : A) :
    Outs (mem m true) (start t now p) a ↔ Outs (mem m true) p a := by
  rw [start, outs_getInstance]
  refine (outs_rd (m := mem m true) .enabled _ (x := (false : Bool)) h).trans ?_
  simp

theorem outs_call (op : Op) (m : Perf.Mon) (h : OnlyReads m op) (a : ℚ) (ho : Outs (mem m true) (call op) a) : a = 0 := by
  have hrec : ∀ pfx, ¬ Records m pfx → Perf.isEnabled m pfx = false := fun pfx hh => by
    rw [← records_iff] at hh; simpa using hh
  cases op with
  | init n => exact h.elim
  | setEnabled x => exact h.elim
  | enableAll x => exact h.elim
  | enablePrefix p =>
    rw [call, enablePrefix, outs_getInstance] at ho
    have ho := (outs_rd (m := mem m true) .prefixes _ (x := m.prefixes) rfl).1 ho
    cases hg : get m.prefixes p with
    | none => simp [OnlyReads, hg] at h
    | some _ => simpa [hg, Outs, eq_comm] using ho
  | disablePrefix p =>
    rw [call, disablePrefix, outs_getInstance] at ho
    have ho := (outs_rd (m := mem m true) .prefixes _ (x := m.prefixes) rfl).1 ho
    have hg : get m.prefixes p = none := h
    simpa [hg, Outs, eq_comm] using ho
  | start t now =>
    rw [call, outs_start t now _ m h] at ho
    exact ho.symm
  | measurement t d pfx now =>
    rw [call, outs_getInstance, outs_isEnabled, hrec pfx h] at ho
    simpa [Outs, eq_comm] using ho
  | startStop t d pfx now =>
    rw [call, outs_getInstance, outs_isEnabled] at ho
    by_cases hr : Records m pfx
    · have hz := h.resolve_left (fun hh => hh hr)
      rw [(records_iff m pfx).2 hr, if_pos rfl, outs_getInstance] at ho
      have ho := (outs_rd (m := mem m true) .timers _ (x := m.timers) rfl).1 ho
      rw [hz.2] at ho
      simp only [ne_eq, not_true, if_false] at ho
      rw [outs_start t now _ m hz.1] at ho
      exact ho.symm
    · rw [hrec pfx hr] at ho
      simpa [Outs, eq_comm] using ho
  | addData n x pfx =>
    rw [call, outs_getInstance, outs_isEnabled, hrec pfx h] at ho
    simpa [Outs, eq_comm] using ho
  | addNonTimeData n x pfx =>
    rw [call, outs_getInstance, outs_isEnabled, hrec pfx h] at ho
    simpa [Outs, eq_comm] using ho
  | addStaticData n x pfx =>
    rw [call, outs_getInstance, outs_isEnabled, hrec pfx h] at ho
    simpa [Outs, eq_comm] using ho

/-! ## The accesses of a call -/

/-- The call, alone, makes this access. -/
def Has (ev : Ev Empty Var) (p : P A) (m : Perf.Mon) (b : Bool) : Prop := ∀ n, ev ∈ (alone p (mem m b) n).2.2.2

theorem Has.of_to {ev : Ev Empty Var} {p q : P A} {m m' : Perf.Mon} {b b' : Bool} (h : Has ev q m' b') (ht : To p m b q m' b') :
    Has ev p m b := by
  obtain ⟨t, ht⟩ := ht
  intro n
  rw [ht]
  exact List.mem_append_right _ (h n)

theorem has_rd (v : Var) (k : Val v → P A) (m : Perf.Mon) (b : Bool) : Has (.rd v) (.rd v k) m b := fun n => by
  simp [alone]

theorem has_wr (v : Var) (x : Val v) (p : P A) (m : Perf.Mon) (b : Bool) : Has (.wr v) (.wr v x p) m b := fun n => by
  simp [alone]

theorem Has.rd {ev : Ev Empty Var} (v : Var) (k : Val v → P A) {m : Perf.Mon} {b : Bool} {x : Val v} (hx : mem m b v = x)
    (h : Has ev (k x) m b) : Has ev (.rd v k) m b := fun n => by
  subst hx; simp only [alone, List.mem_cons]; exact .inr (h n)

theorem Has.wr {ev : Ev Empty Var} (v : Var) (x : Val v) {p : P A} {m m' : Perf.Mon} {b b' : Bool} (hm : set (mem m b) v x = mem m' b')
    (h : Has ev p m' b') : Has ev (.wr v x p) m b := fun n => by
  simp only [alone, List.mem_cons]; rw [hm]; exact .inr (h n)

theorem has_inst (p : P A) (m : Perf.Mon) : Has (.wr .inst) (getInstance p) m false :=
  .rd .inst _ (x := (false : Bool)) rfl (has_wr .inst _ _ m false)

theorem has_inst_rd (p : P A) (m : Perf.Mon) (b : Bool) : Has (.rd .inst) (getInstance p) m b := has_rd .inst _ m b

theorem call_getInstance (op : Op) : ∃ p, call op = getInstance p := by cases op <;> exact ⟨_, rfl⟩

theorem has_start (t : S) (now : Int) (p : P A) (m : Perf.Mon) (b : Bool) (h : m.enabled = true) :
    Has (.wr .timers) (start t now p) m b := by
  refine Has.of_to (.rd .enabled _ (x := (true : Bool)) h ?_) (to_getInstance _ m b)
  simp only [if_true]
  exact Has.of_to (.rd .timers _ (x := m.timers) rfl (has_wr _ _ _ _ _)) (to_getInstance _ m true)

theorem has_addEvent (pfx name : S) (x : ℚ) (p : P A) (m : Perf.Mon) (b : Bool) (h : Perf.isEnabled m pfx = true) :
    Has (.wr .data) (addEvent pfx name x p) m b := by
  refine Has.of_to (Has.of_to ?_ (to_isEnabled pfx _ m true)) (to_getInstance _ m b)
  rw [h, if_pos rfl]
  refine .rd .data _ (x := m.data) rfl ?_
  cases get m.data (makeName pfx name) <;> exact has_wr _ _ _ _ _

theorem has_addNonTimeEvent (pfx name : S) (x : ℚ) (p : P A) (m : Perf.Mon) (b : Bool) (h : Perf.isEnabled m pfx = true) :
    Has (.wr .nontime) (addNonTimeEvent pfx name x p) m b := by
  refine Has.of_to (Has.of_to ?_ (to_isEnabled pfx _ m true)) (to_getInstance _ m b)
  rw [h, if_pos rfl]
  refine .rd .nontime _ (x := m.nontime) rfl ?_
  cases get m.nontime (makeName pfx name) <;> exact has_wr _ _ _ _ _

/-- What the recording of a call does not change. -/
structure SameSettings (m m' : Perf.Mon) : Prop where
  enabled : m'.enabled = m.enabled
  all : m'.all = m.all
  prefixes : m'.prefixes = m.prefixes

theorem same_isEnabled {m m' : Perf.Mon} (h : SameSettings m m') (pfx : S) : Perf.isEnabled m' pfx = Perf.isEnabled m pfx := by
  simp [Perf.isEnabled, h.enabled, h.all, h.prefixes]

theorem same_addEvent (m : Perf.Mon) (pfx name : S) (x : ℚ) : SameSettings m (Perf.addEvent m pfx name x) := by
  unfold Perf.addEvent; split <;> exact ⟨rfl, rfl, rfl⟩

theorem same_addNonTimeEvent (m : Perf.Mon) (pfx name : S) (x : ℚ) : SameSettings m (Perf.addNonTimeEvent m pfx name x) := by
  unfold Perf.addNonTimeEvent; split <;> exact ⟨rfl, rfl, rfl⟩

theorem same_start (m : Perf.Mon) (t : S) (now : Int) : SameSettings m (Perf.start m t now) := by
  unfold Perf.start; split <;> exact ⟨rfl, rfl, rfl⟩

theorem canRace {ι : Type} [DecidableEq ι] {m : Perf.Mon} {b : Bool} (hok : Ok m.timers) {calls : ι → List Op} {i j : ι} (hij : i ≠ j)
    {c d : Op} {cs ds : List Op} (hc : calls i = c :: cs) (hd : calls j = d :: ds) (x : Var) {ev ev' : Ev Empty Var}
    (h1 : Has ev (call c) m b) (h2 : Has ev' (call d) (Perf.step m c) true)
    (ha : Accesses ev x) (hb : Accesses ev' x) (hw : ev = .wr x ∨ ev' = .wr x) : CanRace m b calls := by
  obtain ⟨tr, h⟩ := (to_call c m b hok).done
  obtain ⟨s, t, w, h3, h4⟩ := race_in_turn (w := threads m b calls) hij (p := call c) (q := call d) (x := x) (e := ev) (e' := ev')
    (by simp only [threads, hc]; rfl) (by simp only [threads, hd]; rfl) (h1 0)
    (by simp only [threads]; rw [h]; exact h2 0) ha hb hw
  exact ⟨s, t, w, x, h3, h4⟩

end Verif.Registry.Mon
