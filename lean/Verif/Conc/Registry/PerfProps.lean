import Verif.Conc.Registry.PerfLemmas

/-!
# C143: which calls of the performance monitor may run at the same time
-/
namespace Verif.Registry.Mon
open Verif.Perf Verif.StrMap Race

/-- The calls, access by access, do what the model of C58 does (`Ok`: the timers are a map). -/
theorem c143_perf_as_alone (op : Op) (m : Perf.Mon) (inst : Bool) (h : Ok m.timers) :
    ∃ tr, ∀ n, alone (call op) (mem m inst) n = (answer m op, mem (Perf.step m op) true, n, tr) :=
  (to_call op m inst h).done

/-- Any number of threads whose calls only read, on a monitor that exists: no schedule has a data race, the monitor stays
as it was, and the calls answer 0, as they do when no other thread runs. -/
theorem c143_perf_readers {ι : Type} [DecidableEq ι] (m : Perf.Mon) (calls : ι → List Op)
    (h : ∀ i, ∀ c ∈ calls i, OnlyReads m c) {sched tr w} (hx : (threads m true calls).exec sched = some (tr, w)) :
    (∀ x, ¬ DataRace tr x) ∧ w.mem = mem m true ∧
    ∀ i l, w.prog i = .ret l → List.Forall₂ (fun c r => r = 0 ∧ answer m c = 0) (calls i) l := by
  obtain ⟨h1, h2, -, h4⟩ := exec_quiet sched (w := threads m true calls)
    (fun i => quiet_inOrder _ _ _ fun c hc => (quiet_call c m).2 (h i c hc)) hx
  refine ⟨no_race_of_reads h1, h2, fun i l hl => ?_⟩
  have := h4 i l (by rw [hl]; rfl)
  exact forall₂_imp_mem (fun c r hc hr => ⟨outs_call c m (h i c hc) r hr, answer_onlyReads c m (h i c hc)⟩)
    (outs_inOrder (mem m true) call _ _ this)

/-- The first calls of two threads, whatever they are, can race: `getInstance` makes the monitor without a lock. -/
theorem c143_perf_first_use {ι : Type} [DecidableEq ι] (m : Perf.Mon) (hok : Ok m.timers) (calls : ι → List Op) {i j : ι}
    (hij : i ≠ j) {c d : Op} {cs ds : List Op} (hi : calls i = c :: cs) (hj : calls j = d :: ds) : CanRace m false calls := by
  obtain ⟨p, hp⟩ := call_getInstance c
  obtain ⟨q, hq⟩ := call_getInstance d
  exact canRace hok hij hi hj .inst (hp ▸ has_inst p m) (hq ▸ has_inst_rd q _ true) (.inr rfl) (.inl rfl) (.inl rfl)

/-- Two threads make the same call (two samples under the same name, for example): if it does not only read, there is a
schedule with a data race. -/
theorem c143_perf_same_call {ι : Type} [DecidableEq ι] (m : Perf.Mon) (hok : Ok m.timers) (calls : ι → List Op) {i j : ι}
    (hij : i ≠ j) {c : Op} {cs ds : List Op} (hi : calls i = c :: cs) (hj : calls j = c :: ds)
    (h : ¬ OnlyReads m c) : CanRace m true calls := by
  have g : ∀ (p : P ℚ) (m : Perf.Mon), To (getInstance p) m true p m true := fun p m => to_getInstance p m true
  have rec_ : ∀ {pfx}, ¬ ¬ Records m pfx → Perf.isEnabled m pfx = true := fun hh => (records_iff m _).2 (not_not.1 hh)
  cases c with
  | init n =>
    exact canRace hok hij hi hj .data ((has_wr _ _ _ _ _).of_to (g _ _)) ((has_wr _ _ _ _ _).of_to (g _ _)) (.inr rfl) (.inr rfl) (.inl rfl)
  | setEnabled x =>
    exact canRace hok hij hi hj .enabled ((has_wr _ _ _ _ _).of_to (g _ _)) ((has_wr _ _ _ _ _).of_to (g _ _)) (.inr rfl) (.inr rfl) (.inl rfl)
  | enableAll x =>
    exact canRace hok hij hi hj .all ((has_wr _ _ _ _ _).of_to (g _ _)) ((has_wr _ _ _ _ _).of_to (g _ _)) (.inr rfl) (.inr rfl) (.inl rfl)
  | enablePrefix p =>
    have hg : get m.prefixes p = none := by simpa [OnlyReads] using h
    refine canRace hok hij hi hj .prefixes (ev := .wr .prefixes) (Has.of_to (.rd .prefixes _ (x := m.prefixes) rfl ?_) (g _ _))
      ((has_rd _ _ _ _).of_to (g _ _)) (.inr rfl) (.inl rfl) (.inl rfl)
    rw [hg]; exact has_wr _ _ _ _ _
  | disablePrefix p =>
    obtain ⟨v, hg⟩ : ∃ v, get m.prefixes p = some v := by
      cases hg : get m.prefixes p with
      | none => exact absurd hg h
      | some v => exact ⟨v, rfl⟩
    refine canRace hok hij hi hj .prefixes (ev := .wr .prefixes) (Has.of_to (.rd .prefixes _ (x := m.prefixes) rfl ?_) (g _ _))
      ((has_rd _ _ _ _).of_to (g _ _)) (.inr rfl) (.inl rfl) (.inl rfl)
    rw [hg]; exact has_wr _ _ _ _ _
  | start t now =>
    have he : m.enabled = true := by simpa [OnlyReads] using h
    exact canRace hok hij hi hj .timers (has_start t now _ m true he)
      (has_start t now _ _ true ((same_start m t now).enabled.trans he)) (.inr rfl) (.inr rfl) (.inl rfl)
  | measurement t d pfx now =>
    have he := rec_ h
    have key : ∀ m : Perf.Mon, Ok m.timers → Perf.isEnabled m pfx = true → Has (.wr .data) (call (.measurement t d pfx now)) m true := by
      intro m hok he
      refine Has.of_to (Has.of_to ?_ (to_isEnabled pfx _ m true)) (g _ m)
      rw [he, if_pos rfl]
      exact Has.of_to (m' := { m with timers := put m.timers t ((get m.timers t).getD 0) })
        (has_addEvent _ _ _ _ _ true he) (to_timerOf t _ m true hok)
    have hs : SameSettings m (Perf.step m (.measurement t d pfx now)) := by
      simp only [Perf.step, Perf.measurement, he, if_true]
      have := same_addEvent { m with timers := put m.timers t ((get m.timers t).getD 0) } pfx d (millis ((get m.timers t).getD 0) now)
      exact ⟨this.1, this.2, this.3⟩
    have ht : Ok (Perf.step m (.measurement t d pfx now)).timers := by
      simp only [Perf.step, Perf.measurement, he, if_true, addEvent_timers]
      exact ok_put hok _ _
    exact canRace hok hij hi hj .data (key m hok he) (key _ ht ((same_isEnabled hs pfx).trans he)) (.inr rfl) (.inr rfl) (.inl rfl)
  | startStop t d pfx now =>
    simp only [OnlyReads, not_or, not_not, not_and] at h
    have he := (records_iff m pfx).2 h.1
    have hs : SameSettings m (Perf.step m (.startStop t d pfx now)) := by
      simp only [Perf.step, Perf.startStop, he, if_true]
      split
      · have := same_addEvent { m with timers := put m.timers t ((get m.timers t).getD 0) } pfx d (millis ((get m.timers t).getD 0) now)
        exact ⟨this.1, this.2, this.3⟩
      · have := same_start { m with timers := put m.timers t ((get m.timers t).getD 0) } t now
        exact ⟨this.1, this.2, this.3⟩
    refine canRace hok hij hi hj .timers (ev := .wr .timers) (ev' := .rd .timers) ?_ ?_ (.inr rfl) (.inl rfl) (.inl rfl)
    · refine Has.of_to (Has.of_to ?_ (to_isEnabled pfx _ m true)) (g _ m)
      rw [he, if_pos rfl]
      refine Has.of_to ?_ (g _ m)
      refine .rd .timers _ (x := m.timers) rfl ?_
      cases hg : get m.timers t with
      | none => exact has_wr _ _ _ _ _
      | some b =>
        by_cases hb : b = 0
        · subst hb
          have hen : m.enabled = true := by
            cases hen : m.enabled with
            | true => rfl
            | false => exact absurd hg (h.2 hen)
          simp only [ne_eq, not_true, if_false]
          exact has_start t now _ m true hen
        · simp only [ne_eq, hb, not_false_eq_true, if_true]
          refine Has.of_to ?_ (to_addEvent pfx d _ _ m true)
          exact .rd .timers _ rfl (has_wr _ _ _ _ _)
    · refine Has.of_to (Has.of_to ?_ (to_isEnabled pfx _ _ true)) (g _ _)
      rw [(same_isEnabled hs pfx).trans he, if_pos rfl]
      exact Has.of_to (has_rd _ _ _ _) (g _ _)
  | addData n x pfx =>
    have he := rec_ h
    have hs : SameSettings m (Perf.step m (.addData n x pfx)) := by
      simp only [Perf.step, Perf.addData, he, if_true]; exact same_addEvent m pfx n x
    have key : ∀ m : Perf.Mon, Perf.isEnabled m pfx = true → Has (.wr .data) (call (.addData n x pfx)) m true := by
      intro m he
      refine Has.of_to (Has.of_to ?_ (to_isEnabled pfx _ m true)) (g _ m)
      rw [he, if_pos rfl]
      exact Has.of_to (has_addEvent _ _ _ _ _ _ he) (g _ m)
    exact canRace hok hij hi hj .data (key m he) (key _ ((same_isEnabled hs pfx).trans he)) (.inr rfl) (.inr rfl) (.inl rfl)
  | addNonTimeData n x pfx =>
    have he := rec_ h
    have hs : SameSettings m (Perf.step m (.addNonTimeData n x pfx)) := by
      simp only [Perf.step, Perf.addNonTimeData, he, if_true]; exact same_addNonTimeEvent m pfx n x
    have key : ∀ m : Perf.Mon, Perf.isEnabled m pfx = true → Has (.wr .nontime) (call (.addNonTimeData n x pfx)) m true := by
      intro m he
      refine Has.of_to (Has.of_to ?_ (to_isEnabled pfx _ m true)) (g _ m)
      rw [he, if_pos rfl]
      exact Has.of_to (has_addNonTimeEvent _ _ _ _ _ _ he) (g _ m)
    exact canRace hok hij hi hj .nontime (key m he) (key _ ((same_isEnabled hs pfx).trans he)) (.inr rfl) (.inr rfl) (.inl rfl)
  | addStaticData n x pfx =>
    have he := rec_ h
    have hs : SameSettings m (Perf.step m (.addStaticData n x pfx)) := by
      simp only [Perf.step, Perf.addStaticData, he, if_true]; exact ⟨rfl, rfl, rfl⟩
    have key : ∀ m : Perf.Mon, Perf.isEnabled m pfx = true → Has (.wr .static) (call (.addStaticData n x pfx)) m true := by
      intro m he
      refine Has.of_to (Has.of_to ?_ (to_isEnabled pfx _ m true)) (g _ m)
      rw [he, if_pos rfl]
      exact Has.of_to (.rd .static _ rfl (has_wr _ _ _ _ _)) (g _ m)
    exact canRace hok hij hi hj .static (key m he) (key _ ((same_isEnabled hs pfx).trans he)) (.inr rfl) (.inr rfl) (.inl rfl)

/-- `start()` does not ask for a prefix: on a monitor with `m_enabled` a thread that starts a new timer and another one that
starts any timer can race even if nothing is recorded. -/
theorem c143_perf_start {ι : Type} [DecidableEq ι] (m : Perf.Mon) (hok : Ok m.timers) (calls : ι → List Op) {i j : ι}
    (hij : i ≠ j) {t u : S} {now now' : Int} {cs ds : List Op} (hi : calls i = .start t now :: cs)
    (hj : calls j = .start u now' :: ds) (he : m.enabled = true) (_new : get m.timers t = none) : CanRace m true calls :=
  canRace hok hij hi hj .timers (has_start t now _ m true he)
    (has_start u now' _ _ true ((same_start m t now).enabled.trans he)) (.inr rfl) (.inr rfl) (.inl rfl)

/-! ## The hypotheses are met -/

/-- Only the prefix "a" is recorded. -/
def exMon : Perf.Mon := Perf.enablePrefix {} ['a']

example : Ok exMon.timers ∧ Records exMon ['a'] ∧ ¬ Records exMon ['b'] ∧
    OnlyReads exMon (.addData ['x'] 1 ['b']) ∧ ¬ OnlyReads exMon (.addData ['x'] 1 ['a']) ∧ ¬ OnlyReads exMon (.start ['t'] 5) := by
  have h1 : Records exMon ['a'] := .inl (by decide +kernel)
  have h2 : ¬ Records exMon ['b'] := by
    rintro (⟨-, h⟩ | h)
    · revert h; decide +kernel
    · revert h; decide +kernel
  exact ⟨ok_nil, h1, h2, h2, not_not.2 h1, by simp only [OnlyReads]; decide +kernel⟩

end Verif.Registry.Mon
