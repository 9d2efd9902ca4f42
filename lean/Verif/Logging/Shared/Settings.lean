import Verif.Logging.Shared.Props
import Verif.Logging.PoolProps

/-!
# Settings that are made before the threads start (C123)
-/
namespace Verif.Logging.Shared
open Verif.Race

section
variable {ι : Type} [DecidableEq ι] {worker : Nat → Bool} {ok : Api → Prop} {role : ι → Option Nat}
  {st st' : St ι Sem Var} {sched : List ι} {tr : List (ι × E)}

theorem no_race_constant (x : Var) (hp : ∀ u, Ev.wr x ∉ st.prog u) (he : exec st sched = some (tr, st')) :
    ¬ DataRace tr x := by
  rintro ⟨a, b, i, j, e, f, ha, hb, _, _, _, _, hw | hw, _⟩
  · exact hp i (hw ▸ exec_mem sched st st' tr he i e (List.mem_of_getElem? ha))
  · exact hp j (hw ▸ exec_mem sched st st' tr he j f (List.mem_of_getElem? hb))

theorem pushAll_writes {es : List E} (h : PushAll worker es) {x : Var} (he : Ev.wr x ∈ es) :
    ∃ o, x = .sink o ∨ x = .queue o := by
  obtain ⟨o, es', hp, he'⟩ := h.mem _ he
  have := hp.mem _ he'
  grind

theorem call_writes {a : Api} {c : List E} (h : Call worker a c) {x : Var} (he : Ev.wr x ∈ c) :
    (∀ s, x = .level s → ∃ ss os, a = .setLogLevel ss os ∧ s ∈ ss) ∧
    (∀ o, x = .outLevel o → ∃ ss os, a = .setLogLevel ss os ∧ o ∈ os) ∧
    (∀ s, x = .active s → a = .setActive s) ∧
    (∀ o, x = .timeFormat o → a = .changeTimeFormat o) ∧
    (∀ o, x = .newFormat o → a = .changeLogFormat o) := by
  cases h with
  | flush s k es hp =>
    simp only [List.cons_append, List.mem_cons, List.mem_append, List.not_mem_nil, or_false] at he
    have : Ev.wr x ∈ es → ∃ o, x = .sink o ∨ x = .queue o := pushAll_writes hp
    grind
  | setLogLevel ss os =>
    simp only [List.mem_append, List.mem_map] at he
    grind
  | printConfiguration ss os =>
    simp only [List.mem_append, List.mem_map] at he
    grind
  | _ => simp only [List.mem_cons, List.not_mem_nil, or_false] at he <;> grind

theorem worker_writes {o : Nat} {es : List E} (h : Worker o es) {x : Var} (he : Ev.wr x ∈ es) :
    (∀ s, x ≠ .level s) ∧ (∀ s, x ≠ .outLevel s) ∧ (∀ s, x ≠ .active s) ∧ (∀ s, x ≠ .timeFormat s) ∧
      ∀ s, x ≠ .newFormat s := by
  have := h.mem _ he
  grind

theorem system_writes (h : System ι worker ok role st) {t : ι} {x : Var} (he : Ev.wr x ∈ st.prog t) :
    (∀ s, x = .level s → ∃ ss os, ok (.setLogLevel ss os) ∧ s ∈ ss) ∧
    (∀ o, x = .outLevel o → ∃ ss os, ok (.setLogLevel ss os) ∧ o ∈ os) ∧
    (∀ s, x = .active s → ok (.setActive s)) ∧
    (∀ o, x = .timeFormat o → ok (.changeTimeFormat o)) ∧
    (∀ o, x = .newFormat o → ok (.changeLogFormat o)) := by
  cases hr : role t with
  | some o =>
    have := worker_writes (h.runs t o hr) he
    grind
  | none =>
    obtain ⟨cs, h1, h2⟩ := h.calls t hr
    rw [h2, List.mem_flatten] at he
    obtain ⟨c, hc, hec⟩ := he
    obtain ⟨a, ha, hca⟩ := h1 c hc
    have := call_writes hca hec
    grind

/-- C123, the part that holds for the settings: if the levels, the flags and the formats are set before the
threads start (`ok` allows no call that changes them), no execution has a data race on them, whatever else the
threads do. Missing: they may not be changed while other threads log, see `c123_level_race`,
`c123_outLevel_race`, `c123_active_race`, `c123_timeFormat_race` and `c123_newFormat_race`. -/
theorem c123_settings_partial (h : System ι worker ok role st) (he : exec st sched = some (tr, st')) :
    (∀ s, (∀ ss os, ok (.setLogLevel ss os) → s ∉ ss) → ¬ DataRace tr (.level s)) ∧
    (∀ o, (∀ ss os, ok (.setLogLevel ss os) → o ∉ os) → ¬ DataRace tr (.outLevel o)) ∧
    (∀ s, ¬ ok (.setActive s) → ¬ DataRace tr (.active s)) ∧
    (∀ o, ¬ ok (.changeTimeFormat o) → ¬ DataRace tr (.timeFormat o)) ∧
    (∀ o, ¬ ok (.changeLogFormat o) → ¬ DataRace tr (.newFormat o)) := by
  refine ⟨fun s hs => ?_, fun s hs => ?_, fun s hs => ?_, fun s hs => ?_, fun s hs => ?_⟩ <;>
    refine no_race_constant _ (fun u hu => ?_) he <;> have hw := system_writes h hu
  · obtain ⟨ss, os, h1, h2⟩ := hw.1 s rfl
    exact hs ss os h1 h2
  · obtain ⟨ss, os, h1, h2⟩ := hw.2.1 s rfl
    exact hs ss os h1 h2
  · exact hs (hw.2.2.1 s rfl)
  · exact hs (hw.2.2.2.1 s rfl)
  · exact hs (hw.2.2.2.2 s rfl)

/-- C123: as long as one thread only changes the format of an output, no execution has a data race on the list
of new format entries, whatever the other threads log. -/
theorem c123_newFormat_partial (h : System ι worker ok role st) (he : exec st sched = some (tr, st')) (o : Nat) (t : ι)
    (hone : ∀ u, u ≠ t → role u = none → ∃ cs : List (List E),
      (∀ c ∈ cs, ∃ a, a ≠ .changeLogFormat o ∧ Call worker a c) ∧ st.prog u = cs.flatten) :
    ¬ DataRace tr (.newFormat o) := by
  refine no_race_single _ st t (fun u hu e heu => ?_) sched tr st' he
  cases hr : role u with
  | some o' =>
    have := (h.runs u o' hr).mem e heu
    unfold Accesses
    grind
  | none =>
    obtain ⟨cs, h1, h2⟩ := hone u hu hr
    rw [h2, List.mem_flatten] at heu
    obtain ⟨c, hc, hec⟩ := heu
    obtain ⟨a, hne, hca⟩ := h1 c hc
    cases hca with
    | flush s k es hp =>
      have : e ∈ es → ¬ Accesses e (.newFormat o) := by
        intro h'
        obtain ⟨o', es', hpu, he'⟩ := hp.mem e h'
        have := hpu.mem e he'
        unfold Accesses
        grind
      simp only [List.cons_append, List.mem_cons, List.mem_append, List.not_mem_nil, or_false] at hec
      rcases hec with rfl | rfl | rfl | h' | rfl | rfl | rfl | rfl <;> first | exact this h' | simp [Accesses]
    | setLogLevel ss os =>
      simp only [List.mem_append, List.mem_map] at hec
      rcases hec with ⟨_, _, rfl⟩ | ⟨_, _, rfl⟩ <;> simp [Accesses]
    | printConfiguration ss os =>
      simp only [List.mem_append, List.mem_map] at hec
      rcases hec with ⟨_, _, rfl⟩ | ⟨_, _, rfl⟩ <;> simp [Accesses]
    | _ => simp only [List.mem_cons, List.not_mem_nil, or_false] at hec <;> (unfold Accesses; grind)

end

/-- Finding, on the model of the pool of thread streams (C45): two threads are at the same time before their
next statement, thread 1 before resetting the write index of thread stream 0 and thread 2 before writing text to the
same thread stream. Neither holds a mutex: a data race on the text buffer between two log statements. -/
theorem c123_buffer_race : ∃ s, Pool.exec ⟨false, true⟩ (Pool.init 32)
      ([(1, .call 2 [1])] ++ Pool.gos 1 9 ++ [(2, .call 2 [7, 8])] ++ Pool.gos 2 3) = some s ∧
    s.pc 1 = .reset 0 ∧ s.pc 2 = .write ⟨0, 2, [], [7, 8]⟩ ∧ s.mutex = none :=
  ⟨_, rfl, by decide⟩

end Verif.Logging.Shared
