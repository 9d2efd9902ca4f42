import Verif.Perf.Lemmas

/-! # Performance monitor: C58 -/
namespace Verif.Perf
open Verif.StrMap

theorem average_eq (v : List ℚ) : average v = v.sum / v.length := by
  have : ∀ (l : List ℚ) (a : ℚ), l.foldl (fun a x => a + x) a = a + l.sum := by
    intro l
    induction l with
    | nil => intro a; simp
    | cons x l ih => intro a; simp only [List.foldl_cons, ih, List.sum_cons]; ring
  simp [average, this]

theorem countP_take_sorted {l : List ℚ} (hs : l.Pairwise (· ≤ ·)) (i : Nat) (hi : i < l.length) :
    i + 1 ≤ l.countP (· ≤ l[i]) ∧ l.length - i ≤ l.countP (l[i] ≤ ·) := by
  have hle : ∀ j (hj : j < l.length), ∀ k (hk : k < l.length), j ≤ k → l[j] ≤ l[k] := by
    intro j hj k hk hjk
    rcases Nat.lt_or_eq_of_le hjk with h | h
    · exact List.pairwise_iff_getElem.1 hs j k hj hk h
    · subst h; exact le_refl _
  constructor
  · have h1 : (l.take (i + 1)).countP (· ≤ l[i]) = (l.take (i + 1)).length := by
      rw [List.countP_eq_length]
      intro x hx
      obtain ⟨j, hj, rfl⟩ := List.getElem_of_mem hx
      rw [List.length_take] at hj
      rw [List.getElem_take]
      exact decide_eq_true (hle j (by omega) i hi (by omega))
    have h2 := (List.take_sublist (i + 1) l).countP_le (p := (· ≤ l[i]))
    rw [h1, List.length_take] at h2
    omega
  · have h1 : (l.drop i).countP (l[i] ≤ ·) = (l.drop i).length := by
      rw [List.countP_eq_length]
      intro x hx
      obtain ⟨j, hj, rfl⟩ := List.getElem_of_mem hx
      rw [List.getElem_drop]
      exact decide_eq_true (hle i hi _ _ (by omega))
    have h2 := (List.drop_sublist i l).countP_le (p := (l[i] ≤ ·))
    rw [h1, List.length_drop] at h2
    exact h2

theorem summary_correct (d : List (S × List ℚ)) (key : S) (v : List ℚ) (h : get d key = some v)
    (hv : v ≠ []) : ∃ st, summary d key = .ok st ∧ Correct st v := by
  have hpos : 0 < v.length := List.length_pos_iff.2 hv
  have hp := List.perm_insertionSort (· ≤ ·) v
  have hs : (v.insertionSort (· ≤ ·)).Pairwise (· ≤ ·) := List.pairwise_insertionSort (· ≤ ·) v
  have hlen := List.length_insertionSort (· ≤ ·) v
  generalize ht : v.insertionSort (· ≤ ·) = t at hp hs hlen
  have hle : ∀ j (hj : j < t.length), ∀ k (hk : k < t.length), j ≤ k → t[j] ≤ t[k] := by
    intro j hj k hk hjk
    rcases Nat.lt_or_eq_of_le hjk with h | h
    · exact List.pairwise_iff_getElem.1 hs j k hj hk h
    · subst h; exact le_refl _
  have hm : t.length / 2 < t.length := by omega
  have h0 : 0 < t.length := by omega
  have hl : t.length - 1 < t.length := by omega
  refine ⟨⟨v.length, average v, t[t.length / 2], t[0], t[t.length - 1]⟩, ?_, ?_⟩
  · simp only [summary, h, Option.getD_some, ht, Outcome.vecGet, List.getElem?_eq_getElem hm,
      List.getElem?_eq_getElem h0, List.getElem?_eq_getElem hl, Outcome.bind]
  · refine ⟨rfl, average_eq v, ⟨?_, ?_⟩, ⟨?_, ?_⟩, ⟨?_, ?_, ?_⟩⟩
    · exact hp.mem_iff.1 (List.getElem_mem h0)
    · intro x hx
      obtain ⟨j, hj, rfl⟩ := List.getElem_of_mem (hp.mem_iff.2 hx)
      exact hle 0 h0 j hj (by omega)
    · exact hp.mem_iff.1 (List.getElem_mem hl)
    · intro x hx
      obtain ⟨j, hj, rfl⟩ := List.getElem_of_mem (hp.mem_iff.2 hx)
      exact hle j hj _ hl (by omega)
    · exact hp.mem_iff.1 (List.getElem_mem hm)
    · have := (countP_take_sorted hs _ hm).1
      rw [hp.countP_eq] at this
      show v.length < 2 * v.countP (· ≤ t[t.length / 2])
      omega
    · have := (countP_take_sorted hs _ hm).2
      rw [hp.countP_eq] at this
      show v.length ≤ 2 * v.countP (t[t.length / 2] ≤ ·)
      omega

theorem summary_none (d : List (S × List ℚ)) (key : S) (h : get d key = none) :
    summary d key = .ub := by
  simp [summary, h, Outcome.vecGet, Outcome.bind]

/-! ### Enabled prefixes, without any assumption on names -/

/-- The part of the state that says what is enabled. -/
structure InvE (h : List Op) (m : Mon) : Prop where
  enabled : m.enabled = flagAt h
  all : m.all = allAt h
  okP : Ok m.prefixes
  pfx : ∀ p, (get m.prefixes p).isSome = prefixAt p h

theorem addEvent_same (m : Mon) (p n : S) (x : ℚ) :
    (addEvent m p n x).enabled = m.enabled ∧ (addEvent m p n x).all = m.all ∧
      (addEvent m p n x).prefixes = m.prefixes := by
  unfold addEvent; split <;> simp

theorem addNonTimeEvent_same (m : Mon) (p n : S) (x : ℚ) :
    (addNonTimeEvent m p n x).enabled = m.enabled ∧ (addNonTimeEvent m p n x).all = m.all ∧
      (addNonTimeEvent m p n x).prefixes = m.prefixes := by
  unfold addNonTimeEvent; split <;> simp

theorem start_same (m : Mon) (t : S) (now : Int) :
    (start m t now).enabled = m.enabled ∧ (start m t now).all = m.all ∧
      (start m t now).prefixes = m.prefixes := by
  unfold start; split <;> simp

theorem invE_same {h : List Op} {m m' : Mon} {op : Op} (hi : InvE h m)
    (h1 : m'.enabled = m.enabled ∧ m'.all = m.all ∧ m'.prefixes = m.prefixes)
    (h2 : flagAt (op :: h) = flagAt h) (h3 : allAt (op :: h) = allAt h)
    (h4 : ∀ p, prefixAt p (op :: h) = prefixAt p h) : InvE (op :: h) m' := by
  obtain ⟨e1, e2, e3⟩ := h1
  exact ⟨by rw [e1, h2, hi.enabled], by rw [e2, h3, hi.all], by rw [e3]; exact hi.okP,
    fun p => by rw [e3, h4, hi.pfx]⟩

theorem invE_enable {h : List Op} {m : Mon} {op : Op} (hi : InvE h m) (p : S)
    (h2 : flagAt (op :: h) = flagAt h) (h3 : allAt (op :: h) = allAt h)
    (h4 : ∀ q, prefixAt q (op :: h) = (decide (p = q) || prefixAt q h)) :
    InvE (op :: h) (enablePrefix m p) := by
  unfold enablePrefix
  split
  · refine ⟨by rw [h2]; exact hi.enabled, by rw [h3]; exact hi.all, ok_put hi.okP _ _, ?_⟩
    intro q
    rw [h4, get_put hi.okP, ← hi.pfx]
    by_cases hq : q = p
    · simp [hq]
    · simp [hq, Ne.symm hq]
  · rename_i b hb
    refine ⟨by rw [h2]; exact hi.enabled, by rw [h3]; exact hi.all, hi.okP, ?_⟩
    intro q
    rw [h4, ← hi.pfx]
    by_cases hq : p = q
    · subst hq; simp [hb]
    · simp [hq]

theorem invE_run (h : List Op) : InvE h (run h) := by
  induction h with
  | nil => exact ⟨rfl, rfl, ok_nil, fun _ => rfl⟩
  | cons op h ih =>
    simp only [run]
    generalize run h = m at ih
    cases op with
    | setEnabled b => exact ⟨rfl, ih.all, ih.okP, ih.pfx⟩
    | enableAll b => exact ⟨ih.enabled, rfl, ih.okP, ih.pfx⟩
    | enablePrefix p => exact invE_enable ih p rfl rfl (fun _ => rfl)
    | disablePrefix p =>
      have hx : ∀ q, prefixAt q (.disablePrefix p :: h) = (decide (p ≠ q) && prefixAt q h) := fun q => rfl
      simp only [step, disablePrefix]
      split
      · refine ⟨ih.enabled, ih.all, ok_del ih.okP _, ?_⟩
        intro q
        rw [hx, get_del ih.okP, ← ih.pfx]
        by_cases hq : q = p
        · simp [hq]
        · simp [hq, Ne.symm hq]
      · rename_i hn
        refine ⟨ih.enabled, ih.all, ih.okP, ?_⟩
        intro q
        rw [hx, ← ih.pfx]
        by_cases hq : p = q
        · subst hq; simp [hn]
        · simp [hq]
    | init num =>
      have hi' : InvE h { m with
          data := []
          nontime := []
          buffer := ((m.buffer.reverse.take num) ++
            List.replicate (num - (m.buffer.reverse.take num).length) []).reverse } :=
        ⟨ih.enabled, ih.all, ih.okP, ih.pfx⟩
      exact invE_enable hi' [] rfl rfl (fun q => by
        show (decide (q = []) || prefixAt q h) = _
        by_cases hq : q = []
        · simp [hq]
        · simp [hq, Ne.symm hq])
    | start t now => exact invE_same ih (start_same m t now) rfl rfl (fun _ => rfl)
    | addData n x p =>
      refine invE_same ih ?_ rfl rfl (fun _ => rfl)
      simp only [step, addData]
      split
      · exact addEvent_same m p n x
      · exact ⟨rfl, rfl, rfl⟩
    | addNonTimeData n x p =>
      refine invE_same ih ?_ rfl rfl (fun _ => rfl)
      simp only [step, addNonTimeData]
      split
      · exact addNonTimeEvent_same m p n x
      · exact ⟨rfl, rfl, rfl⟩
    | addStaticData n x p =>
      refine invE_same ih ?_ rfl rfl (fun _ => rfl)
      simp only [step, addStaticData]
      split <;> exact ⟨rfl, rfl, rfl⟩
    | measurement t d p now =>
      refine invE_same ih ?_ rfl rfl (fun _ => rfl)
      simp only [step, measurement]
      split
      · exact addEvent_same _ p d _
      · exact ⟨rfl, rfl, rfl⟩
    | startStop t d p now =>
      refine invE_same ih ?_ rfl rfl (fun _ => rfl)
      simp only [step, startStop]
      split
      · split
        · exact addEvent_same { m with timers := put m.timers t ((get m.timers t).getD 0) } p d
            (millis ((get m.timers t).getD 0) now)
        · exact start_same _ t now
      · exact ⟨rfl, rfl, rfl⟩

/-- C58: a prefix records if it is enabled and the monitor is not switched off, or if all
prefixes are enabled.  This holds for every history, whatever the names. -/
theorem c58_enabled (h : List Op) (p : S) : isEnabled (run h) p = Enabled h p := by
  have := invE_run h
  simp only [isEnabled, Enabled, this.enabled, this.all, this.pfx]

/-- C58: a call for a disabled prefix changes nothing at all. -/
theorem c58_disabled_records_nothing (h : List Op) (op : Op) (p : S) (hop : op.pfx = some p)
    (hd : Enabled h p = false) : run (op :: h) = run h := by
  rw [← c58_enabled] at hd
  cases op <;> simp only [Op.pfx, Option.some.injEq, reduceCtorEq] at hop <;> subst hop <;>
    simp [run, step, measurement, startStop, addData, addNonTimeData, addStaticData, hd]

/-- C58: the statistics of a name are those of exactly the samples recorded for this prefix and
name, in any history in which no prefix contains `::` or ends with a colon.  (Without samples the
behaviour is undefined, see `c58_summary_without_samples`.) -/
theorem c58_statistics_partial (h : List Op) (hp : PlainPrefixes h) (p n : S) (hpc : Plain p)
    (hs : samples p n h ≠ []) :
    ∃ st, printSummary (run h) p n = .ok st ∧ Correct st (samples p n h) := by
  have := (inv_run h hp).data p n hpc
  rw [if_neg hs] at this
  exact summary_correct _ _ _ this hs

theorem count_disjoint (v : List ℚ) (a b : ℚ) (hab : a < b) :
    v.countP (· ≤ a) + v.countP (b ≤ ·) ≤ v.length := by
  induction v with
  | nil => simp
  | cons x v ih =>
    simp only [List.countP_cons, List.length_cons, decide_eq_true_eq]
    by_cases h1 : x ≤ a
    · have : ¬ b ≤ x := not_le.2 (lt_of_le_of_lt h1 hab)
      simp only [h1, this, if_true, if_false]; omega
    · simp only [h1, if_false]; split <;> omega

/-- C58: the figures are determined by the specification. -/
theorem c58_statistics_unique (st st' : Stats) (v : List ℚ) (h : Correct st v) (h' : Correct st' v) :
    st = st' := by
  have key : ∀ a b : ℚ, v.length < 2 * v.countP (· ≤ a) → v.length ≤ 2 * v.countP (b ≤ ·) → ¬ a < b := by
    intro a b h1 h2 hab
    have := count_disjoint v a b hab
    omega
  have e1 : st.count = st'.count := by rw [h.count, h'.count]
  have e2 : st.avg = st'.avg := by rw [h.avg, h'.avg]
  have e3 : st.min = st'.min := le_antisymm (h.min.2 _ h'.min.1) (h'.min.2 _ h.min.1)
  have e4 : st.max = st'.max := le_antisymm (h'.max.2 _ h.max.1) (h.max.2 _ h'.max.1)
  have e5 : st.median = st'.median :=
    le_antisymm (not_lt.1 (key _ _ h'.median.2.1 h.median.2.2)) (not_lt.1 (key _ _ h.median.2.1 h'.median.2.2))
  cases st; cases st'; simp only at e1 e2 e3 e4 e5; subst e1 e2 e3 e4 e5; rfl

/-! ### Reports -/

theorem mem_ofPrefix {V : Type} {m : List (S × V)} (hk : ∀ k v, (k, v) ∈ m → ∃ p n, Plain p ∧ k = makeName p n)
    (p n : S) (hp : Plain p) (v : V) : (n, v) ∈ ofPrefix p m ↔ (makeName p n, v) ∈ m := by
  simp only [ofPrefix, List.mem_map, List.mem_filter, beq_iff_eq]
  constructor
  · rintro ⟨⟨k, w⟩, ⟨h1, h2⟩, h3⟩
    obtain ⟨p', n', hp', rfl⟩ := hk k w h1
    simp only [splitKey_makeName p' n' hp', Prod.mk.injEq] at h2 h3
    obtain ⟨rfl, rfl⟩ := h3
    subst h2
    exact h1
  · intro h
    exact ⟨(makeName p n, v), ⟨h, by simp [splitKey_makeName p n hp]⟩, by simp [splitKey_makeName p n hp]⟩

theorem nodup_ofPrefix {V : Type} {m : List (S × V)} (ho : Ok m)
    (hk : ∀ k v, (k, v) ∈ m → ∃ p n, Plain p ∧ k = makeName p n) (p : S) :
    ((ofPrefix p m).map Prod.fst).Nodup := by
  have h1 := nodup_keys ho
  rw [List.nodup_iff_pairwise_ne, List.pairwise_map] at h1 ⊢
  simp only [ofPrefix, List.pairwise_map]
  refine List.Pairwise.imp_of_mem ?_ (List.Pairwise.sublist (List.filter_sublist) h1)
  intro a b ha hb hab heq
  simp only [List.mem_filter, beq_iff_eq] at ha hb
  obtain ⟨pa, na, hpa, ea⟩ := hk a.1 a.2 ha.1
  obtain ⟨pb, nb, hpb, eb⟩ := hk b.1 b.2 hb.1
  have h2 := ha.2
  have h3 := hb.2
  simp only [ea, eb, splitKey_makeName pa na hpa, splitKey_makeName pb nb hpb] at heq h2 h3
  exact hab (by rw [ea, eb, ← h2, ← h3, heq])

theorem summaries_ok (d : List (S × List ℚ)) (p : S) (l : List (S × List ℚ))
    (h : ∀ e ∈ l, get d (makeName p e.1) = some e.2 ∧ e.2 ≠ []) :
    ∃ r, summaries d p l = .ok r ∧ r.map Prod.fst = l.map Prod.fst ∧
      ∀ n st, (n, st) ∈ r → ∃ v, (n, v) ∈ l ∧ Correct st v := by
  induction l with
  | nil => exact ⟨[], rfl, rfl, by simp⟩
  | cons e l ih =>
    obtain ⟨r, h1, h2, h3⟩ := ih (fun e he => h e (by simp [he]))
    obtain ⟨hg, hne⟩ := h e (by simp)
    obtain ⟨st, h4, h5⟩ := summary_correct d _ _ hg hne
    refine ⟨(e.1, st) :: r, by simp [summaries, h4, h1, Outcome.bind], by simp [h2], ?_⟩
    intro n st' hm
    rcases List.mem_cons.1 hm with hm | hm
    · cases hm; exact ⟨e.2, by simp, h5⟩
    · obtain ⟨v, hv, hc⟩ := h3 n st' hm
      exact ⟨v, by simp [hv], hc⟩

theorem report_part (p : S) (hpc : Plain p) (d : List (S × List ℚ)) (f : S → List ℚ) (ho : Ok d)
    (hk : ∀ k v, (k, v) ∈ d → ∃ p n, Plain p ∧ k = makeName p n)
    (hd : ∀ n, get d (makeName p n) = if f n = [] then none else some (f n)) :
    ∃ r, summaries d p (ofPrefix p d) = .ok r ∧ (r.map Prod.fst).Nodup ∧
      (∀ n, n ∈ r.map Prod.fst ↔ f n ≠ []) ∧ (∀ n st, (n, st) ∈ r → Correct st (f n)) := by
  have hmem : ∀ n v, (n, v) ∈ ofPrefix p d ↔ f n ≠ [] ∧ v = f n := by
    intro n v
    rw [mem_ofPrefix hk p n hpc, mem_iff ho, hd]
    by_cases hf : f n = []
    · simp [hf]
    · simp [hf, eq_comm]
  obtain ⟨r, h1, h2, h3⟩ := summaries_ok d p (ofPrefix p d) (by
    intro e he
    obtain ⟨hne, hv⟩ := (hmem e.1 e.2).1 he
    rw [hd, if_neg hne, hv]
    exact ⟨rfl, hne⟩)
  refine ⟨r, h1, by rw [h2]; exact nodup_ofPrefix ho hk p, ?_, ?_⟩
  · intro n
    rw [h2, List.mem_map]
    constructor
    · rintro ⟨e, he, rfl⟩; exact ((hmem e.1 e.2).1 he).1
    · intro hne; exact ⟨(n, f n), (hmem n (f n)).2 ⟨hne, rfl⟩, rfl⟩
  · intro n st hm
    obtain ⟨v, hv, hc⟩ := h3 n st hm
    rw [((hmem n v).1 hv).2] at hc
    exact hc

/-- C58: the summary of a prefix lists each name with data once, with the statistics of its
samples, and the last static values; it is never undefined.  Prefixes must not contain `::` or end with a colon. -/
theorem c58_report_partial (h : List Op) (hp : PlainPrefixes h) (p : S) (hpc : Plain p) :
    ∃ r, printSummaryFromPrefix (run h) p = .ok r ∧
      ((r.time.map Prod.fst).Nodup ∧ (∀ n, n ∈ r.time.map Prod.fst ↔ samples p n h ≠ []) ∧
        ∀ n st, (n, st) ∈ r.time → Correct st (samples p n h)) ∧
      ((r.nontime.map Prod.fst).Nodup ∧ (∀ n, n ∈ r.nontime.map Prod.fst ↔ nonTime p n h ≠ []) ∧
        ∀ n st, (n, st) ∈ r.nontime → Correct st (nonTime p n h)) ∧
      ((r.static.map Prod.fst).Nodup ∧ ∀ n x, (n, x) ∈ r.static ↔ staticAt p n h = some x) := by
  have hi := inv_run h hp
  obtain ⟨t, ht, ht'⟩ := report_part p hpc (run h).data (fun n => samples p n h) hi.okD hi.keysD
    (fun n => hi.data p n hpc)
  obtain ⟨o, ho, ho'⟩ := report_part p hpc (run h).nontime (fun n => nonTime p n h) hi.okN hi.keysN
    (fun n => hi.nontime p n hpc)
  refine ⟨⟨ofPrefix p (run h).static, t, o⟩, ?_, ht', ho', nodup_ofPrefix hi.okS hi.keysS p, ?_⟩
  · simp [printSummaryFromPrefix, ht, ho, Outcome.bind]
  · intro n x
    rw [mem_ofPrefix hi.keysS p n hpc, mem_iff hi.okS, hi.static p n hpc]

/-! ### Where it does not hold -/

/-- C58 fails for prefixes with `::`: two different pairs share their samples. -/
theorem c58_names_collide :
    printSummary (run [.addData "c".toList 5 "a::b".toList, .addData "b::c".toList 1 "a".toList,
        .enableAll true]) "a".toList "b::c".toList
      = .ok ⟨2, 3, 5, 1, 5⟩ := by
  decide +kernel

/-- C58 fails for prefixes that end with a colon also in reports: the data is listed under another prefix. -/
theorem c58_report_of_prefix_with_colon :
    printSummaryFromPrefix (run [.addData "n".toList 5 "a:".toList, .enableAll true]) "a:".toList
      = .ok ⟨[], [], []⟩ ∧
    printSummaryFromPrefix (run [.addData "n".toList 5 "a:".toList, .enableAll true]) "a".toList
      = .ok ⟨[], [(":n".toList, ⟨1, 5, 5, 5, 5⟩)], []⟩ := by
  decide +kernel

/-- C58: the summary of a name without samples is undefined behaviour, in every history. -/
theorem c58_summary_without_samples (h : List Op) (hp : PlainPrefixes h) (p n : S) (hpc : Plain p)
    (hs : samples p n h = []) : printSummary (run h) p n = .ub := by
  have := (inv_run h hp).data p n hpc
  rw [if_pos hs] at this
  exact summary_none _ _ this

/-- C58: a monitor that is switched off (`m_enabled = false`) does record if all prefixes are
enabled, and then measures from the epoch because `start` does nothing. -/
theorem c58_switched_off_records :
    samples [] ['d'] [.measurement ['t'] ['d'] [] 7000000, .start ['t'] 5000000, .enableAll true,
      .setEnabled false] = [7] ∧
    printSummary (run [.measurement ['t'] ['d'] [] 7000000, .start ['t'] 5000000, .enableAll true,
      .setEnabled false]) [] ['d'] = .ok ⟨1, 7, 7, 7, 7⟩ := by
  decide +kernel

/-- A prefix with a single colon is fine. -/
theorem plain_example : Plain ['p', ':', 'q'] := by
  intro a b h
  rcases a with _ | ⟨x, _ | ⟨y, _ | ⟨z, _ | ⟨w, a⟩⟩⟩⟩ <;> simp at h

theorem plain_nil : Plain [] := by
  intro a b h
  rcases a with _ | ⟨x, a⟩ <;> simp at h

/-- Non-vacuity: a history with two prefixes, one of them disabled in between. -/
example :
    let q : S := ['p', ':', 'q']
    let h : List Op := [.addData ['n'] 4 q, .enablePrefix q, .addData ['n'] 100 q,
      .disablePrefix q, .startStop ['t'] ['n'] q 3000000, .startStop ['t'] ['n'] q 1000000,
      .addData ['n'] 9 [], .addData ['n'] 1 q, .enablePrefix q, .init 1]
    PlainPrefixes h ∧ samples q ['n'] h = [1, 2, 4] ∧
      printSummary (run h) q ['n'] = .ok ⟨3, 7 / 3, 2, 1, 4⟩ := by
  refine ⟨?_, by decide +kernel, by decide +kernel⟩
  intro op hop p hp
  simp only [List.mem_cons, List.not_mem_nil, or_false] at hop
  rcases hop with rfl | rfl | rfl | rfl | rfl | rfl | rfl | rfl | rfl | rfl <;>
    simp [Op.pfx] at hp <;> subst hp <;> first | exact plain_example | exact plain_nil

/-- The report of such a prefix. -/
example : printSummaryFromPrefix (run [.addStaticData ['s'] 3 ['p', ':', 'q'],
      .addData ['n'] 5 ['p', ':', 'q'], .enableAll true]) ['p', ':', 'q']
    = .ok ⟨[(['s'], 3)], [(['n'], ⟨1, 5, 5, 5, 5⟩)], []⟩ := by
  decide +kernel

end Verif.Perf
