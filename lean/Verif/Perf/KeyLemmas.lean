import Verif.Perf.KeySpec
import Verif.Perf.Lemmas

/-! # Performance monitor: the state after a history, by the text of the keys -/
namespace Verif.Perf
open Verif.StrMap

theorem makeName_eq (p n : S) : makeName p n = p ++ "::".toList ++ n := by
  have : "::".toList = [':', ':'] := by decide
  rw [this]; simp [makeName]

theorem exists_plain (p n : S) : ∃ p' n', Plain p' ∧ makeName p n = makeName p' n' := by
  induction p with
  | nil =>
    refine ⟨[], n, ?_, rfl⟩
    intro a b h
    rcases a with _ | ⟨x, a⟩ <;> simp at h
  | cons c p ih =>
    obtain ⟨p', n', hp, he⟩ := ih
    by_cases hc : Plain (c :: p')
    · exact ⟨c :: p', n', hc, by simpa [makeName] using he⟩
    · have hc2 : ∃ a b, c :: p' ++ [':'] = a ++ ':' :: ':' :: b := by
        apply Classical.byContradiction
        intro hn
        exact hc fun a b e => hn ⟨a, b, e⟩
      obtain ⟨a, b, e⟩ := hc2
      rcases a with _ | ⟨x, a⟩
      · simp only [List.cons_append, List.nil_append, List.cons.injEq] at e
        obtain ⟨rfl, e⟩ := e
        have hk : makeName (':' :: p) n = ':' :: (p' ++ [':']) ++ ':' :: n' := by
          have : makeName (':' :: p) n = ':' :: makeName p n := rfl
          rw [this, he]; simp [makeName]
        rw [e] at hk
        exact ⟨[], b ++ ':' :: n', by intro a b h; rcases a with _ | ⟨x, a⟩ <;> simp at h, by
          rw [hk]; simp [makeName]⟩
      · simp only [List.cons_append, List.cons.injEq] at e
        exact absurd e.2 (hp a b)

/-! ### The state after a history -/

/-- What the state says about the history. -/
structure KInv (h : List Op) (m : Mon) : Prop where
  enabled : m.enabled = flagAt h
  all : m.all = allAt h
  okP : Ok m.prefixes
  okD : Ok m.data
  okN : Ok m.nontime
  okT : Ok m.timers
  okS : Ok m.static
  pfx : ∀ p, (get m.prefixes p).isSome = prefixAt p h
  timer : ∀ t, (get m.timers t).getD 0 = timerAt t h
  buffer : ∀ v ∈ m.buffer, v = []
  data : ∀ k, get m.data k = if samplesKey k h = [] then none else some (samplesKey k h)
  nontime : ∀ k, get m.nontime k = if nonTimeKey k h = [] then none else some (nonTimeKey k h)
  static : ∀ k, get m.static k = staticKey k h
  keysD : ∀ k v, (k, v) ∈ m.data → ∃ p n, Plain p ∧ k = makeName p n
  keysN : ∀ k v, (k, v) ∈ m.nontime → ∃ p n, Plain p ∧ k = makeName p n
  keysS : ∀ k v, (k, v) ∈ m.static → ∃ p n, Plain p ∧ k = makeName p n

theorem kinv_isEnabled {h : List Op} {m : Mon} (hi : KInv h m) (p : S) : isEnabled m p = Enabled h p := by
  simp only [isEnabled, Enabled, hi.enabled, hi.all, hi.pfx]

theorem addEvent_kinv {h : List Op} {m : Mon} (hi : KInv h m) (p n : S) (x : ℚ)
    (he : Enabled h p = true) (d' : S → List ℚ)
    (hd' : ∀ k, d' k = if makeName p n = k then samplesKey k h ++ [x] else samplesKey k h) :
    let m' := addEvent m p n x
    (∀ k, get m'.data k = if d' k = [] then none else some (d' k)) ∧
    Ok m'.data ∧ (∀ v ∈ m'.buffer, v = []) ∧
    (∀ k v, (k, v) ∈ m'.data → ∃ p n, Plain p ∧ k = makeName p n) ∧
    m' = { m with data := m'.data, buffer := m'.buffer } := by
  have hen : isEnabled m p = true := by rw [kinv_isEnabled hi]; exact he
  obtain ⟨_, _, h3, h4⟩ := newVector_get hi.okD hi.buffer (makeName p n) (makeName p n)
  have hok : Ok (push (newVector m.data m.buffer (makeName p n)).1 (makeName p n) x) := ok_put h3 _ _
  simp only [addEvent, hen, if_true]
  refine ⟨?_, hok, h4, ?_, trivial⟩
  · intro k
    rw [push_get hi.okD hi.buffer, hd']
    by_cases hk : makeName p n = k
    · subst hk
      simp [hi.data (makeName p n), entry_push]
    · simp only [Ne.symm hk, if_false, hk, hi.data k]
  · intro k v hkv
    rw [mem_iff hok, push_get hi.okD hi.buffer] at hkv
    by_cases hk : k = makeName p n
    · exact hk ▸ exists_plain p n
    · simp only [hk, if_false] at hkv
      exact hi.keysD k v ((mem_iff hi.okD k v).2 hkv)

theorem addNonTimeEvent_kinv {h : List Op} {m : Mon} (hi : KInv h m) (p n : S) (x : ℚ)
    (he : Enabled h p = true) (d' : S → List ℚ)
    (hd' : ∀ k, d' k = if makeName p n = k then nonTimeKey k h ++ [x] else nonTimeKey k h) :
    let m' := addNonTimeEvent m p n x
    (∀ k, get m'.nontime k = if d' k = [] then none else some (d' k)) ∧
    Ok m'.nontime ∧ (∀ v ∈ m'.buffer, v = []) ∧
    (∀ k v, (k, v) ∈ m'.nontime → ∃ p n, Plain p ∧ k = makeName p n) ∧
    m' = { m with nontime := m'.nontime, buffer := m'.buffer } := by
  have hen : isEnabled m p = true := by rw [kinv_isEnabled hi]; exact he
  obtain ⟨_, _, h3, h4⟩ := newVector_get hi.okN hi.buffer (makeName p n) (makeName p n)
  have hok : Ok (push (newVector m.nontime m.buffer (makeName p n)).1 (makeName p n) x) := ok_put h3 _ _
  simp only [addNonTimeEvent, hen, if_true]
  refine ⟨?_, hok, h4, ?_, trivial⟩
  · intro k
    rw [push_get hi.okN hi.buffer, hd']
    by_cases hk : makeName p n = k
    · subst hk
      simp [hi.nontime (makeName p n), entry_push]
    · simp only [Ne.symm hk, if_false, hk, hi.nontime k]
  · intro k v hkv
    rw [mem_iff hok, push_get hi.okN hi.buffer] at hkv
    by_cases hk : k = makeName p n
    · exact hk ▸ exists_plain p n
    · simp only [hk, if_false] at hkv
      exact hi.keysN k v ((mem_iff hi.okN k v).2 hkv)

theorem kinv_step {h : List Op} {m : Mon} (hi : KInv h m) (op : Op) : KInv (op :: h) (step m op) := by
  cases op with
  | setEnabled b => exact { hi with enabled := rfl }
  | enableAll b => exact { hi with all := rfl }
  | enablePrefix p =>
    have hx : ∀ q, prefixAt q (.enablePrefix p :: h) = (decide (p = q) || prefixAt q h) := fun q => rfl
    simp only [step, enablePrefix]
    split
    · rename_i hn
      refine { hi with okP := ok_put hi.okP _ _, pfx := ?_ }
      intro q
      rw [hx, get_put hi.okP, ← hi.pfx]
      by_cases hq : q = p
      · simp [hq]
      · simp [hq, Ne.symm hq]
    · rename_i b hb
      refine { hi with pfx := ?_ }
      intro q
      rw [hx, ← hi.pfx]
      by_cases hq : p = q
      · subst hq; simp [hb]
      · simp [hq]
  | disablePrefix p =>
    have hx : ∀ q, prefixAt q (.disablePrefix p :: h) = (decide (p ≠ q) && prefixAt q h) := fun q => rfl
    simp only [step, disablePrefix]
    split
    · refine { hi with okP := ok_del hi.okP _, pfx := ?_ }
      intro q
      rw [hx, get_del hi.okP, ← hi.pfx]
      by_cases hq : q = p
      · simp [hq]
      · simp [hq, Ne.symm hq]
    · rename_i hn
      refine { hi with pfx := ?_ }
      intro q
      rw [hx, ← hi.pfx]
      by_cases hq : p = q
      · subst hq; simp [hn]
      · simp [hq]
  | init num =>
    have hx : ∀ q, prefixAt q (.init num :: h) = (decide (q = []) || prefixAt q h) := fun q => rfl
    have hb : ∀ v ∈ ((m.buffer.reverse.take num) ++
        List.replicate (num - (m.buffer.reverse.take num).length) []).reverse, v = ([] : List ℚ) := by
      intro v hv
      rw [List.mem_reverse, List.mem_append] at hv
      rcases hv with hv | hv
      · exact hi.buffer v (List.mem_reverse.1 (List.mem_of_mem_take hv))
      · exact (List.mem_replicate.1 hv).2
    simp only [step, initMonitor, enablePrefix]
    split
    · rename_i hn
      refine { hi with okP := ok_put hi.okP _ _, pfx := ?_, okD := ok_nil, okN := ok_nil, buffer := hb,
                       data := ?_, nontime := ?_, keysD := ?_, keysN := ?_ }
      · intro q
        rw [hx, get_put hi.okP, ← hi.pfx]
        by_cases hq : q = [] <;> simp [hq]
      · intro k; simp [samplesKey]
      · intro k; simp [nonTimeKey]
      · intro k v hk; simp at hk
      · intro k v hk; simp at hk
    · rename_i b hb'
      refine { hi with pfx := ?_, okD := ok_nil, okN := ok_nil, buffer := hb,
                       data := ?_, nontime := ?_, keysD := ?_, keysN := ?_ }
      · intro q
        rw [hx, ← hi.pfx]
        by_cases hq : q = []
        · subst hq; rw [show get m.prefixes [] = some b from hb']; simp
        · simp [hq]
      · intro k; simp [samplesKey]
      · intro k; simp [nonTimeKey]
      · intro k v hk; simp at hk
      · intro k v hk; simp at hk
  | start t now =>
    have hx : ∀ t', timerAt t' (.start t now :: h) = if t = t' ∧ flagAt h then now else timerAt t' h :=
      fun _ => rfl
    simp only [step, start]
    split
    · rename_i hf
      rw [hi.enabled] at hf
      refine { hi with okT := ok_put hi.okT _ _, timer := ?_ }
      intro t'
      rw [hx, get_put hi.okT, ← hi.timer]
      by_cases ht : t' = t
      · simp [ht, hf]
      · simp [ht, Ne.symm ht]
    · rename_i hf
      rw [hi.enabled] at hf
      refine { hi with timer := ?_ }
      intro t'
      rw [hx, ← hi.timer]
      simp [hf]
  | addData n x p =>
    simp only [step, addData, kinv_isEnabled hi]
    have hx : ∀ k, samplesKey k (.addData n x p :: h)
        = match (if Enabled h p then some (p, n, x) else none) with
          | some (p1, n1, x) => if p1 ++ "::".toList ++ n1 = k then samplesKey k h ++ [x] else samplesKey k h
          | none => samplesKey k h := fun _ => rfl
    split
    · rename_i he
      obtain ⟨h1, h2, h3, h4, h5⟩ := addEvent_kinv hi p n x he
        (fun k => samplesKey k (.addData n x p :: h)) (fun k => by rw [hx]; simp [makeName_eq, he])
      rw [h5]
      exact { hi with okD := h2, buffer := h3, data := h1, keysD := h4 }
    · rename_i he
      refine { hi with data := ?_ }
      intro k
      rw [hx]; simp [he, hi.data k]
  | addNonTimeData n x p =>
    simp only [step, addNonTimeData, kinv_isEnabled hi]
    have hx : ∀ k, nonTimeKey k (.addNonTimeData n x p :: h)
        = if Enabled h p ∧ p ++ "::".toList ++ n = k then nonTimeKey k h ++ [x] else nonTimeKey k h :=
      fun _ => rfl
    split
    · rename_i he
      obtain ⟨h1, h2, h3, h4, h5⟩ := addNonTimeEvent_kinv hi p n x he
        (fun k => nonTimeKey k (.addNonTimeData n x p :: h)) (fun k => by rw [hx]; simp [makeName_eq, he])
      rw [h5]
      exact { hi with okN := h2, buffer := h3, nontime := h1, keysN := h4 }
    · rename_i he
      refine { hi with nontime := ?_ }
      intro k
      rw [hx]; simp [he, hi.nontime k]
  | addStaticData n x p =>
    simp only [step, addStaticData, kinv_isEnabled hi]
    have hx : ∀ k, staticKey k (.addStaticData n x p :: h)
        = if Enabled h p ∧ p ++ "::".toList ++ n = k then some x else staticKey k h := fun _ => rfl
    split
    · rename_i he
      refine { hi with okS := ok_put hi.okS _ _, static := ?_, keysS := ?_ }
      · intro k
        rw [hx, get_put hi.okS, hi.static k]
        by_cases hk : makeName p n = k
        · subst hk; simp [he, makeName_eq]
        · rw [if_neg (Ne.symm hk), if_neg]
          rw [← makeName_eq]; exact fun h => hk h.2
      · intro k v hkv
        rw [mem_iff (ok_put hi.okS _ _), get_put hi.okS] at hkv
        by_cases hk : k = makeName p n
        · exact hk ▸ exists_plain p n
        · simp only [hk, if_false] at hkv
          exact hi.keysS k v ((mem_iff hi.okS k v).2 hkv)
    · rename_i he
      refine { hi with static := ?_ }
      intro k
      rw [hx]; simp [he, hi.static k]
  | measurement t d p now =>
    simp only [step, measurement, kinv_isEnabled hi, hi.timer]
    have hx : ∀ k, samplesKey k (.measurement t d p now :: h)
        = match (if Enabled h p then some (p, d, ((now - timerAt t h : Int) : ℚ) / 1000000) else none) with
          | some (p1, n1, x) => if p1 ++ "::".toList ++ n1 = k then samplesKey k h ++ [x] else samplesKey k h
          | none => samplesKey k h := fun _ => rfl
    split
    · rename_i he
      have hi1 : KInv h { m with timers := put m.timers t (timerAt t h) } := by
        refine { hi with okT := ok_put hi.okT _ _, timer := ?_ }
        intro t'
        rw [get_put hi.okT]
        by_cases ht : t' = t
        · simp [ht]
        · simp [ht, hi.timer]
      obtain ⟨h1, h2, h3, h4, h5⟩ := addEvent_kinv hi1 p d (millis (timerAt t h) now) he
        (fun k => samplesKey k (.measurement t d p now :: h))
        (fun k => by rw [hx]; simp [makeName_eq, he, millis])
      rw [h5]
      exact { hi1 with okD := h2, buffer := h3, data := h1, keysD := h4 }
    · rename_i he
      refine { hi with data := ?_ }
      intro k
      rw [hx]; simp [he, hi.data k]
  | startStop t d p now =>
    simp only [step, startStop, kinv_isEnabled hi, hi.timer]
    have hx : ∀ k, samplesKey k (.startStop t d p now :: h)
        = match (if Enabled h p ∧ timerAt t h ≠ 0 then
              some (p, d, ((now - timerAt t h : Int) : ℚ) / 1000000) else none) with
          | some (p1, n1, x) => if p1 ++ "::".toList ++ n1 = k then samplesKey k h ++ [x] else samplesKey k h
          | none => samplesKey k h := fun _ => rfl
    have hy : ∀ t', timerAt t' (.startStop t d p now :: h)
        = if t = t' ∧ Enabled h p ∧ (timerAt t' h ≠ 0 ∨ flagAt h) then now else timerAt t' h :=
      fun _ => rfl
    split
    · rename_i he
      have hi1 : KInv h { m with timers := put m.timers t (timerAt t h) } := by
        refine { hi with okT := ok_put hi.okT _ _, timer := ?_ }
        intro t'
        rw [get_put hi.okT]
        by_cases ht : t' = t
        · simp [ht]
        · simp [ht, hi.timer]
      split
      · rename_i hz
        obtain ⟨h1, h2, h3, h4, h5⟩ := addEvent_kinv hi1 p d (millis (timerAt t h) now) he
          (fun k => samplesKey k (.startStop t d p now :: h))
          (fun k => by rw [hx]; simp [makeName_eq, he, hz, millis])
        simp only
        rw [h5]
        refine { hi1 with okD := h2, buffer := h3, data := h1, keysD := h4, okT := ok_put hi1.okT _ _, timer := ?_ }
        intro t'
        rw [hy, get_put hi1.okT]
        by_cases ht : t' = t
        · subst ht; simp [he, hz]
        · rw [if_neg ht, hi1.timer t']; simp [Ne.symm ht]
      · rename_i hz
        have hz : timerAt t h = 0 := not_not.1 hz
        simp only [start]
        split
        · rename_i hf
          have hf' : flagAt h = true := by rw [← hi.enabled]; exact hf
          refine { hi1 with okT := ok_put hi1.okT _ _, timer := ?_, data := ?_ }
          · intro t'
            rw [hy, get_put hi1.okT]
            by_cases ht : t' = t
            · subst ht; simp [he, hf']
            · rw [if_neg ht, hi1.timer t']; simp [Ne.symm ht]
          · intro k
            rw [hx]; simp [hz, hi.data k]
        · rename_i hf
          have hf' : flagAt h = false := by rw [← hi.enabled]; simpa using hf
          refine { hi1 with timer := ?_, data := ?_ }
          · intro t'
            rw [hy, hi1.timer t']
            by_cases ht : t' = t
            · subst ht; simp [hf', hz]
            · simp [Ne.symm ht]
          · intro k
            rw [hx]; simp [hz, hi.data k]
    · rename_i he
      refine { hi with data := ?_, timer := ?_ }
      · intro t'; rw [hy]; simp [he, hi.timer]
      · intro k
        rw [hx]; simp [he, hi.data k]

theorem kinv_run (h : List Op) : KInv h (run h) := by
  induction h with
  | nil =>
    exact { enabled := rfl, all := rfl, okP := ok_nil, okD := ok_nil, okN := ok_nil, okT := ok_nil,
            okS := ok_nil, pfx := fun _ => rfl, timer := fun _ => rfl, buffer := by simp [run],
            data := fun _ => rfl, nontime := fun _ => rfl, static := fun _ => rfl,
            keysD := by simp [run], keysN := by simp [run], keysS := by simp [run] }
  | cons op h ih =>
    exact kinv_step ih op

end Verif.Perf
