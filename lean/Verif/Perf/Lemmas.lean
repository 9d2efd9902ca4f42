import Verif.Perf.Spec
import Mathlib.Tactic.Ring
import Mathlib.Algebra.BigOperators.Group.List.Basic

/-! # Performance monitor: the state after a history -/
namespace Verif.Perf
open Verif.StrMap

/-! ### Keys -/

theorem plain_tail {c : Char} {p : S} (h : Plain (c :: p)) : Plain p := by
  intro a b he
  exact h (c :: a) b (by simp [he])

theorem findSep_makeName (p n : S) (hp : Plain p) : findSep (makeName p n) = some p.length := by
  induction p with
  | nil => simp [makeName, findSep]
  | cons a s ih =>
    have := ih (plain_tail hp)
    simp only [makeName, List.cons_append] at this ⊢
    rw [findSep.eq_def]
    split
    · rename_i r heq
      exfalso
      simp only [List.cons.injEq] at heq
      obtain ⟨rfl, heq⟩ := heq
      cases s with
      | nil => exact hp [] [] rfl
      | cons d s =>
        simp only [List.cons_append, List.cons.injEq] at heq
        obtain ⟨rfl, heq⟩ := heq
        exact hp [] (s ++ [':']) rfl
    · rename_i c r _ heq
      obtain ⟨rfl, rfl⟩ := List.cons.inj heq
      rw [this]; rfl
    · rename_i heq; cases heq

theorem splitKey_makeName (p n : S) (hp : Plain p) : splitKey (makeName p n) = (p, n) := by
  simp only [splitKey, findSep_makeName p n hp]
  simp [makeName, List.drop_append]

theorem makeName_inj {p n p' n' : S} (hp : Plain p) (hp' : Plain p')
    (h : makeName p n = makeName p' n') : p = p' ∧ n = n' := by
  have h1 := splitKey_makeName p n hp
  rw [h, splitKey_makeName p' n' hp'] at h1
  exact ⟨(Prod.mk.inj h1).1.symm, (Prod.mk.inj h1).2.symm⟩

/-! ### The state after a history -/

/-- What the state says about the history. -/
structure Inv (h : List Op) (m : Mon) : Prop where
  enabled : m.enabled = flagAt h
  all : m.all = allAt h
  okP : Ok m.prefixes
  okD : Ok m.data
  okN : Ok m.nontime
  okT : Ok m.timers
  okS : Ok m.static
  pfx : ∀ p, (get m.prefixes p).isSome = prefixAt p h
  timer : ∀ t, (get m.timers t).getD 0 = timerAt t h
  buffer : ∀ v ∈ m.buffer, v = []
  data : ∀ p n, Plain p → get m.data (makeName p n) = if samples p n h = [] then none else some (samples p n h)
  nontime : ∀ p n, Plain p → get m.nontime (makeName p n) = if nonTime p n h = [] then none else some (nonTime p n h)
  static : ∀ p n, Plain p → get m.static (makeName p n) = staticAt p n h
  keysD : ∀ k v, (k, v) ∈ m.data → ∃ p n, Plain p ∧ k = makeName p n
  keysN : ∀ k v, (k, v) ∈ m.nontime → ∃ p n, Plain p ∧ k = makeName p n
  keysS : ∀ k v, (k, v) ∈ m.static → ∃ p n, Plain p ∧ k = makeName p n

theorem inv_isEnabled {h : List Op} {m : Mon} (hi : Inv h m) (p : S) : isEnabled m p = Enabled h p := by
  simp only [isEnabled, Enabled, hi.enabled, hi.all, hi.pfx]

theorem newVector_get {d : List (S × List ℚ)} {b : List (List ℚ)} (hd : Ok d) (hb : ∀ v ∈ b, v = [])
    (key k : S) : (get (newVector d b key).1 k).getD [] = (get d k).getD [] ∧
      (k ≠ key → get (newVector d b key).1 k = get d k) ∧ Ok (newVector d b key).1 ∧
      (∀ v ∈ (newVector d b key).2, v = []) := by
  unfold newVector
  split
  · exact ⟨rfl, fun _ => rfl, hd, hb⟩
  · rename_i hn
    split
    · refine ⟨?_, ?_, ok_put hd _ _, by simp⟩
      · rw [get_put hd]; by_cases hk : k = key <;> simp [hk, hn]
      · intro hk; rw [get_put hd]; simp [hk]
    · rename_i v r
      have hv : v = [] := hb v (by simp)
      refine ⟨?_, ?_, ok_put hd _ _, fun w hw => hb w (by simp [hw])⟩
      · rw [get_put hd]; by_cases hk : k = key <;> simp [hk, hn, hv]
      · intro hk; rw [get_put hd]; simp [hk]

/-- `newVector` and `push` together: the new value of a key. -/
theorem push_get {d : List (S × List ℚ)} {b : List (List ℚ)} (hd : Ok d) (hb : ∀ v ∈ b, v = [])
    (key k : S) (x : ℚ) :
    get (push (newVector d b key).1 key x) k
      = if k = key then some ((get d key).getD [] ++ [x]) else get d k := by
  obtain ⟨h1, _, h3, _⟩ := newVector_get hd hb key key
  rw [push, get_put h3, h1]
  by_cases hk : k = key
  · simp [hk]
  · simp [hk, (newVector_get hd hb key k).2.1 hk]

/-- The list that a key holds, if it holds nothing when there are no samples. -/
theorem entry_push (l : List ℚ) (x : ℚ) :
    (if l = [] then none else some l).getD [] ++ [x] = l ++ [x] := by
  by_cases h : l = [] <;> simp [h]

theorem addEvent_inv {h : List Op} {m : Mon} (hi : Inv h m) (p n : S) (x : ℚ) (hp : Plain p)
    (he : Enabled h p = true) (d' : S → S → List ℚ)
    (hd' : ∀ p' n', d' p' n' = if p = p' ∧ n = n' then samples p' n' h ++ [x] else samples p' n' h) :
    let m' := addEvent m p n x
    (∀ p' n', Plain p' → get m'.data (makeName p' n') = if d' p' n' = [] then none else some (d' p' n')) ∧
    Ok m'.data ∧ (∀ v ∈ m'.buffer, v = []) ∧
    (∀ k v, (k, v) ∈ m'.data → ∃ p n, Plain p ∧ k = makeName p n) ∧
    m' = { m with data := m'.data, buffer := m'.buffer } := by
  have hen : isEnabled m p = true := by rw [inv_isEnabled hi]; exact he
  obtain ⟨_, _, h3, h4⟩ := newVector_get hi.okD hi.buffer (makeName p n) (makeName p n)
  have hok : Ok (push (newVector m.data m.buffer (makeName p n)).1 (makeName p n) x) := ok_put h3 _ _
  simp only [addEvent, hen, if_true]
  refine ⟨?_, hok, h4, ?_, trivial⟩
  · intro p' n' hp'
    rw [push_get hi.okD hi.buffer, hd']
    by_cases hk : p = p' ∧ n = n'
    · obtain ⟨rfl, rfl⟩ := hk
      simp [hi.data p n hp, entry_push]
    · have : makeName p' n' ≠ makeName p n := fun e => hk (by
        obtain ⟨h1, h2⟩ := makeName_inj hp' hp e
        exact ⟨h1.symm, h2.symm⟩)
      simp only [this, if_false, hk, hi.data p' n' hp']
  · intro k v hkv
    rw [mem_iff hok, push_get hi.okD hi.buffer] at hkv
    by_cases hk : k = makeName p n
    · exact ⟨p, n, hp, hk⟩
    · simp only [hk, if_false] at hkv
      exact hi.keysD k v ((mem_iff hi.okD k v).2 hkv)

theorem addNonTimeEvent_inv {h : List Op} {m : Mon} (hi : Inv h m) (p n : S) (x : ℚ) (hp : Plain p)
    (he : Enabled h p = true) (d' : S → S → List ℚ)
    (hd' : ∀ p' n', d' p' n' = if p = p' ∧ n = n' then nonTime p' n' h ++ [x] else nonTime p' n' h) :
    let m' := addNonTimeEvent m p n x
    (∀ p' n', Plain p' → get m'.nontime (makeName p' n') = if d' p' n' = [] then none else some (d' p' n')) ∧
    Ok m'.nontime ∧ (∀ v ∈ m'.buffer, v = []) ∧
    (∀ k v, (k, v) ∈ m'.nontime → ∃ p n, Plain p ∧ k = makeName p n) ∧
    m' = { m with nontime := m'.nontime, buffer := m'.buffer } := by
  have hen : isEnabled m p = true := by rw [inv_isEnabled hi]; exact he
  obtain ⟨_, _, h3, h4⟩ := newVector_get hi.okN hi.buffer (makeName p n) (makeName p n)
  have hok : Ok (push (newVector m.nontime m.buffer (makeName p n)).1 (makeName p n) x) := ok_put h3 _ _
  simp only [addNonTimeEvent, hen, if_true]
  refine ⟨?_, hok, h4, ?_, trivial⟩
  · intro p' n' hp'
    rw [push_get hi.okN hi.buffer, hd']
    by_cases hk : p = p' ∧ n = n'
    · obtain ⟨rfl, rfl⟩ := hk
      simp [hi.nontime p n hp, entry_push]
    · have : makeName p' n' ≠ makeName p n := fun e => hk (by
        obtain ⟨h1, h2⟩ := makeName_inj hp' hp e
        exact ⟨h1.symm, h2.symm⟩)
      simp only [this, if_false, hk, hi.nontime p' n' hp']
  · intro k v hkv
    rw [mem_iff hok, push_get hi.okN hi.buffer] at hkv
    by_cases hk : k = makeName p n
    · exact ⟨p, n, hp, hk⟩
    · simp only [hk, if_false] at hkv
      exact hi.keysN k v ((mem_iff hi.okN k v).2 hkv)

theorem inv_step {h : List Op} {m : Mon} (hi : Inv h m) (op : Op)
    (hp : ∀ p, op.pfx = some p → Plain p) : Inv (op :: h) (step m op) := by
  cases op with
  | setEnabled b => exact { hi with enabled := rfl }
  | enableAll b => exact { hi with all := rfl }
  | enablePrefix p =>
    have hx : ∀ q, prefixAt q (.enablePrefix p :: h) = (decide (p = q) || prefixAt q h) := fun q => rfl
    simp only [step, enablePrefix]
    split
    · rename_i hn
      refine { hi with okP := ok_put hi.okP _ _, pfx := ?_ }
      intro q
      rw [hx, get_put hi.okP, ← hi.pfx]
      by_cases hq : q = p
      · simp [hq]
      · simp [hq, Ne.symm hq]
    · rename_i b hb
      refine { hi with pfx := ?_ }
      intro q
      rw [hx, ← hi.pfx]
      by_cases hq : p = q
      · subst hq; simp [hb]
      · simp [hq]
  | disablePrefix p =>
    have hx : ∀ q, prefixAt q (.disablePrefix p :: h) = (decide (p ≠ q) && prefixAt q h) := fun q => rfl
    simp only [step, disablePrefix]
    split
    · refine { hi with okP := ok_del hi.okP _, pfx := ?_ }
      intro q
      rw [hx, get_del hi.okP, ← hi.pfx]
      by_cases hq : q = p
      · simp [hq]
      · simp [hq, Ne.symm hq]
    · rename_i hn
      refine { hi with pfx := ?_ }
      intro q
      rw [hx, ← hi.pfx]
      by_cases hq : p = q
      · subst hq; simp [hn]
      · simp [hq]
  | init num =>
    have hx : ∀ q, prefixAt q (.init num :: h) = (decide (q = []) || prefixAt q h) := fun q => rfl
    have hb : ∀ v ∈ ((m.buffer.reverse.take num) ++
        List.replicate (num - (m.buffer.reverse.take num).length) []).reverse, v = ([] : List ℚ) := by
      intro v hv
      rw [List.mem_reverse, List.mem_append] at hv
      rcases hv with hv | hv
      · exact hi.buffer v (List.mem_reverse.1 (List.mem_of_mem_take hv))
      · exact (List.mem_replicate.1 hv).2
    simp only [step, initMonitor, enablePrefix]
    split
    · rename_i hn
      refine { hi with okP := ok_put hi.okP _ _, pfx := ?_, okD := ok_nil, okN := ok_nil, buffer := hb,
                       data := ?_, nontime := ?_, keysD := ?_, keysN := ?_ }
      · intro q
        rw [hx, get_put hi.okP, ← hi.pfx]
        by_cases hq : q = [] <;> simp [hq]
      · intro p n _; simp [samples]
      · intro p n _; simp [nonTime]
      · intro k v hk; simp at hk
      · intro k v hk; simp at hk
    · rename_i b hb'
      refine { hi with pfx := ?_, okD := ok_nil, okN := ok_nil, buffer := hb,
                       data := ?_, nontime := ?_, keysD := ?_, keysN := ?_ }
      · intro q
        rw [hx, ← hi.pfx]
        by_cases hq : q = []
        · subst hq; rw [show get m.prefixes [] = some b from hb']; simp
        · simp [hq]
      · intro p n _; simp [samples]
      · intro p n _; simp [nonTime]
      · intro k v hk; simp at hk
      · intro k v hk; simp at hk
  | start t now =>
    have hx : ∀ t', timerAt t' (.start t now :: h) = if t = t' ∧ flagAt h then now else timerAt t' h :=
      fun _ => rfl
    simp only [step, start]
    split
    · rename_i hf
      rw [hi.enabled] at hf
      refine { hi with okT := ok_put hi.okT _ _, timer := ?_ }
      intro t'
      rw [hx, get_put hi.okT, ← hi.timer]
      by_cases ht : t' = t
      · simp [ht, hf]
      · simp [ht, Ne.symm ht]
    · rename_i hf
      rw [hi.enabled] at hf
      refine { hi with timer := ?_ }
      intro t'
      rw [hx, ← hi.timer]
      simp [hf]
  | addData n x p =>
    have hp := hp p rfl
    simp only [step, addData, inv_isEnabled hi]
    have hx : ∀ p' n', samples p' n' (.addData n x p :: h)
        = match (if Enabled h p then some (p, n, x) else none) with
          | some (p1, n1, x) => if p1 = p' ∧ n1 = n' then samples p' n' h ++ [x] else samples p' n' h
          | none => samples p' n' h := fun _ _ => rfl
    split
    · rename_i he
      obtain ⟨h1, h2, h3, h4, h5⟩ := addEvent_inv hi p n x hp he
        (fun p' n' => samples p' n' (.addData n x p :: h)) (fun p' n' => by rw [hx]; simp [he])
      rw [h5]
      exact { hi with okD := h2, buffer := h3, data := h1, keysD := h4 }
    · rename_i he
      refine { hi with data := ?_ }
      intro p' n' hp'
      rw [hx]; simp [he, hi.data p' n' hp']
  | addNonTimeData n x p =>
    have hp := hp p rfl
    simp only [step, addNonTimeData, inv_isEnabled hi]
    have hx : ∀ p' n', nonTime p' n' (.addNonTimeData n x p :: h)
        = if Enabled h p ∧ p = p' ∧ n = n' then nonTime p' n' h ++ [x] else nonTime p' n' h :=
      fun _ _ => rfl
    split
    · rename_i he
      obtain ⟨h1, h2, h3, h4, h5⟩ := addNonTimeEvent_inv hi p n x hp he
        (fun p' n' => nonTime p' n' (.addNonTimeData n x p :: h)) (fun p' n' => by rw [hx]; simp [he])
      rw [h5]
      exact { hi with okN := h2, buffer := h3, nontime := h1, keysN := h4 }
    · rename_i he
      refine { hi with nontime := ?_ }
      intro p' n' hp'
      rw [hx]; simp [he, hi.nontime p' n' hp']
  | addStaticData n x p =>
    have hp := hp p rfl
    simp only [step, addStaticData, inv_isEnabled hi]
    have hx : ∀ p' n', staticAt p' n' (.addStaticData n x p :: h)
        = if Enabled h p ∧ p = p' ∧ n = n' then some x else staticAt p' n' h := fun _ _ => rfl
    split
    · rename_i he
      refine { hi with okS := ok_put hi.okS _ _, static := ?_, keysS := ?_ }
      · intro p' n' hp'
        rw [hx, get_put hi.okS, hi.static p' n' hp']
        by_cases hk : p = p' ∧ n = n'
        · obtain ⟨rfl, rfl⟩ := hk; simp [he]
        · have : makeName p' n' ≠ makeName p n := fun e => hk (by
            obtain ⟨h1, h2⟩ := makeName_inj hp' hp e
            exact ⟨h1.symm, h2.symm⟩)
          simp [this, hk]
      · intro k v hkv
        rw [mem_iff (ok_put hi.okS _ _), get_put hi.okS] at hkv
        by_cases hk : k = makeName p n
        · exact ⟨p, n, hp, hk⟩
        · simp only [hk, if_false] at hkv
          exact hi.keysS k v ((mem_iff hi.okS k v).2 hkv)
    · rename_i he
      refine { hi with static := ?_ }
      intro p' n' hp'
      rw [hx]; simp [he, hi.static p' n' hp']
  | measurement t d p now =>
    have hp := hp p rfl
    simp only [step, measurement, inv_isEnabled hi, hi.timer]
    have hx : ∀ p' n', samples p' n' (.measurement t d p now :: h)
        = match (if Enabled h p then some (p, d, ((now - timerAt t h : Int) : ℚ) / 1000000) else none) with
          | some (p1, n1, x) => if p1 = p' ∧ n1 = n' then samples p' n' h ++ [x] else samples p' n' h
          | none => samples p' n' h := fun _ _ => rfl
    split
    · rename_i he
      have hi1 : Inv h { m with timers := put m.timers t (timerAt t h) } := by
        refine { hi with okT := ok_put hi.okT _ _, timer := ?_ }
        intro t'
        rw [get_put hi.okT]
        by_cases ht : t' = t
        · simp [ht]
        · simp [ht, hi.timer]
      obtain ⟨h1, h2, h3, h4, h5⟩ := addEvent_inv hi1 p d (millis (timerAt t h) now) hp he
        (fun p' n' => samples p' n' (.measurement t d p now :: h))
        (fun p' n' => by rw [hx]; simp [he, millis])
      rw [h5]
      exact { hi1 with okD := h2, buffer := h3, data := h1, keysD := h4 }
    · rename_i he
      refine { hi with data := ?_ }
      intro p' n' hp'
      rw [hx]; simp [he, hi.data p' n' hp']
  | startStop t d p now =>
    have hp := hp p rfl
    simp only [step, startStop, inv_isEnabled hi, hi.timer]
    have hx : ∀ p' n', samples p' n' (.startStop t d p now :: h)
        = match (if Enabled h p ∧ timerAt t h ≠ 0 then
              some (p, d, ((now - timerAt t h : Int) : ℚ) / 1000000) else none) with
          | some (p1, n1, x) => if p1 = p' ∧ n1 = n' then samples p' n' h ++ [x] else samples p' n' h
          | none => samples p' n' h := fun _ _ => rfl
    have hy : ∀ t', timerAt t' (.startStop t d p now :: h)
        = if t = t' ∧ Enabled h p ∧ (timerAt t' h ≠ 0 ∨ flagAt h) then now else timerAt t' h :=
      fun _ => rfl
    split
    · rename_i he
      have hi1 : Inv h { m with timers := put m.timers t (timerAt t h) } := by
        refine { hi with okT := ok_put hi.okT _ _, timer := ?_ }
        intro t'
        rw [get_put hi.okT]
        by_cases ht : t' = t
        · simp [ht]
        · simp [ht, hi.timer]
      split
      · rename_i hz
        obtain ⟨h1, h2, h3, h4, h5⟩ := addEvent_inv hi1 p d (millis (timerAt t h) now) hp he
          (fun p' n' => samples p' n' (.startStop t d p now :: h))
          (fun p' n' => by rw [hx]; simp [he, hz, millis])
        simp only
        rw [h5]
        refine { hi1 with okD := h2, buffer := h3, data := h1, keysD := h4, okT := ok_put hi1.okT _ _, timer := ?_ }
        intro t'
        rw [hy, get_put hi1.okT]
        by_cases ht : t' = t
        · subst ht; simp [he, hz]
        · rw [if_neg ht, hi1.timer t']; simp [Ne.symm ht]
      · rename_i hz
        have hz : timerAt t h = 0 := not_not.1 hz
        simp only [start]
        split
        · rename_i hf
          have hf' : flagAt h = true := by rw [← hi.enabled]; exact hf
          refine { hi1 with okT := ok_put hi1.okT _ _, timer := ?_, data := ?_ }
          · intro t'
            rw [hy, get_put hi1.okT]
            by_cases ht : t' = t
            · subst ht; simp [he, hf']
            · rw [if_neg ht, hi1.timer t']; simp [Ne.symm ht]
          · intro p' n' hp'
            rw [hx]; simp [hz, hi.data p' n' hp']
        · rename_i hf
          have hf' : flagAt h = false := by rw [← hi.enabled]; simpa using hf
          refine { hi1 with timer := ?_, data := ?_ }
          · intro t'
            rw [hy, hi1.timer t']
            by_cases ht : t' = t
            · subst ht; simp [hf', hz]
            · simp [Ne.symm ht]
          · intro p' n' hp'
            rw [hx]; simp [hz, hi.data p' n' hp']
    · rename_i he
      refine { hi with data := ?_, timer := ?_ }
      · intro t'; rw [hy]; simp [he, hi.timer]
      · intro p' n' hp'
        rw [hx]; simp [he, hi.data p' n' hp']

theorem inv_run (h : List Op) (hp : PlainPrefixes h) : Inv h (run h) := by
  induction h with
  | nil =>
    exact { enabled := rfl, all := rfl, okP := ok_nil, okD := ok_nil, okN := ok_nil, okT := ok_nil,
            okS := ok_nil, pfx := fun _ => rfl, timer := fun _ => rfl, buffer := by simp [run],
            data := fun _ _ _ => rfl, nontime := fun _ _ _ => rfl, static := fun _ _ _ => rfl,
            keysD := by simp [run], keysN := by simp [run], keysS := by simp [run] }
  | cons op h ih =>
    exact inv_step (ih fun o ho => hp o (by simp [ho])) op (hp op (by simp))

end Verif.Perf
