import Verif.Config.ListProps

/-!
# C72: further calls of `get` on the same list object, exactly

For all configurations, prefixes and keys (no restriction to plain prefixes or tidy keys).
-/
namespace Verif.Config.CList

/-- Specification: the new fields of an element over those it had. -/
def overlay {V : Type} : Option (Elem V) → Option (Elem V) → Option (Elem V)
  | none, f => f
  | some s, none => some s
  | some s, some f => some fun x => (f x).or (s x)

/-- The run from stored elements and the run of a fresh object. -/
structure Sim {V : Type} (stored : List (S × Elem V)) (a b : St V) : Prop where
  oka : StrMap.Ok a.elements
  okb : StrMap.Ok b.elements
  res : a.result = b.result
  err : a.error = b.error
  el : ∀ n, StrMap.get a.elements n = overlay (StrMap.get stored n) (StrMap.get b.elements n)

theorem sim_step {V : Type} {stored : List (S × Elem V)} {a b : St V} (items : List (S × S)) (p : S) (ms : List (Member V))
    (k : S) (h : Sim stored a b) : Sim stored (step items p ms a k) (step items p ms b k) := by
  obtain ⟨oka, okb, res, err, el⟩ := h
  unfold step
  cases hk : matchKey p k with
  | none => exact ⟨oka, okb, res, err, el⟩
  | some y =>
    obtain ⟨element, suffix⟩ := y
    simp only
    cases hf : ms.find? (fun m => m.suffix == suffix) with
    | none => exact ⟨oka, okb, res, err, el⟩
    | some m =>
      simp only
      have hel := el element
      cases hc : (StrMap.get items k).bind m.conv with
      | some v =>
        refine ⟨StrMap.ok_put oka _ _, StrMap.ok_put okb _ _, rfl, err, fun n => ?_⟩
        simp only [StrMap.get_put oka, StrMap.get_put okb]
        by_cases e : n = element
        · subst e
          simp only [if_true]
          rw [hel]
          cases StrMap.get stored n <;> cases StrMap.get b.elements n <;>
            simp [overlay, default]
          all_goals (funext x; split <;> simp_all)
        · simp only [e, if_false]; exact el n
      | none =>
        refine ⟨StrMap.ok_put oka _ _, StrMap.ok_put okb _ _, res, rfl, fun n => ?_⟩
        simp only [StrMap.get_put oka, StrMap.get_put okb]
        by_cases e : n = element
        · subst e
          simp only [if_true]
          rw [hel]
          cases StrMap.get stored n <;> cases StrMap.get b.elements n <;>
            simp [overlay, default]
        · simp only [e, if_false]; exact el n

theorem sim_fold {V : Type} {stored : List (S × Elem V)} (items : List (S × S)) (p : S) (ms : List (Member V)) (l : List S) :
    ∀ a b : St V, Sim stored a b → Sim stored (l.foldl (step items p ms) a) (l.foldl (step items p ms) b) := by
  induction l with
  | nil => intro a b h; exact h
  | cons k l ih => intro a b h; exact ih _ _ (sim_step items p ms k h)

theorem sim_get {V : Type} (items : List (S × S)) (pre cfg : S) (ms : List (Member V)) (stored : List (S × Elem V))
    (hs : StrMap.Ok stored) :
    Sim stored ((items.map Prod.fst).foldl (step items (pre ++ cfg) ms) ⟨stored, false, false⟩)
      ((items.map Prod.fst).foldl (step items (pre ++ cfg) ms) ⟨[], false, false⟩) := by
  refine sim_fold items _ ms _ _ _ ⟨hs, StrMap.ok_nil, rfl, rfl, fun n => ?_⟩
  show StrMap.get stored n = overlay (StrMap.get stored n) (StrMap.get [] n)
  rw [show StrMap.get ([] : List (S × Elem V)) n = none from by simp]
  cases StrMap.get stored n <;> rfl

/-- C72, a further call on the same object, for every configuration, prefix and list of members: it succeeds if and only if
the call on a fresh object would; the object then holds the elements stored before together with those of the fresh object;
a field that is configured now has its new value, all other fields those they had. If the call succeeds,
all of these elements are written, in ascending order of their names. -/
theorem c72_further_call_exact {V : Type} (items : List (S × S)) (pre cfg : S) (ms : List (Member V))
    (stored : List (S × Elem V)) (hs : StrMap.Ok stored) :
    (get items pre cfg ms stored).1 = (get items pre cfg ms []).1 ∧
    (∀ n, StrMap.get (get items pre cfg ms stored).2.1 n =
      overlay (StrMap.get stored n) (StrMap.get (get items pre cfg ms []).2.1 n)) ∧
    ((get items pre cfg ms stored).2.1.map Prod.fst).Pairwise (· < ·) ∧
    ((get items pre cfg ms stored).1 = true →
      (get items pre cfg ms stored).2.2 = (get items pre cfg ms stored).2.1.map Prod.snd) := by
  have h := sim_get items pre cfg ms stored hs
  refine ⟨?_, h.el, ?_, fun hr => ?_⟩
  · simp only [get, h.res, h.err]
  · rw [List.pairwise_map]; exact h.oka
  · unfold get at hr ⊢
    simp only at hr ⊢
    rw [if_pos hr]

/-- One call of `get`: the configuration at that time, and the two parts of the prefix. -/
structure Call where
  items : List (S × S)
  pre : S
  cfg : S

/-- The elements stored after a history of calls. -/
def storedAfter {V : Type} (ms : List (Member V)) (h : List Call) : List (S × Elem V) :=
  h.foldl (fun st c => (get c.items c.pre c.cfg ms st).2.1) []

/-- What a call would read for element `n` with a fresh object. -/
def readBy {V : Type} (ms : List (Member V)) (n : S) (c : Call) : Option (Elem V) :=
  StrMap.get (get c.items c.pre c.cfg ms []).2.1 n

theorem storedAfter_snoc {V : Type} (ms : List (Member V)) (h : List Call) (c : Call) :
    storedAfter ms (h ++ [c]) = (get c.items c.pre c.cfg ms (storedAfter ms h)).2.1 := by
  simp [storedAfter, List.foldl_append]

theorem storedAfter_ok {V : Type} (ms : List (Member V)) (h : List Call) : StrMap.Ok (storedAfter ms h) := by
  rcases List.eq_nil_or_concat h with rfl | ⟨h, c, rfl⟩
  · exact StrMap.ok_nil
  · rw [List.concat_eq_append, storedAfter_snoc]
    have : ∀ h : List Call, StrMap.Ok (storedAfter ms h) := by
      intro h
      unfold storedAfter
      suffices ∀ st : List (S × Elem V), StrMap.Ok st →
          StrMap.Ok (h.foldl (fun st c => (get c.items c.pre c.cfg ms st).2.1) st) from this [] StrMap.ok_nil
      induction h with
      | nil => intro st hst; exact hst
      | cons c h ih => intro st hst; exact ih _ (sim_get c.items c.pre c.cfg ms st hst).oka
    exact (sim_get c.items c.pre c.cfg ms _ (this h)).oka

/-- C72, all histories of calls on one list object: the object holds an element exactly if some call has read it, and
every field has the value of the last call that read it (the default if none did): elements and fields that
have disappeared from the configuration, or belong to another prefix, stay. -/
theorem c72_history_exact {V : Type} (ms : List (Member V)) (h : List Call) (n : S) :
    ((StrMap.get (storedAfter ms h) n).isSome ↔ ∃ c ∈ h, (readBy ms n c).isSome) ∧
    ∀ e, StrMap.get (storedAfter ms h) n = some e →
      ∀ x, e x = h.reverse.findSome? fun c => (readBy ms n c).bind fun f => f x := by
  rw [← List.reverse_reverse h]
  generalize h.reverse = r
  induction r with
  | nil =>
    refine ⟨?_, fun e he => ?_⟩
    · simp [storedAfter]
    · simp [storedAfter] at he
  | cons c r ih =>
    obtain ⟨i1, i2⟩ := ih
    simp only [List.reverse_cons, List.reverse_reverse] at i1 i2 ⊢
    rw [storedAfter_snoc]
    have hx := (c72_further_call_exact c.items c.pre c.cfg ms _ (storedAfter_ok ms r.reverse)).2.1 n
    have hrb : StrMap.get (get c.items c.pre c.cfg ms []).2.1 n = readBy ms n c := rfl
    rw [hrb] at hx
    rw [hx]
    constructor
    · simp only [List.mem_append, List.mem_singleton]
      cases hs : StrMap.get (storedAfter ms r.reverse) n <;> cases hf : readBy ms n c <;>
        simp only [overlay, Option.isSome_none, Option.isSome_some, hs, Bool.false_eq_true, false_iff, true_iff] at i1 ⊢
      · rintro ⟨d, hd | rfl, h⟩
        · exact i1 ⟨d, hd, h⟩
        · rw [hf] at h; cases h
      · exact ⟨c, Or.inr rfl, by rw [hf]; rfl⟩
      · obtain ⟨d, hd, h⟩ := i1; exact ⟨d, Or.inl hd, h⟩
      · exact ⟨c, Or.inr rfl, by rw [hf]; rfl⟩
    · intro e he x
      simp only [List.reverse_append, List.reverse_cons, List.reverse_nil, List.nil_append, List.reverse_reverse,
        List.cons_append, List.findSome?_cons]
      cases hs : StrMap.get (storedAfter ms r.reverse) n <;> cases hf : readBy ms n c <;>
        simp only [overlay, hs, hf, Option.some.injEq, reduceCtorEq, Option.bind_none, Option.bind_some] at he i1 i2 ⊢
      · subst he
        rename_i f
        cases hfx : f x with
        | some v => rfl
        | none =>
          symm
          rw [List.findSome?_eq_none_iff]
          intro d hd
          cases hd' : readBy ms n d with
          | none => rfl
          | some g =>
            have := i1.2 ⟨d, by simpa using hd, by rw [hd']; rfl⟩
            cases this
      · subst he
        exact i2 _ rfl x
      · subst he
        rename_i s f
        have := i2 s rfl x
        cases hfx : f x with
        | some v => simp [hfx]
        | none => simpa [hfx] using this

/-- Two calls: first `left` with `id` and `max`, then a configuration without `left/max` and with a new `id`, and with `right`:
`max` of the first call stays. -/
example : (storedAfter exampleMembers
      [⟨exampleItems, "/robot".toList, "/motor".toList⟩,
       ⟨[("/robot/motor/left/id".toList, "7".toList)], "/robot".toList, "/motor".toList⟩]).map
      (fun e => (e.1, exampleMembers.map fun m => e.2 m.suffix)) =
    [("left".toList, [some "30".toList, some "7".toList]), ("right".toList, [none, some "2".toList])] := by
  decide +kernel

end Verif.Config.CList
