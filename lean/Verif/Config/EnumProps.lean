import Verif.Config.EnumModel
import Verif.Util.SmallProps

/-!
# C81: enumerations in the configuration
-/
namespace Verif.Cfg

open Verif.Small (Terminated cstr string2Enum string2EnumVec string2EnumVecLoop)

theorem cstr_self {t : S} (hz : '\x00' ∉ t) : cstr t = t := by
  unfold cstr
  induction t with
  | nil => rfl
  | cons c t ih =>
    rw [List.mem_cons, not_or] at hz
    rw [List.takeWhile_cons, if_pos (by simpa using Ne.symm hz.1), ih hz.2]

/-- What the configuration says for a key: the text, if there is one that is among the names. -/
def Named (items : List (S × S)) (ts : List S) (key t : S) : Prop :=
  ∃ s, lookup items key = some s ∧ cstr s = t ∧ t ∈ ts

/-- **C81.** Reading an enum succeeds exactly if the configured text is one of the names; the variable is
then the index of that name, and otherwise unchanged.  The names are read only up to their terminator, and
the uninitialised `raw_value` is never used. -/
theorem c81_read (items : List (S × S)) (ds : List (Option S)) (mark : Option S) (ts : List S)
    (h : Terminated ds mark ts) (raw : Int) (key : S) (v : EnumVar) :
    ∃ b v', enumGet items ds mark raw key v = .ok (b, v') ∧
      (b = true ↔ ∃ t, Named items ts key t) ∧
      (b = true → ∃ i : Nat, v'.value = i ∧ ∃ t, ts[i]? = some t ∧ Named items ts key t) ∧
      (b = false → v'.value = v.value) := by
  unfold enumGet Named
  cases hl : lookup items key with
  | none => exact ⟨false, v, rfl, by simp, by simp, by simp⟩
  | some s =>
    obtain ⟨x, b, h1, h2, h3, h4⟩ := Verif.Small.c19_string2Enum s raw ds mark ts h
    simp only [h1, Outcome.map]
    cases b with
    | true =>
      obtain ⟨i, e, _, h5, _⟩ := h3 rfl
      refine ⟨true, ⟨x, s⟩, rfl, ?_, fun _ => ⟨i, e, cstr s, h5, s, rfl, rfl, h2.1 rfl⟩, by simp⟩
      simp only [true_iff]
      exact ⟨cstr s, s, rfl, rfl, h2.1 rfl⟩
    | false =>
      refine ⟨false, { v with str := s }, rfl, ?_, by simp, fun _ => rfl⟩
      simp only [Bool.false_eq_true, false_iff]
      rintro ⟨t, s', e, e', hm⟩
      cases e
      subst e'
      exact absurd (h2.2 hm) (by simp)

/-- **C81.** The uninitialised variable has no influence. -/
theorem c81_uninitialised_irrelevant (items : List (S × S)) (ds : List (Option S)) (mark : Option S) (ts : List S)
    (h : Terminated ds mark ts) (raw raw' : Int) (key : S) (v : EnumVar) :
    enumGet items ds mark raw key v = enumGet items ds mark raw' key v := by
  have hv : ∀ (str : S) (ts : List S) (i : Nat) (a b : Int × Bool), a = b ∨ (a.2 = false ∧ b.2 = false) →
      string2EnumVecLoop str ts i a = string2EnumVecLoop str ts i b ∨
      ((string2EnumVecLoop str ts i a).2 = false ∧ (string2EnumVecLoop str ts i b).2 = false) := by
    intro str ts
    induction ts with
    | nil => intro i a b h; exact h
    | cons t ts ih =>
      intro i a b h
      simp only [string2EnumVecLoop]
      apply ih
      by_cases e : str = t
      · simp [e]
      · simpa [e] using h
  unfold enumGet
  cases lookup items key with
  | none => rfl
  | some s =>
    simp only [string2Enum, Verif.Small.enumLoop_eq_vec s h, Outcome.map]
    rcases hv (cstr s) ts 0 (raw, false) (raw', false) (Or.inr ⟨rfl, rfl⟩) with e | ⟨e1, e2⟩
    · rw [e]
    · rw [e1, e2]
      rfl

/-- **C81.** Different names: the name number `i` in the configuration gives the value `i`. -/
theorem c81_round_trip (items : List (S × S)) (ds : List (Option S)) (mark : Option S) (ts : List S)
    (h : Terminated ds mark ts) (hnd : ts.Nodup) (raw : Int) (key : S) (v : EnumVar) (i : Nat) (t : S)
    (hi : ts[i]? = some t) (hz : '\x00' ∉ t) (hl : lookup items key = some t) :
    ∃ v', enumGet items ds mark raw key v = .ok (true, v') ∧ v'.value = i ∧ v'.str = t := by
  have hc : cstr t = t := cstr_self hz
  obtain ⟨b, v', h1, h2, h3, _⟩ := c81_read items ds mark ts h raw key v
  have hb : b = true := h2.2 ⟨t, t, hl, hc, List.mem_of_getElem? hi⟩
  subst hb
  obtain ⟨j, e, t', hj, s, hs, hs', _⟩ := h3 rfl
  rw [hl] at hs
  cases hs
  rw [hc] at hs'
  subst hs'
  have : j = i := by
    have hil : i < ts.length := by
      rcases Nat.lt_or_ge i ts.length with h | h
      · exact h
      · rw [List.getElem?_eq_none h] at hi; cases hi
    exact (List.getElem?_inj (by
      rcases Nat.lt_or_ge j ts.length with h | h
      · exact h
      · rw [List.getElem?_eq_none h] at hj; cases hj) hnd).1 (hj.trans hi.symm)
  subst this
  refine ⟨v', h1, e, ?_⟩
  unfold enumGet at h1
  rw [hl] at h1
  simp only at h1
  cases hs : string2Enum t raw ds mark with
  | ok r =>
    rw [hs] at h1
    simp only [Outcome.map, Outcome.ok.injEq] at h1
    split at h1
    · cases h1; rfl
    · cases h1
  | throws e => rw [hs] at h1; cases h1
  | ub => rw [hs] at h1; cases h1

/-- **C81.** With a default the read always succeeds: the variable is the index of the configured name, or
the default. -/
theorem c81_default (items : List (S × S)) (ds : List (Option S)) (mark : Option S) (ts : List S)
    (h : Terminated ds mark ts) (raw dflt : Int) (key : S) (v : EnumVar) :
    ∃ v', enumGetDefault items ds mark raw dflt key v = .ok (true, v') ∧
      ((∃ i : Nat, v'.value = i ∧ ∃ t, ts[i]? = some t ∧ Named items ts key t) ∨
       ((¬ ∃ t, Named items ts key t) ∧ v'.value = dflt)) := by
  obtain ⟨b, v', h1, h2, h3, _⟩ := c81_read items ds mark ts h raw key v
  unfold enumGetDefault
  rw [h1]
  simp only [Outcome.map]
  cases b with
  | true => exact ⟨v', rfl, Or.inl (h3 rfl)⟩
  | false => exact ⟨⟨dflt, intText dflt⟩, rfl, Or.inr ⟨fun hh => by simpa using h2.2 hh, rfl⟩⟩

/-- **C81.** `ConfigEnumDefault` hides mistakes: a configured text that is no name at all is replaced by the
default, the read reports success, and `stringValue()` is the number of the default, not a name. -/
theorem c81_default_hides_mistakes (items : List (S × S)) (ds : List (Option S)) (mark : Option S) (ts : List S)
    (h : Terminated ds mark ts) (raw dflt : Int) (key s : S) (v : EnumVar) (hl : lookup items key = some s)
    (hn : cstr s ∉ ts) : enumGetDefault items ds mark raw dflt key v = .ok (true, ⟨dflt, intText dflt⟩) := by
  obtain ⟨b, v', h1, h2, _, _⟩ := c81_read items ds mark ts h raw key v
  have hb : b = false := by
    cases b with
    | false => rfl
    | true =>
      obtain ⟨t, s', e, e', hm⟩ := h2.1 rfl
      rw [hl] at e
      cases e
      exact absurd (e' ▸ hm) hn
  subst hb
  unfold enumGetDefault
  rw [h1]
  rfl

/-- **C81.** After a failed read, `stringValue()` may show a text that was not accepted. -/
theorem c81_failed_read_keeps_text (items : List (S × S)) (ds : List (Option S)) (mark : Option S) (ts : List S)
    (h : Terminated ds mark ts) (raw : Int) (key s : S) (v : EnumVar) (hl : lookup items key = some s)
    (hn : cstr s ∉ ts) : enumGet items ds mark raw key v = .ok (false, ⟨v.value, s⟩) := by
  obtain ⟨x, b, h1, h2, _, _⟩ := Verif.Small.c19_string2Enum s raw ds mark ts h
  have hb : b = false := by
    cases b with
    | false => rfl
    | true => exact absurd (h2.1 rfl) hn
  subst hb
  unfold enumGet
  rw [hl]
  simp only [h1, Outcome.map]
  rfl

theorem copyDescs_spec {ds : List (Option S)} {mark : Option S} {ts : List S} (h : Terminated ds mark ts) :
    copyDescs mark ds = .ok ts := by
  induction h with
  | null rest => rfl
  | marker m rest => simp [copyDescs]
  | consNull t _ ih => simp [copyDescs, ih, Outcome.map]
  | consMarker t m hne _ ih => simp [copyDescs, ih, hne, Outcome.map]

/-- **C81.** `MemberEnum` reads the same as `ConfigEnum`, for texts without NUL characters. -/
theorem c81_member_enum_agrees (items : List (S × S)) (ds : List (Option S)) (mark : Option S) (ts : List S)
    (h : Terminated ds mark ts) (raw : Int) (key : S) (v : EnumVar) (hz : ∀ s, lookup items key = some s → '\x00' ∉ s) :
    copyDescs mark ds = .ok ts ∧ enumGet items ds mark raw key v = .ok (memberEnumGet items ts raw key v) := by
  refine ⟨copyDescs_spec h, ?_⟩
  unfold enumGet memberEnumGet
  cases hl : lookup items key with
  | none => rfl
  | some s =>
    have hc : cstr s = s := cstr_self (hz s hl)
    simp only [string2Enum, Verif.Small.enumLoop_eq_vec s h, hc, Outcome.map, string2EnumVec]
    rfl

example : Terminated [some ['a'], some ['b'], none] none [['a'], ['b']] ∧
    enumGetDefault [("/k".toList, ['x'])] [some ['a'], some ['b'], none] none 77 1 "/k".toList ⟨0, []⟩ = .ok (true, ⟨1, ['1']⟩) ∧
    enumGet [("/k".toList, ['b'])] [some ['a'], some ['b'], none] none 77 "/k".toList ⟨0, []⟩ = .ok (true, ⟨1, ['b']⟩) :=
  ⟨.consNull _ (.consNull _ (.null [])), by decide +kernel, by decide +kernel⟩

end Verif.Cfg
