import Verif.Config.Observe.Lemmas
import Mathlib.Data.List.Induction

/-!
# Lemmas for C142: calls that are still to come
-/
namespace Verif.Cfg.Observe
open Verif.StdMap

variable {K V : Type} [LinearOrder K] [DecidableEq V] {e : K} {any : K → Bool} {rx : K → K → Bool}

/-- Observer `o` will still be called for `k`. -/
def Pending (o : Nat) (k : K) (st : List (Frame K)) : Prop :=
  (∃ r, Frame.telling r k ∈ st ∧ o ∈ r) ∨ ∃ last, Frame.listing o last ∈ st ∧ ∀ l, last = some l → l < k

theorem Pending.cons {o : Nat} {k : K} {st : List (Frame K)} (f : Frame K) (h : Pending o k st) : Pending o k (f :: st) := by
  rcases h with ⟨r, h1, h2⟩ | ⟨l, h1, h2⟩
  · exact .inl ⟨r, List.mem_cons_of_mem _ h1, h2⟩
  · exact .inr ⟨l, List.mem_cons_of_mem _ h1, h2⟩

theorem mem_obs {tr : List (Ev K V)} {s : St K V} (i : Inv tr s) {o : Nat} {k : K} (h : (o, k) ∈ active tr) :
    o ∈ s.obs k := by
  rw [i.obs]
  exact List.mem_map.2 ⟨(o, k), List.mem_filter.2 ⟨h, by simp⟩, rfl⟩

/-- The invariant behind `c142_told_current`. -/
def Told (e : K) (o : Nat) (k : K) (tr : List (Ev K V)) (s : St K V) : Prop :=
  Inv tr s ∧ (((o, k) ∈ active tr ∨ (o, e) ∈ active tr) → ∀ v, current k tr = some v →
    lastSeen o k tr = some (some v) ∨ Pending o k s.stack)

theorem Told.step {o : Nat} {k : K} (hany : ∀ q, any q = true) (hrx : rx k k = true)
    {tr : List (Ev K V)} {s s' : St K V} {ev : Ev K V} (i : Told e o k tr s) (h : step e any rx s ev = some s') :
    Told e o k (tr ++ [ev]) s' := by
  obtain ⟨i, hp⟩ := i
  refine ⟨i.step h, ?_⟩
  have hs := i.sorted
  have hi := i.items
  rcases step_cases h with ⟨k', v', rfl, _, rfl⟩ | ⟨o', k', rfl, _, rfl⟩ | ⟨o', rfl, _, rfl⟩ | ⟨o', k', st, rfl, e1, rfl⟩ |
    ⟨o', k', r, st, rfl, e1, rfl⟩ | ⟨o', k', last, st, rfl, e1, e2, rfl⟩ | ⟨k', st, rfl, e1, rfl⟩ |
    ⟨o', last, st, rfl, e1, e2, rfl⟩
  · rw [active_snoc, current_snoc, lastSeen_snoc]
    intro ha v hv
    simp only at ha hv ⊢
    by_cases hk : k' = k
    · subst hk
      right; left
      refine ⟨_, List.mem_cons_self, ?_⟩
      rw [List.mem_append]
      rcases ha with ha | ha
      · exact .inl (mem_obs i ha)
      · exact .inr (mem_obs i ha)
    · rw [if_neg hk] at hv
      rcases hp ha v hv with h1 | h1
      · exact .inl h1
      · exact .inr (h1.cons _)
  · rw [active_snoc, current_snoc, lastSeen_snoc]
    intro ha v hv
    simp only at ha hv ⊢
    have old : ((o, k) ∈ active tr ∨ (o, e) ∈ active tr) →
        lastSeen o k tr = some (some v) ∨ Pending o k ((if k' = e then Frame.listing o' none
          else .telling (if s.items.any (fun x => rx k' x.1) = true then [o'] else []) k') :: s.stack) := by
      intro ha
      rcases hp ha v hv with h1 | h1
      · exact .inl h1
      · exact .inr (h1.cons _)
    simp only [List.mem_append, List.mem_singleton, Prod.mk.injEq] at ha
    by_cases hke : k' = e
    · rcases ha with (ha | ⟨rfl, rfl⟩) | (ha | ⟨rfl, _⟩)
      · exact old (.inl ha)
      · right; right
        exact ⟨none, by simp [hke], by simp⟩
      · exact old (.inr ha)
      · right; right
        exact ⟨none, by simp [hke], by simp⟩
    · rcases ha with (ha | ⟨rfl, rfl⟩) | (ha | ⟨rfl, h2⟩)
      · exact old (.inl ha)
      · right; left
        have hany' : s.items.any (fun x => rx k x.1) = true := by
          rw [List.any_eq_true]
          exact ⟨(k, v), (find_eq_some hs k v).1 (by rw [hi]; exact hv), hrx⟩
        exact ⟨[o], by simp [hke, hany'], by simp⟩
      · exact old (.inr ha)
      · exact absurd h2.symm hke
  · rw [active_snoc, current_snoc, lastSeen_snoc]
    intro ha v hv
    simp only [List.mem_filter] at ha hv ⊢
    exact hp (ha.imp And.left And.left) v hv
  · rw [active_snoc, current_snoc, lastSeen_snoc]
    intro ha v hv
    rcases hp ha v hv with h1 | h1
    · exact .inl h1
    · right
      rw [e1] at h1
      rcases h1 with ⟨r, h1, h2⟩ | ⟨l, h1, h2⟩
      · exact .inl ⟨r, by simpa using h1, h2⟩
      · exact .inr ⟨l, by simpa using h1, h2⟩
  · rw [active_snoc, current_snoc, lastSeen_snoc]
    intro ha v hv
    simp only at ha hv ⊢
    by_cases ho : o' = o ∧ k' = k
    · left
      rw [if_pos ho, hi, ho.2, hv]
    · rw [if_neg ho]
      rcases hp ha v hv with h1 | h1
      · exact .inl h1
      · right
        rw [e1] at h1
        rcases h1 with ⟨r', h1, h2⟩ | ⟨l, h1, h2⟩
        · rcases List.mem_cons.1 h1 with h1 | h1
          · cases h1
            have : o ∈ r := by
              rcases List.mem_cons.1 h2 with h2 | h2
              · exact absurd ⟨h2.symm, rfl⟩ ho
              · exact h2
            exact .inl ⟨r, by simp, this⟩
          · exact .inl ⟨r', by simp [h1], h2⟩
        · exact .inr ⟨l, by simp at h1; simp [h1], h2⟩
  · rw [active_snoc, current_snoc, lastSeen_snoc]
    intro ha v hv
    simp only at ha hv ⊢
    by_cases ho : o' = o ∧ k' = k
    · left
      rw [if_pos ho, hi, ho.2, hv]
    · rw [if_neg ho]
      rcases hp ha v hv with h1 | h1
      · exact .inl h1
      · right
        rw [e1] at h1
        rcases h1 with ⟨r', h1, h2⟩ | ⟨l, h1, h2⟩
        · exact .inl ⟨r', by simp at h1; simp [h1], h2⟩
        · rcases List.mem_cons.1 h1 with h1 | h1
          · cases h1
            rcases nextKey_least hs e2 (q := k) (v := v) (by rw [hi]; exact hv) (hany k) h2 with h3 | h3
            · exact absurd ⟨rfl, h3.symm⟩ ho
            · exact .inr ⟨some k', by simp, by rintro l ⟨⟩; exact h3⟩
          · exact .inr ⟨l, by simp [h1], h2⟩
  · rw [active_snoc, current_snoc, lastSeen_snoc]
    intro ha v hv
    rcases hp ha v hv with h1 | h1
    · exact .inl h1
    · right
      rw [e1] at h1
      rcases h1 with ⟨r, h1, h2⟩ | ⟨l, h1, h2⟩
      · rcases List.mem_cons.1 h1 with h1 | h1
        · cases h1; cases h2
        · exact .inl ⟨r, h1, h2⟩
      · exact .inr ⟨l, by simpa using h1, h2⟩
  · rw [active_snoc, current_snoc, lastSeen_snoc]
    intro ha v hv
    rcases hp ha v hv with h1 | h1
    · exact .inl h1
    · right
      rw [e1] at h1
      rcases h1 with ⟨r, h1, h2⟩ | ⟨l, h1, h2⟩
      · exact .inl ⟨r, by simpa using h1, h2⟩
      · rcases List.mem_cons.1 h1 with h1 | h1
        · cases h1
          exact (nextKey_none hs e2 (q := k) (v := v) (by rw [hi]; exact hv) (hany k) h2).elim
        · exact .inr ⟨l, h1, h2⟩

/-! ## Counting -/

/-- Calls of `o` for `k` in the frame. -/
def dueFrame (o : Nat) (k : K) : Frame K → Nat
  | .telling r k' => if k' = k then r.count o else 0
  | _ => 0

/-- Calls of `o` for `k` in the stack. -/
def due (o : Nat) (k : K) (st : List (Frame K)) : Nat := (st.map (dueFrame o k)).sum

theorem due_cons (o : Nat) (k : K) (f : Frame K) (st : List (Frame K)) :
    due o k (f :: st) = dueFrame o k f + due o k st := by simp [due]

theorem count_active (o : Nat) (k : K) (l : List (Nat × K)) :
    ((l.filter fun a => a.2 = k).map Prod.fst).count o = l.count (o, k) := by
  induction l with
  | nil => rfl
  | cons a l ih =>
    obtain ⟨o', k'⟩ := a
    by_cases hk : k' = k
    · subst hk
      by_cases ho : o' = o
      · subst ho; simp [ih]
      · have : ((o', k') : Nat × K) ≠ (o, k') := by simp [ho]
        simp [ih, ho]
    · have : ((o', k') : Nat × K) ≠ (o, k) := by simp [hk]
      rw [List.count_cons_of_ne this, ← ih]
      simp [hk]

theorem current_ne_none (k : K) (tr : List (Ev K V)) : (∃ v, current k tr = some v) ↔ ∃ v, Ev.set k v ∈ tr := by
  induction tr using List.reverseRecOn with
  | nil => simp [current]
  | append_singleton tr ev ih =>
    rw [current_snoc]
    simp only [List.mem_append, List.mem_singleton]
    cases ev with
    | set k' v' =>
      by_cases hk : k' = k
      · subst hk; simp only [if_true]; exact ⟨fun _ => ⟨v', .inr rfl⟩, fun _ => ⟨v', rfl⟩⟩
      · simp only [if_neg hk]
        rw [ih]
        constructor
        · rintro ⟨v, hv⟩; exact ⟨v, .inl hv⟩
        · rintro ⟨v, hv | hv⟩
          · exact ⟨v, hv⟩
          · cases hv; exact absurd rfl hk
    | _ => simpa using ih

theorem any_match {tr : List (Ev K V)} {s : St K V} (i : Inv tr s) (q : K) :
    s.items.any (fun x => rx q x.1) = matchSet rx q tr := by
  rw [Bool.eq_iff_iff, List.any_eq_true]
  simp only [matchSet, List.any_eq_true]
  constructor
  · rintro ⟨⟨k, v⟩, hm, hr⟩
    have := (find_eq_some i.sorted k v).2 hm
    rw [i.items] at this
    obtain ⟨v', hv'⟩ := (current_ne_none k tr).1 ⟨v, this⟩
    exact ⟨_, hv', hr⟩
  · rintro ⟨ev, hm, hr⟩
    cases ev with
    | set k v =>
      obtain ⟨v', hv'⟩ := (current_ne_none k tr).2 ⟨v, hm⟩
      rw [← i.items] at hv'
      exact ⟨(k, v'), (find_eq_some i.sorted k v').1 hv', hr⟩
    | _ => simp at hr

/-- The invariant behind `c142_exact_calls`. -/
def Counted (e : K) (rx : K → K → Bool) (o : Nat) (k : K) (tr : List (Ev K V)) (s : St K V) : Prop :=
  (∀ ev ∈ tr, ev ≠ .reg o e) → Inv tr s ∧ (∀ last, Frame.listing o last ∉ s.stack) ∧
    calls o k tr + due o k s.stack = owed e rx o k [] tr

theorem Counted.step {o : Nat} {k : K} {tr : List (Ev K V)} {s s' : St K V} {ev : Ev K V}
    (i : Counted e rx o k tr s) (h : step e any rx s ev = some s') : Counted e rx o k (tr ++ [ev]) s' := by
  intro hno
  obtain ⟨i, hl, hc⟩ := i (fun ev hev => hno ev (List.mem_append_left _ hev))
  have hev : ev ≠ .reg o e := hno ev (by simp)
  refine ⟨i.step h, ?_⟩
  have ho := i.obs
  rw [calls_snoc, owed_append]
  simp only [List.nil_append, owed, Nat.add_zero]
  rcases step_cases h with ⟨k', v', rfl, _, rfl⟩ | ⟨o', k', rfl, _, rfl⟩ | ⟨o', rfl, _, rfl⟩ | ⟨o', k', st, rfl, e1, rfl⟩ |
    ⟨o', k', r, st, rfl, e1, rfl⟩ | ⟨o', k', last, st, rfl, e1, e2, rfl⟩ | ⟨k', st, rfl, e1, rfl⟩ |
    ⟨o', last, st, rfl, e1, e2, rfl⟩
  · refine ⟨by simpa using hl, ?_⟩
    rw [due_cons]
    simp only [dueFrame, List.count_append, ho, count_active]
    split
    · rename_i hk; subst hk; omega
    · omega
  · refine ⟨?_, ?_⟩
    · intro last hm
      rcases List.mem_cons.1 hm with hm | hm
      · split at hm
        · rename_i hke; cases hm; exact hev (by rw [hke])
        · cases hm
      · exact hl _ hm
    · rw [due_cons, any_match i]
      by_cases hke : k' = e
      · have : ¬ (o' = o ∧ k' = k ∧ matchSet rx k tr = true) := by
          rintro ⟨rfl, _, _⟩; exact hev (by rw [hke])
        simp only [if_pos hke, if_neg this, dueFrame]
        omega
      · by_cases hk : k' = k
        · subst hk
          rcases Bool.eq_false_or_eq_true (matchSet rx k' tr) with hm | hm <;> by_cases hoo : o' = o <;>
            simp [dueFrame, hke, hoo, hm] <;> omega
        · simp [dueFrame, hke, hk]; omega
  · exact ⟨hl, by simp only; omega⟩
  · rw [e1] at hl hc
    rw [due_cons] at hc
    refine ⟨fun last hm => hl last (List.mem_cons_of_mem _ hm), ?_⟩
    simp only [dueFrame] at hc
    simp only; omega
  · rw [e1] at hl hc
    rw [due_cons] at hc
    refine ⟨fun last hm => hl last (by simpa using hm), ?_⟩
    simp only [due_cons, dueFrame] at hc ⊢
    by_cases hk : k' = k
    · subst hk
      by_cases hoo : o' = o
      · subst hoo; simp at hc ⊢; omega
      · simp [hoo] at hc ⊢; omega
    · simp [hk] at hc ⊢; omega
  · rw [e1] at hl hc
    have hoo : o' ≠ o := by rintro rfl; exact hl last (by simp)
    rw [due_cons] at hc
    refine ⟨fun last' hm => ?_, ?_⟩
    · simp only [List.mem_cons, reduceCtorEq, false_or] at hm
      rcases hm with hm | hm
      · cases hm; exact hoo rfl
      · exact hl last' (List.mem_cons_of_mem _ hm)
    · simp only [due_cons, dueFrame] at hc ⊢
      simp [hoo]; omega
  · rw [e1] at hl hc
    rw [due_cons] at hc
    refine ⟨fun last hm => hl last (List.mem_cons_of_mem _ hm), ?_⟩
    simp only [dueFrame, List.count_nil, ite_self] at hc
    simp only; omega
  · rw [e1] at hl hc
    rw [due_cons] at hc
    refine ⟨fun last' hm => hl last' (List.mem_cons_of_mem _ hm), ?_⟩
    simp only [dueFrame] at hc
    simp only; omega

end Verif.Cfg.Observe
