import Verif.Conc.Registry.ConfigSpec
import Verif.Conc.Registry.Foot

/-!
# C144: which calls of the configuration manager may run at the same time
-/
namespace Verif.Registry.Conf
open Verif.Cfg Verif.StdMap Race

variable {rx : S → S → Bool}

theorem set_mem_items (m : Mgr) (x : List (S × S)) : set (mem m) .items x = mem { m with items := x } := by
  funext v; cases v <;> rfl

theorem set_mem_observers (m : Mgr) (x : List (S × List Nat)) : set (mem m) .observers x = mem { m with observers := x } := by
  funext v; cases v <;> rfl

theorem mem_calls (m : Mgr) (x : List (Nat × S × Option S)) : mem { m with calls := x } = mem m := by
  funext v; cases v <;> rfl

theorem filter_absent (o : Nat) : ∀ l : List (S × List Nat), (l.any fun e => e.2.contains o) = false →
    (l.map fun e => (e.1, e.2.filter (· ≠ o))) = l
  | [], _ => rfl
  | e :: l, h => by
    simp only [List.any_cons, Bool.or_eq_false_iff] at h
    have h1 : e.2.filter (· ≠ o) = e.2 := by
      rw [List.filter_eq_self]
      intro a ha
      simp only [ne_eq, decide_not, Bool.not_eq_true', decide_eq_false_iff_not]
      rintro rfl
      simp [ha] at h
    rw [List.map_cons, filter_absent o l h.2, h1]

/-- The calls, access by access, do what the model of C41 does. -/
theorem c144_as_alone (rx : S → S → Bool) (op : Op) (m : Mgr) :
    ∃ tr, ∀ n, alone (call rx op) (mem m) n = (answer rx m op, mem (after rx m op), n, tr) := by
  cases op with
  | isInitialized => exact ⟨[.rd .initialized], fun n => rfl⟩
  | get k => exact ⟨[.rd .items], fun n => rfl⟩
  | hasKey k => exact ⟨[.rd .items], fun n => rfl⟩
  | list q => exact ⟨[.rd .items], fun n => rfl⟩
  | insert k v => exact ⟨_, fun n => by
      simp only [call, insertItem, alone, mem, set_mem_items]; rfl⟩
  | setValue k v => exact ⟨_, fun n => by
      simp only [call, insertItem, alone, mem, set_mem_items, answer, after, put, notify, Cfg.insert, newCalls, List.drop_left,
        List.map_map, mem_calls]
      rfl⟩
  | registerObserver o k =>
    refine ⟨[.rd .observers, .wr .observers, .rd .items], fun n => ?_⟩
    simp only [call, alone, mem, set_mem_observers]
    by_cases hk : k = []
    · simp only [hk, if_true, alone, answer, after, Cfg.registerObserver, newCalls, List.drop_left, List.map_map, mem_calls]
      rfl
    · by_cases ha : (m.items.any fun e => rx k e.1) = true
      · simp only [hk, if_false, ha, if_true, alone, answer, after, Cfg.registerObserver, newCalls, List.drop_left, mem_calls]
        rfl
      · simp only [hk, if_false, ha, Bool.false_eq_true, alone, answer, after, Cfg.registerObserver, newCalls, List.drop_length]
        rfl
  | unregisterObserver o =>
    by_cases ha : (m.observers.any fun e => e.2.contains o) = true
    · refine ⟨[.rd .observers, .wr .observers], fun n => ?_⟩
      simp only [call, alone, mem, ha, if_true, set_mem_observers]; rfl
    · refine ⟨[.rd .observers], fun n => ?_⟩
      simp only [call, alone, mem, ha, if_false, after, Cfg.unregisterObserver]
      rw [filter_absent o _ (by simpa using ha)]; rfl

theorem alone_inOrder (rx : S → S → Bool) : ∀ (cs : List Op) (m : Mgr) (n : Nat),
    (alone (inOrder (call rx) cs) (mem m) n).1 = answers rx m cs
  | [], m, n => rfl
  | c :: cs, m, n => by
    obtain ⟨tr, h⟩ := c144_as_alone rx c m
    simp only [inOrder, alone_bind, h, answers, alone_inOrder rx cs (after rx m c)]
    rfl

/-- The variables that calls may read. -/
def reads (cs : List Op) : Var → Prop
  | .items => ∃ c ∈ cs, UsesValues c
  | .observers => ∃ c ∈ cs, UsesObservers c
  | .initialized => True

/-- The variables that calls may write. -/
def writes (cs : List Op) : Var → Prop
  | .items => ∃ c ∈ cs, ChangesValues c
  | .observers => ∃ c ∈ cs, ChangesObservers c
  | .initialized => False

theorem within_call {cs : List Op} : ∀ c ∈ cs, Within (reads cs) (writes cs) (call rx c) := by
  intro c hc
  cases c with
  | isInitialized => exact ⟨trivial, fun _ => trivial⟩
  | get k => exact ⟨⟨_, hc, trivial⟩, fun _ => trivial⟩
  | hasKey k => exact ⟨⟨_, hc, trivial⟩, fun _ => trivial⟩
  | list q => exact ⟨⟨_, hc, trivial⟩, fun _ => trivial⟩
  | insert k v => exact ⟨⟨_, hc, trivial⟩, fun _ => ⟨⟨_, hc, trivial⟩, trivial⟩⟩
  | setValue k v => exact ⟨⟨_, hc, trivial⟩, fun _ => ⟨⟨_, hc, trivial⟩, ⟨_, hc, trivial⟩, fun _ => trivial⟩⟩
  | registerObserver o k =>
    refine ⟨⟨_, hc, trivial⟩, fun _ => ⟨⟨_, hc, trivial⟩, ⟨_, hc, trivial⟩, fun x => ?_⟩⟩
    split
    · trivial
    · dsimp only; split <;> trivial
  | unregisterObserver o =>
    refine ⟨⟨_, hc, trivial⟩, fun x => ?_⟩
    dsimp only
    split
    · exact ⟨⟨_, hc, trivial⟩, trivial⟩
    · trivial

theorem uses_of_changes {cs : List Op} {v : Var} (h : writes cs v) : reads cs v := by
  cases v with
  | items => obtain ⟨c, hc, h⟩ := h; exact ⟨c, hc, by cases c <;> trivial⟩
  | observers => obtain ⟨c, hc, h⟩ := h; exact ⟨c, hc, by cases c <;> trivial⟩
  | initialized => trivial

theorem no_disturbance {ι : Type} {calls : ι → List Op}
    (hn : ∀ i j, i ≠ j → ∀ c ∈ calls i, ∀ d ∈ calls j, ¬ Disturbs c d) (i j : ι) (hij : i ≠ j) (v : Var)
    (hw : writes (calls j) v) : ¬ (reads (calls i) v ∨ writes (calls i) v) := by
  intro h
  have h : reads (calls i) v := h.elim id uses_of_changes
  cases v with
  | items =>
    obtain ⟨c, hc, h1⟩ := hw; obtain ⟨d, hd, h2⟩ := h
    exact hn j i (Ne.symm hij) c hc d hd (.inl ⟨h1, h2⟩)
  | observers =>
    obtain ⟨c, hc, h1⟩ := hw; obtain ⟨d, hd, h2⟩ := h
    exact hn j i (Ne.symm hij) c hc d hd (.inr ⟨h1, h2⟩)
  | initialized => exact hw

/-- Any number of threads, none of which uses what another one changes: no schedule has a data race, and whatever the
schedule, the calls of each thread answer, and tell the observers, what they would if no other thread ran. -/
theorem c144_no_race {ι : Type} [DecidableEq ι] (rx : S → S → Bool) (m : Mgr) (calls : ι → List Op)
    (hn : ∀ i j, i ≠ j → ∀ c ∈ calls i, ∀ d ∈ calls j, ¬ Disturbs c d) {sched tr w}
    (hx : (threads rx m calls).exec sched = some (tr, w)) :
    (∀ x, ¬ DataRace tr x) ∧ ∀ i l, w.prog i = .ret l → l = answers rx m (calls i) := by
  have hd := no_disturbance hn
  obtain ⟨h1, h2⟩ := exec_within (F := fun i => reads (calls i)) (G := fun i => writes (calls i)) hd sched
    (w := threads rx m calls) (fun i => within_inOrder _ _ within_call) hx
  constructor
  · rintro x ⟨a, b, i, j, e, f, ha, hb, hij, -, he, hf, hw, -⟩
    have acc : ∀ {i : ι} {g : Ev Empty Var}, (i, g) ∈ tr → Accesses g x → reads (calls i) x ∨ writes (calls i) x := by
      intro i g hm hg
      obtain ⟨v, ⟨h3, h4⟩ | ⟨h3, h4⟩⟩ := h1 _ hm
      · simp only at h3; subst h3
        rcases hg with hg | hg <;> cases hg
        exact .inl h4
      · simp only at h3; subst h3
        rcases hg with hg | hg <;> cases hg
        exact .inr h4
    have wrt : ∀ {i : ι} {g : Ev Empty Var}, (i, g) ∈ tr → g = .wr x → writes (calls i) x := by
      intro i g hm hg
      obtain ⟨v, ⟨h3, h4⟩ | ⟨h3, h4⟩⟩ := h1 _ hm
      · simp only at h3; rw [h3] at hg; cases hg
      · simp only at h3; rw [h3] at hg; cases hg; exact h4
    have ma := List.mem_of_getElem? ha
    have mb := List.mem_of_getElem? hb
    rcases hw with hw | hw
    · exact hd j i (Ne.symm hij) x (wrt ma hw) (acc mb hf)
    · exact hd i j hij x (wrt mb hw) (acc ma he)
  · intro i l hl
    obtain ⟨g, -⟩ := h2 i 0 0
    rw [hl] at g
    exact g.trans (alone_inOrder rx (calls i) m 0)

theorem sure_items_rd {d : Op} (h : UsesValues d) : Sure (.rd .items) (call rx d) := by
  intro m n
  cases d with
  | isInitialized => exact h.elim
  | unregisterObserver => exact h.elim
  | get k => exact List.mem_cons_self
  | hasKey k => exact List.mem_cons_self
  | list q => exact List.mem_cons_self
  | insert k v => exact List.mem_cons_self
  | setValue k v => exact List.mem_cons_self
  | registerObserver o k => exact List.mem_cons_of_mem _ (List.mem_cons_of_mem _ List.mem_cons_self)

theorem sure_items_wr {c : Op} (h : ChangesValues c) : Sure (.wr .items) (call rx c) := by
  intro m n
  cases c <;> first | exact h.elim | exact List.mem_cons_of_mem _ List.mem_cons_self

theorem sure_observers_rd {d : Op} (h : UsesObservers d) : Sure (.rd .observers) (call rx d) := by
  intro m n
  cases d with
  | setValue k v => exact List.mem_cons_of_mem _ (List.mem_cons_of_mem _ List.mem_cons_self)
  | registerObserver o k => exact List.mem_cons_self
  | unregisterObserver o => exact List.mem_cons_self
  | _ => exact h.elim

theorem sure_observers_wr (o : Nat) (k : S) : Sure (.wr .observers) (call rx (.registerObserver o k)) := by
  intro m n
  exact List.mem_cons_of_mem _ List.mem_cons_self

/-- If one thread uses what another one changes, there is a schedule with a data race, wherever the two calls are among the calls
of their threads, and whatever the keys (also if they are different ones). Removing an observer: see
`c144_unregister`. -/
theorem c144_race {ι : Type} [DecidableEq ι] (rx : S → S → Bool) (m : Mgr) (calls : ι → List Op) {i j : ι} (hij : i ≠ j)
    {c d : Op} (hc : c ∈ calls i) (hd : d ∈ calls j) (h : Disturbs c d) (hu : ∀ o, c ≠ .unregisterObserver o) :
    CanRace rx m calls := by
  rcases h with ⟨h1, h2⟩ | ⟨h1, h2⟩
  · obtain ⟨s, tr, w, h3, h4⟩ := race_of_sure (w := threads rx m calls) hij (x := .items)
      (sure_inOrder _ hc (sure_items_wr h1)) (sure_inOrder _ hd (sure_items_rd h2)) (.inr rfl) (.inl rfl) (.inl rfl)
    exact ⟨s, tr, w, _, h3, h4⟩
  · obtain ⟨o, k, rfl⟩ : ∃ o k, c = .registerObserver o k := by
      cases c with
      | registerObserver o k => exact ⟨o, k, rfl⟩
      | unregisterObserver o => exact absurd rfl (hu o)
      | _ => exact h1.elim
    obtain ⟨s, tr, w, h3, h4⟩ := race_of_sure (w := threads rx m calls) hij (x := .observers)
      (sure_inOrder _ hc (sure_observers_wr o k)) (sure_inOrder _ hd (sure_observers_rd h2)) (.inr rfl) (.inl rfl) (.inl rfl)
    exact ⟨s, tr, w, _, h3, h4⟩

/-- So, for threads that remove no observers, there can be a data race exactly if one of them uses what another one changes. -/
theorem c144_race_iff {ι : Type} [DecidableEq ι] (rx : S → S → Bool) (m : Mgr) (calls : ι → List Op)
    (hu : ∀ i, ∀ o, .unregisterObserver o ∉ calls i) :
    CanRace rx m calls ↔ ∃ i j, i ≠ j ∧ ∃ c ∈ calls i, ∃ d ∈ calls j, Disturbs c d := by
  constructor
  · rintro ⟨sched, tr, w, x, hx, hr⟩
    refine Classical.byContradiction fun hno => (c144_no_race rx m calls (fun i j hij c hc d hd h => hno ?_) hx).1 x hr
    exact ⟨i, j, hij, c, hc, d, hd, h⟩
  · rintro ⟨i, j, hij, c, hc, d, hd, h⟩
    exact c144_race rx m calls hij hc hd h fun o ho => hu i o (ho ▸ hc)

/-- A thread that removes an observer which is registered, and another one that sets a value (or uses the list of observers
otherwise): there is a schedule with a data race. -/
theorem c144_unregister {ι : Type} [DecidableEq ι] (rx : S → S → Bool) (m : Mgr) (calls : ι → List Op) {i j : ι} (hij : i ≠ j)
    {o : Nat} {cs : List Op} {d : Op} (hc : calls i = .unregisterObserver o :: cs) (hd : d ∈ calls j) (hu : UsesObservers d)
    (hreg : ∃ e ∈ m.observers, o ∈ e.2) : CanRace rx m calls := by
  have ha : (m.observers.any fun e => e.2.contains o) = true := by
    obtain ⟨e, he, ho⟩ := hreg
    exact List.any_eq_true.2 ⟨e, he, by simpa using ho⟩
  have h1 : Ev.wr Var.observers ∈ (alone (inOrder (call rx) (calls i)) (mem m) 0).2.2.2 := by
    rw [hc]
    simp only [inOrder, alone_bind]
    refine List.mem_append_left _ ?_
    simp only [call, alone, mem, ha, if_true]
    exact List.mem_cons_of_mem _ List.mem_cons_self
  obtain ⟨s, tr, w, h3, h4⟩ := race_in_turn (w := threads rx m calls) hij (x := .observers) (Prog.bind_ret _).symm
    (Prog.bind_ret _).symm h1 (sure_inOrder _ hd (sure_observers_rd hu) _ _) (.inr rfl) (.inl rfl) (.inl rfl)
  exact ⟨s, tr, w, _, h3, h4⟩

/-! ## The hypotheses are met -/

/-- Thread 0 registers an observer, all others read: no disturbance. -/
def exCalls : Nat → List Op
  | 0 => [.registerObserver 7 ['a'], .get ['b']]
  | _ => [.get ['a'], .hasKey ['b'], .list fun _ => true, .isInitialized]

example : ∀ i j, i ≠ j → ∀ c ∈ exCalls i, ∀ d ∈ exCalls j, ¬ Disturbs c d := by
  intro i j hij c hc d hd
  have hr : ∀ k, k ≠ 0 → ∀ c ∈ exCalls k, ¬ ChangesValues c ∧ ¬ ChangesObservers c ∧ ¬ UsesObservers c := by
    intro k hk c hc
    obtain ⟨k, rfl⟩ := Nat.exists_eq_succ_of_ne_zero hk
    simp only [exCalls, List.mem_cons, List.not_mem_nil, or_false] at hc
    rcases hc with rfl | rfl | rfl | rfl <;> exact ⟨id, id, id⟩
  have h0 : ∀ c ∈ exCalls 0, ¬ ChangesValues c := by
    intro c hc
    simp only [exCalls, List.mem_cons, List.not_mem_nil, or_false] at hc
    rcases hc with rfl | rfl <;> exact id
  rintro (⟨h, -⟩ | ⟨h, h'⟩)
  · by_cases hi : i = 0
    · subst hi; exact h0 c hc h
    · exact (hr i hi c hc).1 h
  · by_cases hi : i = 0
    · subst hi; exact (hr j (Ne.symm hij) d hd).2.2 h'
    · exact (hr i hi c hc).2.1 h

example : let m : Mgr := { items := [(['b'], ['2'])], observers := [(['b'], [3])] }
    answers (fun q k => q = k) m [.setValue ['b'] ['5'], .get ['b'], .registerObserver 7 ['b'], .setValue ['b'] ['6']] =
      [.told false [(3, ['b'])], .value (some ['5']), .told false [(7, ['b'])], .told false [(3, ['b']), (7, ['b'])]] := by
  decide +kernel

example : Disturbs (.setValue ['a'] ['1']) (.get ['b']) ∧ ∃ e ∈ ({ observers := [(['b'], [3])] } : Mgr).observers, 3 ∈ e.2 :=
  ⟨.inl ⟨trivial, trivial⟩, by decide⟩

end Verif.Registry.Conf
