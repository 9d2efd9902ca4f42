import Verif.Conc.ThreadHB.Lemmas

/-!
# Invariants of all histories, also with `cancel()` (C139)
-/
namespace Verif.Thread.HBT

open Verif.Race (Ev HB DataRace Accesses)

/-- A position in `tr ++ l` is in `tr` or is an event of `l`. -/
theorem get_cases {tr l : Tr} {q : Nat} {a} (h : (tr ++ l)[q]? = some a) :
    tr[q]? = some a ∨ tr.length ≤ q ∧ a ∈ l := by
  by_cases hq : q < tr.length
  · rw [List.getElem?_append_left hq] at h; exact .inl h
  · rw [List.getElem?_append_right (by omega)] at h
    exact .inr ⟨by omega, List.mem_of_getElem? h⟩

/-- See the fields. -/
structure G (x : X) : Prop where
  fresh : ∀ i, x.s.next ≤ i → x.s.w i = .none
  /-- `pthread_create` of `i` has happened -/
  created : ∀ (c i : Nat), x.tr[c]? = some (none, Ev.rel (Sync.create i)) → x.s.w i ≠ .none
  /-- a created thread has started with the synchronisation -/
  started : ∀ i, x.s.w i ≠ .none → ∃ a : Nat, x.tr[a]? = some (some i, Ev.acq (Sync.create i)) ∧
    ∀ c : Nat, x.tr[c]? = some (none, Ev.rel (Sync.create i)) → c < a
  /-- all its events follow -/
  follow : ∀ (q i : Nat) f, x.tr[q]? = some (some i, f) → x.s.w i ≠ .none ∧
    ∀ c : Nat, x.tr[c]? = some (none, Ev.rel (Sync.create i)) → HB x.tr c q
  /-- the last event of a thread that has ended -/
  ended : ∀ i, x.s.w i = .exited ∨ x.s.w i = .joined → ∃ e : Nat, x.tr[e]? = some (some i, Ev.rel (Sync.exit i)) ∧
    ∀ (q : Nat) f, x.tr[q]? = some (some i, f) → q ≤ e
  /-- `pthread_join` of `i` has returned -/
  joined : ∀ (b i : Nat), x.tr[b]? = some (none, Ev.acq (Sync.exit i)) → x.s.w i = .joined ∧
    ∀ (q : Nat) f, x.tr[q]? = some (some i, f) → HB x.tr q b

theorem G.init : G xinit :=
  ⟨by simp [xinit, Thread.init], by simp [xinit], by simp [xinit, Thread.init], by simp [xinit],
    by simp [xinit, Thread.init], by simp [xinit]⟩

/-- Events of the owner that do not create or join. -/
def plain (l : Tr) : Prop := ∀ e ∈ l, e.1 = none ∧ (∀ i, e ≠ (none, Ev.rel (Sync.create i))) ∧ ∀ i, e ≠ (none, Ev.acq (Sync.exit i))

theorem G.plain {s s' : State} {tr l : Tr} (h : G ⟨s, tr⟩) (hl : plain l) (hw : s'.w = s.w) (hn : s'.next = s.next) :
    G ⟨s', tr ++ l⟩ := by
  obtain ⟨g1, g2, g3, g4, g5, g6⟩ := h
  simp only at g1 g2 g3 g4 g5 g6
  have kc : ∀ {c i : Nat}, (tr ++ l)[c]? = some (none, Ev.rel (Sync.create i)) → tr[c]? = some (none, Ev.rel (Sync.create i)) := by
    intro c i h
    rcases get_cases h with h | ⟨_, h⟩
    · exact h
    · exact absurd rfl ((hl _ h).2.1 i)
  have kj : ∀ {c i : Nat}, (tr ++ l)[c]? = some (none, Ev.acq (Sync.exit i)) → tr[c]? = some (none, Ev.acq (Sync.exit i)) := by
    intro c i h
    rcases get_cases h with h | ⟨_, h⟩
    · exact h
    · exact absurd rfl ((hl _ h).2.2 i)
  have kw : ∀ {c i : Nat} {f}, (tr ++ l)[c]? = some (some i, f) → tr[c]? = some (some i, f) := by
    intro c i f h
    rcases get_cases h with h | ⟨_, h⟩
    · exact h
    · have := (hl _ h).1; cases this
  refine ⟨?_, ?_, ?_, ?_, ?_, ?_⟩ <;> simp only [hw, hn]
  · exact g1
  · exact fun c i h => g2 c i (kc h)
  · intro i h
    obtain ⟨a, h1, h2⟩ := g3 i h
    exact ⟨a, get_append l h1, fun c h => h2 c (kc h)⟩
  · exact fun q i f h => ⟨(g4 q i f (kw h)).1, fun c h' => HB_append l ((g4 q i f (kw h)).2 c (kc h'))⟩
  · intro i h
    obtain ⟨a, h1, h2⟩ := g5 i h
    exact ⟨a, get_append l h1, fun q f h => h2 q f (kw h)⟩
  · exact fun b i h => ⟨(g6 b i (kj h)).1, fun q f h' => HB_append l ((g6 b i (kj h)).2 q f (kw h'))⟩

/-- Events of thread `i`, which has not ended. -/
theorem G.worker {s s' : State} {tr l : Tr} {i : Nat} {p : WPC} (h : G ⟨s, tr⟩) (hl : ∀ e ∈ l, e.1 = some i)
    (hi : s.w i ≠ .none ∧ s.w i ≠ .exited ∧ s.w i ≠ .joined) (hw : s'.w = fun u => if u = i then p else s.w u)
    (hn : s'.next = s.next) (hp : p ≠ .none) (hj : p ≠ .joined) (he : p = .exited → ∃ l', l = l' ++ [(some i, Ev.rel (Sync.exit i))]) :
    G ⟨s', tr ++ l⟩ := by
  obtain ⟨g1, g2, g3, g4, g5, g6⟩ := h
  simp only at g1 g2 g3 g4 g5 g6
  have kn : ∀ {c : Nat} {e}, (tr ++ l)[c]? = some (none, e) → tr[c]? = some (none, e) := by
    intro c e h
    rcases get_cases h with h | ⟨_, h⟩
    · exact h
    · have := hl _ h; cases this
  have kw : ∀ {c j : Nat} {f}, j ≠ i → (tr ++ l)[c]? = some (some j, f) → tr[c]? = some (some j, f) := by
    intro c j f hne h
    rcases get_cases h with h | ⟨_, h⟩
    · exact h
    · have := hl _ h; simp only [Option.some.injEq] at this; exact absurd this hne
  obtain ⟨a, ha1, ha2⟩ := g3 i hi.1
  refine ⟨?_, ?_, ?_, ?_, ?_, ?_⟩ <;> simp only [hw, hn]
  · intro j hj'
    by_cases hji : j = i
    · subst hji; exact absurd (g1 j hj') hi.1
    · rw [if_neg hji]; exact g1 j hj'
  · intro c j h
    by_cases hji : j = i
    · rw [if_pos hji]; exact hp
    · rw [if_neg hji]; exact g2 c j (kn h)
  · intro j hj'
    by_cases hji : j = i
    · subst hji; exact ⟨a, get_append l ha1, fun c h => ha2 c (kn h)⟩
    · rw [if_neg hji] at hj'
      obtain ⟨b, h1, h2⟩ := g3 j hj'
      exact ⟨b, get_append l h1, fun c h => h2 c (kn h)⟩
  · intro q j f h
    by_cases hji : j = i
    · subst hji
      rw [if_pos rfl]
      refine ⟨hp, fun c hc => ?_⟩
      rcases get_cases h with h | ⟨h1, _⟩
      · exact HB_append l ((g4 q j f h).2 c (kn hc))
      · have := get_lt ha1
        exact .trans (.sync (ha2 c (kn hc)) hc (get_append l ha1)) (.thread (by omega) (get_append l ha1) h)
    · rw [if_neg hji]
      exact ⟨(g4 q j f (kw hji h)).1, fun c hc => HB_append l ((g4 q j f (kw hji h)).2 c (kn hc))⟩
  · intro j hj'
    by_cases hji : j = i
    · subst hji
      rw [if_pos rfl] at hj'
      obtain ⟨l', rfl⟩ := he (hj'.resolve_right hj)
      refine ⟨tr.length + l'.length, by rw [← List.append_assoc, List.getElem?_append_right (by simp)]; simp, fun q f h => ?_⟩
      have := get_lt h; simp at this; omega
    · rw [if_neg hji] at hj'
      obtain ⟨b, h1, h2⟩ := g5 j hj'
      exact ⟨b, get_append l h1, fun q f h => h2 q f (kw hji h)⟩
  · intro b j h
    have hji : j ≠ i := by
      rintro rfl
      exact hi.2.2 (g6 b j (kn h)).1
    rw [if_neg hji]
    exact ⟨(g6 b j (kn h)).1, fun q f h' => HB_append l ((g6 b j (kn h)).2 q f (kw hji h'))⟩

theorem G.create {s s' : State} {tr : Tr} (h : G ⟨s, tr⟩) (hw : s'.w = fun u => if u = s.next then .lock else s.w u)
    (hn : s'.next = s.next + 1) : G ⟨s', tr ++ [(none, Ev.rel (Sync.create s.next)), (none, Ev.wr Var.threadId),
      (some s.next, Ev.acq (Sync.create s.next))]⟩ := by
  obtain ⟨g1, g2, g3, g4, g5, g6⟩ := h
  simp only at g1 g2 g3 g4 g5 g6
  have fr := g1 s.next (Nat.le_refl _)
  have kc : ∀ {c i : Nat}, i ≠ s.next → (tr ++ [(none, Ev.rel (Sync.create s.next)), (none, Ev.wr Var.threadId),
      (some s.next, Ev.acq (Sync.create s.next))])[c]? = some (none, Ev.rel (Sync.create i)) → tr[c]? = some (none, Ev.rel (Sync.create i)) := by
    intro c i hi h
    rcases get_cases h with h | ⟨_, h⟩
    · exact h
    · simp [hi] at h
  have kj : ∀ {c i : Nat}, (tr ++ [(none, Ev.rel (Sync.create s.next)), (none, Ev.wr Var.threadId),
      (some s.next, Ev.acq (Sync.create s.next))])[c]? = some (none, Ev.acq (Sync.exit i)) → tr[c]? = some (none, Ev.acq (Sync.exit i)) := by
    intro c i h
    rcases get_cases h with h | ⟨_, h⟩
    · exact h
    · simp at h
  have kw : ∀ {c i : Nat} {f}, i ≠ s.next → (tr ++ [(none, Ev.rel (Sync.create s.next)), (none, Ev.wr Var.threadId),
      (some s.next, Ev.acq (Sync.create s.next))])[c]? = some (some i, f) → tr[c]? = some (some i, f) := by
    intro c i f hi h
    rcases get_cases h with h | ⟨_, h⟩
    · exact h
    · simp [hi] at h
  have new : (tr ++ [(none, Ev.rel (Sync.create s.next)), (none, Ev.wr Var.threadId),
      (some s.next, Ev.acq (Sync.create s.next))])[tr.length + 2]? = some (some s.next, Ev.acq (Sync.create s.next)) := by
    rw [List.getElem?_append_right (by omega)]; simp
  have pos : ∀ {c : Nat}, (tr ++ [(none, Ev.rel (Sync.create s.next)), (none, Ev.wr Var.threadId),
      (some s.next, Ev.acq (Sync.create s.next))])[c]? = some (none, Ev.rel (Sync.create s.next)) → c = tr.length := by
    intro c h
    by_cases hq : c < tr.length
    · rw [List.getElem?_append_left hq] at h; exact absurd fr (g2 c _ h)
    · rw [List.getElem?_append_right (by omega)] at h
      have : c - tr.length = 0 := by
        rcases hc : c - tr.length with _ | _ | _ | n
        · rfl
        all_goals rw [hc] at h; simp at h
      omega
  have posn : ∀ {c : Nat} {f}, (tr ++ [(none, Ev.rel (Sync.create s.next)), (none, Ev.wr Var.threadId),
      (some s.next, Ev.acq (Sync.create s.next))])[c]? = some (some s.next, f) → c = tr.length + 2 := by
    intro c f h
    by_cases hq : c < tr.length
    · rw [List.getElem?_append_left hq] at h; exact absurd fr (g4 c _ _ h).1
    · rw [List.getElem?_append_right (by omega)] at h
      have : c - tr.length = 2 := by
        rcases hc : c - tr.length with _ | _ | _ | n
        · rw [hc] at h; simp at h
        · rw [hc] at h; simp at h
        · rfl
        · rw [hc] at h; simp at h
      omega
  refine ⟨?_, ?_, ?_, ?_, ?_, ?_⟩ <;> simp only [hw, hn]
  · intro i hi
    rw [if_neg (by omega)]; exact g1 i (by omega)
  · intro c i h
    by_cases hi : i = s.next
    · rw [if_pos hi]; simp
    · rw [if_neg hi]; exact g2 c i (kc hi h)
  · intro i h
    by_cases hi : i = s.next
    · subst hi
      exact ⟨_, new, fun c hc => by rw [pos hc]; omega⟩
    · rw [if_neg hi] at h
      obtain ⟨a, h1, h2⟩ := g3 i h
      exact ⟨a, get_append _ h1, fun c h => h2 c (kc hi h)⟩
  · intro q i f h
    by_cases hi : i = s.next
    · subst hi
      rw [if_pos rfl]
      refine ⟨by simp, fun c hc => ?_⟩
      have h1 := pos hc; have h2 := posn h
      subst h1 h2
      exact .sync (by omega) hc new
    · rw [if_neg hi]
      exact ⟨(g4 q i f (kw hi h)).1, fun c hc => HB_append _ ((g4 q i f (kw hi h)).2 c (kc hi hc))⟩
  · intro i h
    by_cases hi : i = s.next
    · rw [if_pos hi] at h; rcases h with h | h <;> cases h
    · rw [if_neg hi] at h
      obtain ⟨a, h1, h2⟩ := g5 i h
      exact ⟨a, get_append _ h1, fun q f h => h2 q f (kw hi h)⟩
  · intro b i h
    have hi : i ≠ s.next := by
      rintro rfl
      have := (g6 b _ (kj h)).1; rw [fr] at this; cases this
    rw [if_neg hi]
    exact ⟨(g6 b i (kj h)).1, fun q f h' => HB_append _ ((g6 b i (kj h)).2 q f (kw hi h'))⟩

theorem G.join {s s' : State} {tr l : Tr} (h : G ⟨s, tr⟩) (he : s.w s.cur = .exited)
    (hw : s'.w = fun u => if u = s.cur then .joined else s.w u) (hl : l = [] ∨ l = [(none, Ev.rd Var.finished)])
    (hn : s'.next = s.next) : G ⟨s', tr ++ (l ++ [(none, Ev.acq (Sync.exit s.cur))])⟩ := by
  have h1 : G ⟨s, tr ++ l⟩ := h.plain (by rcases hl with rfl | rfl <;> simp [HBT.plain]) rfl rfl
  obtain ⟨g1, g2, g3, g4, g5, g6⟩ := h1
  rw [← List.append_assoc]
  generalize tr ++ l = tr at *
  simp only at g1 g2 g3 g4 g5 g6
  have kc : ∀ {c i : Nat}, (tr ++ [(none, Ev.acq (Sync.exit s.cur))])[c]? = some (none, Ev.rel (Sync.create i)) →
      tr[c]? = some (none, Ev.rel (Sync.create i)) := by
    intro c i h
    rcases get_cases h with h | ⟨_, h⟩
    · exact h
    · simp at h
  have kw : ∀ {c i : Nat} {f}, (tr ++ [(none, Ev.acq (Sync.exit s.cur))])[c]? = some (some i, f) → tr[c]? = some (some i, f) := by
    intro c i f h
    rcases get_cases h with h | ⟨_, h⟩
    · exact h
    · simp at h
  refine ⟨?_, ?_, ?_, ?_, ?_, ?_⟩ <;> simp only [hw, hn]
  · intro i hi
    by_cases hc : i = s.cur
    · subst hc; rw [g1 _ hi] at he; cases he
    · rw [if_neg hc]; exact g1 i hi
  · intro c i h
    by_cases hc : i = s.cur
    · rw [if_pos hc]; simp
    · rw [if_neg hc]; exact g2 c i (kc h)
  · intro i h
    have h' : s.w i ≠ .none := by
      by_cases hc : i = s.cur
      · subst hc; rw [he]; simp
      · rwa [if_neg hc] at h
    obtain ⟨a, h1, h2⟩ := g3 i h'
    exact ⟨a, get_append _ h1, fun c h => h2 c (kc h)⟩
  · intro q i f h
    refine ⟨?_, fun c hc => HB_append _ ((g4 q i f (kw h)).2 c (kc hc))⟩
    by_cases hc : i = s.cur
    · rw [if_pos hc]; simp
    · rw [if_neg hc]; exact (g4 q i f (kw h)).1
  · intro i h
    have h' : s.w i = .exited ∨ s.w i = .joined := by
      by_cases hc : i = s.cur
      · subst hc; exact .inl he
      · rwa [if_neg hc] at h
    obtain ⟨a, h1, h2⟩ := g5 i h'
    exact ⟨a, get_append _ h1, fun q f h => h2 q f (kw h)⟩
  · intro b i h
    rcases get_cases h with h1 | ⟨h1, h2⟩
    · have hc : i ≠ s.cur := by
        rintro rfl
        have := (g6 b _ h1).1; rw [he] at this; cases this
      rw [if_neg hc]
      exact ⟨(g6 b i h1).1, fun q f h' => HB_append _ ((g6 b i h1).2 q f (kw h'))⟩
    · simp at h2
      subst h2
      rw [if_pos rfl]
      refine ⟨rfl, fun q f h' => ?_⟩
      obtain ⟨e, h3, h4⟩ := g5 s.cur (.inl he)
      have h5 := h4 q f (kw h')
      have h6 := get_lt h3
      have k : HB (tr ++ [(none, Ev.acq (Sync.exit s.cur))]) e b := .sync (by omega) (get_append _ h3) h
      rcases Nat.lt_or_ge q e with h7 | h7
      · exact .trans (.thread h7 h' (get_append _ h3)) k
      · rw [show q = e from by omega]; exact k

/-- The kinds of actions of the control thread, once more. -/
theorem ctl_kinds2 {s s' : State} {a : Act} (hw : ∀ i, a ≠ .work i) (hd : ∀ i, a ≠ .die i)
    (h : step false s a = some s') :
    (plain (events s a) ∧ s'.w = s.w ∧ s'.next = s.next) ∨
    (events s a = [(none, Ev.rel (Sync.create s.next)), (none, Ev.wr Var.threadId), (some s.next, Ev.acq (Sync.create s.next))] ∧
      s'.w = (fun u => if u = s.next then .lock else s.w u) ∧ s'.next = s.next + 1) ∨
    ((∃ l, events s a = l ++ [(none, Ev.acq (Sync.exit s.cur))] ∧ (l = [] ∨ l = [(none, Ev.rd Var.finished)])) ∧
      s.w s.cur = .exited ∧ s'.w = (fun u => if u = s.cur then .joined else s.w u) ∧ s'.next = s.next) := by
  have h' : stepO s a = some s' := by
    cases a <;> first | exact h | exact absurd rfl (hw _) | exact absurd rfl (hd _)
  clear h
  unfold stepO at h'
  cases ho : s.o <;> cases a <;> simp only [ho, reduceCtorEq] at h' <;>
    (try (exact absurd rfl (hw _))) <;> (try (exact absurd rfl (hd _))) <;>
    (try (split at h' <;> try simp only [reduceCtorEq] at h')) <;>
    (try (split at h' <;> try simp only [reduceCtorEq] at h')) <;>
    simp only [Option.some.injEq] at h' <;> subst h' <;>
    simp_all [events, evO, evNew, plain, setW]
  exact ⟨[(none, Ev.rd Var.finished)], rfl, .inr rfl⟩

theorem work_next {s s' : State} {i : Nat} (h : step false s (.work i) = some s') : s'.next = s.next := by
  simp only [step, stepW] at h
  cases hp : s.w i <;> simp only [hp, Option.map_none, reduceCtorEq] at h <;>
    (try (split at h)) <;> simp only [Option.map_some, Option.map_none, Option.some.injEq, reduceCtorEq] at h <;>
    subst h <;> rfl

theorem G.step {x x' : X} {a : XAct} (h : G x) (hs : xstep x a = some x') : G x' := by
  obtain ⟨s, tr⟩ := x
  rcases a with a | w | ⟨i, w⟩
  · simp only [xstep, Option.map_eq_some_iff] at hs
    obtain ⟨s', hs, rfl⟩ := hs
    by_cases hw : ∃ i, a = .work i
    · obtain ⟨i, rfl⟩ := hw
      obtain ⟨n1, n2, n3, k3, _⟩ := work_kind hs
      refine h.worker (i := i) (p := nextW (s.w i)) ?_ ⟨n1, n2, n3⟩ k3 (work_next hs) ?_ ?_ ?_
      · simp [events]
      · revert n1; cases s.w i <;> simp [nextW]
      · revert n3; cases s.w i <;> simp [nextW]
      · intro he
        refine ⟨[], ?_⟩
        have hl : s.w i = .log := by revert he n2; cases s.w i <;> simp [nextW]
        simp [events, hl, evW]
    · by_cases hd : ∃ i, a = .die i
      · obtain ⟨i, rfl⟩ := hd
        simp only [Thread.step] at hs
        split at hs
        · rename_i hc
          simp only [Option.some.injEq] at hs; subst hs
          exact h.worker (i := i) (p := .exited) (by simp [events]) hc.2 rfl rfl (by simp) (by simp)
            (fun _ => ⟨[], rfl⟩)
        · cases hs
      · rcases ctl_kinds2 (fun i e => hw ⟨i, e⟩) (fun i e => hd ⟨i, e⟩) hs with
          ⟨k1, k2, k3⟩ | ⟨k1, k2, k3⟩ | ⟨⟨l, k1, k4⟩, k5, k2, k3⟩
        · exact h.plain k1 k2 k3
        · simp only [k1]; exact h.create k2 k3
        · simp only [k1]; exact h.join k5 k2 k4 k3
  · simp only [xstep] at hs
    split at hs
    · simp only [Option.some.injEq] at hs; subst hs
      exact h.plain (by cases w <;> simp [HBT.plain, access]) rfl rfl
    · cases hs
  · simp only [xstep] at hs
    split at hs
    · rename_i hr
      simp only [Option.some.injEq] at hs; subst hs
      refine h.worker (i := i) (p := .running) (by simp) (by rw [hr]; simp) ?_ rfl (by simp) (by simp) (by simp)
      funext u; by_cases hu : u = i
      · subst hu; rw [if_pos rfl, hr]
      · rw [if_neg hu]
    · cases hs

theorem G.exec {x y : X} {as : List XAct} (h : G x) (he : xexec x as = some y) : G y := by
  induction as generalizing x with
  | nil => cases he; exact h
  | cons a as ih =>
    simp only [xexec, Option.bind_eq_some_iff] at he
    obtain ⟨x', h1, h2⟩ := he
    exact ih (h.step h1) h2

end Verif.Thread.HBT
