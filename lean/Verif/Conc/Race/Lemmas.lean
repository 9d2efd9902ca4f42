import Verif.Conc.Race.Model

/-!
# A variable that is only accessed while holding a mutex has no data race; ordered locking does not deadlock
-/
set_option linter.unusedSectionVars false

namespace Verif.Race

variable {ι M X : Type} [DecidableEq ι] [DecidableEq M] [DecidableEq X]

theorem HB.lt {tr : List (ι × Ev M X)} {a b : Nat} (h : HB tr a b) : a < b := by
  induction h with
  | thread h => exact h
  | sync h => exact h
  | trans _ _ h1 h2 => omega

/-- Two neighbouring accesses of different threads are not ordered. -/
theorem not_HB_adjacent {tr : List (ι × Ev M X)} {a : Nat} {i j : ι} {e f : Ev M X} {x : X}
    (h1 : tr[a]? = some (i, e)) (h2 : tr[a + 1]? = some (j, f)) (hij : i ≠ j) (he : Accesses e x) :
    ¬ HB tr a (a + 1) := by
  intro h
  have key : ∀ b c, HB tr b c → b = a → c = a + 1 → False := by
    intro b c h
    induction h with
    | thread _ ha hb =>
      rintro rfl rfl
      rw [h1] at ha; rw [h2] at hb
      simp only [Option.some.injEq, Prod.mk.injEq] at ha hb
      exact hij (ha.1.trans hb.1.symm)
    | sync _ ha hb =>
      rintro rfl rfl
      rw [h1] at ha
      simp only [Option.some.injEq, Prod.mk.injEq] at ha
      rcases he with he | he <;> rw [he] at ha <;> cases ha.2
    | trans g1 g2 _ _ =>
      rintro rfl rfl
      have := g1.lt; have := g2.lt; omega
  exact key _ _ h rfl rfl

/-- Two neighbouring accesses of different threads, one of them a write, are a data race. -/
theorem race_of_adjacent {tr : List (ι × Ev M X)} {a : Nat} {i j : ι} {e f : Ev M X} {x : X}
    (h1 : tr[a]? = some (i, e)) (h2 : tr[a + 1]? = some (j, f)) (hij : i ≠ j) (he : Accesses e x)
    (hf : Accesses f x) (hw : e = .wr x ∨ f = .wr x) : DataRace tr x :=
  ⟨a, a + 1, i, j, e, f, h1, h2, hij, Nat.lt_succ_self _, he, hf, hw, not_HB_adjacent h1 h2 hij he⟩

/-! ## Lock discipline of one variable -/

/-- `e` is one of the accesses described by `P`. -/
def Hit (P : Ev M X → Bool) (e : Ev M X) : Prop := (∃ y, e = .rd y ∨ e = .wr y) ∧ P e = true


/-- Follow whether the thread holds `m`; `none` if it accesses `x` without holding `m`, takes `m` while it
holds it, or gives `m` back without holding it. -/
def guarded (P : Ev M X → Bool) (m : M) : Bool → List (Ev M X) → Option Bool
  | b, [] => some b
  | b, .acq k :: r => if k = m then (if b then none else guarded P m true r) else guarded P m b r
  | b, .rel k :: r => if k = m then (if b then guarded P m false r else none) else guarded P m b r
  | b, .rd y :: r => if P (.rd y) ∧ b = false then none else guarded P m b r
  | b, .wr y :: r => if P (.wr y) ∧ b = false then none else guarded P m b r

theorem guarded_append (P : Ev M X → Bool) (m : M) (p q : List (Ev M X)) : ∀ b,
    guarded P m b (p ++ q) = (guarded P m b p).bind fun c => guarded P m c q := by
  induction p with
  | nil => intro b; rfl
  | cons e p ih =>
    intro b
    cases e with
    | acq k => by_cases hk : k = m <;> cases b <;> simp [guarded, hk, ih]
    | rel k => by_cases hk : k = m <;> cases b <;> simp [guarded, hk, ih]
    | rd y => by_cases hy : P (.rd y) = true <;> cases b <;> simp [guarded, hy, ih]
    | wr y => by_cases hy : P (.wr y) = true <;> cases b <;> simp [guarded, hy, ih]

/-- The threads obey the discipline, `h` says which of them holds `m`, and the count of `m` agrees. -/
structure Inv (P : ι → Ev M X → Bool) (m : M) (h : ι → Bool) (s : St ι M X) : Prop where
  ok : ∀ t, (guarded (P t) m (h t) (s.prog t)).isSome
  mutex : (s.sem m = 1 ∧ ∀ t, h t = false) ∨ (s.sem m = 0 ∧ ∃ t, h t = true ∧ ∀ u, u ≠ t → h u = false)

/-- What the event of thread `i` does to `h`. -/
def after (m : M) (i : ι) (e : Ev M X) (h : ι → Bool) : ι → Bool := fun t =>
  if t = i then (if e = .acq m then true else if e = .rel m then false else h t) else h t

theorem Inv.step {P : ι → Ev M X → Bool} {m : M} {h : ι → Bool} {s s' : St ι M X} {i : ι} {e : Ev M X}
    (hi : Inv P m h s) (hs : step s i = some (e, s')) :
    Inv P m (after m i e h) s' ∧ (Hit (P i) e → h i = true) ∧ (e = .acq m → s.sem m = 1 ∧ h i = false) ∧
      (e = .rel m → h i = true) := by
  obtain ⟨ok, mutex⟩ := hi
  unfold Race.step at hs
  have oki := ok i
  cases hp : s.prog i with
  | nil => simp [hp] at hs
  | cons e0 r =>
    rw [hp] at hs oki
    cases e0 with
    | acq k =>
      by_cases hk : s.sem k = 0
      · simp [hk] at hs
      · simp only [hk, if_false, Option.some.injEq, Prod.mk.injEq] at hs
        obtain ⟨rfl, rfl⟩ := hs
        by_cases hkm : k = m
        · subst hkm
          have h1 : s.sem k = 1 ∧ ∀ t, h t = false := by
            rcases mutex with h | h
            · exact h
            · exact absurd h.1 hk
          refine ⟨⟨?_, ?_⟩, by simp [Hit], fun _ => ⟨h1.1, h1.2 i⟩, by simp⟩
          · intro t
            by_cases ht : t = i
            · subst ht; simpa [after, guarded, h1.2 t] using oki
            · simpa [after, ht] using ok t
          · right
            refine ⟨by simp [h1.1], i, by simp [after], ?_⟩
            intro u hu; simp [after, hu, h1.2 u]
        · refine ⟨⟨?_, ?_⟩, by simp [Hit], by simp [hkm], by simp⟩
          · intro t
            by_cases ht : t = i
            · subst ht; simpa [after, guarded, hkm] using oki
            · simpa [after, ht] using ok t
          · have e1 : after m i (Ev.acq k : Ev M X) h = h := by
              funext t; simp [after, hkm]
            simpa [e1, Ne.symm hkm] using mutex
    | rel k =>
      simp only [Option.some.injEq, Prod.mk.injEq] at hs
      obtain ⟨rfl, rfl⟩ := hs
      by_cases hkm : k = m
      · subst hkm
        have hb : h i = true := by
          cases hb : h i with
          | true => rfl
          | false => simp [guarded, hb] at oki
        refine ⟨⟨?_, ?_⟩, by simp [Hit], by simp, fun _ => hb⟩
        · intro t
          by_cases ht : t = i
          · subst ht; simpa [after, guarded, hb] using oki
          · simpa [after, ht] using ok t
        · left
          rcases mutex with ⟨_, h0⟩ | ⟨h0, t, ht, hu⟩
          · simp [h0 i] at hb
          · have hti : t = i := by
              by_cases hti : i = t
              · exact hti.symm
              · simp [hu i hti] at hb
            subst hti
            refine ⟨by simp [h0], ?_⟩
            intro u
            by_cases hut : u = t
            · simp [after, hut]
            · simp [after, hut, hu u hut]
      · refine ⟨⟨?_, ?_⟩, by simp [Hit], by simp, by simp [hkm]⟩
        · intro t
          by_cases ht : t = i
          · subst ht; simpa [after, guarded, hkm] using oki
          · simpa [after, ht] using ok t
        · have e1 : after m i (Ev.rel k : Ev M X) h = h := by
            funext t; simp [after, hkm]
          simpa [e1, Ne.symm hkm] using mutex
    | rd y =>
      simp only [Option.some.injEq, Prod.mk.injEq] at hs
      obtain ⟨rfl, rfl⟩ := hs
      have e1 : after m i (Ev.rd y : Ev M X) h = h := by funext t; simp [after]
      rw [e1]
      by_cases hc : P i (.rd y) = true ∧ h i = false
      · simp [guarded, hc] at oki
      · refine ⟨⟨?_, mutex⟩, ?_, by simp, by simp⟩
        · intro t
          by_cases ht : t = i
          · subst ht; simp only [guarded, hc, if_false] at oki; simpa using oki
          · simpa [ht] using ok t
        · rintro ⟨_, hP⟩
          simpa [hP] using hc
    | wr y =>
      simp only [Option.some.injEq, Prod.mk.injEq] at hs
      obtain ⟨rfl, rfl⟩ := hs
      have e1 : after m i (Ev.wr y : Ev M X) h = h := by funext t; simp [after]
      rw [e1]
      by_cases hc : P i (.wr y) = true ∧ h i = false
      · simp [guarded, hc] at oki
      · refine ⟨⟨?_, mutex⟩, ?_, by simp, by simp⟩
        · intro t
          by_cases ht : t = i
          · subst ht; simp only [guarded, hc, if_false] at oki; simpa using oki
          · simpa [ht] using ok t
        · rintro ⟨_, hP⟩
          simpa [hP] using hc

theorem exec_cons {s s' : St ι M X} {i : ι} {is : List ι} {tr : List (ι × Ev M X)}
    (h : exec s (i :: is) = some (tr, s')) :
    ∃ e s1 tr1, step s i = some (e, s1) ∧ exec s1 is = some (tr1, s') ∧ tr = (i, e) :: tr1 := by
  unfold exec at h
  cases hs : step s i with
  | none => simp [hs] at h
  | some r =>
    obtain ⟨e, s1⟩ := r
    rw [hs] at h
    simp only [Option.map_eq_some_iff] at h
    obtain ⟨⟨tr1, s2⟩, h1, h2⟩ := h
    simp only [Prod.mk.injEq] at h2
    obtain ⟨rfl, rfl⟩ := h2
    exact ⟨e, s1, tr1, rfl, h1, rfl⟩

/-- Before a thread that does not hold the mutex accesses `x`, it takes the mutex. -/
theorem takes_first {P : ι → Ev M X → Bool} {m : M} {j : ι} : ∀ (is : List ι) (s s' : St ι M X) (h : ι → Bool)
    (tr : List (ι × Ev M X)) (b : Nat) (f : Ev M X), Inv P m h s → exec s is = some (tr, s') →
    h j = false → tr[b]? = some (j, f) → Hit (P j) f → ∃ q, q < b ∧ tr[q]? = some (j, .acq m) := by
  intro is
  induction is with
  | nil =>
    intro s s' h tr b f _ he _ hb
    simp only [exec, Option.some.injEq, Prod.mk.injEq] at he
    rw [← he.1] at hb
    simp at hb
  | cons i is ih =>
    intro s s' h tr b f hi he hj hb hf
    obtain ⟨e, s1, tr1, hs, he1, rfl⟩ := exec_cons he
    obtain ⟨hi1, h1, h2, h3⟩ := hi.step hs
    cases b with
    | zero =>
      simp only [List.getElem?_cons_zero, Option.some.injEq, Prod.mk.injEq] at hb
      obtain ⟨rfl, rfl⟩ := hb
      rw [h1 hf] at hj
      cases hj
    | succ b =>
      simp only [List.getElem?_cons_succ] at hb
      by_cases hq : i = j ∧ e = .acq m
      · obtain ⟨rfl, rfl⟩ := hq
        exact ⟨0, by omega, by simp⟩
      · have hj1 : after m i e h j = false := by
          unfold after
          by_cases hij : j = i
          · subst hij
            simp only [true_and] at hq
            simp [hq, hj]
          · simp [hij, hj]
        obtain ⟨q, hq1, hq2⟩ := ih s1 s' _ tr1 b f hi1 he1 hj1 hb hf
        exact ⟨q + 1, by omega, by simpa using hq2⟩

/-- While thread `i` holds the mutex no other thread accesses `x`: first `i` gives the mutex back and then
the other thread takes it. -/
theorem hands_over {P : ι → Ev M X → Bool} {m : M} {i j : ι} (hij : i ≠ j) : ∀ (is : List ι) (s s' : St ι M X) (h : ι → Bool)
    (tr : List (ι × Ev M X)) (b : Nat) (f : Ev M X), Inv P m h s → exec s is = some (tr, s') →
    h i = true → tr[b]? = some (j, f) → Hit (P j) f →
    ∃ r q, r < q ∧ q < b ∧ tr[r]? = some (i, .rel m) ∧ tr[q]? = some (j, .acq m) := by
  intro is
  induction is with
  | nil =>
    intro s s' h tr b f _ he _ hb
    simp only [exec, Option.some.injEq, Prod.mk.injEq] at he
    rw [← he.1] at hb
    simp at hb
  | cons t is ih =>
    intro s s' h tr b f hi he hh hb hf
    obtain ⟨e, s1, tr1, hs, he1, rfl⟩ := exec_cons he
    obtain ⟨hi1, h1, h2, h3⟩ := hi.step hs
    have hothers : s.sem m = 0 ∧ ∀ u, u ≠ i → h u = false := by
      rcases hi.mutex with ⟨_, h0⟩ | ⟨h0, v, hv, hu⟩
      · simp [h0 i] at hh
      · have : v = i := by
          by_cases hv' : i = v
          · exact hv'.symm
          · simp [hu i hv'] at hh
        subst this
        exact ⟨h0, hu⟩
    cases b with
    | zero =>
      simp only [List.getElem?_cons_zero, Option.some.injEq, Prod.mk.injEq] at hb
      obtain ⟨rfl, rfl⟩ := hb
      have := h1 hf
      rw [hothers.2 t (Ne.symm hij)] at this
      cases this
    | succ b =>
      simp only [List.getElem?_cons_succ] at hb
      by_cases hr : e = .rel m
      · have ht : t = i := by
          by_cases ht : t = i
          · exact ht
          · have := h3 hr
            rw [hothers.2 t ht] at this
            cases this
        subst ht
        subst hr
        have hj1 : after m t (Ev.rel m : Ev M X) h j = false := by
          simp [after, Ne.symm hij, hothers.2 j (Ne.symm hij)]
        obtain ⟨q, hq1, hq2⟩ := takes_first is s1 s' _ tr1 b f hi1 he1 hj1 hb hf
        exact ⟨0, q + 1, by omega, by omega, by simp, by simpa using hq2⟩
      · have hh1 : after m t e h i = true := by
          unfold after
          by_cases hti : i = t
          · subst hti
            simp only [hr, if_false, hh, ite_self]
          · simp [hti, hh]
        obtain ⟨r, q, hq1, hq2, hq3, hq4⟩ := ih s1 s' _ tr1 b f hi1 he1 hh1 hb hf
        exact ⟨r + 1, q + 1, by omega, by omega, by simpa using hq3, by simpa using hq4⟩

theorem ordered {P : ι → Ev M X → Bool} {m : M} {i j : ι} (hij : i ≠ j) : ∀ (is : List ι) (s s' : St ι M X) (h : ι → Bool)
    (tr : List (ι × Ev M X)) (a b : Nat) (e f : Ev M X), Inv P m h s → exec s is = some (tr, s') → a < b →
    tr[a]? = some (i, e) → tr[b]? = some (j, f) → Hit (P i) e → Hit (P j) f →
    ∃ r q, a < r ∧ r < q ∧ q < b ∧ tr[r]? = some (i, .rel m) ∧ tr[q]? = some (j, .acq m) := by
  intro is
  induction is with
  | nil =>
    intro s s' h tr a b e f _ he _ ha
    simp only [exec, Option.some.injEq, Prod.mk.injEq] at he
    rw [← he.1] at ha
    simp at ha
  | cons t is ih =>
    intro s s' h tr a b e f hi he hab ha hb hea hfa
    obtain ⟨e1, s1, tr1, hs, he1, rfl⟩ := exec_cons he
    obtain ⟨hi1, h1, h2, h3⟩ := hi.step hs
    obtain ⟨b, rfl⟩ : ∃ c, b = c + 1 := ⟨b - 1, by omega⟩
    simp only [List.getElem?_cons_succ] at hb
    cases a with
    | zero =>
      simp only [List.getElem?_cons_zero, Option.some.injEq, Prod.mk.injEq] at ha
      obtain ⟨rfl, rfl⟩ := ha
      have hh1 : after m t e1 h t = true := by
        have := h1 hea
        obtain ⟨⟨y, rfl | rfl⟩, _⟩ := hea <;> simp [after, this]
      obtain ⟨r, q, g1, g2, g3, g4⟩ := hands_over hij is s1 s' _ tr1 b f hi1 he1 hh1 hb hfa
      exact ⟨r + 1, q + 1, by omega, by omega, by omega, by simpa using g3, by simpa using g4⟩
    | succ a =>
      simp only [List.getElem?_cons_succ] at ha
      obtain ⟨r, q, g0, g1, g2, g3, g4⟩ := ih s1 s' _ tr1 a b e f hi1 he1 (by omega) ha hb hea hfa
      exact ⟨r + 1, q + 1, by omega, by omega, by omega, by simpa using g3, by simpa using g4⟩

/-- If every thread accesses `x` only while holding the mutex `m`, no execution has a data race on `x`. -/
theorem no_race (x : X) (m : M) (s : St ι M X) (hm : s.sem m = 1)
    (hp : ∀ t, (guarded (fun e => decide (e = .rd x ∨ e = .wr x)) m false (s.prog t)).isSome) (is : List ι)
    (tr : List (ι × Ev M X)) (s' : St ι M X) (he : exec s is = some (tr, s')) : ¬ DataRace tr x := by
  rintro ⟨a, b, i, j, e, f, ha, hb, hij, hab, hea, hfa, _, hn⟩
  have hit : ∀ e : Ev M X, Accesses e x → Hit (fun e => decide (e = .rd x ∨ e = .wr x)) e := by
    intro e he
    exact ⟨⟨x, he⟩, by simpa [Accesses] using he⟩
  have hi : Inv (fun _ e => decide (e = .rd x ∨ e = .wr x)) m (fun _ => false) s := ⟨hp, .inl ⟨hm, fun _ => rfl⟩⟩
  obtain ⟨r, q, g0, g1, g2, g3, g4⟩ := ordered hij is s s' _ tr a b e f hi he hab ha hb (hit e hea) (hit f hfa)
  exact hn (.trans (.thread g0 ha g3) (.trans (.sync g1 g3 g4) (.thread g2 g4 hb)))

/-- If every thread writes `x` only while holding the mutex `m`, all writes of `x` are ordered. -/
theorem no_write_race (x : X) (m : M) (s : St ι M X) (hm : s.sem m = 1)
    (hp : ∀ t, (guarded (fun e => decide (e = .wr x)) m false (s.prog t)).isSome) (is : List ι)
    (tr : List (ι × Ev M X)) (s' : St ι M X) (he : exec s is = some (tr, s')) (a b : Nat) (i j : ι) (hab : a < b)
    (ha : tr[a]? = some (i, .wr x)) (hb : tr[b]? = some (j, .wr x)) : HB tr a b := by
  by_cases hij : i = j
  · subst hij; exact .thread hab ha hb
  · have hit : Hit (fun e => decide (e = .wr x)) (Ev.wr x : Ev M X) := ⟨⟨x, .inr rfl⟩, by simp⟩
    have hi : Inv (fun _ e => decide (e = .wr x)) m (fun _ => false) s := ⟨hp, .inl ⟨hm, fun _ => rfl⟩⟩
    obtain ⟨r, q, g0, g1, g2, g3, g4⟩ := ordered hij is s s' _ tr a b _ _ hi he hab ha hb hit hit
    exact .trans (.thread g0 ha g3) (.trans (.sync g1 g3 g4) (.thread g2 g4 hb))

/-- The accesses of `x` by the threads that access it only while holding the mutex `m` are ordered, if the other
threads lock and unlock `m` properly. -/
theorem no_race_among (G : ι → Bool) (x : X) (m : M) (s : St ι M X) (hm : s.sem m = 1)
    (hp : ∀ t, (guarded (fun e => G t && decide (e = .rd x ∨ e = .wr x)) m false (s.prog t)).isSome) (is : List ι)
    (tr : List (ι × Ev M X)) (s' : St ι M X) (he : exec s is = some (tr, s')) (a b : Nat) (i j : ι) (e f : Ev M X)
    (hi : G i = true) (hj : G j = true) (hab : a < b) (ha : tr[a]? = some (i, e)) (hb : tr[b]? = some (j, f))
    (hea : Accesses e x) (hfa : Accesses f x) : HB tr a b := by
  by_cases hij : i = j
  · subst hij; exact .thread hab ha hb
  · have hit : ∀ (t : ι) (e : Ev M X), G t = true → Accesses e x →
        Hit (fun e => G t && decide (e = .rd x ∨ e = .wr x)) e := by
      intro t e ht he
      exact ⟨⟨x, he⟩, by simpa [Accesses, ht] using he⟩
    have hi' : Inv (fun t e => G t && decide (e = .rd x ∨ e = .wr x)) m (fun _ => false) s := ⟨hp, .inl ⟨hm, fun _ => rfl⟩⟩
    obtain ⟨r, q, g0, g1, g2, g3, g4⟩ := ordered hij is s s' _ tr a b e f hi' he hab ha hb (hit i e hi hea) (hit j f hj hfa)
    exact .trans (.thread g0 ha g3) (.trans (.sync g1 g3 g4) (.thread g2 g4 hb))

/-- The events that happen are events of the threads' programs. -/
theorem exec_mem : ∀ (is : List ι) (s s' : St ι M X) (tr : List (ι × Ev M X)), exec s is = some (tr, s') →
    ∀ i e, (i, e) ∈ tr → e ∈ s.prog i := by
  intro is
  induction is with
  | nil =>
    intro s s' tr he i e hm
    simp only [exec, Option.some.injEq, Prod.mk.injEq] at he
    rw [← he.1] at hm
    simp at hm
  | cons t is ih =>
    intro s s' tr he i e hm
    obtain ⟨e1, s1, tr1, hs, he1, rfl⟩ := exec_cons he
    have hp1 : ∃ r, s.prog t = e1 :: r ∧ s1.prog = fun j => if j = t then r else s.prog j := by
      unfold step at hs
      cases hp : s.prog t with
      | nil => simp [hp] at hs
      | cons e0 r =>
        rw [hp] at hs
        refine ⟨r, ?_⟩
        cases e0 with
        | acq m =>
          by_cases h0 : s.sem m = 0
          · simp [h0] at hs
          · simp only [h0, if_false, Option.some.injEq, Prod.mk.injEq] at hs
            rw [← hs.1, ← hs.2]; exact ⟨rfl, rfl⟩
        | rel m => simp only [Option.some.injEq, Prod.mk.injEq] at hs; rw [← hs.1, ← hs.2]; exact ⟨rfl, rfl⟩
        | rd m => simp only [Option.some.injEq, Prod.mk.injEq] at hs; rw [← hs.1, ← hs.2]; exact ⟨rfl, rfl⟩
        | wr m => simp only [Option.some.injEq, Prod.mk.injEq] at hs; rw [← hs.1, ← hs.2]; exact ⟨rfl, rfl⟩
    obtain ⟨r, h1, h2⟩ := hp1
    rcases List.mem_cons.1 hm with h | h
    · simp only [Prod.mk.injEq] at h
      rw [h.1, h.2, h1]; simp
    · have := ih s1 s' tr1 he1 i e h
      rw [h2] at this
      by_cases hi : i = t
      · subst hi
        simp only [if_true] at this
        rw [h1]; exact List.mem_cons_of_mem _ this
      · simpa [hi] using this

/-- A variable that only one thread accesses has no data race. -/
theorem no_race_single (x : X) (s : St ι M X) (t : ι) (hp : ∀ u, u ≠ t → ∀ e ∈ s.prog u, ¬ Accesses e x)
    (is : List ι) (tr : List (ι × Ev M X)) (s' : St ι M X) (he : exec s is = some (tr, s')) : ¬ DataRace tr x := by
  rintro ⟨a, b, i, j, e, f, ha, hb, hij, _, hea, hfa, _, _⟩
  have h1 := exec_mem is s s' tr he i e (List.mem_of_getElem? ha)
  have h2 := exec_mem is s s' tr he j f (List.mem_of_getElem? hb)
  by_cases hi : i = t
  · have hj : j ≠ t := by rintro rfl; exact hij hi
    exact hp j hj f h2 hfa
  · exact hp i hi e h1 hea

/-- A semaphore that starts with the count 0 is taken only after it has been posted. -/
theorem acq_after_rel (m : M) : ∀ (is : List ι) (s s' : St ι M X) (tr : List (ι × Ev M X)), s.sem m = 0 →
    exec s is = some (tr, s') → ∀ (b : Nat) (t : ι), tr[b]? = some (t, .acq m) →
    ∃ (a : Nat) (u : ι), a < b ∧ tr[a]? = some (u, .rel m) := by
  intro is
  induction is with
  | nil =>
    intro s s' tr _ he b t hb
    simp only [exec, Option.some.injEq, Prod.mk.injEq] at he
    rw [← he.1] at hb; simp at hb
  | cons i is ih =>
    intro s s' tr h0 he b t hb
    obtain ⟨e, s1, tr1, hs, he1, rfl⟩ := exec_cons he
    by_cases hrel : e = .rel m
    · subst hrel
      cases b with
      | zero => simp at hb
      | succ b => exact ⟨0, i, by omega, rfl⟩
    · have key : s1.sem m = 0 ∧ e ≠ .acq m := by
        unfold step at hs
        cases hpi : s.prog i with
        | nil => simp [hpi] at hs
        | cons e0 r =>
          rw [hpi] at hs
          cases e0 with
          | acq k =>
            by_cases hk : s.sem k = 0
            · simp [hk] at hs
            · simp only [hk, if_false, Option.some.injEq, Prod.mk.injEq] at hs
              obtain ⟨rfl, rfl⟩ := hs
              have : m ≠ k := by rintro rfl; exact hk h0
              exact ⟨by simp [this, h0], by simpa using fun h => this h.symm⟩
          | rel k =>
            simp only [Option.some.injEq, Prod.mk.injEq] at hs
            obtain ⟨rfl, rfl⟩ := hs
            have : m ≠ k := by rintro rfl; exact hrel rfl
            exact ⟨by simp [this, h0], by simp⟩
          | rd k =>
            simp only [Option.some.injEq, Prod.mk.injEq] at hs
            obtain ⟨rfl, rfl⟩ := hs
            exact ⟨h0, by simp⟩
          | wr k =>
            simp only [Option.some.injEq, Prod.mk.injEq] at hs
            obtain ⟨rfl, rfl⟩ := hs
            exact ⟨h0, by simp⟩
      cases b with
      | zero => simp at hb; exact absurd hb.2 key.2
      | succ b =>
        obtain ⟨a, u, h1, h2⟩ := ih s1 s' tr1 key.1 he1 b t (by simpa using hb)
        exact ⟨a + 1, u, by omega, by simpa using h2⟩

end Verif.Race
