import Verif.Conc.Registry.Model
import Verif.Conc.Race.Lemmas

/-!
# Calls that only read cannot race; accesses of two threads without semaphores are never ordered
-/
set_option linter.unusedSectionVars false

namespace Verif.Registry
open Race

variable {V : Type} {Val : V → Type} {A B ι : Type}

/-- The call writes nothing when it is run on `m`. -/
def Quiet (m : ∀ v, Val v) : Prog Val A → Prop
  | .ret _ => True
  | .rd v k => Quiet m (k (m v))
  | .wr _ _ _ => False
  | .fresh k => ∀ n, Quiet m (k n)

/-- The results a call that only reads can have on `m`. -/
def Outs (m : ∀ v, Val v) : Prog Val A → A → Prop
  | .ret a, b => a = b
  | .rd v k, b => Outs m (k (m v)) b
  | .wr _ _ _, _ => False
  | .fresh k, b => ∃ n, Outs m (k n) b

theorem quiet_bind (m : ∀ v, Val v) (f : A → Prog Val B) (hf : ∀ a, Quiet m (f a)) :
    ∀ p : Prog Val A, Quiet m p → Quiet m (p.bind f) := by
  intro p
  induction p with
  | ret a => intro _; exact hf a
  | rd v k ih => intro h; exact ih _ h
  | wr v x p ih => intro h; exact h.elim
  | fresh k ih => intro h n; exact ih n (h n)

theorem outs_bind (m : ∀ v, Val v) (f : A → Prog Val B) (b : B) :
    ∀ p : Prog Val A, Outs m (p.bind f) b → ∃ a, Outs m p a ∧ Outs m (f a) b := by
  intro p
  induction p with
  | ret a => intro h; exact ⟨a, rfl, h⟩
  | rd v k ih => intro h; exact ih _ h
  | wr v x p ih => intro h; exact h.elim
  | fresh k ih =>
    intro ⟨n, h⟩
    obtain ⟨a, h1, h2⟩ := ih n h
    exact ⟨a, ⟨n, h1⟩, h2⟩

theorem forall₂_imp_mem {C D : Type} {R T : C → D → Prop} : ∀ {cs : List C} {ds : List D},
    (∀ c d, c ∈ cs → R c d → T c d) → List.Forall₂ R cs ds → List.Forall₂ T cs ds
  | _, _, _, .nil => .nil
  | _, _, h, .cons h1 h2 => .cons (h _ _ List.mem_cons_self h1)
      (forall₂_imp_mem (fun c d hc => h c d (List.mem_cons_of_mem _ hc)) h2)

theorem quiet_inOrder {C : Type} (m : ∀ v, Val v) (call : C → Prog Val A) : ∀ cs : List C,
    (∀ c ∈ cs, Quiet m (call c)) → Quiet m (inOrder call cs)
  | [], _ => trivial
  | c :: cs, h => quiet_bind m _ (fun a => quiet_bind m (fun as => .ret (a :: as)) (fun _ => trivial) _
      (quiet_inOrder m call cs fun d hd => h d (List.mem_cons_of_mem _ hd))) _ (h c List.mem_cons_self)

theorem outs_inOrder {C : Type} (m : ∀ v, Val v) (call : C → Prog Val A) : ∀ (cs : List C) (as : List A),
    Outs m (inOrder call cs) as → List.Forall₂ (fun c a => Outs m (call c) a) cs as
  | [], as, h => by simp only [inOrder, Outs] at h; subst h; exact .nil
  | c :: cs, as, h => by
    obtain ⟨a, h1, h2⟩ := outs_bind m _ _ _ h
    obtain ⟨bs, h3, h4⟩ := outs_bind m _ _ _ h2
    simp only [Outs] at h4
    subst h4
    exact .cons h1 (outs_inOrder m call cs bs h3)

section
variable [DecidableEq V] [DecidableEq ι]

theorem quiet_alone (m : ∀ v, Val v) : ∀ (p : Prog Val A) (n : Nat), Quiet m p →
    (alone p m n).2.1 = m ∧ Outs m p (alone p m n).1 := by
  intro p
  induction p with
  | ret a => intro n _; exact ⟨rfl, rfl⟩
  | rd v k ih => intro n h; exact ih (m v) n h
  | wr v x p ih => intro n h; exact h.elim
  | fresh k ih => intro n h; exact ⟨(ih n (n + 1) (h n)).1, n, (ih n (n + 1) (h n)).2⟩

theorem set_self (m : ∀ v, Val v) (v : V) (x : Val v) : set m v x v = x := by simp [set]

theorem set_other (m : ∀ v, Val v) (v u : V) (x : Val v) (h : u ≠ v) : set m v x u = m u := by simp [set, h]

/-- All threads only read: no write happens, the object does not change, the results stay possible. -/
theorem exec_quiet : ∀ (sched : List ι) {w w' : World ι Val A} {tr},
    (∀ i, Quiet w.mem (w.prog i)) → w.exec sched = some (tr, w') →
    (∀ e ∈ tr, ∃ v, e.2 = .rd v) ∧ w'.mem = w.mem ∧ (∀ i, Quiet w.mem (w'.prog i)) ∧
    ∀ i a, Outs w.mem (w'.prog i) a → Outs w.mem (w.prog i) a := by
  intro sched
  induction sched with
  | nil =>
    intro w w' tr hq h
    simp only [World.exec, Option.some.injEq, Prod.mk.injEq] at h
    obtain ⟨rfl, rfl⟩ := h
    exact ⟨by simp, rfl, hq, fun _ _ h => h⟩
  | cons i is ih =>
    intro w w' tr hq h
    have hqi := hq i
    cases hp : w.prog i with
    | ret a => simp [World.exec, World.step, hp] at h
    | wr v x p => rw [hp] at hqi; exact hqi.elim
    | rd v k =>
      rw [hp] at hqi
      simp only [World.exec, World.step, hp, Option.map_eq_some_iff] at h
      obtain ⟨r, hr, he⟩ := h
      simp only [Prod.mk.injEq] at he
      obtain ⟨rfl, rfl⟩ := he
      obtain ⟨h1, h2, h3, h4⟩ := ih (w := { w with prog := fun j => if j = i then k (w.mem v) else w.prog j })
        (by intro j; show Quiet w.mem (if j = i then _ else _); split
            · exact hqi
            · exact hq j) hr
      refine ⟨?_, h2, h3, ?_⟩
      · intro e he
        simp only [List.cons_append, List.nil_append, List.mem_cons] at he
        rcases he with rfl | he
        · exact ⟨v, rfl⟩
        · exact h1 e he
      · intro j a ha
        have := h4 j a ha
        change Outs w.mem (if j = i then _ else _) a at this
        split at this
        · next hji => subst hji; rw [hp]; exact this
        · exact this
    | fresh k =>
      rw [hp] at hqi
      simp only [World.exec, World.step, hp, Option.map_eq_some_iff] at h
      obtain ⟨r, hr, he⟩ := h
      simp only [Prod.mk.injEq] at he
      obtain ⟨rfl, rfl⟩ := he
      obtain ⟨h1, h2, h3, h4⟩ := ih (w := { w with next := w.next + 1, prog := fun j => if j = i then k w.next else w.prog j })
        (by intro j; show Quiet w.mem (if j = i then _ else _); split
            · exact hqi _
            · exact hq j) hr
      refine ⟨?_, h2, h3, ?_⟩
      · intro e he; exact h1 e (by simpa using he)
      · intro j a ha
        have := h4 j a ha
        change Outs w.mem (if j = i then _ else _) a at this
        split at this
        · next hji => subst hji; rw [hp]; exact ⟨_, this⟩
        · exact this

theorem no_race_of_reads {tr : List (ι × Ev Empty V)} (h : ∀ e ∈ tr, ∃ v, e.2 = .rd v) (x : V) :
    ¬ DataRace tr x := by
  rintro ⟨a, b, i, j, e, f, ha, hb, -, -, -, -, hw, -⟩
  obtain ⟨v, hv⟩ := h _ (List.mem_of_getElem? ha)
  obtain ⟨u, hu⟩ := h _ (List.mem_of_getElem? hb)
  simp only at hv hu
  rcases hw with hw | hw
  · rw [hv] at hw; cases hw
  · rw [hu] at hw; cases hw

/-- Without semaphores only the accesses of one thread are ordered. -/
theorem HB_same_thread {tr : List (ι × Ev Empty V)} {a b : Nat} (h : HB tr a b) :
    ∃ i e f, tr[a]? = some (i, e) ∧ tr[b]? = some (i, f) := by
  induction h with
  | thread _ ha hb => exact ⟨_, _, _, ha, hb⟩
  | @sync _ _ _ _ m => exact m.elim
  | trans _ _ h1 h2 =>
    obtain ⟨i, e, f, g1, g2⟩ := h1
    obtain ⟨j, e', f', g3, g4⟩ := h2
    rw [g2] at g3
    simp only [Option.some.injEq, Prod.mk.injEq] at g3
    exact ⟨i, e, f', g1, g3.1 ▸ g4⟩

/-- A program run by one thread while no other thread does anything. -/
theorem exec_alone (i : ι) : ∀ (p : Prog Val A) (w : World ι Val A), w.prog i = p → ∃ (sched : List ι) (w' : World ι Val A),
    (∀ j ∈ sched, j = i) ∧
    w.exec sched = some ((alone p w.mem w.next).2.2.2.map fun e => (i, e), w') ∧
    w'.mem = (alone p w.mem w.next).2.1 ∧ w'.next = (alone p w.mem w.next).2.2.1 ∧
    w'.prog i = .ret (alone p w.mem w.next).1 ∧ ∀ j, j ≠ i → w'.prog j = w.prog j := by
  intro p
  induction p with
  | ret a => intro w h; exact ⟨[], w, by simp, rfl, rfl, rfl, h, fun _ _ => rfl⟩
  | rd v k ih =>
    intro w h
    obtain ⟨s, w', h0, h1, h2, h3, h4, h5⟩ := ih (w.mem v) { w with prog := fun j => if j = i then k (w.mem v) else w.prog j } (by simp)
    refine ⟨i :: s, w', ?_, ?_, h2, h3, h4, ?_⟩
    · intro j hj; simp only [List.mem_cons] at hj; rcases hj with rfl | hj
      · rfl
      · exact h0 j hj
    · simp only [World.exec, World.step, h, h1]; rfl
    · intro j hj; rw [h5 j hj]; simp [hj]
  | wr v x p ih =>
    intro w h
    obtain ⟨s, w', h0, h1, h2, h3, h4, h5⟩ := ih { w with mem := set w.mem v x, prog := fun j => if j = i then p else w.prog j } (by simp)
    refine ⟨i :: s, w', ?_, ?_, h2, h3, h4, ?_⟩
    · intro j hj; simp only [List.mem_cons] at hj; rcases hj with rfl | hj
      · rfl
      · exact h0 j hj
    · simp only [World.exec, World.step, h, h1]; rfl
    · intro j hj; rw [h5 j hj]; simp [hj]
  | fresh k ih =>
    intro w h
    obtain ⟨s, w', h0, h1, h2, h3, h4, h5⟩ := ih w.next { w with next := w.next + 1, prog := fun j => if j = i then k w.next else w.prog j } (by simp)
    refine ⟨i :: s, w', ?_, ?_, h2, h3, h4, ?_⟩
    · intro j hj; simp only [List.mem_cons] at hj; rcases hj with rfl | hj
      · rfl
      · exact h0 j hj
    · simp only [World.exec, World.step, h, h1]; rfl
    · intro j hj; rw [h5 j hj]; simp [hj]

theorem Prog.bind_ret : ∀ p : Prog Val A, p.bind .ret = p := by
  intro p
  induction p with
  | ret a => rfl
  | rd v k ih => simp only [Prog.bind, ih]
  | wr v x p ih => simp only [Prog.bind, ih]
  | fresh k ih => simp only [Prog.bind, ih]

/-- The first call of a thread while no other thread does anything. -/
theorem exec_first (i : ι) (f : B → Prog Val A) : ∀ (p : Prog Val B) (w : World ι Val A), w.prog i = p.bind f →
    ∃ (sched : List ι) (w' : World ι Val A),
    w.exec sched = some ((alone p w.mem w.next).2.2.2.map fun e => (i, e), w') ∧
    w'.mem = (alone p w.mem w.next).2.1 ∧ w'.next = (alone p w.mem w.next).2.2.1 ∧ ∀ j, j ≠ i → w'.prog j = w.prog j := by
  intro p
  induction p with
  | ret a => intro w h; exact ⟨[], w, rfl, rfl, rfl, fun _ _ => rfl⟩
  | rd v k ih =>
    intro w h
    obtain ⟨s, w', h1, h2, h3, h5⟩ := ih (w.mem v) { w with prog := fun j => if j = i then (k (w.mem v)).bind f else w.prog j } (by simp)
    refine ⟨i :: s, w', ?_, h2, h3, ?_⟩
    · simp only [World.exec, World.step, h, Prog.bind, h1]; rfl
    · intro j hj; rw [h5 j hj]; simp [hj]
  | wr v x p ih =>
    intro w h
    obtain ⟨s, w', h1, h2, h3, h5⟩ := ih { w with mem := set w.mem v x, prog := fun j => if j = i then p.bind f else w.prog j } (by simp)
    refine ⟨i :: s, w', ?_, h2, h3, ?_⟩
    · simp only [World.exec, World.step, h, Prog.bind, h1]; rfl
    · intro j hj; rw [h5 j hj]; simp [hj]
  | fresh k ih =>
    intro w h
    obtain ⟨s, w', h1, h2, h3, h5⟩ := ih w.next { w with next := w.next + 1, prog := fun j => if j = i then (k w.next).bind f else w.prog j } (by simp)
    refine ⟨i :: s, w', ?_, h2, h3, ?_⟩
    · simp only [World.exec, World.step, h, Prog.bind, h1]; rfl
    · intro j hj; rw [h5 j hj]; simp [hj]

theorem exec_append : ∀ (s₁ s₂ : List ι) {w w₁ w₂ : World ι Val A} {t₁ t₂},
    w.exec s₁ = some (t₁, w₁) → w₁.exec s₂ = some (t₂, w₂) → w.exec (s₁ ++ s₂) = some (t₁ ++ t₂, w₂) := by
  intro s₁
  induction s₁ with
  | nil => intro s₂ w w₁ w₂ t₁ t₂ h1 h2; simp [World.exec] at h1; obtain ⟨rfl, rfl⟩ := h1; simpa using h2
  | cons i is ih =>
    intro s₂ w w₁ w₂ t₁ t₂ h1 h2
    simp only [World.exec] at h1
    simp only [List.cons_append, World.exec]
    cases hs : w.step i with
    | none => rw [hs] at h1; simp at h1
    | some r =>
      rw [hs] at h1
      simp only [Option.map_eq_some_iff] at h1
      obtain ⟨q, hq, he⟩ := h1
      simp only [Prod.mk.injEq] at he
      obtain ⟨rfl, rfl⟩ := he
      simp [ih s₂ hq h2]

/-- Thread `i` makes its first call, then thread `j` makes its first call: if one of them writes what the other one
accesses, this is a data race. -/
theorem race_in_turn {w : World ι Val A} {i j : ι} (hij : i ≠ j) {p q : Prog Val B} {f g : B → Prog Val A}
    (hi : w.prog i = p.bind f) (hj : w.prog j = q.bind g) {x : V} {e e' : Ev Empty V}
    (he : e ∈ (alone p w.mem w.next).2.2.2)
    (hf : e' ∈ (alone q (alone p w.mem w.next).2.1 (alone p w.mem w.next).2.2.1).2.2.2)
    (hex : Accesses e x) (hfx : Accesses e' x) (hw : e = .wr x ∨ e' = .wr x) :
    ∃ sched tr w', w.exec sched = some (tr, w') ∧ DataRace tr x := by
  obtain ⟨s1, w1, h1, hm1, hn1, ho1⟩ := exec_first i f p w hi
  obtain ⟨s2, w2, h2, -, -, -⟩ := exec_first j g q w1 (by rw [ho1 j (Ne.symm hij), hj])
  rw [hm1, hn1] at h2
  refine ⟨s1 ++ s2, _, w2, exec_append s1 s2 h1 h2, ?_⟩
  obtain ⟨a, ha⟩ := List.mem_iff_getElem?.1 he
  obtain ⟨b, hb⟩ := List.mem_iff_getElem?.1 hf
  generalize (alone q (alone p w.mem w.next).2.1 (alone p w.mem w.next).2.2.1).2.2.2 = L2 at *
  generalize (alone p w.mem w.next).2.2.2 = L1 at *
  have g1 : (L1.map (fun e => (i, e)) ++ L2.map (fun e => (j, e)))[a]? = some (i, e) := by
    rw [List.getElem?_append_left (by simpa using (List.getElem?_eq_some_iff.1 ha).1)]; simp [ha]
  have g2 : (L1.map (fun e => (i, e)) ++ L2.map (fun e => (j, e)))[L1.length + b]? = some (j, e') := by
    rw [List.getElem?_append_right (by simp)]; simp [hb]
  refine ⟨a, L1.length + b, i, j, e, e', g1, g2, hij, by have := (List.getElem?_eq_some_iff.1 ha).1; omega, hex, hfx, hw, ?_⟩
  intro h
  obtain ⟨k, _, _, g3, g4⟩ := HB_same_thread h
  rw [g1] at g3; rw [g2] at g4
  simp only [Option.some.injEq, Prod.mk.injEq] at g3 g4
  exact hij (g3.1.trans g4.1.symm)
end

end Verif.Registry
