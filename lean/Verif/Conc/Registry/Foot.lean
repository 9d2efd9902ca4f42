import Verif.Conc.Registry.Lemmas

/-!
# Programs whose accesses are known beforehand
-/
set_option linter.unusedSectionVars false

namespace Verif.Registry
open Race

variable {V : Type} {Val : V → Type} {A B ι : Type}

/-- Whatever it reads, the program reads only variables of `F` and writes only variables of `G`. -/
def Within (F G : V → Prop) : Prog Val A → Prop
  | .ret _ => True
  | .rd v k => F v ∧ ∀ x, Within F G (k x)
  | .wr v _ p => G v ∧ Within F G p
  | .fresh _ => False

theorem within_bind {F G : V → Prop} {f : A → Prog Val B} (hf : ∀ a, Within F G (f a)) :
    ∀ {p : Prog Val A}, Within F G p → Within F G (p.bind f) := by
  intro p
  induction p with
  | ret a => intro _; exact hf a
  | rd v k ih => intro h; exact ⟨h.1, fun x => ih x (h.2 x)⟩
  | wr v x p ih => intro h; exact ⟨h.1, ih h.2⟩
  | fresh k => intro h; exact h.elim

theorem within_inOrder {C : Type} {F G : V → Prop} (call : C → Prog Val A) : ∀ cs : List C,
    (∀ c ∈ cs, Within F G (call c)) → Within F G (inOrder call cs)
  | [], _ => trivial
  | c :: cs, h => within_bind (fun a => within_bind (f := fun as => .ret (a :: as)) (fun _ => trivial)
      (within_inOrder call cs fun d hd => h d (List.mem_cons_of_mem _ hd))) (h c List.mem_cons_self)

section
variable [DecidableEq V] [DecidableEq ι]

/-- Result and effect of a program depend only on the variables it accesses. -/
theorem alone_congr {F G : V → Prop} : ∀ {p : Prog Val A} {m m' : ∀ v, Val v} (n n' : Nat), Within F G p →
    (∀ v, F v ∨ G v → m v = m' v) →
    (alone p m n).1 = (alone p m' n').1 ∧ ∀ v, F v ∨ G v → (alone p m n).2.1 v = (alone p m' n').2.1 v := by
  intro p
  induction p with
  | ret a => intro m m' n n' _ h; exact ⟨rfl, h⟩
  | rd v k ih =>
    intro m m' n n' hw h
    have := ih (m v) n n' (hw.2 _) h
    simp only [alone]
    rw [← h v (.inl hw.1)]
    exact this
  | wr v x p ih =>
    intro m m' n n' hw h
    refine ih n n' hw.2 fun u hu => ?_
    by_cases hv : u = v
    · subst hv; rw [set_self, set_self]
    · rw [set_other _ _ _ _ hv, set_other _ _ _ _ hv]; exact h u hu
  | fresh k => intro m m' n n' hw; exact hw.elim

/-- Threads that do not write what others access: they only do the accesses known beforehand, and each one does what it would
do alone. -/
theorem exec_within {F G : ι → V → Prop} (hd : ∀ i j, i ≠ j → ∀ v, G j v → ¬ (F i v ∨ G i v)) : ∀ (sched : List ι)
    {w w' : World ι Val A} {tr}, (∀ i, Within (F i) (G i) (w.prog i)) → w.exec sched = some (tr, w') →
    (∀ e ∈ tr, ∃ v, (e.2 = .rd v ∧ F e.1 v) ∨ (e.2 = .wr v ∧ G e.1 v)) ∧
    ∀ i n n', (alone (w'.prog i) w'.mem n).1 = (alone (w.prog i) w.mem n').1 ∧
      ∀ v, F i v ∨ G i v → (alone (w'.prog i) w'.mem n).2.1 v = (alone (w.prog i) w.mem n').2.1 v := by
  intro sched
  induction sched with
  | nil =>
    intro w w' tr hq h
    simp only [World.exec, Option.some.injEq, Prod.mk.injEq] at h
    obtain ⟨rfl, rfl⟩ := h
    exact ⟨by simp, fun i n n' => alone_congr n n' (hq i) fun _ _ => rfl⟩
  | cons i is ih =>
    intro w w' tr hq h
    have hqi := hq i
    cases hp : w.prog i with
    | ret a => simp [World.exec, World.step, hp] at h
    | fresh k => rw [hp] at hqi; exact hqi.elim
    | rd v k =>
      rw [hp] at hqi
      simp only [World.exec, World.step, hp, Option.map_eq_some_iff] at h
      obtain ⟨r, hr, he⟩ := h
      simp only [Prod.mk.injEq] at he
      obtain ⟨rfl, rfl⟩ := he
      obtain ⟨h1, h2⟩ := ih (w := { w with prog := fun j => if j = i then k (w.mem v) else w.prog j })
        (by intro j; show Within _ _ (if j = i then _ else _); split
            · next hj => subst hj; exact hqi.2 _
            · exact hq j) hr
      refine ⟨?_, fun j n n' => ?_⟩
      · intro e he
        simp only [List.cons_append, List.nil_append, List.mem_cons] at he
        rcases he with rfl | he
        · exact ⟨v, .inl ⟨rfl, hqi.1⟩⟩
        · exact h1 e he
      · obtain ⟨g1, g2⟩ := h2 j n n'
        simp only at g1 g2
        by_cases hj : j = i
        · subst hj
          rw [if_pos rfl] at g1 g2
          rw [hp]
          exact ⟨g1, g2⟩
        · rw [if_neg hj] at g1 g2; exact ⟨g1, g2⟩
    | wr v x p =>
      rw [hp] at hqi
      simp only [World.exec, World.step, hp, Option.map_eq_some_iff] at h
      obtain ⟨r, hr, he⟩ := h
      simp only [Prod.mk.injEq] at he
      obtain ⟨rfl, rfl⟩ := he
      obtain ⟨h1, h2⟩ := ih (w := { w with mem := set w.mem v x, prog := fun j => if j = i then p else w.prog j })
        (by intro j; show Within _ _ (if j = i then _ else _); split
            · next hj => subst hj; exact hqi.2
            · exact hq j) hr
      refine ⟨?_, fun j n n' => ?_⟩
      · intro e he
        simp only [List.cons_append, List.nil_append, List.mem_cons] at he
        rcases he with rfl | he
        · exact ⟨v, .inr ⟨rfl, hqi.1⟩⟩
        · exact h1 e he
      · obtain ⟨g1, g2⟩ := h2 j n n'
        simp only at g1 g2
        by_cases hj : j = i
        · subst hj
          rw [if_pos rfl] at g1 g2
          rw [hp]
          exact ⟨g1, g2⟩
        · rw [if_neg hj] at g1 g2
          obtain ⟨c1, c2⟩ := alone_congr (m := set w.mem v x) (m' := w.mem) n' n' (hq j) fun u hu =>
            set_other _ _ _ _ (by rintro rfl; exact hd j i hj u hqi.1 hu)
          exact ⟨g1.trans c1, fun u hu => (g2 u hu).trans (c2 u hu)⟩

/-- The program makes this access whatever the values of the variables are. -/
def Sure (ev : Ev Empty V) (p : Prog Val A) : Prop := ∀ m n, ev ∈ (alone p m n).2.2.2

theorem alone_bind (f : A → Prog Val B) : ∀ (p : Prog Val A) (m : ∀ v, Val v) (n : Nat),
    alone (p.bind f) m n =
      ((alone (f (alone p m n).1) (alone p m n).2.1 (alone p m n).2.2.1).1,
       (alone (f (alone p m n).1) (alone p m n).2.1 (alone p m n).2.2.1).2.1,
       (alone (f (alone p m n).1) (alone p m n).2.1 (alone p m n).2.2.1).2.2.1,
       (alone p m n).2.2.2 ++ (alone (f (alone p m n).1) (alone p m n).2.1 (alone p m n).2.2.1).2.2.2) := by
  intro p
  induction p with
  | ret a => intro m n; rfl
  | rd v k ih => intro m n; simp only [Prog.bind, alone, ih, List.cons_append]
  | wr v x p ih => intro m n; simp only [Prog.bind, alone, ih, List.cons_append]
  | fresh k ih => intro m n; simp only [Prog.bind, alone, ih]

theorem sure_bind_left {ev : Ev Empty V} {f : A → Prog Val B} {p : Prog Val A} (h : Sure ev p) : Sure ev (p.bind f) := by
  intro m n; rw [alone_bind]; exact List.mem_append_left _ (h m n)

theorem sure_bind_right {ev : Ev Empty V} {f : A → Prog Val B} {p : Prog Val A} (h : ∀ a, Sure ev (f a)) :
    Sure ev (p.bind f) := by
  intro m n; rw [alone_bind]; exact List.mem_append_right _ (h _ _ _)

theorem sure_inOrder {C : Type} {ev : Ev Empty V} (call : C → Prog Val A) : ∀ {cs : List C} {c : C}, c ∈ cs →
    Sure ev (call c) → Sure ev (inOrder call cs)
  | d :: cs, c, hc, h => by
    rcases List.mem_cons.1 hc with rfl | hc
    · exact sure_bind_left h
    · exact sure_bind_right fun _ => sure_bind_left (sure_inOrder call hc h)

/-- Two threads that surely make accesses to the same variable, one of them a write, can race. -/
theorem race_of_sure {w : World ι Val A} {i j : ι} (hij : i ≠ j) {x : V} {e e' : Ev Empty V} (hi : Sure e (w.prog i))
    (hj : Sure e' (w.prog j)) (hex : Accesses e x) (hfx : Accesses e' x) (hw : e = .wr x ∨ e' = .wr x) :
    ∃ sched tr w', w.exec sched = some (tr, w') ∧ DataRace tr x :=
  race_in_turn hij (Prog.bind_ret _).symm (Prog.bind_ret _).symm (hi _ _) (hj _ _) hex hfx hw
end

end Verif.Registry
