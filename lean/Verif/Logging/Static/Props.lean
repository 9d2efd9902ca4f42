import Verif.Logging.Static.Lemmas

/-!
# C137: logging from the constructors and destructors of static objects
-/
namespace Verif.Logging.Static
open Verif.Logging.Manager

/-! ## The property -/

/-- C137: a program with static objects that log in their constructors and destructors is free of undefined
behaviour for every order in which its translation units may be initialised, exactly if
- every constructor logs only on streams registered above it in the same unit, or in the libraries initialised before;
- above every object whose destructor logs, there is a registration of some stream or output (so that the logging manager is
  constructed before the object and destroyed after it), all streams it logs on are registered somewhere, and `main` does not
  use the `LifeCycle` object, which shuts down the logging before the static objects are destroyed;
- `main` logs only on registered streams. -/
theorem c137_every_order (env : Env) (p : Prog) :
    (∀ p', Reordered p p' → p'.Safe env) ↔
      (∀ pre c d, Behind p pre c d → (∀ n ∈ c, .stream n ∈ pre) ∧
        (d ≠ [] → HasRegistrar pre ∧ (∀ n ∈ d, Registered p n) ∧ p.life = false)) ∧
      ∀ n ∈ p.uses, Registered p n := by
  constructor
  · intro h
    have hp : p.Safe env := h p ⟨rfl, rfl, rfl, List.Perm.refl _⟩
    refine ⟨fun pre c d hb => ?_, safe_uses env hp⟩
    rcases hb with ⟨post, hb⟩ | ⟨t, ht, q, post, rfl, rfl⟩
    · exact safe_obj env hp (x := pre) (y := post ++ p.tus.flatten) (by rw [Prog.objs, hb]; simp)
    · obtain ⟨l, r, hlr⟩ := List.append_of_mem ht
      have hperm : ((q ++ .user c d :: post) :: (l ++ r)).Perm p.tus := by
        rw [hlr]; exact List.perm_middle.symm
      have hre : Reordered p { p with tus := (q ++ .user c d :: post) :: (l ++ r) } := ⟨rfl, rfl, rfl, hperm⟩
      have := safe_obj env (h _ hre) (x := p.lib ++ q) (y := post ++ (l ++ r).flatten) (c := c) (d := d) (by
        simp [Prog.objs])
      refine ⟨this.1, fun hd => ?_⟩
      obtain ⟨h1, h2, h3⟩ := this.2 hd
      refine ⟨h1, fun n hn => ?_, h3⟩
      rcases h2 n hn with h | ⟨t, ht, h⟩
      · exact Or.inl h
      · exact Or.inr ⟨t, hperm.mem_iff.1 ht, h⟩
  · intro h p' hr
    exact cond_safe env (cond_reordered hr h)

/-- C137, a finding: if `main` uses the `LifeCycle` object, then a static object whose destructor logs is undefined behaviour,
in whatever order the units are initialised and wherever the streams are registered. -/
theorem c137_lifecycle_dtor (env : Env) (p : Prog) (hl : p.life = true) (c d : List S) (hd : d ≠ [])
    (ho : .user c d ∈ p.lib ∨ ∃ t ∈ p.tus, .user c d ∈ t) : ¬ p.Safe env := by
  intro hs
  have : .user c d ∈ p.objs := by simpa [Prog.objs, List.mem_flatten] using ho
  obtain ⟨x, y, hxy⟩ := List.append_of_mem this
  have := ((safe_obj env hs hxy).2 hd).2.2
  rw [hl] at this; cases this

example (env : Env) : ¬ Prog.Safe env ⟨[], [[.stream "A".toList, .user [] ["A".toList]]], true, ["A".toList]⟩ :=
  c137_lifecycle_dtor env _ rfl [] ["A".toList] (by simp) (Or.inr ⟨_, List.mem_cons_self, by simp⟩)

/-- C137, a finding: a constructor that logs on a stream registered in another unit: whatever else is in the program, there is an order
in which this is undefined. -/
theorem c137_other_unit (env : Env) (p : Prog) (q post : TU) (c d : List S) (n : S) (ht : q ++ .user c d :: post ∈ p.tus) (hn : n ∈ c)
    (hl : .stream n ∉ p.lib) (hq : .stream n ∉ q) : ∃ p', Reordered p p' ∧ ¬ p'.Safe env := by
  refine Classical.byContradiction fun h => ?_
  have h' : ∀ p', Reordered p p' → p'.Safe env := fun p' hp => Classical.byContradiction fun hs => h ⟨p', hp, hs⟩
  have := ((c137_every_order env p).1 h').1 (p.lib ++ q) c d (Or.inr ⟨_, ht, q, post, rfl, rfl⟩)
  rcases List.mem_append.1 (this.1 n hn) with h | h
  · exact hl h
  · exact hq h

/-- The second condition of C137 is not implied by the others: an object whose destructor logs on a stream registered *below* it in
its own unit is destroyed after the logging manager. -/
theorem c137_below (env : Env) (n : S) (uses : List S) : ¬ Prog.Safe env ⟨[], [[.user [] [n], .stream n]], false, uses⟩ := by
  intro hs
  have := ((safe_obj env hs (x := []) (y := [.stream n]) (c := []) (d := [n]) rfl).2 (by simp)).1
  rcases this with ⟨m, h⟩ | ⟨m, h⟩ <;> cases h

/-- C137: logging in `main` and in the static objects of the same unit below the registration is safe in every order. -/
example (env : Env) : ∀ p', Reordered ⟨[.output "Stdout".toList],
      [[.stream "A".toList, .user ["A".toList] ["A".toList, "B".toList]], [.stream "B".toList, .user [] ["A".toList]]], false, ["A".toList, "B".toList]⟩ p' → p'.Safe env := by
  refine (c137_every_order env _).2 ⟨?_, ?_⟩
  · rintro pre c d (⟨post, h⟩ | ⟨t, ht, q, post, h, rfl⟩)
    · exfalso
      have : Obj.user c d ∈ [Obj.output "Stdout".toList] := by
        have h' : [Obj.output "Stdout".toList] = pre ++ Obj.user c d :: post := h
        rw [h']; simp
      simp at this
    · simp only [List.mem_cons, List.not_mem_nil, or_false] at ht
      rcases ht with rfl | rfl
      · match q, h with
        | [], h => simp at h
        | [_], h =>
          simp only [List.cons_append, List.nil_append, List.cons.injEq, Obj.user.injEq] at h
          obtain ⟨rfl, ⟨rfl, rfl⟩, -⟩ := h
          refine ⟨by simp, fun _ => ⟨Or.inr ⟨"Stdout".toList, by simp⟩, ?_, rfl⟩⟩
          intro n hn
          simp only [List.mem_cons, List.not_mem_nil, or_false] at hn
          rcases hn with rfl | rfl
          · exact Or.inr ⟨_, by simp; exact Or.inl rfl, by simp⟩
          · exact Or.inr ⟨_, by simp; exact Or.inr rfl, by simp⟩
        | _ :: _ :: q, h => simp at h
      · match q, h with
        | [], h => simp at h
        | [_], h =>
          simp only [List.cons_append, List.nil_append, List.cons.injEq, Obj.user.injEq] at h
          obtain ⟨rfl, ⟨rfl, rfl⟩, -⟩ := h
          refine ⟨by simp, fun _ => ⟨Or.inr ⟨"Stdout".toList, by simp⟩, ?_, rfl⟩⟩
          intro n hn
          simp only [List.mem_cons, List.not_mem_nil, or_false] at hn
          subst hn
          exact Or.inr ⟨_, by simp; exact Or.inl rfl, by simp⟩
        | _ :: _ :: q, h => simp at h
  · intro n hn
    simp only [List.mem_cons, List.not_mem_nil, or_false] at hn
    rcases hn with rfl | rfl
    · exact Or.inr ⟨_, by simp; exact Or.inl rfl, by simp⟩
    · exact Or.inr ⟨_, by simp; exact Or.inr rfl, by simp⟩

/-- C137: the same two units, with a constructor that logs on the stream of the other unit, are safe in one order and not in
the other. -/
example (env : Env) : ∃ p p' : Prog, Reordered p p' ∧ p.Safe env ∧ ¬ p'.Safe env :=
  ⟨⟨[], [[.stream "A".toList], [.user ["A".toList] []]], false, []⟩, ⟨[], [[.user ["A".toList] []], [.stream "A".toList]], false, []⟩,
    ⟨rfl, rfl, rfl, List.Perm.swap _ _ _⟩, by
      obtain ⟨a, b, h1, h2, h3, h4⟩ := safe_iff env ⟨[], [[.stream "A".toList], [.user ["A".toList] []]], false, []⟩
      have hd : ∀ l : List Obj, (∀ o ∈ l, o.dtorUses = []) → dtors l = [] := by
        intro l hl
        unfold dtors
        rw [List.flatten_eq_nil_iff]
        intro x hx
        simp only [List.mem_map, List.mem_reverse] at hx
        obtain ⟨o, ho, rfl⟩ := hx
        exact hl o ho
      have hall : ∀ o ∈ a ++ b, o.dtorUses = [] := by
        rw [← h1]; simp [Prog.objs, Obj.dtorUses]
      rw [h4, hd a fun o ho => hall o (by simp [ho]), hd b fun o ho => hall o (by simp [ho])]
      refine ⟨rfl, (c75_exact env _).2 ⟨?_, ?_⟩⟩
      · intro pre post n h
        simp only [Prog.objs, Prog.mainOps, Obj.ctorOps, List.nil_append, List.flatten_cons, List.flatten_nil, List.append_nil,
          List.cons_append, List.flatMap_cons, List.flatMap_nil, List.map_cons, List.map_nil, Bool.false_eq_true, if_false] at h
        match pre, h with
        | [], h => simp at h
        | [x], h =>
          simp only [List.cons_append, List.nil_append, List.cons.injEq, Op.use.injEq] at h
          obtain ⟨rfl, rfl, -⟩ := h
          simp
        | x :: y :: z, h => simp at h
      · rintro ⟨a', op, b', h, -, x, y, hxy, -⟩
        have : Op.shutdown ∈ a' ++ op :: b' := by rw [hxy]; simp
        rw [← h] at this
        simp [Prog.objs, Prog.mainOps, Obj.ctorOps] at this,
    by
      intro hs
      have := (safe_obj env hs (x := []) (y := [.stream "A".toList]) (c := ["A".toList]) (d := []) rfl).1 "A".toList (by simp)
      cases this⟩

end Verif.Logging.Static
