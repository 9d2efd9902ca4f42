import Verif.Logging.Static.Spec

/-!
# C137: lemmas
-/
namespace Verif.Logging.Static
open Verif.Logging.Manager

/-! ## Lemmas -/

/-- The calls before the manager is destroyed, and whether there are some afterwards. -/
theorem run_calls (env : Env) (ops : List Op) (m : M) :
    (ops.map Ev.call).foldlM (stepE env) (m, true) = (ops.foldlM (step env) m).map fun m => (m, true) := by
  induction ops generalizing m with
  | nil => rfl
  | cons op ops ih =>
    simp only [List.map_cons, List.foldlM_cons, stepE, if_true]
    cases h : step env m op with
    | none => rfl
    | some m' => exact ih m'

theorem run_dead (env : Env) (ops : List Op) (m : M) :
    ((ops.map Ev.call).foldlM (stepE env) (m, false)).isSome ↔ ops = [] := by
  cases ops with
  | nil => simp [List.foldlM]
  | cons op ops => simp [List.foldlM_cons, stepE]

/-- The events of objects. -/
theorem evs_objs (ds : List (List S)) :
    (ds.map Item.obj).flatMap Item.evs = (ds.flatten.map Op.use).map Ev.call := by
  induction ds with
  | nil => rfl
  | cons d ds ih => rw [List.map_cons, List.flatMap_cons, ih]; simp [Item.evs]

/-- The stack after some constructions: objects constructed after the manager are above it. -/
theorem stack_eq (os : List Obj) :
    ∃ a b, os = a ++ b ∧ (∀ o ∈ a, o.ctorOps = []) ∧
      ((b = [] ∧ os.foldl St.construct ⟨false, []⟩ = ⟨false, (a.reverse.map Obj.dtorUses).map Item.obj⟩) ∨
       (b ≠ [] ∧ (∀ o, b.head? = some o → o.ctorOps ≠ []) ∧ os.foldl St.construct ⟨false, []⟩ =
        ⟨true, (b.reverse.map Obj.dtorUses).map Item.obj ++ Item.manager :: (a.reverse.map Obj.dtorUses).map Item.obj⟩)) := by
  induction os using List.reverseRecOn with
  | nil => exact ⟨[], [], rfl, by simp, Or.inl ⟨rfl, rfl⟩⟩
  | append_singleton os o ih =>
    obtain ⟨a, b, h1, h2, h3⟩ := ih
    rw [List.foldl_append, List.foldl_cons, List.foldl_nil]
    rcases h3 with ⟨hb, h3⟩ | ⟨hb, hh, h3⟩
    · subst hb
      simp only [List.append_nil] at h1
      by_cases ho : o.ctorOps = []
      · refine ⟨a ++ [o], [], by simp [h1], ?_, Or.inl ⟨rfl, ?_⟩⟩
        · intro x hx
          rcases List.mem_append.1 hx with hx | hx
          · exact h2 x hx
          · rw [List.mem_singleton] at hx; rw [hx]; exact ho
        · rw [h3]; simp [St.construct, ho]
      · refine ⟨a, [o], by simp [h1], h2, Or.inr ⟨by simp, by simpa using ho, ?_⟩⟩
        rw [h3]; simp [St.construct, ho, St.touch]
    · refine ⟨a, b ++ [o], by simp [h1], h2, Or.inr ⟨by simp, ?_, ?_⟩⟩
      · intro x hx
        cases b with
        | nil => exact absurd rfl hb
        | cons y ys => exact hh x (by simpa using hx)
      · rw [h3]
        by_cases ho : o.ctorOps = [] <;> simp [St.construct, ho, St.touch]

/-- The streams used by destructors, in order. -/
def dtors (os : List Obj) : List S := (os.reverse.map Obj.dtorUses).flatten

theorem mem_dtors {os : List Obj} {n : S} : n ∈ dtors os ↔ ∃ c d, .user c d ∈ os ∧ n ∈ d := by
  simp only [dtors, List.mem_flatten, List.mem_map, List.mem_reverse]
  constructor
  · rintro ⟨l, ⟨o, ho, rfl⟩, hn⟩
    cases o with
    | user c d => exact ⟨c, d, ho, hn⟩
    | stream m => cases hn
    | output m => cases hn
  · rintro ⟨c, d, ho, hn⟩
    exact ⟨d, ⟨_, ho, rfl⟩, hn⟩

theorem foldlM_some_append (env : Env) (x y : List Ev) (s : M × Bool) :
    (x ++ y).foldlM (stepE env) s = (x.foldlM (stepE env) s).bind fun s' => y.foldlM (stepE env) s' := by
  rw [List.foldlM_append]; rfl

theorem safe_with (env : Env) (ops : List Op) (l : List S) :
    ((ops.map Ev.call ++ (.destroyed :: (l.map Op.use).map Ev.call)).foldlM (stepE env) (M.init, true)).isSome ↔
      l = [] ∧ (run env ops).isSome := by
  rw [foldlM_some_append, run_calls]
  show _ ↔ _ ∧ (ops.foldlM (step env) M.init).isSome
  cases h : ops.foldlM (step env) M.init with
  | none => simp
  | some m =>
    have := run_dead env (l.map Op.use) (shutdown m)
    simp only [Option.map_some, Option.bind_some, List.foldlM_cons, stepE, if_true, Option.isSome_some, and_true]
    rw [List.map_eq_nil_iff] at this
    exact this

/-- The programs that are safe in the given order. -/
theorem safe_iff (env : Env) (p : Prog) :
    ∃ a b, p.objs = a ++ b ∧ (∀ o ∈ a, o.ctorOps = []) ∧ (∀ o, b.head? = some o → o.ctorOps ≠ []) ∧
      (p.Safe env ↔ dtors a = [] ∧ (run env (p.objs.flatMap Obj.ctorOps ++ p.mainOps ++ (dtors b).map .use)).isSome) := by
  obtain ⟨a, b, h1, h2, h3⟩ := stack_eq p.objs
  rcases h3 with ⟨hb, h3⟩ | ⟨hb, hh, h3⟩
  · subst hb
    refine ⟨a, [], h1, h2, by simp, ?_⟩
    have hno : p.objs.flatMap Obj.ctorOps = [] := by
      rw [List.flatMap_eq_nil_iff]
      intro o ho
      rw [h1, List.append_nil] at ho
      exact h2 o ho
    unfold Prog.Safe Prog.trace Prog.final
    rw [h3, hno]
    by_cases hm : p.mainOps = []
    · simp only [hm, if_true, List.map_nil, List.nil_append, List.append_nil]
      rw [evs_objs, run_calls, Option.isSome_map]
      show (run env ((dtors a).map Op.use)).isSome ↔ _
      have : (dtors ([] : List Obj)).map Op.use = [] := rfl
      rw [this]
      have h0 : (run env []).isSome = true := rfl
      simp only [h0, and_true]
      constructor
      · intro hs
        cases hd : dtors a with
        | nil => rfl
        | cons n l =>
          rw [hd] at hs
          have := ((c75_exact env _).1 hs).1 [] (l.map Op.use) n rfl
          cases this
      · intro hd; rw [hd]; rfl
    · simp only [if_neg hm, List.map_nil, List.nil_append, St.touch, Bool.false_eq_true, if_false]
      rw [List.flatMap_cons, evs_objs]
      have := safe_with env p.mainOps (dtors a)
      simpa [Item.evs, dtors] using this
  · refine ⟨a, b, h1, h2, hh, ?_⟩
    unfold Prog.Safe Prog.trace Prog.final
    rw [h3]
    have ht : (if p.mainOps = [] then (⟨true, (b.reverse.map Obj.dtorUses).map Item.obj ++ Item.manager :: (a.reverse.map Obj.dtorUses).map Item.obj⟩ : St)
        else St.touch ⟨true, (b.reverse.map Obj.dtorUses).map Item.obj ++ Item.manager :: (a.reverse.map Obj.dtorUses).map Item.obj⟩) =
        ⟨true, (b.reverse.map Obj.dtorUses).map Item.obj ++ Item.manager :: (a.reverse.map Obj.dtorUses).map Item.obj⟩ := by
      split <;> simp [St.touch]
    simp only [ht]
    rw [List.flatMap_append, List.flatMap_cons, evs_objs, evs_objs]
    have := safe_with env (p.objs.flatMap Obj.ctorOps ++ p.mainOps ++ (dtors b).map .use) (dtors a)
    rw [← this]
    simp [Item.evs, dtors, List.append_assoc]

theorem mem_ctorOps {os : List Obj} {n : S} : .regStr n ∈ os.flatMap Obj.ctorOps ↔ .stream n ∈ os := by
  rw [List.mem_flatMap]
  constructor
  · rintro ⟨o, ho, hn⟩
    cases o with
    | stream m => simp only [Obj.ctorOps, List.mem_singleton, Op.regStr.injEq] at hn; rw [hn]; exact ho
    | output m => simp [Obj.ctorOps] at hn
    | user c d => simp [Obj.ctorOps] at hn
  · intro h; exact ⟨_, h, by simp [Obj.ctorOps]⟩

theorem registered_iff (p : Prog) (n : S) : Registered p n ↔ .stream n ∈ p.objs := by
  simp only [Registered, Prog.objs, List.mem_append, List.mem_flatten]

theorem unit_split {c d : List S} {y : List Obj} : ∀ (ts : List TU) (z : TU), ts.flatten = z ++ .user c d :: y →
    ∃ t ∈ ts, ∃ q post, t = q ++ .user c d :: post ∧ ∀ o ∈ q, o ∈ z := by
  intro ts
  induction ts with
  | nil => intro z hz; simp at hz
  | cons t ts ih =>
    intro z hz
    rw [List.flatten_cons] at hz
    rcases List.append_eq_append_iff.1 hz with ⟨w, h3, h4⟩ | ⟨w, h3, h4⟩
    · obtain ⟨t', ht', q, post, h5, h6⟩ := ih w h4
      exact ⟨t', List.mem_cons_of_mem _ ht', q, post, h5, fun o ho => by rw [h3]; exact List.mem_append_right _ (h6 o ho)⟩
    · cases w with
      | nil =>
        obtain ⟨t', ht', q, post, h5, h6⟩ := ih [] (by simpa using h4.symm)
        exact ⟨t', List.mem_cons_of_mem _ ht', q, post, h5, fun o ho => absurd (h6 o ho) List.not_mem_nil⟩
      | cons o w =>
        simp only [List.cons_append, List.cons.injEq] at h4
        obtain ⟨rfl, h4⟩ := h4
        exact ⟨t, List.mem_cons_self, z, w, h3, fun o ho => ho⟩

/-- Objects and the objects before them. -/
theorem behind_split {p : Prog} {x y : List Obj} {c d : List S} (h : p.objs = x ++ .user c d :: y) :
    ∃ pre, Behind p pre c d ∧ ∀ o ∈ pre, o ∈ x := by
  unfold Prog.objs at h
  rcases List.append_eq_append_iff.1 h with ⟨z, h1, h2⟩ | ⟨z, h1, h2⟩
  · -- in the units
    obtain ⟨t, ht, q, post, h5, h6⟩ := unit_split p.tus z h2
    refine ⟨p.lib ++ q, Or.inr ⟨t, ht, q, post, h5, rfl⟩, fun o ho => ?_⟩
    rw [h1]
    rcases List.mem_append.1 ho with ho | ho
    · exact List.mem_append_left _ ho
    · exact List.mem_append_right _ (h6 o ho)
  · cases z with
    | nil =>
      obtain ⟨t, ht, q, post, h5, h6⟩ := unit_split (y := y) p.tus [] h2.symm
      refine ⟨p.lib ++ q, Or.inr ⟨t, ht, q, post, h5, rfl⟩, fun o ho => ?_⟩
      rcases List.mem_append.1 ho with ho | ho
      · rw [h1, List.append_nil] at ho; exact ho
      · exact absurd (h6 o ho) List.not_mem_nil
    | cons o z =>
      simp only [List.cons_append, List.cons.injEq] at h2
      obtain ⟨rfl, h2⟩ := h2
      exact ⟨x, Or.inl ⟨z, h1⟩, fun o ho => ho⟩

/-- The conditions on a program. -/
def Cond (p : Prog) : Prop :=
  (∀ pre c d, Behind p pre c d → (∀ n ∈ c, .stream n ∈ pre) ∧
    (d ≠ [] → HasRegistrar pre ∧ (∀ n ∈ d, Registered p n) ∧ p.life = false)) ∧ ∀ n ∈ p.uses, Registered p n

theorem cond_reordered {p p' : Prog} (h : Reordered p p') (hc : Cond p) : Cond p' := by
  obtain ⟨h1, h2, h3, h4⟩ := h
  have hr : ∀ n, Registered p n → Registered p' n := by
    rintro n (h | ⟨t, ht, h⟩)
    · exact Or.inl (by rw [h1]; exact h)
    · exact Or.inr ⟨t, h4.mem_iff.2 ht, h⟩
  refine ⟨fun pre c d hb => ?_, fun n hn => hr n (hc.2 n (by rw [← h3]; exact hn))⟩
  have hb' : Behind p pre c d := by
    rcases hb with ⟨post, h⟩ | ⟨t, ht, q, post, h, h'⟩
    · exact Or.inl ⟨post, by rw [← h1]; exact h⟩
    · exact Or.inr ⟨t, h4.mem_iff.1 ht, q, post, h, by rw [← h1]; exact h'⟩
  obtain ⟨hx, hy⟩ := hc.1 pre c d hb'
  refine ⟨hx, fun hd => ?_⟩
  obtain ⟨a, b, c⟩ := hy hd
  exact ⟨a, fun n hn => hr n (b n hn), by rw [h2]; exact c⟩

theorem shut_not_ctor (os : List Obj) : .shutdown ∉ os.flatMap Obj.ctorOps := by
  rw [List.mem_flatMap]
  rintro ⟨o, -, hn⟩
  cases o <;> simp [Obj.ctorOps] at hn

theorem registrar_ctor {t : TU} (h : HasRegistrar t) : ∃ o ∈ t, o.ctorOps ≠ [] := by
  rcases h with ⟨n, h⟩ | ⟨n, h⟩
  · exact ⟨_, h, by simp [Obj.ctorOps]⟩
  · exact ⟨_, h, by simp [Obj.ctorOps]⟩

/-- A use in a constructor: the objects before, and the streams used before in the same constructor. -/
theorem ctor_use_split {n : S} : ∀ (os : List Obj) (pre post : List Op), os.flatMap Obj.ctorOps = pre ++ .use n :: post →
    ∃ x c d y, os = x ++ .user c d :: y ∧ n ∈ c ∧ ∀ m, .stream m ∈ x → .regStr m ∈ pre := by
  intro os
  induction os with
  | nil => intro pre post h; simp at h
  | cons o os ih =>
    intro pre post h
    rw [List.flatMap_cons] at h
    have later : ∀ w, os.flatMap Obj.ctorOps = w ++ .use n :: post → pre = o.ctorOps ++ w →
        ∃ x c d y, o :: os = x ++ .user c d :: y ∧ n ∈ c ∧ ∀ m, .stream m ∈ x → .regStr m ∈ pre := by
      intro w hw hp
      obtain ⟨x, c, d, y, h1, h2, h3⟩ := ih w post hw
      refine ⟨o :: x, c, d, y, by rw [h1]; rfl, h2, fun m hm => ?_⟩
      rw [hp]
      rcases List.mem_cons.1 hm with hm | hm
      · exact List.mem_append_left _ (by rw [← hm]; simp [Obj.ctorOps])
      · exact List.mem_append_right _ (h3 m hm)
    rcases List.append_eq_append_iff.1 h with ⟨w, h1, h2⟩ | ⟨w, h1, h2⟩
    · exact later w h2 h1
    · cases w with
      | nil => exact later [] h2.symm (by rw [h1, List.append_nil, List.append_nil])
      | cons op w =>
        simp only [List.cons_append, List.cons.injEq] at h2
        obtain ⟨rfl, -⟩ := h2
        have hu : .use n ∈ o.ctorOps := by rw [h1]; simp
        cases o with
        | stream m => simp [Obj.ctorOps] at hu
        | output m => simp [Obj.ctorOps] at hu
        | user c d =>
          exact ⟨[], c, d, os, rfl, by simpa [Obj.ctorOps] using hu, by simp⟩

theorem cond_safe (env : Env) {p : Prog} (hc : Cond p) : p.Safe env := by
  obtain ⟨a, b, h1, h2, h3, h4⟩ := safe_iff env p
  rw [h4]
  have hnoa : dtors a = [] := by
    rw [List.eq_nil_iff_forall_not_mem]
    intro n hn
    obtain ⟨c, d, ho, hnd⟩ := mem_dtors.1 hn
    obtain ⟨x, y, hxy⟩ := List.append_of_mem ho
    obtain ⟨pre, hb, hp⟩ := behind_split (p := p) (x := x) (y := y ++ b) (c := c) (d := d) (by rw [h1, hxy]; simp)
    obtain ⟨hr, -, -⟩ := (hc.1 pre c d hb).2 (List.ne_nil_of_mem hnd)
    obtain ⟨o, ho, hne⟩ := registrar_ctor hr
    exact hne (h2 o (by rw [hxy]; exact List.mem_append_left _ (hp o ho)))
  refine ⟨hnoa, (c75_exact env _).2 ⟨?_, ?_⟩⟩
  · intro pre post n h
    have all : ∀ w, Registered p n → pre = p.objs.flatMap Obj.ctorOps ++ w → .regStr n ∈ pre := by
      intro w hr hw
      rw [hw]
      exact List.mem_append_left _ (mem_ctorOps.2 ((registered_iff p n).1 hr))
    have main : .use n ∈ p.mainOps → Registered p n := by
      intro hm
      apply hc.2
      unfold Prog.mainOps at hm
      cases p.life <;> simpa using hm
    have dt : n ∈ dtors b → Registered p n := by
      intro hm
      obtain ⟨c, d, ho, hnd⟩ := mem_dtors.1 hm
      obtain ⟨x, y, hxy⟩ := List.append_of_mem ho
      obtain ⟨pre, hb, hp⟩ := behind_split (p := p) (x := a ++ x) (y := y) (c := c) (d := d) (by rw [h1, hxy]; simp)
      exact ((hc.1 pre c d hb).2 (List.ne_nil_of_mem hnd)).2.1 n hnd
    have rest : .use n ∈ p.mainOps ++ (dtors b).map Op.use → Registered p n := by
      intro hm
      rcases List.mem_append.1 hm with hm | hm
      · exact main hm
      · exact dt (by simpa using hm)
    rw [List.append_assoc] at h
    rcases List.append_eq_append_iff.1 h with ⟨w, e1, e2⟩ | ⟨w, e1, e2⟩
    · exact all w (rest (by rw [e2]; simp)) e1
    · cases w with
      | nil => exact all [] (rest (by rw [List.nil_append] at e2; rw [← e2]; simp)) (by rw [e1]; simp)
      | cons op w =>
        simp only [List.cons_append, List.cons.injEq] at e2
        obtain ⟨rfl, -⟩ := e2
        obtain ⟨x, c, d, y, g1, g2, g3⟩ := ctor_use_split _ _ _ e1
        obtain ⟨pr, hb, hp⟩ := behind_split g1
        exact g3 n (hp _ ((hc.1 pr c d hb).1 n g2))
  · rintro ⟨a', op, b', h, -, x, y, hxy, -⟩
    by_cases hl : p.life = true
    · have hd : dtors b = [] := by
        rw [List.eq_nil_iff_forall_not_mem]
        intro n hn
        obtain ⟨c, d, ho, hnd⟩ := mem_dtors.1 hn
        obtain ⟨x, y, hxy⟩ := List.append_of_mem ho
        obtain ⟨pre, hb, hp⟩ := behind_split (p := p) (x := a ++ x) (y := y) (c := c) (d := d) (by rw [h1, hxy]; simp)
        have := ((hc.1 pre c d hb).2 (List.ne_nil_of_mem hnd)).2.2
        rw [hl] at this; cases this
      rw [hd, List.map_nil, List.append_nil, Prog.mainOps, if_pos hl, if_pos hl, ← List.append_assoc] at h
      have hin : .shutdown ∈ p.objs.flatMap Obj.ctorOps ++ ([.init] ++ p.uses.map Op.use) := by
        rcases List.append_eq_append_iff.1 h with ⟨w, e1, e2⟩ | ⟨w, e1, e2⟩
        · have : w = [] := by
            cases w with
            | nil => rfl
            | cons o w => simp at e2
          rw [this, List.append_nil] at e1
          rw [← e1, hxy]; simp
        · rw [e1, hxy]; simp
      rcases List.mem_append.1 hin with hin | hin
      · exact shut_not_ctor _ hin
      · simp at hin
    · have hin : .shutdown ∈ p.objs.flatMap Obj.ctorOps ++ p.mainOps ++ (dtors b).map Op.use := by
        rw [h, hxy]; simp
      rcases List.mem_append.1 hin with hin | hin
      · rcases List.mem_append.1 hin with hin | hin
        · exact shut_not_ctor _ hin
        · unfold Prog.mainOps at hin
          rw [if_neg hl, if_neg hl] at hin
          simp at hin
      · simp at hin

/-- In a safe program whatever calls the manager first is a registration. -/
theorem registrar_of {os : List Obj} (hu : ∀ x c d y, os = x ++ .user c d :: y → ∀ n ∈ c, .stream n ∈ x)
    {x : List Obj} {o : Obj} {y : List Obj} (h : os = x ++ o :: y) (ho : o.ctorOps ≠ []) : HasRegistrar (x ++ [o]) := by
  cases o with
  | stream n => exact Or.inl ⟨n, by simp⟩
  | output n => exact Or.inr ⟨n, by simp⟩
  | user c d =>
    cases c with
    | nil => simp [Obj.ctorOps] at ho
    | cons n c => exact Or.inl ⟨n, by simp [hu x _ d y h n (by simp)]⟩

theorem registrar_mono {s t : TU} (h : HasRegistrar s) (hs : ∀ o ∈ s, o ∈ t) : HasRegistrar t := by
  rcases h with ⟨n, h⟩ | ⟨n, h⟩
  · exact Or.inl ⟨n, hs _ h⟩
  · exact Or.inr ⟨n, hs _ h⟩

theorem safe_obj (env : Env) {p : Prog} (hs : p.Safe env) {x y : List Obj} {c d : List S}
    (h : p.objs = x ++ .user c d :: y) :
    (∀ n ∈ c, .stream n ∈ x) ∧ (d ≠ [] → HasRegistrar x ∧ (∀ n ∈ d, Registered p n) ∧ p.life = false) := by
  obtain ⟨a, b, h1, h2, h3, h4⟩ := safe_iff env p
  obtain ⟨hna, hrun⟩ := h4.1 hs
  obtain ⟨hur, hnr⟩ := (c75_exact env _).1 hrun
  have hu : ∀ x c d y, p.objs = x ++ .user c d :: y → ∀ n ∈ c, .stream n ∈ x := by
    intro x c d y h n hn
    obtain ⟨c1, c2, hc⟩ := List.append_of_mem hn
    have := hur (x.flatMap Obj.ctorOps ++ c1.map Op.use)
      (c2.map Op.use ++ y.flatMap Obj.ctorOps ++ p.mainOps ++ (dtors b).map Op.use) n (by
        rw [h, hc]; simp [Obj.ctorOps])
    rcases List.mem_append.1 this with h | h
    · exact mem_ctorOps.1 h
    · simp at h
  refine ⟨hu x c d y h, fun hd => ?_⟩
  -- the object is among those constructed after the manager
  have hnot : .user c d ∉ a := by
    intro ha
    obtain ⟨n, hn⟩ := List.exists_mem_of_ne_nil _ hd
    have : n ∈ dtors a := mem_dtors.2 ⟨c, d, ha, hn⟩
    rw [hna] at this; cases this
  have hax : ∃ w, x = a ++ w ∧ b = w ++ .user c d :: y := by
    rcases List.append_eq_append_iff.1 (h1.symm.trans h) with ⟨w, e1, e2⟩ | ⟨w, e1, e2⟩
    · exact ⟨w, e1, e2⟩
    · cases w with
      | nil => exact ⟨[], by rw [e1]; simp, e2.symm⟩
      | cons o w =>
        simp only [List.cons_append, List.cons.injEq] at e2
        obtain ⟨rfl, -⟩ := e2
        exact absurd (by rw [e1]; simp) hnot
  obtain ⟨w, hw1, hw2⟩ := hax
  have hreg : HasRegistrar x := by
    cases w with
    | nil =>
      have := h3 (.user c d) (by rw [hw2]; rfl)
      cases c with
      | nil => exact absurd rfl this
      | cons n c => exact Or.inl ⟨n, hu x _ d y h n (by simp)⟩
    | cons o w =>
      have ho := h3 o (by rw [hw2]; rfl)
      have := registrar_of hu (x := a) (o := o) (y := w ++ .user c d :: y) (by rw [h1, hw2]; rfl) ho
      exact registrar_mono this (fun o ho => by rw [hw1]; simp at ho ⊢; rcases ho with h | h <;> simp [h])
  have hregd : ∀ n ∈ d, Registered p n := by
    intro n hn
    have hnb : n ∈ dtors b := mem_dtors.2 ⟨c, d, by rw [hw2]; simp, hn⟩
    obtain ⟨d1, d2, hd⟩ := List.append_of_mem hnb
    have := hur (p.objs.flatMap Obj.ctorOps ++ p.mainOps ++ d1.map Op.use) (d2.map Op.use) n (by rw [hd]; simp)
    rw [registered_iff]
    rcases List.mem_append.1 this with h | h
    · rcases List.mem_append.1 h with h | h
      · exact mem_ctorOps.1 h
      · unfold Prog.mainOps at h
        cases p.life <;> simp at h
    · simp at h
  refine ⟨hreg, hregd, ?_⟩
  cases hl : p.life with
  | false => rfl
  | true =>
    exfalso
    apply hnr
    obtain ⟨n, hn⟩ := List.exists_mem_of_ne_nil _ hd
    have hnb : n ∈ dtors b := mem_dtors.2 ⟨c, d, by rw [hw2]; simp, hn⟩
    obtain ⟨d1, d2, hd⟩ := List.append_of_mem hnb
    refine ⟨p.objs.flatMap Obj.ctorOps ++ p.mainOps ++ d1.map Op.use, .use n, d2.map Op.use, by rw [hd]; simp,
      Or.inr ⟨n, rfl⟩, p.objs.flatMap Obj.ctorOps ++ [.init] ++ p.uses.map Op.use, d1.map Op.use, ?_,
      p.objs.flatMap Obj.ctorOps, .init, p.uses.map Op.use, n, by simp, Or.inl rfl,
      mem_ctorOps.2 ((registered_iff p n).1 (hregd n hn))⟩
    simp [Prog.mainOps, hl]

theorem safe_uses (env : Env) {p : Prog} (hs : p.Safe env) : ∀ n ∈ p.uses, Registered p n := by
  obtain ⟨a, b, h1, h2, h3, h4⟩ := safe_iff env p
  obtain ⟨-, hrun⟩ := h4.1 hs
  obtain ⟨hur, -⟩ := (c75_exact env _).1 hrun
  intro n hn
  obtain ⟨c1, c2, hc⟩ := List.append_of_mem hn
  have := hur (p.objs.flatMap Obj.ctorOps ++ (if p.life then [.init] else []) ++ c1.map Op.use)
    (c2.map Op.use ++ (if p.life then [.shutdown] else []) ++ (dtors b).map Op.use) n (by
      rw [Prog.mainOps, hc]; simp)
  rw [registered_iff]
  rcases List.mem_append.1 this with h | h
  · rcases List.mem_append.1 h with h | h
    · exact mem_ctorOps.1 h
    · cases p.life <;> simp at h
  · simp at h

end Verif.Logging.Static
