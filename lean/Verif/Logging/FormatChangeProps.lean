import Verif.Logging.FormatChange
import Verif.Logging.FormatProps

/-!
# C116: every line is written in one of the formats that were asked for
-/
namespace Verif.Logging.FormatChange
variable {E M : Type}

/-! ## Specification: on the events alone, the newest first -/

/-- The format asked for by the call that has not returned yet. -/
def pending : List (Ev E M) → Option (List E)
  | [] => none
  | .setCall _ es :: _ => some es
  | .setRet _ _ :: _ => none
  | _ :: h => pending h

/-- The format asked for by the last call that has returned. -/
def settled (f0 : List E) : List (Ev E M) → List E
  | [] => f0
  | .setRet _ _ :: h => (pending h).getD (settled f0 h)
  | _ :: h => settled f0 h

/-- No call of `changeLogFormat` begins before the one before it has returned. -/
def OneAtATime : List (Ev E M) → Prop
  | [] => True
  | .setCall _ _ :: h => pending h = none ∧ OneAtATime h
  | _ :: h => OneAtATime h

/-- No wait inside `changeLogFormat` was interrupted by a signal. -/
def NotInterrupted (h : List (Ev E M)) : Prop := ∀ t, Ev.setRet t false ∉ h

/-- `f` is a format in which a line may be written that was begun after the events `a`, when the events `b` followed. -/
def Allowed (f0 : List E) (a b : List (Ev E M)) (f : List E) : Prop :=
  f = settled f0 a ∨ pending a = some f ∨ ∃ t, Ev.setCall t f ∈ b

/-- The message in a format. -/
def lineOf (rnd : M → E → List Char) (m : M) (f : List E) : List Char := (f.map (rnd m)).flatten

/-! ## Invariants -/

/-- Between wait and post. -/
def Pc.holds : Pc E M → Prop
  | .clear | .assign | .clearNew | .postSet | .draw _ _ _ | .postLog _ _ => True
  | _ => False

/-- Inside `changeLogFormat`. -/
def Pc.changing : Pc E M → Prop
  | .parse _ | .wantSet | .clear | .assign | .clearNew | .postSet | .retSet => True
  | _ => False

/-- The mutex. -/
structure Lock (s : St E M) : Prop where
  one : s.count ≤ 1
  free : ∀ t, (s.pc t).holds → s.count = 0
  uniq : ∀ t u, (s.pc t).holds → (s.pc u).holds → t = u
  used : s.count = 0 → ∃ t, (s.pc t).holds

theorem used_aux {pc pc' : Nat → Pc E M} {c : Nat} (t : Nat) (h : c = 0 → ∃ t, (pc t).holds)
    (h' : (pc' t).holds ∨ (c = 0 ∧ ¬ (pc t).holds ∧ ∀ u, u ≠ t → pc' u = pc u)) : ∃ t, (pc' t).holds := by
  rcases h' with h' | ⟨h1, h2, h3⟩
  · exact ⟨t, h'⟩
  · obtain ⟨w, hw⟩ := h h1
    refine ⟨w, ?_⟩
    rw [h3 w (by rintro rfl; exact h2 hw)]; exact hw

theorem lock_step (rnd : M → E → List Char) {s s' : St E M} {a : Act E M} (h : Lock s) (e : exec rnd s a = some s') : Lock s' := by
  obtain ⟨h1, h2, h3, h4⟩ := h
  cases a with
  | set t es =>
    simp only [exec] at e
    split at e <;> try contradiction
    rename_i hp
    obtain rfl := Option.some.inj e
    refine ⟨by grind [upd, Pc.holds], by grind [upd, Pc.holds], by grind [upd, Pc.holds], fun hc => used_aux t h4 ?_⟩ <;> grind [upd, Pc.holds]
  | log t m =>
    simp only [exec] at e
    split at e <;> try contradiction
    rename_i hp
    obtain rfl := Option.some.inj e
    refine ⟨by grind [upd, Pc.holds], by grind [upd, Pc.holds], by grind [upd, Pc.holds], fun hc => used_aux t h4 ?_⟩ <;> grind [upd, Pc.holds]
  | sig t =>
    simp only [exec] at e
    split at e <;> try contradiction
    split at e <;> try contradiction
    all_goals
      rename_i hp
      obtain rfl := Option.some.inj e
      refine ⟨by grind [upd, Pc.holds], by grind [upd, Pc.holds], by grind [upd, Pc.holds], fun hc => used_aux t h4 ?_⟩ <;> grind [upd, Pc.holds]
  | go t =>
    simp only [exec] at e
    split at e <;> try contradiction
    all_goals try (split at e <;> try contradiction)
    all_goals
      obtain rfl := Option.some.inj e
      refine ⟨by grind [upd, Pc.holds], by grind [upd, Pc.holds], by grind [upd, Pc.holds], fun hc => used_aux t h4 ?_⟩ <;> grind [upd, Pc.holds]

/-- Lists of events grow. -/
theorem hist_step (rnd : M → E → List Char) {s s' : St E M} {a : Act E M} (e : exec rnd s a = some s') :
    s'.hist = s.hist ∨ ∃ ev, s'.hist = ev :: s.hist := by
  cases a <;> simp only [exec] at e <;> (repeat' split at e) <;> first | contradiction | (obtain rfl := Option.some.inj e; simp)

/-- The text is the part of the current format drawn so far. -/
def Drawn (rnd : M → E → List Char) (s : St E M) : Prop :=
  ∀ t m i acc, s.pc t = .draw m i acc → acc = lineOf rnd m (s.fmt.take i)

theorem drawn_step (rnd : M → E → List Char) {s s' : St E M} {a : Act E M} (hl : Lock s) (h : Drawn rnd s) (e : exec rnd s a = some s') :
    Drawn rnd s' := by
  obtain ⟨h1, h2, h3, h4⟩ := hl
  intro u m i acc hu
  cases a with
  | set t es =>
    simp only [exec] at e
    split at e <;> try contradiction
    obtain rfl := Option.some.inj e
    grind [upd, Drawn]
  | log t m =>
    simp only [exec] at e
    split at e <;> try contradiction
    obtain rfl := Option.some.inj e
    grind [upd, Drawn]
  | sig t =>
    simp only [exec] at e
    split at e <;> try contradiction
    split at e <;> try contradiction
    all_goals
      obtain rfl := Option.some.inj e
      grind [upd, Drawn]
  | go t =>
    simp only [exec] at e
    split at e <;> try contradiction
    case h_11 m0 i0 acc0 hp =>
      split at e
      · rename_i x hx
        obtain rfl := Option.some.inj e
        by_cases hut : u = t
        · subst hut
          simp only [upd, if_true, Pc.draw.injEq] at hu
          obtain ⟨rfl, rfl, rfl⟩ := hu
          have := h u _ _ _ hp
          subst this
          obtain ⟨hlt, hget⟩ := List.getElem?_eq_some_iff.1 hx
          simp only [lineOf]
          rw [List.take_succ, hx]
          simp
        · simp only [upd, hut, if_false] at hu
          exact h u _ _ _ hu
      · obtain rfl := Option.some.inj e
        by_cases hut : u = t
        · subst hut; simp [upd] at hu
        · simp only [upd, hut, if_false] at hu
          exact h u _ _ _ hu
    all_goals try (split at e <;> try contradiction)
    all_goals
      obtain rfl := Option.some.inj e
      grind [upd, Drawn, Pc.holds, lineOf]

/-- How far the one running call has come: `old` is the settled format, `es` the one asked for. -/
def Stage (old es fmt new : List E) : Pc E M → Prop
  | .parse todo => new ++ todo = es ∧ fmt = old
  | .wantSet | .clear => new = es ∧ fmt = old
  | .assign => new = es
  | .clearNew => new = es ∧ fmt = es
  | .postSet | .retSet => new = [] ∧ fmt = es
  | _ => False

/-- The format is settled, or there is one running call. -/
def Phase (f0 : List E) (s : St E M) : Prop :=
  (pending s.hist = none ∧ (∀ t, ¬ (s.pc t).changing) ∧ s.new = [] ∧ s.fmt = settled f0 s.hist) ∨
  ∃ es t, pending s.hist = some es ∧ (∀ u, (s.pc u).changing → u = t) ∧ Stage (settled f0 s.hist) es s.fmt s.new (s.pc t)

theorem phase_step (rnd : M → E → List Char) (f0 : List E) {s s' : St E M} {a : Act E M} (h : Phase f0 s)
    (e : exec rnd s a = some s') (h1 : OneAtATime s'.hist) (h2 : NotInterrupted s'.hist) : Phase f0 s' := by
  cases a with
  | set t es =>
    simp only [exec] at e
    split at e <;> try contradiction
    rename_i hp
    obtain rfl := Option.some.inj e
    rcases h with ⟨p1, p2, p3, p4⟩ | ⟨es', u, p1, p2, p3⟩
    · refine Or.inr ⟨es, t, rfl, ?_, ?_⟩
      · intro u hu
        by_cases hut : u = t
        · exact hut
        · exact absurd (by simpa [upd, hut] using hu) (p2 u)
      · simp [upd, Stage, settled, p3, p4]
    · simp only [OneAtATime] at h1
      rw [p1] at h1; cases h1.1
  | log t m =>
    simp only [exec] at e
    split at e <;> try contradiction
    rename_i hp
    obtain rfl := Option.some.inj e
    rcases h with ⟨p1, p2, p3, p4⟩ | ⟨es', u, p1, p2, p3⟩
    · refine Or.inl ⟨p1, ?_, p3, p4⟩
      grind [upd, Pc.changing]
    · refine Or.inr ⟨es', u, p1, ?_, ?_⟩
      · grind [upd, Pc.changing]
      · have : u ≠ t := by rintro rfl; rw [hp] at p3; exact p3
        simpa [upd, this, settled] using p3
  | sig t =>
    simp only [exec] at e
    split at e <;> try contradiction
    split at e <;> try contradiction
    · obtain rfl := Option.some.inj e
      exact absurd List.mem_cons_self (h2 t)
    · rename_i hp
      obtain rfl := Option.some.inj e
      rcases h with ⟨p1, p2, p3, p4⟩ | ⟨es', u, p1, p2, p3⟩
      · refine Or.inl ⟨p1, ?_, p3, p4⟩
        grind [upd, Pc.changing]
      · refine Or.inr ⟨es', u, p1, ?_, ?_⟩
        · grind [upd, Pc.changing]
        · have : u ≠ t := by rintro rfl; rw [hp] at p3; exact p3
          simpa [upd, this, settled] using p3
  | go t =>
    have quiet : ∀ (p : Pc E M) (ev : List (Ev E M)) (c : Nat), ¬ (s.pc t).changing → ¬ p.changing →
        pending (ev ++ s.hist) = pending s.hist → settled f0 (ev ++ s.hist) = settled f0 s.hist →
        Phase f0 ⟨s.fmt, s.new, c, upd s.pc t p, ev ++ s.hist⟩ := by
      intro p ev c q1 q2 q3 q4
      rcases h with ⟨p1, p2, p3, p4⟩ | ⟨es', u, p1, p2, p3⟩
      · refine Or.inl ⟨by simp only [q3, p1], ?_, p3, by simp only [q4, p4]⟩
        intro u
        by_cases hut : u = t
        · subst hut; simpa [upd] using q2
        · simpa [upd, hut] using p2 u
      · refine Or.inr ⟨es', u, by simp only [q3, p1], ?_, ?_⟩
        · intro v hv
          by_cases hvt : v = t
          · subst hvt; simp [upd] at hv; exact absurd hv q2
          · exact p2 v (by simpa [upd, hvt] using hv)
        · have hu : u ≠ t := by
            rintro rfl
            cases hpc : s.pc u <;> rw [hpc] at p3 q1 <;> simp [Stage, Pc.changing] at p3 q1
          simpa [upd, hu, q4] using p3
    have busy : ∀ (p : Pc E M) (fm nw : List E) (c : Nat), (s.pc t).changing →
        (∀ es, Stage (settled f0 s.hist) es s.fmt s.new (s.pc t) → Stage (settled f0 s.hist) es fm nw p) →
        Phase f0 ⟨fm, nw, c, upd s.pc t p, s.hist⟩ := by
      intro p fm nw c q1 q2
      rcases h with ⟨p1, p2, p3, p4⟩ | ⟨es', u, p1, p2, p3⟩
      · exact absurd q1 (p2 t)
      · have hut : t = u := p2 t q1
        subst hut
        refine Or.inr ⟨es', t, p1, ?_, ?_⟩
        · intro v hv
          by_cases hvt : v = t
          · exact hvt
          · exact p2 v (by simpa [upd, hvt] using hv)
        · simpa [upd] using q2 es' p3
    simp only [exec] at e
    split at e <;> try contradiction
    all_goals rename_i hp
    all_goals try (split at e <;> try contradiction)
    all_goals obtain rfl := Option.some.inj e
    · refine busy _ _ _ _ (by simp [hp, Pc.changing]) fun es => ?_
      simp [hp, Stage]
    · refine busy _ _ _ _ (by simp [hp, Pc.changing]) fun es => ?_
      simp [hp, Stage]
    · refine busy _ _ _ _ (by simp [hp, Pc.changing]) fun es => ?_
      simp [hp, Stage]
    · refine busy _ _ _ _ (by simp [hp, Pc.changing]) fun es => ?_
      simp +contextual [hp, Stage]
    · refine busy _ _ _ _ (by simp [hp, Pc.changing]) fun es => ?_
      simp [hp, Stage]
    · refine busy _ _ _ _ (by simp [hp, Pc.changing]) fun es => ?_
      simp +contextual [hp, Stage]
    · refine busy _ _ _ _ (by simp [hp, Pc.changing]) fun es => ?_
      simp [hp, Stage]
    · rcases h with ⟨p1, p2, p3, p4⟩ | ⟨es', u, p1, p2, p3⟩
      · exact absurd (by simp [hp, Pc.changing]) (p2 t)
      · have hut : t = u := p2 t (by simp [hp, Pc.changing])
        subst hut
        rw [hp] at p3
        refine Or.inl ⟨rfl, ?_, p3.1, by simp [settled, p1, p3.2]⟩
        intro v hv
        by_cases hvt : v = t
        · subst hvt; simp [upd, Pc.changing] at hv
        · exact hvt (p2 v (by simpa [upd, hvt] using hv))
    · exact quiet _ [] _ (by simp [hp, Pc.changing]) (by simp [Pc.changing]) rfl rfl
    · exact quiet _ [] _ (by simp [hp, Pc.changing]) (by simp [Pc.changing]) rfl rfl
    · exact quiet _ [] _ (by simp [hp, Pc.changing]) (by simp [Pc.changing]) rfl rfl
    · exact quiet _ [] _ (by simp [hp, Pc.changing]) (by simp [Pc.changing]) rfl rfl
    · exact quiet _ [.line t _ _] _ (by simp [hp, Pc.changing]) (by simp [Pc.changing]) rfl rfl

/-- While a line is drawn, the format is the settled one or the one asked for. -/
theorem fmt_now {f0 : List E} {s : St E M} (hl : Lock s) (h : Phase f0 s) (t : Nat) (hc : ¬ (s.pc t).changing) (hh : (s.pc t).holds) :
    s.fmt = settled f0 s.hist ∨ pending s.hist = some s.fmt := by
  rcases h with ⟨p1, p2, p3, p4⟩ | ⟨es, u, p1, p2, p3⟩
  · exact Or.inl p4
  · have hn : ¬ (s.pc u).holds := by
      intro hu
      have : t = u := hl.uniq t u hh hu
      subst this
      cases hpc : s.pc t <;> rw [hpc] at p3 hc <;> simp [Stage, Pc.changing] at p3 hc
    cases hpc : s.pc u <;> rw [hpc] at p3 hn <;> simp [Stage, Pc.holds] at p3 hn
    · exact Or.inl p3.2
    · exact Or.inl p3.2
    · exact Or.inr (by rw [p1, p3.2])

theorem allowed_now (f0 : List E) (a : List (Ev E M)) (t : Nat) (m : M) (f : List E) : ∀ b : List (Ev E M),
    (f = settled f0 (b ++ .logCall t m :: a) ∨ pending (b ++ .logCall t m :: a) = some f) → Allowed f0 a b f := by
  intro b
  induction b with
  | nil => intro h; rcases h with h | h <;> simp [settled, pending] at h <;> simp [Allowed, h]
  | cons ev b ih =>
    intro h
    have mono : Allowed f0 a b f → Allowed f0 a (ev :: b) f := by
      rintro (h | h | ⟨u, h⟩)
      · exact Or.inl h
      · exact Or.inr (Or.inl h)
      · exact Or.inr (Or.inr ⟨u, List.mem_cons_of_mem _ h⟩)
    cases ev with
    | setCall u es =>
      rcases h with h | h
      · exact mono (ih (Or.inl h))
      · simp only [List.cons_append, pending, Option.some.injEq] at h
        subst h
        exact Or.inr (Or.inr ⟨u, List.mem_cons_self⟩)
    | setRet u ok =>
      rcases h with h | h
      · simp only [List.cons_append, settled] at h
        cases hp : pending (b ++ .logCall t m :: a) with
        | none => rw [hp] at h; exact mono (ih (Or.inl h))
        | some es => rw [hp] at h; exact mono (ih (Or.inr (by rw [hp, h]; rfl)))
      · simp [pending] at h
    | logCall _ _ => exact mono (ih h)
    | line _ _ _ => exact mono (ih h)
    | lost _ _ => exact mono (ih h)

/-- The line that `t` is working on was begun at the last `logCall`. -/
def Begun (t : Nat) (m : M) (h : List (Ev E M)) (P : List (Ev E M) → List (Ev E M) → Prop) : Prop :=
  ∃ b a, h = b ++ .logCall t m :: a ∧ (∀ m', Ev.logCall t m' ∉ b) ∧ P a b

theorem begun_mono {t : Nat} {m : M} {h : List (Ev E M)} {P : List (Ev E M) → List (Ev E M) → Prop} (ev : Ev E M)
    (hev : ∀ m', ev ≠ .logCall t m') (hP : ∀ a b, P a b → P a (ev :: b)) (hb : Begun t m h P) : Begun t m (ev :: h) P := by
  obtain ⟨b, a, h1, h2, h3⟩ := hb
  refine ⟨ev :: b, a, by rw [h1]; rfl, ?_, hP a b h3⟩
  intro m' hm
  rcases List.mem_cons.1 hm with h | h
  · exact hev m' h.symm
  · exact h2 m' h

theorem allowed_mono {f0 : List E} {rnd : M → E → List Char} {m : M} {acc : List Char} (ev : Ev E M) (a b : List (Ev E M))
    (h : ∃ f, Allowed f0 a b f ∧ acc = lineOf rnd m f) : ∃ f, Allowed f0 a (ev :: b) f ∧ acc = lineOf rnd m f := by
  obtain ⟨f, h, e⟩ := h
  refine ⟨f, ?_, e⟩
  rcases h with h | h | ⟨u, h⟩
  · exact Or.inl h
  · exact Or.inr (Or.inl h)
  · exact Or.inr (Or.inr ⟨u, List.mem_cons_of_mem _ h⟩)

/-- What is known of the line that a thread is writing. -/
def LogPc (rnd : M → E → List Char) (f0 : List E) (t : Nat) (h : List (Ev E M)) : Pc E M → Prop
  | .wantLog m | .draw m _ _ => Begun t m h fun _ _ => True
  | .postLog m acc | .write m acc => Begun t m h fun a b => ∃ f, Allowed f0 a b f ∧ acc = lineOf rnd m f
  | _ => True

theorem logPc_mono (rnd : M → E → List Char) (f0 : List E) (t : Nat) (h : List (Ev E M)) (ev : Ev E M) (hev : ∀ m', ev ≠ .logCall t m')
    (p : Pc E M) (hp : LogPc rnd f0 t h p) : LogPc rnd f0 t (ev :: h) p := by
  cases p <;> simp only [LogPc] at hp ⊢
  · exact begun_mono ev hev (fun _ _ _ => trivial) hp
  · exact begun_mono ev hev (fun _ _ _ => trivial) hp
  · exact begun_mono ev hev (fun a b => allowed_mono ev a b) hp
  · exact begun_mono ev hev (fun a b => allowed_mono ev a b) hp

theorem log_step (rnd : M → E → List Char) (f0 : List E) {s s' : St E M} {a : Act E M} (hl : Lock s) (hd : Drawn rnd s) (hph : Phase f0 s)
    (h : ∀ t, LogPc rnd f0 t s.hist (s.pc t)) (e : exec rnd s a = some s') : ∀ t, LogPc rnd f0 t s'.hist (s'.pc t) := by
  intro u
  have hu := h u
  cases a with
  | set t es =>
    simp only [exec] at e
    split at e <;> try contradiction
    obtain rfl := Option.some.inj e
    by_cases hut : u = t
    · subst hut; simp [upd, LogPc]
    · simp only [upd, hut, if_false]
      exact logPc_mono rnd f0 u _ _ (by simp) _ hu
  | log t m =>
    simp only [exec] at e
    split at e <;> try contradiction
    obtain rfl := Option.some.inj e
    by_cases hut : u = t
    · subst hut
      simp only [upd, if_true, LogPc]
      exact ⟨[], s.hist, rfl, by simp, trivial⟩
    · simp only [upd, hut, if_false]
      exact logPc_mono rnd f0 u _ _ (by intro m' hm; cases hm; exact hut rfl) _ hu
  | sig t =>
    simp only [exec] at e
    split at e <;> try contradiction
    split at e <;> try contradiction
    all_goals
      obtain rfl := Option.some.inj e
      by_cases hut : u = t
      · subst hut; simp [upd, LogPc]
      · simp only [upd, hut, if_false]
        exact logPc_mono rnd f0 u _ _ (by simp) _ hu
  | go t =>
    simp only [exec] at e
    split at e <;> try contradiction
    all_goals rename_i hp
    all_goals try (split at e <;> try contradiction)
    all_goals obtain rfl := Option.some.inj e
    all_goals
      by_cases hut : u = t
      · subst hut
        rw [hp] at hu
        simp only [upd, if_true]
        first
          | exact hu
          | (simp only [LogPc]; done)
          | (simp only [LogPc] at hu ⊢
             obtain ⟨b, a, h1, h2, h3⟩ := hu
             refine ⟨b, a, h1, h2, s.fmt, ?_, ?_⟩
             · have := fmt_now hl hph u (by simp [hp, Pc.changing]) (by simp [hp, Pc.holds])
               rw [h1] at this
               exact allowed_now f0 a u _ _ b this
             · have hx := hd u _ _ _ hp
               rename_i hnone
               rw [hx, List.take_of_length_le (by simpa using hnone)])
      · simp only [upd, hut, if_false]
        first
          | exact hu
          | exact logPc_mono rnd f0 u _ _ (by simp) _ hu

theorem split_unique {t : Nat} {m m' : M} {b a b' a' : List (Ev E M)} (h : b ++ Ev.logCall t m :: a = b' ++ Ev.logCall t m' :: a')
    (hb : ∀ m, Ev.logCall t m ∉ b) (hb' : ∀ m, Ev.logCall t m ∉ b') : b = b' ∧ m = m' ∧ a = a' := by
  induction b generalizing b' with
  | nil =>
    cases b' with
    | nil => simp only [List.nil_append, List.cons.injEq, Ev.logCall.injEq, true_and] at h; exact ⟨rfl, h⟩
    | cons x b' =>
      simp only [List.nil_append, List.cons_append, List.cons.injEq] at h
      exact absurd (h.1 ▸ List.mem_cons_self) (hb' m)
  | cons x b ih =>
    cases b' with
    | nil =>
      simp only [List.nil_append, List.cons_append, List.cons.injEq] at h
      exact absurd (h.1 ▸ List.mem_cons_self) (hb m')
    | cons x' b' =>
      simp only [List.cons_append, List.cons.injEq] at h
      obtain ⟨i1, i2⟩ := ih h.2 (fun m hm => hb m (List.mem_cons_of_mem _ hm)) (fun m hm => hb' m (List.mem_cons_of_mem _ hm))
      exact ⟨by rw [h.1, i1], i2⟩

/-- The lines written so far. -/
def Lines (rnd : M → E → List Char) (f0 : List E) (h : List (Ev E M)) : Prop :=
  ∀ c b a t m txt, h = c ++ .line t m txt :: (b ++ .logCall t m :: a) → (∀ m', Ev.logCall t m' ∉ b) →
    ∃ f, Allowed f0 a b f ∧ txt = lineOf rnd m f

theorem lines_other {rnd : M → E → List Char} {f0 : List E} {h : List (Ev E M)} (ev : Ev E M) (hev : ∀ t m txt, ev ≠ .line t m txt)
    (hl : Lines rnd f0 h) : Lines rnd f0 (ev :: h) := by
  intro c b a t m txt e hb
  cases c with
  | nil => simp only [List.nil_append, List.cons.injEq] at e; exact absurd e.1 (hev t m txt)
  | cons x c => simp only [List.cons_append, List.cons.injEq] at e; exact hl c b a t m txt e.2 hb

theorem lines_step (rnd : M → E → List Char) (f0 : List E) {s s' : St E M} {a : Act E M}
    (h : ∀ t, LogPc rnd f0 t s.hist (s.pc t)) (hL : Lines rnd f0 s.hist) (e : exec rnd s a = some s') : Lines rnd f0 s'.hist := by
  cases a with
  | set t es =>
    simp only [exec] at e
    split at e <;> try contradiction
    obtain rfl := Option.some.inj e
    exact lines_other _ (by simp) hL
  | log t m =>
    simp only [exec] at e
    split at e <;> try contradiction
    obtain rfl := Option.some.inj e
    exact lines_other _ (by simp) hL
  | sig t =>
    simp only [exec] at e
    split at e <;> try contradiction
    split at e <;> try contradiction
    all_goals
      obtain rfl := Option.some.inj e
      exact lines_other _ (by simp) hL
  | go t =>
    have ht := h t
    simp only [exec] at e
    split at e <;> try contradiction
    all_goals rename_i hp
    all_goals try (split at e <;> try contradiction)
    all_goals obtain rfl := Option.some.inj e
    all_goals first | exact hL | (refine lines_other _ ?_ hL; simp; done) | skip
    rename_i m acc
    rw [hp] at ht
    simp only [LogPc] at ht
    obtain ⟨b0, a0, e0, n0, P0⟩ := ht
    intro c b a u m' txt e hb
    cases c with
    | nil =>
      simp only [List.nil_append, List.cons.injEq, Ev.line.injEq] at e
      obtain ⟨⟨rfl, rfl, rfl⟩, e⟩ := e
      rw [e0] at e
      obtain ⟨rfl, _, rfl⟩ := split_unique e n0 hb
      exact P0
    | cons x c => simp only [List.cons_append, List.cons.injEq] at e; exact hL c b a u m' txt e.2 hb

/-- Everything together. -/
structure Good (rnd : M → E → List Char) (f0 : List E) (s : St E M) : Prop where
  phase : Phase f0 s
  log : ∀ t, LogPc rnd f0 t s.hist (s.pc t)
  lines : Lines rnd f0 s.hist

theorem good_run (rnd : M → E → List Char) (f0 : List E) : ∀ (as : List (Act E M)) (s s' : St E M), run rnd s as = some s' → Lock s →
    Drawn rnd s → Good rnd f0 s → OneAtATime s'.hist → NotInterrupted s'.hist → Good rnd f0 s' := by
  have back : ∀ (as : List (Act E M)) (s s' : St E M), run rnd s as = some s' → OneAtATime s'.hist → NotInterrupted s'.hist →
      OneAtATime s.hist ∧ NotInterrupted s.hist := by
    intro as
    induction as with
    | nil => intro s s' e h1 h2; simp [run] at e; subst e; exact ⟨h1, h2⟩
    | cons a as ih =>
      intro s s' e h1 h2
      simp only [run, List.foldlM_cons, Option.bind_eq_bind] at e
      obtain ⟨s1, e1, e2⟩ := Option.bind_eq_some_iff.1 e
      obtain ⟨i1, i2⟩ := ih s1 s' e2 h1 h2
      rcases hist_step rnd e1 with h | ⟨ev, h⟩
      · rw [← h]; exact ⟨i1, i2⟩
      · rw [h] at i1 i2
        refine ⟨?_, fun t ht => i2 t (List.mem_cons_of_mem _ ht)⟩
        cases ev <;> first | exact i1.2 | exact i1
  intro as
  induction as with
  | nil => intro s s' e hl hd hg _ _; simp [run] at e; subst e; exact hg
  | cons a as ih =>
    intro s s' e hl hd hg h1 h2
    simp only [run, List.foldlM_cons, Option.bind_eq_bind] at e
    obtain ⟨s1, e1, e2⟩ := Option.bind_eq_some_iff.1 e
    obtain ⟨i1, i2⟩ := back as s1 s' e2 h1 h2
    refine ih s1 s' e2 (lock_step rnd hl e1) (drawn_step rnd hl hd e1) ?_ h1 h2
    exact ⟨phase_step rnd f0 hg.phase e1 i1 i2, log_step rnd f0 hl hd hg.phase hg.log e1, lines_step rnd f0 hg.log hg.lines e1⟩

theorem lock_init (f0 : List E) : Lock (St.init (M := M) f0) :=
  ⟨by simp [St.init], by simp [St.init, Pc.holds], by simp [St.init, Pc.holds], by simp [St.init]⟩

theorem good_init (rnd : M → E → List Char) (f0 : List E) : Good rnd f0 (St.init (M := M) f0) :=
  ⟨Or.inl ⟨rfl, by simp [St.init, Pc.changing], rfl, rfl⟩, by simp [St.init, LogPc], by intro c b a t m txt e; simp [St.init] at e⟩

theorem lock_run (rnd : M → E → List Char) : ∀ (as : List (Act E M)) (s s' : St E M), run rnd s as = some s' → Lock s → Drawn rnd s →
    Lock s' ∧ Drawn rnd s' := by
  intro as
  induction as with
  | nil => intro s s' e hl hd; simp [run] at e; subst e; exact ⟨hl, hd⟩
  | cons a as ih =>
    intro s s' e hl hd
    simp only [run, List.foldlM_cons, Option.bind_eq_bind] at e
    obtain ⟨s1, e1, e2⟩ := Option.bind_eq_some_iff.1 e
    exact ih s1 s' e2 (lock_step rnd hl e1) (drawn_step rnd hl hd e1)

/-! ## The theorems -/

/-- C116: in every schedule of any number of threads, every line is written completely in one format: the one settled
when the line was begun, or one that was being set then or was asked for before the line was written. Provided
calls of `changeLogFormat` do not overlap and their waits are not interrupted. -/
theorem c116_lines_partial (rnd : M → E → List Char) (f0 : List E) (as : List (Act E M)) (s : St E M)
    (h : run rnd (St.init f0) as = some s) (h1 : OneAtATime s.hist) (h2 : NotInterrupted s.hist)
    (c b a : List (Ev E M)) (t : Nat) (m : M) (txt : List Char)
    (e : s.hist = c ++ .line t m txt :: (b ++ .logCall t m :: a)) (hb : ∀ m', Ev.logCall t m' ∉ b) :
    ∃ f, (f = settled f0 a ∨ pending a = some f ∨ ∃ u, Ev.setCall u f ∈ b) ∧ txt = (f.map (rnd m)).flatten := by
  have := good_run rnd f0 as _ s h (lock_init f0) (by intro t m i acc e; simp [St.init] at e) (good_init rnd f0) h1 h2
  exact this.lines c b a t m txt e hb

/-- C116: so a line begun when no change is running, and not overtaken by one, has the format of the last change. -/
theorem c116_new_format_used (rnd : M → E → List Char) (f0 : List E) (as : List (Act E M)) (s : St E M)
    (h : run rnd (St.init f0) as = some s) (h1 : OneAtATime s.hist) (h2 : NotInterrupted s.hist)
    (c b a : List (Ev E M)) (t u : Nat) (m : M) (es : List E) (txt : List Char) (x : List (Ev E M))
    (e : s.hist = c ++ .line t m txt :: (b ++ .logCall t m :: (x ++ .setRet u true :: .setCall u es :: a)))
    (hb : ∀ m', Ev.logCall t m' ∉ b) (hq : ∀ v f, Ev.setCall v f ∉ b) (hx : ∀ v f, Ev.setCall v f ∉ x) (hx' : ∀ v ok, Ev.setRet v ok ∉ x) :
    txt = (es.map (rnd m)).flatten := by
  obtain ⟨f, hf, ht⟩ := c116_lines_partial rnd f0 as s h h1 h2 c b _ t m txt e hb
  have key : ∀ x : List (Ev E M), (∀ v f, Ev.setCall v f ∉ x) → (∀ v ok, Ev.setRet v ok ∉ x) →
      settled f0 (x ++ .setRet u true :: .setCall u es :: a) = es ∧ pending (x ++ .setRet u true :: .setCall u es :: a) = none := by
    intro x
    induction x with
    | nil => intro _ _; simp [settled, pending]
    | cons ev x ih =>
      intro k1 k2
      obtain ⟨i1, i2⟩ := ih (fun v f hv => k1 v f (List.mem_cons_of_mem _ hv)) (fun v f hv => k2 v f (List.mem_cons_of_mem _ hv))
      cases ev with
      | setCall v f => exact absurd List.mem_cons_self (k1 v f)
      | setRet v ok => exact absurd List.mem_cons_self (k2 v ok)
      | logCall _ _ => exact ⟨i1, i2⟩
      | line _ _ _ => exact ⟨i1, i2⟩
      | lost _ _ => exact ⟨i1, i2⟩
  obtain ⟨k1, k2⟩ := key x hx hx'
  rcases hf with hf | hf | ⟨v, hf⟩
  · rw [ht, hf, k1]
  · rw [k2] at hf; cases hf
  · exact absurd hf (hq v f)

/-- C116: whatever calls overlap and whatever is interrupted, nothing blocks for ever: as long as a thread is inside
a call, some thread can go on. -/
theorem c116_no_deadlock (rnd : M → E → List Char) (f0 : List E) (as : List (Act E M)) (s : St E M)
    (h : run rnd (St.init f0) as = some s) (t : Nat) (ht : s.pc t ≠ .idle) : ∃ u s', exec rnd s (.go u) = some s' := by
  obtain ⟨hl, _⟩ := lock_run rnd as _ s h (lock_init f0) (by intro t m i acc e; simp [St.init] at e)
  by_cases hc : s.count = 0
  · obtain ⟨u, hu⟩ := hl.used hc
    refine ⟨u, ?_⟩
    cases hpc : s.pc u <;> rw [hpc] at hu <;> simp [Pc.holds] at hu <;> simp [exec, hpc]
    rename_i m i acc
    cases s.fmt[i]? <;> simp
  · have hc' : 0 < s.count := by omega
    refine ⟨t, ?_⟩
    cases hpc : s.pc t <;> simp [exec, hpc, hc'] at ht ⊢
    · rename_i l; cases l <;> simp
    · rename_i m i acc
      cases s.fmt[i]? <;> simp

/-- The message of the last logging call of `t` that has led to nothing yet; the newest event first. -/
def unanswered (t : Nat) : List (Ev E M) → Option M
  | [] => none
  | .logCall u m :: h => if u = t then some m else unanswered t h
  | .line u _ _ :: h => if u = t then none else unanswered t h
  | .lost u _ :: h => if u = t then none else unanswered t h
  | _ :: h => unanswered t h

/-- The message a thread works on. -/
def Pc.msg : Pc E M → Option M
  | .wantLog m | .draw m _ _ | .postLog m _ | .write m _ => some m
  | _ => none

/-- C116: in every schedule, a logging call that is over has written its line or was interrupted by a signal; and a line
is only written by a thread that was asked to log this message. -/
theorem c116_answered (rnd : M → E → List Char) (f0 : List E) : ∀ (as : List (Act E M)) (s : St E M),
    run rnd (St.init f0) as = some s → ∀ t, (s.pc t = .idle → unanswered t s.hist = none) ∧
      ∀ c h m txt, s.hist = c ++ .line t m txt :: h → unanswered t h = some m := by
  have step : ∀ (as : List (Act E M)) (s s' : St E M), run rnd s as = some s' →
      (∀ t, unanswered t s.hist = (s.pc t).msg) → (∀ t c h m txt, s.hist = c ++ .line t m txt :: h → unanswered t h = some m) →
      (∀ t, unanswered t s'.hist = (s'.pc t).msg) ∧ (∀ t c h m txt, s'.hist = c ++ .line t m txt :: h → unanswered t h = some m) := by
    intro as
    induction as with
    | nil => intro s s' e h1 h2; simp [run] at e; subst e; exact ⟨h1, h2⟩
    | cons a as ih =>
      intro s s' e h1 h2
      simp only [run, List.foldlM_cons, Option.bind_eq_bind] at e
      obtain ⟨s1, e1, e2⟩ := Option.bind_eq_some_iff.1 e
      have other : ∀ ev : Ev E M, (∀ t m txt, ev ≠ .line t m txt) → ∀ t c h m txt, ev :: s.hist = c ++ .line t m txt :: h → unanswered t h = some m := by
        intro ev hev t c h m txt e
        cases c with
        | nil => simp only [List.nil_append, List.cons.injEq] at e; exact absurd e.1 (hev t m txt)
        | cons x c => simp only [List.cons_append, List.cons.injEq] at e; exact h2 t c h m txt e.2
      refine ih s1 s' e2 ?_ ?_
      · intro u
        have hu := h1 u
        cases a <;> simp only [exec] at e1 <;> (repeat' split at e1) <;> first
          | contradiction
          | (obtain rfl := Option.some.inj e1; grind [upd, Pc.msg, unanswered])
      · cases a with
        | set t es =>
          simp only [exec] at e1
          split at e1 <;> try contradiction
          obtain rfl := Option.some.inj e1
          exact other _ (by simp)
        | log t m =>
          simp only [exec] at e1
          split at e1 <;> try contradiction
          obtain rfl := Option.some.inj e1
          exact other _ (by simp)
        | sig t =>
          simp only [exec] at e1
          split at e1 <;> try contradiction
          split at e1 <;> try contradiction
          all_goals
            obtain rfl := Option.some.inj e1
            exact other _ (by simp)
        | go t =>
          have ht := h1 t
          simp only [exec] at e1
          split at e1 <;> try contradiction
          all_goals rename_i hp
          all_goals try (split at e1 <;> try contradiction)
          all_goals obtain rfl := Option.some.inj e1
          all_goals first | exact h2 | (refine other _ ?_; simp; done) | skip
          rename_i m acc
          rw [hp] at ht
          intro u c h m' txt e
          cases c with
          | nil =>
            simp only [List.nil_append, List.cons.injEq, Ev.line.injEq] at e
            obtain ⟨⟨rfl, rfl, rfl⟩, rfl⟩ := e
            exact ht
          | cons x c => simp only [List.cons_append, List.cons.injEq] at e; exact h2 u c h m' txt e.2
  intro as s h t
  obtain ⟨a, b⟩ := step as _ s h (by simp [St.init, unanswered, Pc.msg]) (by intro t c h m txt e; simp [St.init] at e)
  exact ⟨fun ht => by rw [a t, ht]; rfl, b t⟩

/-! ## Findings -/

/-- The demonstration: entries are letters. -/
def letters : Unit → Char → List Char := fun _ c => [c]

/-- The lines, the oldest first. -/
def written (s : St Char Unit) : List (List Char) := s.hist.reverse.filterMap fun ev => match ev with
  | .line _ _ txt => some txt
  | _ => none

/-- Finding: two threads that set the formats `AB` and `CD` at the same time can leave the format `ACBD`, because both append to
the same list before they take the mutex. -/
theorem c116_overlapping_calls_mix : ((run letters (St.init ['-']) ([.set 0 ['A', 'B'], .set 1 ['C', 'D'], .go 0, .go 1, .go 0, .go 1] ++
      List.replicate 7 (.go 0) ++ [.log 2 ()] ++ List.replicate 8 (.go 2))).map written) = some [['A', 'C', 'B', 'D']] := by
  decide +kernel

/-- Finding: after that, the second thread sets the empty format, and lines are empty. -/
theorem c116_overlapping_calls_empty : ((run letters (St.init ['-']) ([.set 0 ['A', 'B'], .set 1 ['C', 'D'], .go 0, .go 1, .go 0, .go 1] ++
      List.replicate 7 (.go 0) ++ List.replicate 7 (.go 1) ++ [.log 2 ()] ++ List.replicate 4 (.go 2))).map written) = some [[]] := by
  decide +kernel

/-- Finding: a call interrupted by a signal changes nothing, but its format is put in front of the next one. -/
theorem c116_interrupted_call_sticks : ((run letters (St.init ['-']) ([.log 2 (), .go 2, .set 0 ['A'], .go 0, .go 0, .sig 0] ++
      List.replicate 4 (.go 2) ++ [.set 0 ['B']] ++ List.replicate 8 (.go 0) ++ [.log 2 ()] ++ List.replicate 6 (.go 2))).map written) =
    some [['-'], ['A', 'B']] := by
  decide +kernel

/-- Finding: a signal while a line waits for the mutex loses the line. -/
theorem c116_interrupted_line_lost : ((run letters (St.init ['-']) ([.log 1 (), .go 1, .log 2 (), .sig 2] ++ List.replicate 4 (.go 1))).map fun s =>
      (written s, s.hist.any fun ev => match ev with | .lost 2 () => true | _ => false)) = some ([['-']], true) := by
  decide +kernel

/-! ## By name -/

/-- C116: `LoggingManager::changeLogFormat(name, format)` changes the format of the outputs of this name like their own
`changeLogFormat`, and no other output. -/
theorem c116_by_name (name fmt : List Char) : ∀ (os os' : List (List Char × List Format.Entry)), changeByName name fmt os = some os' →
    os'.length = os.length ∧ ∀ (i : Nat) n f, os[i]? = some (n, f) → ∃ f', os'[i]? = some (n, f') ∧
      (n = name → Format.changeLogFormat f fmt = .ok f') ∧ (n ≠ name → f' = f) := by
  intro os
  induction os with
  | nil => intro os' h; simp [changeByName] at h; subst h; simp
  | cons o os ih =>
    obtain ⟨n, f⟩ := o
    intro os' h
    have fin : ∀ g, (changeByName name fmt os).map ((n, g) :: ·) = some os' → (n = name → Format.changeLogFormat f fmt = .ok g) →
        (n ≠ name → g = f) → os'.length = ((n, f) :: os).length ∧ ∀ (i : Nat) n' f', ((n, f) :: os)[i]? = some (n', f') → ∃ f'', os'[i]? = some (n', f'') ∧
      (n' = name → Format.changeLogFormat f' fmt = .ok f'') ∧ (n' ≠ name → f'' = f') := by
      intro g hg k1 k2
      obtain ⟨r, hr, rfl⟩ := Option.map_eq_some_iff.1 hg
      obtain ⟨i1, i2⟩ := ih r hr
      refine ⟨by simp [i1], fun i n' f' hi => ?_⟩
      cases i with
      | zero =>
        simp only [List.getElem?_cons_zero, Option.some.injEq, Prod.mk.injEq] at hi
        obtain ⟨rfl, rfl⟩ := hi
        exact ⟨g, rfl, k1, k2⟩
      | succ i => exact i2 i n' f' hi
    simp only [changeByName] at h
    split at h
    · rename_i hn
      split at h
      · rename_i f' hf
        exact fin f' h (fun _ => hf) (fun k => absurd hn k)
      · cases h
    · rename_i hn
      exact fin f h (fun k => absurd k hn) (fun _ => rfl)

/-- C116: it is defined for every well-formed format with texts of at most 100 characters. -/
theorem c116_by_name_defined (name : List Char) (is : List Format.Item) (hne : is ≠ []) (hwf : Format.wfItems is)
    (hlen : ∀ i ∈ is, i.len < 100) (os : List (List Char × List Format.Entry)) : ∃ os', changeByName name (Format.write is) os = some os' := by
  induction os with
  | nil => exact ⟨_, rfl⟩
  | cons o os ih =>
    obtain ⟨n, f⟩ := o
    obtain ⟨os', h⟩ := ih
    obtain ⟨es, h1, _⟩ := Format.c49_render_partial f is hne hwf hlen
    by_cases hn : n = name <;> simp [changeByName, hn, h, h1]

/-! Concrete cases. -/

/-- A schedule that meets the hypotheses of the main theorem: a change of the format between two lines, and during one. -/
example : ((run letters (St.init ['-']) ([.log 1 (), .go 1, .set 0 ['A'], .go 0, .go 0] ++ List.replicate 4 (.go 1) ++ [.log 1 ()] ++ List.replicate 6 (.go 0) ++
      List.replicate 5 (.go 1))).map fun s => (written s, decide (s.hist.length = 6))) = some ([['-'], ['A']], true) := by
  decide +kernel

example : OneAtATime ([.setRet 0 true, .logCall 1 (), .setCall 0 ['A'], .setRet 1 true, .setCall 1 ['B']] : List (Ev Char Unit)) := by
  simp [OneAtATime, pending]

example : changeByName ['b'] ['~', 'E'] [(['a'], []), (['b'], [])] = some [(['a'], []), (['b'], [⟨.message, 0, [], []⟩])] := by
  decide +kernel

end Verif.Logging.FormatChange
