import Verif.Logging.Pipe.Model
import Verif.Logging.PoolProps
import Verif.Logging.WorkerProps

/-!
# The whole path of a log message: invariants
-/
namespace Verif.Logging.Pipe

open Pool (PC Msg pendingTop)
open Worker (PPC pmsg)

/-! ## The parts -/

def isPush : PC → Bool
  | .push .. => true
  | _ => false

/-- What `go` does to the position of the thread. -/
inductive Trans : PC → PC → Prop where
  | fw (i l x) : Trans (.flushWait i l x) (.push i l x)
  | push (i l x) : Trans (.push i l x) (.release i l)
  | reset (i) : Trans (.reset i) .idle
  | inner (p q : PC) (h1 : isPush p = false) (h2 : isPush q = false) (h3 : p ≠ .idle) (h4 : q ≠ .idle)
      (h5 : ∀ i l x, p ≠ .flushWait i l x) (h6 : ∀ i, p ≠ .reset i) (h7 : pendingTop q = pendingTop p) : Trans p q

theorem pool_go {c : Pool.Cfg} {p p' : Pool.State} {t : Nat} (ho : p.outer t = []) (h : Pool.step c p t .go = some p') :
    ∃ q, p'.pc = (fun u => if u = t then q else p.pc u) ∧ p'.outer = p.outer ∧ Trans (p.pc t) q := by
  unfold Pool.step at h
  rcases hp : p.pc t with _ | ⟨l, txt⟩ | ⟨l, txt⟩ | ⟨i, l, txt⟩ | f | ⟨i, l, txt⟩ | ⟨i, l, txt⟩ | ⟨i, l⟩ | i | i <;>
    rw [hp] at h <;> simp only [reduceCtorEq, ho] at h
  case flushWait =>
    split at h
    · cases h; exact ⟨_, rfl, rfl, .fw ..⟩
    · cases h
  case push => cases h; exact ⟨_, rfl, rfl, .push ..⟩
  case reset => cases h; exact ⟨_, rfl, rfl, .reset ..⟩
  all_goals (try split at h)
  all_goals (try (cases h; done))
  all_goals cases h
  all_goals refine ⟨_, rfl, rfl, .inner _ _ rfl rfl (by simp) (by simp) (by simp) (by simp) ?_⟩
  all_goals simp [pendingTop, *]

theorem pool_call {c : Pool.Cfg} {p p' : Pool.State} {t l : Nat} {txt : List Nat} (hi : p.pc t = .idle)
    (h : Pool.step c p t (.call l txt) = some p') :
    p'.pc = (fun u => if u = t then .acq l txt else p.pc u) ∧ p'.outer = p.outer := by
  unfold Pool.step at h
  rw [hi] at h
  cases h; exact ⟨rfl, rfl⟩

theorem worker_p {w w' : Worker.State} {a : Nat} (h : Worker.stepP w a = some w') :
    ∃ q, w'.pc = (fun u => if u = a then q else w.pc u) ∧ w'.next = w.next ∧ w.pc a ≠ .idle ∧
      ((w'.pushed = w.pushed ∧ pmsg q = pmsg (w.pc a)) ∨
       (∃ m, pmsg (w.pc a) = some m ∧ pmsg q = none ∧ w'.pushed = w.pushed ++ [m])) := by
  unfold Worker.stepP at h
  rcases hp : w.pc a with _ | m | m | _ | _ <;> rw [hp] at h <;> simp only [reduceCtorEq] at h
  all_goals (try split at h)
  all_goals (try (cases h; done))
  all_goals cases h
  · exact ⟨_, rfl, rfl, by simp, Or.inl ⟨rfl, rfl⟩⟩
  · exact ⟨_, rfl, rfl, by simp, Or.inr ⟨m, rfl, rfl, rfl⟩⟩
  · exact ⟨_, rfl, rfl, by simp, Or.inl ⟨rfl, rfl⟩⟩
  · exact ⟨_, rfl, rfl, by simp, Or.inl ⟨rfl, rfl⟩⟩

theorem worker_call {w w' : Worker.State} {a : Nat} (h : Worker.callP w a = some w') :
    w.pc a = .idle ∧ w'.pc = (fun u => if u = a then .lock w.next else w.pc u) ∧ w'.next = w.next + 1 ∧
      w'.pushed = w.pushed := by
  unfold Worker.callP at h
  split at h
  · next hi => cases h; exact ⟨hi, rfl, rfl, rfl⟩
  · cases h

theorem worker_other {w w' : Worker.State} {x : OAct} (h : Worker.step false w x.act = some w') :
    w'.pc = w.pc ∧ w'.next = w.next ∧ w'.pushed = w.pushed := by
  cases x with
  | worker =>
    have h' : Worker.stepW w = some w' := h
    obtain ⟨h1, _, h3, _⟩ := Worker.stepW_pc h'
    refine ⟨h1, ?_, h3⟩
    unfold Worker.stepW at h'
    rcases hp : w.w with _ | _ | _ | _ | _ | _ | _ | (_ | m) | m | _ | _ | m | _ | _ <;>
      rw [hp] at h' <;> simp only [reduceCtorEq] at h'
    all_goals (try split at h')
    all_goals (try (cases h'; done))
    all_goals (cases h'; rfl)
  | control =>
    simp only [OAct.act, Worker.step, Worker.stepK] at h
    split at h
    all_goals (try split at h)
    all_goals (try (cases h; done))
    all_goals (cases h; exact ⟨rfl, rfl, rfl⟩)
  | start =>
    simp only [OAct.act, Worker.step] at h
    split at h
    · cases h; exact ⟨rfl, rfl, rfl⟩
    · cases h
  | shutdown =>
    simp only [OAct.act, Worker.step] at h
    split at h
    · split at h
      · cases h; exact ⟨rfl, rfl, rfl⟩
      · cases h; exact ⟨rfl, rfl, rfl⟩
    · cases h

/-! ## The steps of the pipeline, sorted -/

/-- The kinds of steps. -/
inductive Tr (c : Conf) (s : State) : State → Prop where
  | call (t a l : Nat) (txt : List Nat) (p : Pool.State) (hb : s.busy t = none)
      (h : Pool.step ⟨false, c.racy⟩ (s.S a) t (.call l txt) = some p) :
      Tr c s (setB (logged (setS s a p) t (a, l, txt)) t (some a))
  | inner (t a : Nat) (p : Pool.State) (hb : s.busy t = some a)
      (h : Pool.step ⟨false, c.racy⟩ (s.S a) t .go = some p)
      (h1 : isPush ((s.S a).pc t) = false) (h2 : ∀ i l x, (s.S a).pc t ≠ .flushWait i l x) (h3 : ∀ i, (s.S a).pc t ≠ .reset i) :
      Tr c s (setS s a p)
  | fw (t a : Nat) (p : Pool.State) (i l : Nat) (x : List Nat) (hb : s.busy t = some a) (hp : (s.S a).pc t = .flushWait i l x)
      (h : Pool.step ⟨false, c.racy⟩ (s.S a) t .go = some p) : Tr c s (setL (setS s a p) a (some ⟨t, c.conn a, false⟩))
  | leave (t a : Nat) (p : Pool.State) (i l : Nat) (x : List Nat) (hb : s.busy t = some a) (hp : (s.S a).pc t = .push i l x)
      (hl : ∀ u o r e, s.loop a ≠ some ⟨u, o :: r, e⟩)
      (h : Pool.step ⟨false, c.racy⟩ (s.S a) t .go = some p) : Tr c s (setL (setS s a p) a none)
  | reset (t a : Nat) (p : Pool.State) (i : Nat) (hb : s.busy t = some a) (hp : (s.S a).pc t = .reset i)
      (h : Pool.step ⟨false, c.racy⟩ (s.S a) t .go = some p) : Tr c s (setB (setS s a p) t none)
  | skip (t a : Nat) (i l : Nat) (x : List Nat) (u o : Nat) (r : List Nat) (hb : s.busy t = some a)
      (hp : (s.S a).pc t = .push i l x) (hl : s.loop a = some ⟨u, o :: r, false⟩) (hv : ¬ c.lv o ≤ l) :
      Tr c s (setL s a (some ⟨u, r, false⟩))
  | done (t a : Nat) (i l : Nat) (x : List Nat) (u o : Nat) (r : List Nat) (hb : s.busy t = some a)
      (hp : (s.S a).pc t = .push i l x) (hl : s.loop a = some ⟨u, o :: r, true⟩) (hv : (s.W o).pc a = .idle) :
      Tr c s (setL s a (some ⟨u, r, false⟩))
  | enter (t a : Nat) (i l : Nat) (x : List Nat) (u o : Nat) (r : List Nat) (w : Worker.State) (hb : s.busy t = some a)
      (hp : (s.S a).pc t = .push i l x) (hl : s.loop a = some ⟨u, o :: r, false⟩) (hv : c.lv o ≤ l)
      (h : Worker.callP (s.W o) a = some w) :
      Tr c s (name (setL (setW s o w) a (some ⟨u, o :: r, true⟩)) o a ⟨t, l, (s.S a).buf i, x⟩)
  | prod (t a : Nat) (i l : Nat) (x : List Nat) (u o : Nat) (r : List Nat) (w : Worker.State) (hb : s.busy t = some a)
      (hp : (s.S a).pc t = .push i l x) (hl : s.loop a = some ⟨u, o :: r, true⟩)
      (h : Worker.stepP (s.W o) a = some w) : Tr c s (setW s o w)
  | out (o : Nat) (x : OAct) (w : Worker.State) (h : Worker.step false (s.W o) x.act = some w) : Tr c s (setW s o w)

theorem step_tr {c : Conf} {s s' : State} {x : Act} (h : step c s x = some s') : Tr c s s' := by
  cases x with
  | call t a l txt =>
    simp only [step] at h
    split at h
    · next hb =>
      simp only [poolStep, Option.map_eq_some_iff] at h
      obtain ⟨_, ⟨p, hp, rfl⟩, rfl⟩ := h
      exact .call t a l txt p hb hp
    · cases h
  | output o x =>
    simp only [step, Option.map_eq_some_iff] at h
    obtain ⟨w, hw, rfl⟩ := h
    exact .out o x w hw
  | go t =>
    simp only [step, Option.bind_eq_some_iff] at h
    obtain ⟨a, hb, h⟩ := h
    unfold goStep at h
    split at h
    · next i l txt hp =>
      split at h
      · next u o r e hl =>
        unfold loopStep at h
        cases e
        · simp only [Bool.false_eq_true, if_false] at h
          split at h
          · next hv =>
            simp only [Option.map_eq_some_iff] at h
            obtain ⟨w, hw, rfl⟩ := h
            exact .enter t a i l txt u o r w hb hp hl hv hw
          · next hv => cases h; exact .skip t a i l txt u o r hb hp hl hv
        · simp only [if_true] at h
          split at h
          · next hv => cases h; exact .done t a i l txt u o r hb hp hl hv
          · simp only [Option.map_eq_some_iff] at h
            obtain ⟨w, hw, rfl⟩ := h
            exact .prod t a i l txt u o r w hb hp hl hw
      · next hl =>
        simp only [poolStep, Option.map_eq_some_iff] at h
        obtain ⟨_, ⟨p, hq, rfl⟩, rfl⟩ := h
        exact .leave t a p i l txt hb hp (fun u o r e hh => hl u o r e hh) hq
    · next i l x hp =>
      simp only [poolStep, Option.map_eq_some_iff] at h
      obtain ⟨_, ⟨p, hq, rfl⟩, rfl⟩ := h
      exact .fw t a p i l x hb hp hq
    · next i hp =>
      simp only [poolStep, Option.map_eq_some_iff] at h
      obtain ⟨_, ⟨p, hq, rfl⟩, rfl⟩ := h
      exact .reset t a p i hb hp hq
    · next h1 h2 h3 =>
      simp only [poolStep, Option.map_eq_some_iff] at h
      obtain ⟨p, hq, rfl⟩ := h
      refine .inner t a p hb hq ?_ (fun i l x hh => h2 i l x hh) (fun i hh => h3 i hh)
      cases hp : (s.S a).pc t <;> first | rfl | (exact absurd hp (h1 _ _ _))

/-! ## Invariants -/

/-- The messages inserted into the queue of an output. -/
def ins (w : Worker.State) (ns : List (Nat × Msg)) : List (Nat × Msg) := w.pushed.filterMap fun m => ns[m]?

/-- Those of thread `t`, as log statements. -/
def byT (t : Nat) (l : List (Nat × Msg)) : List (Nat × Nat × List Nat) :=
  (l.filter fun e => e.2.thread = t).map fun e => (e.1, e.2.level, e.2.meant)

/-- Output `o` is to receive the statement. -/
def want (c : Conf) (o : Nat) (e : Nat × Nat × List Nat) : Bool := decide (o ∈ c.conn e.1 ∧ c.lv o ≤ e.2.1)

/-- The flush on stream `a` has not yet inserted its message into the queue of output `o`. -/
def notYet (s : State) (a o t : Nat) : Prop :=
  ∀ L, s.loop a = some L → L.t = t →
    o ∈ L.rest ∧ (L.rest.head? = some o → L.entered = true → pmsg ((s.W o).pc a) ≠ none)

instance (s : State) (a o t : Nat) : Decidable (notYet s a o t) :=
  match h : s.loop a with
  | none => .isTrue (fun L hL => by rw [h] at hL; cases hL)
  | some L =>
    decidable_of_iff (L.t = t → o ∈ L.rest ∧ (L.rest.head? = some o → L.entered = true → pmsg ((s.W o).pc a) ≠ none))
      ⟨fun hh L' hL' => by rw [h] at hL'; cases hL'; exact hh, fun hh => hh L h⟩

/-- The statement thread `t` is executing, if output `o` has not got it yet. -/
def pend (c : Conf) (s : State) (o t : Nat) : List (Nat × Nat × List Nat) :=
  match s.busy t with
  | none => []
  | some a =>
    if notYet s a o t then ((pendingTop ((s.S a).pc t)).map fun e => (a, e.1, e.2)).filter (want c o) else []

/-- Structure. -/
structure PInv (c : Conf) (s : State) : Prop where
  pi : ∀ a, Pool.Inv (s.S a)
  ti : c.racy = false → ∀ a, Pool.TInv (s.S a)
  wi : ∀ o, Worker.Inv (s.W o)
  w2 : ∀ o, Worker.Inv2 (s.W o)
  ou : ∀ a t, (s.S a).outer t = []
  bz : ∀ a t, (s.S a).pc t ≠ .idle → s.busy t = some a
  bo : ∀ a t, s.busy t = some a → (s.S a).pc t ≠ .idle
  lp : ∀ a L, s.loop a = some L → isPush ((s.S a).pc L.t) = true
  pl : ∀ a t, isPush ((s.S a).pc t) = true → ∃ L, s.loop a = some L ∧ L.t = t
  sf : ∀ a L, s.loop a = some L → L.rest <:+ c.conn a
  wp : ∀ o a, (s.W o).pc a ≠ .idle → ∃ t r, s.loop a = some ⟨t, o :: r, true⟩
  nx : ∀ o, (s.W o).next = (s.names o).length
  nm : ∀ o a m, pmsg ((s.W o).pc a) = some m → ∃ t r i l b x, s.loop a = some ⟨t, o :: r, true⟩ ∧
    (s.S a).pc t = .push i l x ∧ c.lv o ≤ l ∧ (s.names o)[m]? = some (a, ⟨t, l, b, x⟩)
  tx : c.racy = false → ∀ o e, e ∈ s.names o → e.2.text = e.2.meant

theorem isPush_iff {p : PC} : isPush p = true ↔ ∃ i l x, p = .push i l x := by
  cases p <;> simp [isPush]

theorem pinv_init (c : Conf) (n : Nat) : PInv c (init n) := by
  refine ⟨fun _ => Pool.inv_init n, fun _ _ => Pool.tinv_init n, fun _ => Worker.inv_init, fun _ => Worker.inv2_init,
    fun _ _ => rfl, ?_, ?_, ?_, ?_, ?_, ?_, ?_, ?_, ?_⟩ <;>
    simp [init, Pool.init, Worker.init, isPush, Worker.ptab]

/-- Two threads cannot both push on one stream. -/
theorem push_unique {p : Pool.State} (h : Pool.Inv p) {t u : Nat} (h1 : isPush (p.pc t) = true) (h2 : isPush (p.pc u) = true) :
    t = u := by
  obtain ⟨_, _, _, e1⟩ := isPush_iff.1 h1
  obtain ⟨_, _, _, e2⟩ := isPush_iff.1 h2
  have a := (h.mx t).1 (by rw [e1]; rfl)
  have b := (h.mx u).1 (by rw [e2]; rfl)
  rw [a] at b; exact Option.some.inj b

/-- The loop belongs to the thread that pushes. -/
theorem loop_t {c : Conf} {s : State} (h : PInv c s) {a t i l : Nat} {x : List Nat} {L : Loop}
    (hp : (s.S a).pc t = .push i l x) (hl : s.loop a = some L) : L.t = t :=
  push_unique (h.pi a) (h.lp a L hl) (isPush_iff.2 ⟨_, _, _, hp⟩)

theorem fw_free {p p' : Pool.State} {c : Pool.Cfg} {t i l : Nat} {x : List Nat} (hp : p.pc t = .flushWait i l x)
    (h : Pool.step c p t .go = some p') : p.mutex = none := by
  unfold Pool.step at h
  rw [hp] at h
  simp only at h
  split at h
  · assumption
  · cases h

theorem fw_loop {c : Conf} {s : State} (h : PInv c s) {a t i l : Nat} {x : List Nat} {p : Pool.State} {k : Pool.Cfg}
    (hp : (s.S a).pc t = .flushWait i l x) (hs : Pool.step k (s.S a) t .go = some p) : s.loop a = none := by
  rcases hl : s.loop a with _ | L
  · rfl
  · obtain ⟨_, _, _, e⟩ := isPush_iff.1 (h.lp a L hl)
    have := ((h.pi a).mx L.t).1 (by rw [e]; rfl)
    rw [fw_free hp hs] at this; cases this

end Verif.Logging.Pipe
