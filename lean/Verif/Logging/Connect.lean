import Verif.Base

/-!
# Connecting and disconnecting outputs while threads log (C130): model and invariants

LogStream.cpp:72-88 (`addOutputStream`, `removeOutputStream`), ThreadStream.cpp:125-147 (`flush`).

Any number of threads; each calls `flush` (with a numbered message), `addOutputStream(o)` or `removeOutputStream(o)` of
one log stream. `m_output_stream_list` is a `std::set` of pointers, iterated in ascending order over the live set; outputs
are numbered by their pointer value. One action = one semaphore call, one operation of the set, or the
beginning or the end of one `push`; sequentially consistent. A change of the set by a thread that does not
hold the mutex is recorded in `broken`.
-/
namespace Verif.Logging.Connect

/-- Where a thread is. -/
inductive PC where
  | idle
  /-- ThreadStream.cpp:128 in `m_mutex.wait()` with message `m` -/
  | fWait (m : Nat)
  /-- ThreadStream.cpp:130-132 about to take the next output behind `last` (`none`: the first) -/
  | fNext (m : Nat) (last : Option Nat)
  /-- ThreadStream.cpp:134 inside `push` of output `o` -/
  | fPush (m o : Nat)
  /-- ThreadStream.cpp:140 about to post -/
  | fPost
  /-- LogStream.cpp:74 in `m_mutex.wait()` -/
  | aWait (o : Nat)
  /-- LogStream.cpp:76 about to insert -/
  | aIns (o : Nat)
  /-- LogStream.cpp:77 about to post -/
  | aPost
  /-- LogStream.cpp:83 in `m_mutex.wait()` -/
  | rWait (o : Nat)
  /-- LogStream.cpp:85 about to erase -/
  | rDel (o : Nat)
  /-- LogStream.cpp:86 about to post -/
  | rPost
  deriving DecidableEq, Repr

/-- What happened, in the order in which it took effect. -/
inductive Ev where
  | add (o : Nat)
  | rem (o : Nat)
  /-- message `m` was given to the outputs `outs` -/
  | msg (m : Nat) (outs : List Nat)
  deriving DecidableEq, Repr

/-- The stream and the threads. -/
structure State where
  mutex : Option Nat
  /-- `m_output_stream_list`, ascending -/
  conn : List Nat
  pc : Nat → PC
  /-- the outputs the current `flush` of a thread has pushed to -/
  given : Nat → List Nat
  hist : List Ev
  /-- the set was changed by a thread that did not hold the mutex -/
  broken : Bool

/-- A new stream. -/
def init : State :=
  { mutex := none, conn := [], pc := fun _ => .idle, given := fun _ => [], hist := [], broken := false }

/-- Actions. -/
inductive Act where
  | flush (m : Nat)
  | add (o : Nat)
  | remove (o : Nat)
  | go
  /-- the wait the thread is in fails (interrupted by a signal) -/
  | fail
  deriving DecidableEq, Repr

/-- Move a thread. -/
def setPc (s : State) (t : Nat) (p : PC) : State := { s with pc := fun u => if u = t then p else s.pc u }

/-- Set what a flush has pushed to. -/
def setG (s : State) (t : Nat) (g : List Nat) : State := { s with given := fun u => if u = t then g else s.given u }

/-- `std::set::insert`. -/
def insertSet (o : Nat) : List Nat → List Nat
  | [] => [o]
  | x :: xs => if o < x then o :: x :: xs else if o = x then x :: xs else x :: insertSet o xs

/-- `++iter`: the next output. -/
def next (conn : List Nat) : Option Nat → Option Nat
  | none => conn.head?
  | some l => conn.find? fun o => l < o

/-- One action of thread `t`; `intr`: waits may fail. -/
def step (intr : Bool) (s : State) (t : Nat) (a : Act) : Option State :=
  match s.pc t, a with
  | .idle, .flush m => some (setPc s t (.fWait m))
  | .idle, .add o => some (setPc s t (.aWait o))
  | .idle, .remove o => some (setPc s t (.rWait o))
  | .fWait m, .go =>
    if s.mutex = none then some (setPc (setG { s with mutex := some t } t []) t (.fNext m none)) else none
  | .fNext m last, .go =>
    match next s.conn last with
    | some o => some (setPc s t (.fPush m o))
    | none => some (setPc { s with hist := s.hist ++ [.msg m (s.given t)] } t .fPost)
  | .fPush m o, .go => some (setPc (setG s t (s.given t ++ [o])) t (.fNext m (some o)))
  | .fPost, .go => some (setPc { s with mutex := none } t .idle)
  | .aWait o, .go => if s.mutex = none then some (setPc { s with mutex := some t } t (.aIns o)) else none
  | .aIns o, .go =>
    some (setPc { s with conn := insertSet o s.conn, hist := s.hist ++ [.add o],
                         broken := s.broken || decide (s.mutex ≠ some t) } t .aPost)
  | .aPost, .go => some (setPc { s with mutex := none } t .idle)
  | .rWait o, .go => if s.mutex = none then some (setPc { s with mutex := some t } t (.rDel o)) else none
  | .rDel o, .go =>
    some (setPc { s with conn := s.conn.erase o, hist := s.hist ++ [.rem o],
                         broken := s.broken || decide (s.mutex ≠ some t) } t .rPost)
  | .rPost, .go => some (setPc { s with mutex := none } t .idle)
  | .fWait _, .fail => if intr then some (setPc s t .idle) else none
  | .aWait _, .fail => if intr then some (setPc s t .idle) else none
  | .rWait _, .fail => if intr then some (setPc s t .idle) else none
  | _, _ => none

/-- Run a schedule. -/
def exec (intr : Bool) (s : State) : List (Nat × Act) → Option State
  | [] => some s
  | (t, a) :: as => (step intr s t a).bind fun s' => exec intr s' as

/-! ## Invariants -/

/-- In the critical section. -/
def crit : PC → Bool
  | .fNext .. | .fPush .. | .fPost | .aIns _ | .aPost | .rDel _ | .rPost => true
  | _ => false

theorem ctab : crit .idle = false ∧ (∀ m, crit (.fWait m) = false) ∧ (∀ m l, crit (.fNext m l) = true) ∧
    (∀ m o, crit (.fPush m o) = true) ∧ crit .fPost = true ∧ (∀ o, crit (.aWait o) = false) ∧ (∀ o, crit (.aIns o) = true) ∧
    crit .aPost = true ∧ (∀ o, crit (.rWait o) = false) ∧ (∀ o, crit (.rDel o) = true) ∧ crit .rPost = true := by
  simp [crit]

/-- Is output `o` connected after the events? (specification) -/
def connected (h : List Ev) (o : Nat) : Bool :=
  h.foldl (fun b e => match e with
    | .add p => if p = o then true else b
    | .rem p => if p = o then false else b
    | .msg _ _ => b) false

theorem connected_snoc (h : List Ev) (e : Ev) (o : Nat) : connected (h ++ [e]) o = match e with
    | .add p => if p = o then true else connected h o
    | .rem p => if p = o then false else connected h o
    | .msg _ _ => connected h o := by
  simp [connected, List.foldl_append]

theorem mem_insertSet (o p : Nat) (l : List Nat) : p ∈ insertSet o l ↔ p = o ∨ p ∈ l := by
  induction l with
  | nil => simp [insertSet]
  | cons x xs ih =>
    simp only [insertSet]
    split
    · simp
    · split
      · next h => subst h; simp
      · simp only [List.mem_cons, ih]; grind

theorem sorted_insertSet (o : Nat) (l : List Nat) (h : l.Pairwise (· < ·)) : (insertSet o l).Pairwise (· < ·) := by
  induction l with
  | nil => simp [insertSet]
  | cons x xs ih =>
    obtain ⟨h1, h2⟩ := List.pairwise_cons.1 h
    simp only [insertSet]
    split
    · next hlt =>
      refine List.pairwise_cons.2 ⟨fun y hy => ?_, h⟩
      rcases List.mem_cons.1 hy with rfl | hy
      · exact hlt
      · exact Nat.lt_trans hlt (h1 y hy)
    · split
      · exact h
      · refine List.pairwise_cons.2 ⟨fun y hy => ?_, ih h2⟩
        rcases (mem_insertSet o y xs).1 hy with rfl | hy
        · omega
        · exact h1 y hy

/-- At or before an output. -/
def upto (p : Nat) : Option Nat → Prop
  | none => False
  | some l => p ≤ l

theorem next_some {conn : List Nat} {last : Option Nat} {o : Nat} (hs : conn.Pairwise (· < ·)) (h : next conn last = some o) :
    o ∈ conn ∧ ¬ upto o last ∧ ∀ p ∈ conn, p < o → upto p last := by
  cases last with
  | none =>
    cases conn with
    | nil => cases h
    | cons x xs =>
      obtain ⟨h1, h2⟩ := List.pairwise_cons.1 hs
      cases h
      refine ⟨List.mem_cons_self, id, fun p hp hpo => ?_⟩
      rcases List.mem_cons.1 hp with rfl | hp
      · omega
      · have := h1 p hp; omega
  | some l =>
    unfold next at h
    simp only at h
    induction conn with
    | nil => cases h
    | cons x xs ih =>
      obtain ⟨h1, h2⟩ := List.pairwise_cons.1 hs
      rw [List.find?_cons] at h
      split at h
      · next hx =>
        cases h
        refine ⟨List.mem_cons_self, by simpa [upto] using hx, fun p hp hpo => ?_⟩
        rcases List.mem_cons.1 hp with rfl | hp
        · omega
        · have := h1 p hp; omega
      · next hx =>
        obtain ⟨i1, i2, i3⟩ := ih h2 h
        refine ⟨List.mem_cons_of_mem _ i1, i2, fun p hp hpo => ?_⟩
        rcases List.mem_cons.1 hp with rfl | hp
        · simpa [upto] using hx
        · exact i3 p hp hpo

theorem next_none {conn : List Nat} {last : Option Nat} (h : next conn last = none) : ∀ p ∈ conn, upto p last := by
  cases last with
  | none =>
    cases conn with
    | nil => intro p hp; cases hp
    | cons x xs => cases h
  | some l =>
    intro p hp
    have := List.find?_eq_none.1 h p hp
    simpa [upto] using this

/-- The invariants. -/
structure Inv (s : State) : Prop where
  mx : ∀ t, crit (s.pc t) = true ↔ s.mutex = some t
  so : s.conn.Pairwise (· < ·)
  co : ∀ o, o ∈ s.conn ↔ connected s.hist o = true
  gn : ∀ t m l, s.pc t = .fNext m l → (s.given t).Pairwise (· < ·) ∧ ∀ o, o ∈ s.given t ↔ o ∈ s.conn ∧ upto o l
  gp : ∀ t m p, s.pc t = .fPush m p → p ∈ s.conn ∧ (s.given t).Pairwise (· < ·) ∧ ∀ o, o ∈ s.given t ↔ o ∈ s.conn ∧ o < p
  br : s.broken = false
  hi : ∀ pre m outs post, s.hist = pre ++ .msg m outs :: post → outs.Pairwise (· < ·) ∧ ∀ o, o ∈ outs ↔ connected pre o = true

theorem inv_init : Inv init := by
  constructor <;> simp [init, crit, connected]

theorem hist_snoc {h : List Ev} {e : Ev} {pre : List Ev} {m : Nat} {outs : List Nat} {post : List Ev}
    (he : h ++ [e] = pre ++ .msg m outs :: post) :
    (∃ post', h = pre ++ .msg m outs :: post') ∨ (h = pre ∧ e = .msg m outs) := by
  rcases List.eq_nil_or_concat post with rfl | ⟨q, x, rfl⟩
  · right
    have := List.append_inj' he rfl
    exact ⟨this.1, by simpa using this.2⟩
  · left
    refine ⟨q, ?_⟩
    have he' : h ++ [e] = (pre ++ .msg m outs :: q) ++ [x] := by simpa using he
    exact (List.append_inj' he' rfl).1

theorem erase_mem {l : List Nat} (hs : l.Pairwise (· < ·)) (o p : Nat) : p ∈ l.erase o ↔ p ∈ l ∧ p ≠ o := by
  have hn : l.Nodup := hs.imp (fun h => Nat.ne_of_lt h)
  rw [hn.mem_erase_iff]; exact And.comm

set_option maxHeartbeats 4000000 in
theorem inv_step {intr : Bool} {s s' : State} (h : Inv s) (t : Nat) (a : Act) (hs : step intr s t a = some s') : Inv s' := by
  obtain ⟨mx, so, co, gn, gp, br, hi⟩ := h
  have mxt := mx t
  unfold step at hs
  rcases hp : s.pc t with _ | m | ⟨m, l⟩ | ⟨m, o⟩ | _ | o | o | _ | o | o | _ <;>
    cases a <;> rw [hp] at hs <;> simp only [reduceCtorEq] at hs
  case fNext.go =>
    have q := congrArg crit hp
    simp only [ctab] at q
    have gnt := gn t m l hp
    cases hn : next s.conn l with
    | some o =>
      rw [hn] at hs
      cases hs
      obtain ⟨n1, n2, n3⟩ := next_some so hn
      have n4 : ∀ p, p ∈ s.conn ∧ upto p l ↔ p ∈ s.conn ∧ p < o := by
        intro p
        refine and_congr_right fun hpc => ⟨fun hu => ?_, fun hlt => n3 p hpc hlt⟩
        cases l with
        | none => exact hu.elim
        | some l => simp only [upto] at hu n2; omega
      constructor
      all_goals simp only [setPc, apply_ite crit, ctab]
      all_goals (try assumption)
      all_goals (try grind)
    | none =>
      rw [hn] at hs
      cases hs
      have n1 := next_none hn
      constructor
      all_goals simp only [setPc, apply_ite crit, ctab, connected_snoc]
      all_goals (try assumption)
      all_goals (try grind)
      intro pre m' outs post he
      rcases hist_snoc he with ⟨post', he'⟩ | ⟨rfl, he'⟩
      · exact hi pre m' outs post' he'
      · cases he'
        refine ⟨gnt.1, fun o => ?_⟩
        rw [gnt.2 o, ← co o]
        exact ⟨fun h => h.1, fun h => ⟨h, n1 o h⟩⟩
  case fPush.go =>
    have q := congrArg crit hp
    simp only [ctab] at q
    obtain ⟨g1, g2, g3⟩ := gp t m o hp
    cases hs
    constructor
    all_goals simp only [setPc, setG, apply_ite crit, ctab]
    all_goals (try assumption)
    all_goals (try grind)
    intro u m' l' hu
    by_cases e : u = t
    · subst e
      simp only [if_true, PC.fNext.injEq] at hu ⊢
      obtain ⟨_, rfl⟩ := hu
      refine ⟨?_, fun p => ?_⟩
      · rw [List.pairwise_append]
        refine ⟨g2, by simp, fun a ha b hb => ?_⟩
        rw [List.mem_singleton] at hb
        subst hb
        exact ((g3 a).1 ha).2
      · rw [List.mem_append, g3 p, List.mem_singleton]
        simp only [upto]
        constructor
        · rintro (⟨h1, h2⟩ | rfl)
          · exact ⟨h1, by omega⟩
          · exact ⟨g1, Nat.le_refl _⟩
        · rintro ⟨h1, h2⟩
          by_cases e : p = o
          · exact Or.inr e
          · exact Or.inl ⟨h1, by omega⟩
    · simp only [e, if_false] at hu ⊢
      exact gn u m' l' hu
  case fWait.go =>
    split at hs
    · cases hs
      have q := congrArg crit hp
      simp only [ctab] at q
      constructor
      all_goals simp only [setPc, setG, apply_ite crit, ctab]
      all_goals (try assumption)
      all_goals (try grind [upto])
      intro u m' l' hu
      by_cases e : u = t
      · subst e
        simp only [if_true, PC.fNext.injEq] at hu ⊢
        obtain ⟨_, rfl⟩ := hu
        exact ⟨List.Pairwise.nil, fun o => by simp [upto]⟩
      · simp only [e, if_false] at hu ⊢
        exact gn u m' l' hu
    · cases hs
  case aIns.go =>
    cases hs
    have q := congrArg crit hp
    simp only [ctab] at q
    have hm := mxt.1 q
    have hoth : ∀ u, u ≠ t → crit (s.pc u) = false := by
      intro u hu
      cases hc : crit (s.pc u) with
      | false => rfl
      | true => have := (mx u).1 hc; rw [hm] at this; exact absurd (Option.some.inj this).symm hu
    constructor
    · simp only [setPc, apply_ite crit, ctab]; grind
    · exact sorted_insertSet o _ so
    · intro p
      simp only [setPc, connected_snoc, mem_insertSet]
      grind
    · intro u m' l' hu
      simp only [setPc] at hu
      split at hu
      · cases hu
      · next e => have := hoth u e; rw [hu] at this; cases this
    · intro u m' l' hu
      simp only [setPc] at hu
      split at hu
      · cases hu
      · next e => have := hoth u e; rw [hu] at this; cases this
    · simp [setPc, br, hm]
    · intro pre m' outs post he
      simp only [setPc] at he
      rcases hist_snoc he with ⟨post', he'⟩ | ⟨rfl, he'⟩
      · exact hi pre m' outs post' he'
      · cases he'
  case rDel.go =>
    cases hs
    have q := congrArg crit hp
    simp only [ctab] at q
    have hm := mxt.1 q
    have hoth : ∀ u, u ≠ t → crit (s.pc u) = false := by
      intro u hu
      cases hc : crit (s.pc u) with
      | false => rfl
      | true => have := (mx u).1 hc; rw [hm] at this; exact absurd (Option.some.inj this).symm hu
    constructor
    · simp only [setPc, apply_ite crit, ctab]; grind
    · exact so.sublist List.erase_sublist
    · intro p
      simp only [setPc, connected_snoc, erase_mem so]
      grind
    · intro u m' l' hu
      simp only [setPc] at hu
      split at hu
      · cases hu
      · next e => have := hoth u e; rw [hu] at this; cases this
    · intro u m' l' hu
      simp only [setPc] at hu
      split at hu
      · cases hu
      · next e => have := hoth u e; rw [hu] at this; cases this
    · simp [setPc, br, hm]
    · intro pre m' outs post he
      simp only [setPc] at he
      rcases hist_snoc he with ⟨post', he'⟩ | ⟨rfl, he'⟩
      · exact hi pre m' outs post' he'
      · cases he'
  all_goals (try split at hs)
  all_goals (try (cases hs; done))
  all_goals cases hs
  all_goals have q := congrArg crit hp
  all_goals simp only [ctab] at q
  all_goals constructor
  all_goals simp only [setPc, apply_ite crit, ctab]
  all_goals (try assumption)
  all_goals (try grind)

theorem inv_exec {intr : Bool} {s s' : State} (h : Inv s) (as : List (Nat × Act)) (he : exec intr s as = some s') :
    Inv s' := by
  induction as generalizing s with
  | nil => cases he; exact h
  | cons a as ih =>
    obtain ⟨s1, h1, h2⟩ := Option.bind_eq_some_iff.1 he
    exact ih (inv_step h a.1 a.2 h1) h2

end Verif.Logging.Connect
