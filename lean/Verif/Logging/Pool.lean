import Verif.Base

/-!
# The pool of thread streams of a `LogStream` (C45): model and invariants

LogStream.cpp:90-154 (`threadStream`), 252-263 (`releaseThreadStream`), ThreadStream.cpp:80-98
(`write`), 125-147 (`flush`), LoggingMacros_SLOGGING.h:55-71 (one log statement).

Any number of threads. A log statement of level `l` with the pieces `txt` is: `threadStream(l)`,
one `write` per piece, `flush`. While the pieces are being evaluated the thread may execute
another log statement on the same stream (a function called in the argument that logs); the
suspended statements of a thread form a stack. One action = one semaphore call, one critical
section body statement, one `write`, or the assignment `m_write_index = 0`; sequentially
consistent (a real race inside one `write` is not modelled). Simplified: buffers are unbounded
(their limit is C44), `Semaphore::wait` does not fail, `threadSelf()` is never the empty id 0.
-/
namespace Verif.Logging.Pool

/-- A suspended statement: stream, level, pieces written, pieces to write. -/
structure Frame where
  i : Nat
  l : Nat
  done : List Nat
  rest : List Nat
  deriving DecidableEq, Repr

/-- Where a thread is in its innermost statement. -/
inductive PC where
  | idle
  /-- LogStream.cpp:94 in `m_mutex.wait()` -/
  | acq (l : Nat) (txt : List Nat)
  /-- LogStream.cpp:97-146 inside the critical section -/
  | look (l : Nat) (txt : List Nat)
  /-- LogStream.cpp:148 about to post -/
  | unlock (i l : Nat) (txt : List Nat)
  /-- the macro's `thread_stream << arg` -/
  | write (f : Frame)
  /-- ThreadStream.cpp:128 in `m_mutex.wait()` -/
  | flushWait (i l : Nat) (txt : List Nat)
  /-- ThreadStream.cpp:130-136 pushing to the outputs -/
  | push (i l : Nat) (txt : List Nat)
  /-- ThreadStream.cpp:138 about to release -/
  | release (i l : Nat)
  /-- ThreadStream.cpp:140 about to post -/
  | post (i : Nat)
  /-- ThreadStream.cpp:146 about to reset the write index -/
  | reset (i : Nat)
  deriving DecidableEq, Repr

/-- A message that reached the outputs. -/
structure Msg where
  thread : Nat
  level : Nat
  /-- what the buffer held -/
  text : List Nat
  /-- the pieces of the log statement -/
  meant : List Nat
  deriving DecidableEq, Repr

/-- The log stream, its thread streams and the threads. -/
structure State where
  /-- holder of `LogStream::m_mutex` -/
  mutex : Option Nat
  /-- `m_thread_stream_map`: `none` = free, else (thread, level) -/
  pool : List (Option (Nat × Nat))
  /-- `m_data` up to `m_write_index`, per thread stream -/
  buf : Nat → List Nat
  pc : Nat → PC
  /-- suspended statements, innermost first -/
  outer : Nat → List Frame
  /-- history: the threads at `reset` -/
  resetting : List Nat
  /-- history: the messages pushed to the outputs -/
  out : List Msg
  /-- history: the log statements started by each thread -/
  called : Nat → List (Nat × List Nat)
  /-- history: has the thread ever nested log statements? -/
  nests : Nat → Bool

/-- LogStream.cpp:39-52: a pool of `n` free streams (`cDEFAULT_LOG_THREAD_STREAM_POOL_SIZE`). -/
def init (n : Nat) : State :=
  { mutex := none, pool := List.replicate n none, buf := fun _ => [], pc := fun _ => .idle,
    outer := fun _ => [], resetting := [], out := [], called := fun _ => [], nests := fun _ => false }

/-- LogStream.cpp:97-146: the stream already assigned to (thread, level), else a free one, else a new
one. -/
def lookup (pool : List (Option (Nat × Nat))) (t l : Nat) : Nat × List (Option (Nat × Nat)) :=
  match pool.findIdx? (· = some (t, l)) with
  | some i => (i, pool)
  | none =>
    match pool.findIdx? (· = none) with
    | some i => (i, pool.set i (some (t, l)))
    | none => (pool.length, pool ++ [some (t, l)])

/-- Move a thread. -/
def setPc (s : State) (t : Nat) (p : PC) : State := { s with pc := fun u => if u = t then p else s.pc u }

/-- Replace a buffer. -/
def setBuf (s : State) (i : Nat) (b : List Nat) : State := { s with buf := fun j => if j = i then b else s.buf j }

/-- Record a started statement. -/
def record (s : State) (t l : Nat) (txt : List Nat) : State :=
  { s with called := fun u => if u = t then s.called t ++ [(l, txt)] else s.called u }

/-- Suspend a statement. -/
def suspend (s : State) (t : Nat) (f : Frame) : State :=
  { s with outer := fun u => if u = t then f :: s.outer t else s.outer u
           nests := fun u => if u = t then true else s.nests u }

/-- Actions. -/
inductive Act where
  /-- a log statement starts -/
  | call (l : Nat) (txt : List Nat)
  | go
  deriving DecidableEq, Repr

/-- Which executions are considered. -/
structure Cfg where
  /-- may a statement be nested in one of the same level of the same thread? -/
  nested : Bool
  /-- may `threadStream()` run while some thread is between lines 142 and 148 of `flush`? -/
  racy : Bool

/-- All executions. -/
def anyCfg : Cfg := ⟨true, true⟩

/-- One action of thread `t`. `none`: not possible, blocked, or excluded by `c`. -/
def step (c : Cfg) (s : State) (t : Nat) (a : Act) : Option State :=
  match s.pc t, a with
  | .idle, .call l txt => some (setPc (record s t l txt) t (.acq l txt))
  | .write f, .call l txt =>
    if c.nested = true ∨ (l ≠ f.l ∧ ∀ g ∈ s.outer t, l ≠ g.l) then
      some (setPc (suspend (record s t l txt) t f) t (.acq l txt))
    else none
  | .acq l txt, .go =>
    if s.mutex = none then some (setPc { s with mutex := some t } t (.look l txt)) else none
  | .look l txt, .go =>
    if c.racy = true ∨ s.resetting = [] then
      some (setPc { s with pool := (lookup s.pool t l).2 } t (.unlock (lookup s.pool t l).1 l txt))
    else none
  | .unlock i l txt, .go => some (setPc { s with mutex := none } t (.write ⟨i, l, [], txt⟩))
  | .write f, .go =>
    match f.rest with
    | x :: r => some (setPc (setBuf s f.i (s.buf f.i ++ [x])) t (.write { f with done := f.done ++ [x], rest := r }))
    | [] => some (setPc s t (.flushWait f.i f.l f.done))
  | .flushWait i l txt, .go =>
    if s.mutex = none then some (setPc { s with mutex := some t } t (.push i l txt)) else none
  | .push i l txt, .go => some (setPc { s with out := s.out ++ [⟨t, l, s.buf i, txt⟩] } t (.release i l))
  | .release i _, .go => some (setPc { s with pool := s.pool.set i none } t (.post i))
  | .post i, .go => some (setPc { s with mutex := none, resetting := t :: s.resetting } t (.reset i))
  | .reset i, .go =>
    let s' := setBuf { s with resetting := s.resetting.filter (· ≠ t) } i []
    match s.outer t with
    | [] => some (setPc s' t .idle)
    | f :: fs => some (setPc { s' with outer := fun u => if u = t then fs else s.outer u } t (.write f))
  | _, _ => none

/-- Run a schedule. -/
def exec (c : Cfg) (s : State) : List (Nat × Act) → Option State
  | [] => some s
  | (t, a) :: as => (step c s t a).bind fun s' => exec c s' as

/-! ## Invariants -/

/-- The stream and level held by the innermost statement. -/
def top : PC → Option (Nat × Nat)
  | .unlock i l _ | .flushWait i l _ | .push i l _ | .release i l => some (i, l)
  | .write f => some (f.i, f.l)
  | _ => none

/-- What the innermost statement has written. -/
def topText : PC → Option (Nat × List Nat)
  | .unlock i _ _ => some (i, [])
  | .write f => some (f.i, f.done)
  | .flushWait i _ txt | .push i _ txt => some (i, txt)
  | _ => none

/-- In the critical section. -/
def crit : PC → Bool
  | .look .. | .unlock .. | .push .. | .release .. | .post .. => true
  | _ => false

/-- The stream a finished statement will still reset. -/
def willReset : PC → Option Nat
  | .post i | .reset i => some i
  | _ => none

/-- At `reset`. -/
def atReset : PC → Bool
  | .reset _ => true
  | _ => false

/-- The level of a statement looking for a stream. -/
def wants : PC → Option Nat
  | .acq l _ | .look l _ => some l
  | _ => none

theorem top_tab : top .idle = none ∧ (∀ l x, top (.acq l x) = none) ∧ (∀ l x, top (.look l x) = none) ∧
    (∀ i l x, top (.unlock i l x) = some (i, l)) ∧ (∀ f, top (.write f) = some (f.i, f.l)) ∧
    (∀ i l x, top (.flushWait i l x) = some (i, l)) ∧ (∀ i l x, top (.push i l x) = some (i, l)) ∧
    (∀ i l, top (.release i l) = some (i, l)) ∧ (∀ i, top (.post i) = none) ∧ (∀ i, top (.reset i) = none) := by
  simp [top]

theorem crit_tab : crit .idle = false ∧ (∀ l x, crit (.acq l x) = false) ∧ (∀ l x, crit (.look l x) = true) ∧
    (∀ i l x, crit (.unlock i l x) = true) ∧ (∀ f, crit (.write f) = false) ∧
    (∀ i l x, crit (.flushWait i l x) = false) ∧ (∀ i l x, crit (.push i l x) = true) ∧
    (∀ i l, crit (.release i l) = true) ∧ (∀ i, crit (.post i) = true) ∧ (∀ i, crit (.reset i) = false) := by
  simp [crit]

theorem wants_tab : wants .idle = none ∧ (∀ l x, wants (.acq l x) = some l) ∧ (∀ l x, wants (.look l x) = some l) ∧
    (∀ i l x, wants (.unlock i l x) = none) ∧ (∀ f, wants (.write f) = none) ∧
    (∀ i l x, wants (.flushWait i l x) = none) ∧ (∀ i l x, wants (.push i l x) = none) ∧
    (∀ i l, wants (.release i l) = none) ∧ (∀ i, wants (.post i) = none) ∧ (∀ i, wants (.reset i) = none) := by
  simp [wants]

theorem topText_tab : topText .idle = none ∧ (∀ l x, topText (.acq l x) = none) ∧ (∀ l x, topText (.look l x) = none) ∧
    (∀ i l x, topText (.unlock i l x) = some (i, [])) ∧ (∀ f, topText (.write f) = some (f.i, f.done)) ∧
    (∀ i l x, topText (.flushWait i l x) = some (i, x)) ∧ (∀ i l x, topText (.push i l x) = some (i, x)) ∧
    (∀ i l, topText (.release i l) = none) ∧ (∀ i, topText (.post i) = none) ∧ (∀ i, topText (.reset i) = none) := by
  simp [topText]

theorem willReset_tab : willReset .idle = none ∧ (∀ l x, willReset (.acq l x) = none) ∧ (∀ l x, willReset (.look l x) = none) ∧
    (∀ i l x, willReset (.unlock i l x) = none) ∧ (∀ f, willReset (.write f) = none) ∧
    (∀ i l x, willReset (.flushWait i l x) = none) ∧ (∀ i l x, willReset (.push i l x) = none) ∧
    (∀ i l, willReset (.release i l) = none) ∧ (∀ i, willReset (.post i) = some i) ∧ (∀ i, willReset (.reset i) = some i) := by
  simp [willReset]

theorem atReset_tab : atReset .idle = false ∧ (∀ l x, atReset (.acq l x) = false) ∧ (∀ l x, atReset (.look l x) = false) ∧
    (∀ i l x, atReset (.unlock i l x) = false) ∧ (∀ f, atReset (.write f) = false) ∧
    (∀ i l x, atReset (.flushWait i l x) = false) ∧ (∀ i l x, atReset (.push i l x) = false) ∧
    (∀ i l, atReset (.release i l) = false) ∧ (∀ i, atReset (.post i) = false) ∧ (∀ i, atReset (.reset i) = true) := by
  simp [atReset]

/-- Ownership, for executions without same-level nesting. -/
structure Inv (s : State) : Prop where
  mx : ∀ t, crit (s.pc t) = true ↔ s.mutex = some t
  tp : ∀ t i l, top (s.pc t) = some (i, l) → s.pool[i]? = some (some (t, l))
  ot : ∀ t f, f ∈ s.outer t → s.pool[f.i]? = some (some (t, f.l))
  /-- the levels of the statements of one thread are different -/
  d1 : ∀ t i l f, top (s.pc t) = some (i, l) → f ∈ s.outer t → f.l ≠ l
  d2 : ∀ t l f, wants (s.pc t) = some l → f ∈ s.outer t → f.l ≠ l
  d3 : ∀ t, ((s.outer t).map (·.l)).Nodup
  /-- assigned streams are in use -/
  us : ∀ t i l, s.pool[i]? = some (some (t, l)) → top (s.pc t) = some (i, l) ∨ ∃ f ∈ s.outer t, f.i = i ∧ f.l = l
  nt : ∀ t, s.pc t = .idle → s.outer t = []

theorem lookup_cases (pool : List (Option (Nat × Nat))) (t l : Nat) :
    (∃ i, lookup pool t l = (i, pool) ∧ pool[i]? = some (some (t, l))) ∨
    (∃ i, (∀ j : Nat, pool[j]? ≠ some (some (t, l))) ∧ lookup pool t l = (i, pool.set i (some (t, l))) ∧ pool[i]? = some none) ∨
    ((∀ j : Nat, pool[j]? ≠ some (some (t, l))) ∧ lookup pool t l = (pool.length, pool ++ [some (t, l)])) := by
  unfold lookup
  split
  · next i h =>
    left
    obtain ⟨h1, h2, _⟩ := List.findIdx?_eq_some_iff_getElem.1 h
    exact ⟨i, rfl, by simpa [List.getElem?_eq_some_iff] using ⟨h1, by simpa using h2⟩⟩
  · next h =>
    have hno : ∀ j : Nat, pool[j]? ≠ some (some (t, l)) := by
      intro j hj
      have := List.findIdx?_eq_none_iff.1 h (some (t, l)) (List.mem_of_getElem? hj)
      simp at this
    split
    · next i h2 =>
      right; left
      obtain ⟨h1, h2, _⟩ := List.findIdx?_eq_some_iff_getElem.1 h2
      exact ⟨i, hno, rfl, by simpa [List.getElem?_eq_some_iff] using ⟨h1, by simpa using h2⟩⟩
    · exact Or.inr (Or.inr ⟨hno, rfl⟩)

theorem inv_init (n : Nat) : Inv (init n) := by
  constructor <;> simp only [init, crit_tab, top_tab, wants_tab] <;> grind

set_option maxHeartbeats 4000000 in
theorem inv_step {c : Cfg} (hc : c.nested = false) {s s' : State} (h : Inv s) (t : Nat) (a : Act)
    (hs : step c s t a = some s') : Inv s' := by
  obtain ⟨mx, tp, ot, d1, d2, d3, us, nt⟩ := h
  have hlk := lookup_cases s.pool t
  unfold step at hs
  rcases hp : s.pc t with _ | ⟨l, txt⟩ | ⟨l, txt⟩ | ⟨i, l, txt⟩ | f | ⟨i, l, txt⟩ | ⟨i, l, txt⟩ | ⟨i, l⟩ | i | i <;>
    cases a <;> rw [hp] at hs <;> simp only [reduceCtorEq, hc, false_or, Bool.false_eq_true] at hs
  all_goals (try split at hs)
  all_goals (try (cases hs; done))
  all_goals cases hs
  all_goals have q1 := congrArg top hp
  all_goals have q2 := congrArg crit hp
  all_goals have q3 := congrArg wants hp
  all_goals have mxt := mx t
  all_goals simp only [top_tab, crit_tab, wants_tab] at q1 q2 q3
  case look.go => 
    rcases hlk l with ⟨i, e, h1⟩ | ⟨i, hno, e, h1⟩ | ⟨hno, e⟩
    · rcases us t i l h1 with h2 | ⟨f, hf, _, h2⟩
      · rw [q1] at h2; cases h2
      · exact absurd h2 (d2 t l f q3 hf)
    · rw [e]; constructor <;> simp only [setPc] <;>
        (try simp only [apply_ite top, apply_ite crit, apply_ite wants, top_tab, crit_tab, wants_tab]) <;> grind
    · rw [e]; constructor <;> simp only [setPc] <;>
        (try simp only [apply_ite top, apply_ite crit, apply_ite wants, top_tab, crit_tab, wants_tab]) <;> grind
  all_goals constructor
  all_goals simp only [setPc, setBuf, record, suspend]
  all_goals (try simp only [apply_ite top, apply_ite crit, apply_ite wants, top_tab, crit_tab, wants_tab])
  all_goals (try assumption)
  all_goals (try grind)


theorem topText_top {p : PC} {i : Nat} {b : List Nat} (h : topText p = some (i, b)) : ∃ l, top p = some (i, l) := by
  cases p <;> simp only [topText_tab, reduceCtorEq, Option.some.injEq, Prod.mk.injEq] at h <;>
    obtain ⟨rfl, _⟩ := h <;> exact ⟨_, rfl⟩

/-- Texts, for executions that also avoid the window at the end of `flush`. -/
structure TInv (s : State) : Prop where
  rs : ∀ t, t ∈ s.resetting ↔ atReset (s.pc t) = true
  nr : ∀ t i, willReset (s.pc t) = some i → s.pool[i]? = some none
  fr : ∀ i : Nat, (s.pool[i]? = some none ∨ s.pool[i]? = none) → (∀ t, willReset (s.pc t) ≠ some i) → s.buf i = []
  tx : ∀ t i b, topText (s.pc t) = some (i, b) → s.buf i = b
  ox : ∀ t f, f ∈ s.outer t → s.buf f.i = f.done
  ms : ∀ m ∈ s.out, m.text = m.meant

theorem tinv_init (n : Nat) : TInv (init n) := by
  constructor <;> simp only [init, atReset_tab, willReset_tab, topText_tab] <;> grind

set_option maxHeartbeats 8000000 in
theorem tinv_step {c : Cfg} (hc : c.nested = false) (hr : c.racy = false) {s s' : State} (h : Inv s) (ht : TInv s)
    (t : Nat) (a : Act) (hs : step c s t a = some s') : TInv s' := by
  obtain ⟨mx, tp, ot, d1, d2, d3, us, nt⟩ := h
  obtain ⟨rs, nr, fr, tx, ox, ms⟩ := ht
  have tt := fun u i b (h : topText (s.pc u) = some (i, b)) => topText_top h
  have hlk := lookup_cases s.pool t
  unfold step at hs
  rcases hp : s.pc t with _ | ⟨l, txt⟩ | ⟨l, txt⟩ | ⟨i, l, txt⟩ | f | ⟨i, l, txt⟩ | ⟨i, l, txt⟩ | ⟨i, l⟩ | i | i <;>
    cases a <;> rw [hp] at hs <;> simp only [reduceCtorEq, hc, hr, false_or, Bool.false_eq_true] at hs
  all_goals (try split at hs)
  all_goals (try (cases hs; done))
  all_goals cases hs
  all_goals have q1 := congrArg top hp
  all_goals have q2 := congrArg crit hp
  all_goals have q3 := congrArg wants hp
  all_goals have q4 := congrArg topText hp
  all_goals have q5 := congrArg willReset hp
  all_goals have q6 := congrArg atReset hp
  all_goals have mxt := mx t
  all_goals simp only [top_tab, crit_tab, wants_tab, topText_tab, willReset_tab, atReset_tab] at q1 q2 q3 q4 q5 q6
  case look.go =>
    rename_i hres
    have hno : ∀ u i, willReset (s.pc u) ≠ some i := by
      intro u i hu
      have h1 := rs u
      have h2 := mx u
      rcases hq : s.pc u with _ | ⟨l, txt⟩ | ⟨l, txt⟩ | ⟨i, l, txt⟩ | f | ⟨i, l, txt⟩ | ⟨i, l, txt⟩ | ⟨i, l⟩ | i | i <;>
        rw [hq] at hu h1 h2 <;> simp only [willReset_tab, atReset_tab, crit_tab] at hu h1 h2 <;> grind
    rcases hlk l with ⟨i, e, h1⟩ | ⟨i, hno, e, h1⟩ | ⟨hno, e⟩
    · rcases us t i l h1 with h2 | ⟨f, hf, _, h2⟩
      · rw [q1] at h2; cases h2
      · exact absurd h2 (d2 t l f q3 hf)
    · rw [e]; constructor <;> simp only [setPc] <;>
        (try simp only [apply_ite topText, apply_ite willReset, apply_ite atReset, topText_tab, willReset_tab, atReset_tab]) <;> grind
    · rw [e]; constructor <;> simp only [setPc] <;>
        (try simp only [apply_ite topText, apply_ite willReset, apply_ite atReset, topText_tab, willReset_tab, atReset_tab]) <;> grind
  all_goals constructor
  all_goals simp only [setPc, setBuf, record, suspend]
  all_goals (try simp only [apply_ite topText, apply_ite willReset, apply_ite atReset, topText_tab, willReset_tab, atReset_tab])
  all_goals (try assumption)
  all_goals (try grind)
  · intro j hj hall
    split
    · rfl
    · next hne =>
      refine fr j hj fun u hu => ?_
      by_cases hut : u = t
      · subst hut; rw [q5] at hu; exact hne (Option.some.inj hu).symm
      · exact hall u (by rw [if_neg hut]; exact hu)

/-- The statement of the innermost level that has not been pushed yet. -/
def pendingTop : PC → List (Nat × List Nat)
  | .acq l txt | .look l txt | .unlock _ l txt | .flushWait _ l txt | .push _ l txt => [(l, txt)]
  | .write f => [(f.l, f.done ++ f.rest)]
  | _ => []

/-- All statements of a thread that have not been pushed yet. -/
def pending (s : State) (t : Nat) : List (Nat × List Nat) :=
  pendingTop (s.pc t) ++ (s.outer t).map fun f => (f.l, f.done ++ f.rest)

/-- What the messages of a thread were meant to be. -/
def meantOf (s : State) (t : Nat) : List (Nat × List Nat) :=
  (s.out.filter (·.thread = t)).map fun m => (m.level, m.meant)

/-- Accounting, for every execution. -/
structure CInv (s : State) : Prop where
  al : ∀ t, (s.called t).Perm (meantOf s t ++ pending s t)
  eq : ∀ t, s.nests t = false → s.called t = meantOf s t ++ pendingTop (s.pc t) ∧ s.outer t = []

theorem cinv_init (n : Nat) : CInv (init n) := by
  constructor <;> simp [init, meantOf, pending, pendingTop]

theorem perm_move {α : Type} (a b c : List α) (x : α) : (a ++ (x :: b)).Perm ((a ++ [x]) ++ b) := by simp

set_option maxHeartbeats 4000000 in
theorem cinv_step {c : Cfg} {s s' : State} (h : CInv s) (t : Nat) (a : Act)
    (hs : step c s t a = some s') : CInv s' := by
  obtain ⟨al, eq⟩ := h
  unfold step at hs
  rcases hp : s.pc t with _ | ⟨l, txt⟩ | ⟨l, txt⟩ | ⟨i, l, txt⟩ | f | ⟨i, l, txt⟩ | ⟨i, l, txt⟩ | ⟨i, l⟩ | i | i <;>
    cases a <;> rw [hp] at hs <;> simp only [reduceCtorEq] at hs
  all_goals (try split at hs)
  all_goals (try (cases hs; done))
  all_goals cases hs
  all_goals constructor
  all_goals intro u
  all_goals have alu := al u
  all_goals have equ := eq u
  all_goals by_cases hu : u = t
  all_goals (try subst hu)
  all_goals simp only [pending, meantOf, setPc, setBuf, record, suspend, if_pos, if_neg, hp, pendingTop, *,
    List.filter_append, List.map_append, List.nil_append, List.append_nil, List.map_cons, List.map_nil] at alu equ ⊢
  all_goals (try assumption)
  all_goals (try grind)

end Verif.Logging.Pool
