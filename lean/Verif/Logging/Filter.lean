import Verif.Logging.Level
import Mathlib.Data.List.Induction

/-!
# Which outputs receive a log message (C43, C66)

Models the log macros (LoggingMacros_SLOGGING.h), `LogStream`, `ThreadStream::flush`,
`LogOutputStream::push` (without a worker thread: the delivery itself; the queue is modelled
separately) and `LoggingManager::setLogLevel`. Streams and outputs are numbered. Only the level
and the text of a message are kept. One operation at a time; the concurrent parts are in other
modules.
-/
namespace Verif.Logging

/-- LogStream.h:182-187. -/
structure Stream where
  active : Bool
  level : Nat
  /-- `m_output_stream_list`, a `std::set` -/
  outs : List Nat

/-- LogOutputStream.h: `m_log_level`, and the messages passed to `pushImpl` so far. -/
structure Output where
  level : Nat
  got : List (Nat × String)

/-- Everything that exists, and what the manager knows (LoggingManager.h: `m_log_streams`,
`m_log_output_streams`, `m_default_log_output`). -/
structure World where
  stream : Nat → Stream
  output : Nat → Output
  managedStreams : List Nat
  managedOutputs : List Nat
  default : Option Nat

/-- Public calls. -/
inductive LogOp where
  /-- LogStream.h:72 `setActive` -/
  | setActive (s : Nat) (b : Bool)
  /-- LogStream.cpp:72-79 `addOutputStream` -/
  | addOutput (s o : Nat)
  /-- LogStream.cpp:81-88 `removeOutputStream` -/
  | removeOutput (s o : Nat)
  /-- LogOutputStream.h:166 `setLogLevel` -/
  | setOutputLevel (o l : Nat)
  /-- LoggingManager.cpp:291-303 `setLogLevel` -/
  | setAll (l : Nat)
  /-- the log macros with level `l`, ended by `endl` or `flush` -/
  | log (s l : Nat) (text : String)

/-- Functional update. -/
def upd {α : Type} (f : Nat → α) (i : Nat) (a : α) : Nat → α := fun j => if j = i then a else f j

/-- LogOutputStream.cpp:143-180 `push`: the level test of line 148. -/
def pushTo (w : World) (l : Nat) (text : String) (o : Nat) : World :=
  if l ≥ (w.output o).level then
    { w with output := upd w.output o { w.output o with got := (w.output o).got ++ [(l, text)] } }
  else w

/-- LoggingMacros_SLOGGING.h:55-71 and ThreadStream.cpp:130-136: the tests, then every output of
the set. -/
def logMsg (w : World) (s l : Nat) (text : String) : World :=
  if (w.stream s).active then
    if (w.stream s).level ≤ l then (w.stream s).outs.foldl (fun w o => pushTo w l text o) w else w
  else w

/-- LoggingManager.cpp:291-303. -/
def setAllLevels (w : World) (l : Nat) : World :=
  { w with
    stream := w.managedStreams.foldl (fun f i => upd f i ({ f i with level := l } : Stream)) w.stream
    output := w.managedOutputs.foldl (fun f i => upd f i ({ f i with level := l } : Output)) w.output }

/-- One call. -/
def LogOp.run (w : World) : LogOp → World
  | .setActive s b => { w with stream := upd w.stream s { w.stream s with active := b } }
  | .addOutput s o =>
    let os := if o ∈ (w.stream s).outs then (w.stream s).outs else (w.stream s).outs ++ [o]
    { w with stream := upd w.stream s { w.stream s with outs := os } }
  | .removeOutput s o =>
    { w with stream := upd w.stream s { w.stream s with outs := (w.stream s).outs.filter (· ≠ o) } }
  | .setOutputLevel o l => { w with output := upd w.output o { w.output o with level := l } }
  | .setAll l => setAllLevels w l
  | .log s l t => logMsg w s l t

/-- Calls in order. -/
def runLog (w : World) (ops : List LogOp) : World := ops.foldl LogOp.run w

/-- The beginning: streams of level `cDEFAULT_LOG_LEVEL` without outputs; `ms`, `mo` known to the
manager and `d` its default output. -/
def World.init (outLevel : Nat → Nat) (ms mo : List Nat) (d : Option Nat) : World :=
  { stream := fun _ => ⟨true, 2, []⟩, output := fun o => ⟨outLevel o, []⟩, managedStreams := ms,
    managedOutputs := mo, default := d }

/-! ## Specification: the last relevant call decides -/

/-- The value given by the last call for which `f` says something. -/
def lastSet {α : Type} (f : LogOp → Option α) (init : α) : List LogOp → α
  | [] => init
  | op :: ops => lastSet f ((f op).getD init) ops

/-- What a call says about stream `s` being active. -/
def saysActive (s : Nat) : LogOp → Option Bool
  | .setActive s' b => if s' = s then some b else none
  | _ => none

/-- What a call says about the level of stream `s`. -/
def saysLevel (ms : List Nat) (s : Nat) : LogOp → Option Nat
  | .setAll l => if s ∈ ms then some l else none
  | _ => none

/-- What a call says about the level of output `o`. -/
def saysOutLevel (mo : List Nat) (o : Nat) : LogOp → Option Nat
  | .setAll l => if o ∈ mo then some l else none
  | .setOutputLevel o' l => if o' = o then some l else none
  | _ => none

/-- What a call says about `o` being attached to `s`. -/
def saysAttached (s o : Nat) : LogOp → Option Bool
  | .addOutput s' o' => if s' = s ∧ o' = o then some true else none
  | .removeOutput s' o' => if s' = s ∧ o' = o then some false else none
  | _ => none

/-- Is stream `s` active after the calls? -/
def specActive (ops : List LogOp) (s : Nat) : Bool := lastSet (saysActive s) true ops

/-- The level of stream `s` after the calls. -/
def specLevel (ms : List Nat) (ops : List LogOp) (s : Nat) : Nat := lastSet (saysLevel ms s) 2 ops

/-- The level of output `o` after the calls. -/
def specOutLevel (outLevel : Nat → Nat) (mo : List Nat) (ops : List LogOp) (o : Nat) : Nat :=
  lastSet (saysOutLevel mo o) (outLevel o) ops

/-- Is output `o` attached to stream `s` after the calls? -/
def specAttached (ops : List LogOp) (s o : Nat) : Bool := lastSet (saysAttached s o) false ops

/-! ## Lemmas -/

theorem lastSet_snoc {α : Type} (f : LogOp → Option α) (init : α) (ops : List LogOp) (op : LogOp) :
    lastSet f init (ops ++ [op]) = (f op).getD (lastSet f init ops) := by
  induction ops generalizing init with
  | nil => rfl
  | cons a as ih => simp only [List.cons_append, lastSet, ih]

theorem foldl_upd_level {β : Type} (set : β → β) (l : List Nat) (f : Nat → β) (j : Nat)
    (hidem : ∀ b, set (set b) = set b) :
    (l.foldl (fun f s => upd f s (set (f s))) f) j = if j ∈ l then set (f j) else f j := by
  induction l generalizing f with
  | nil => simp
  | cons a as ih =>
    rw [List.foldl_cons, ih]
    by_cases h1 : j = a
    · subst h1; simp [upd, hidem]
    · simp [upd, h1]

theorem pushes (l : Nat) (text : String) (os : List Nat) (hnd : os.Nodup) (w : World) :
    let w' := os.foldl (fun w o => pushTo w l text o) w
    w'.stream = w.stream ∧ w'.managedStreams = w.managedStreams ∧ w'.managedOutputs = w.managedOutputs ∧
    w'.default = w.default ∧
    ∀ o, (w'.output o).level = (w.output o).level ∧
      (w'.output o).got = (w.output o).got ++ (if o ∈ os ∧ (w.output o).level ≤ l then [(l, text)] else []) := by
  induction os generalizing w with
  | nil => simp
  | cons a as ih =>
    have hnd' := List.nodup_cons.1 hnd
    have hp : (pushTo w l text a).stream = w.stream ∧ (pushTo w l text a).managedStreams = w.managedStreams ∧
        (pushTo w l text a).managedOutputs = w.managedOutputs ∧ (pushTo w l text a).default = w.default ∧
        ∀ o, ((pushTo w l text a).output o).level = (w.output o).level ∧
          ((pushTo w l text a).output o).got =
            (w.output o).got ++ (if o = a ∧ (w.output o).level ≤ l then [(l, text)] else []) := by
      unfold pushTo
      split
      · next h =>
        refine ⟨rfl, rfl, rfl, rfl, fun o => ?_⟩
        by_cases ho : o = a
        · subst ho; simp [upd, h]
        · simp [upd, ho]
      · next h =>
        refine ⟨rfl, rfl, rfl, rfl, fun o => ?_⟩
        by_cases ho : o = a
        · subst ho; simp; omega
        · simp [ho]
    obtain ⟨i1, i2, i3, i4, i5⟩ := ih hnd'.2 (pushTo w l text a)
    rw [List.foldl_cons]
    refine ⟨i1.trans hp.1, i2.trans hp.2.1, i3.trans hp.2.2.1, i4.trans hp.2.2.2.1, fun o => ?_⟩
    obtain ⟨j1, j2⟩ := i5 o
    obtain ⟨k1, k2⟩ := hp.2.2.2.2 o
    refine ⟨j1.trans k1, ?_⟩
    rw [j2, k2, k1, List.append_assoc]
    congr 1
    by_cases ho : o = a
    · subst ho; simp [hnd'.1]
    · simp [ho]

/-- What the state is, in terms of the history. -/
structure Agrees (outLevel : Nat → Nat) (ms mo : List Nat) (ops : List LogOp) (w : World) : Prop where
  active : ∀ s, (w.stream s).active = specActive ops s
  level : ∀ s, (w.stream s).level = specLevel ms ops s
  outs : ∀ s o, o ∈ (w.stream s).outs ↔ specAttached ops s o = true
  nodup : ∀ s, (w.stream s).outs.Nodup
  olevel : ∀ o, (w.output o).level = specOutLevel outLevel mo ops o
  mstr : w.managedStreams = ms
  mout : w.managedOutputs = mo

/-- The effect of one macro call. -/
theorem logMsg_effect (w : World) (s l : Nat) (text : String) (hnd : (w.stream s).outs.Nodup) :
    (logMsg w s l text).stream = w.stream ∧ (logMsg w s l text).managedStreams = w.managedStreams ∧
    (logMsg w s l text).managedOutputs = w.managedOutputs ∧
    ∀ o, ((logMsg w s l text).output o).level = (w.output o).level ∧
      ((logMsg w s l text).output o).got = (w.output o).got ++
        (if (w.stream s).active = true ∧ (w.stream s).level ≤ l ∧ o ∈ (w.stream s).outs ∧ (w.output o).level ≤ l
         then [(l, text)] else []) := by
  unfold logMsg
  split
  · next ha =>
    split
    · next hl =>
      obtain ⟨h1, h2, h3, _, h5⟩ := pushes l text (w.stream s).outs hnd w
      refine ⟨h1, h2, h3, fun o => ⟨(h5 o).1, ?_⟩⟩
      rw [(h5 o).2]; simp [ha, hl]
    · next hl => refine ⟨rfl, rfl, rfl, fun o => ⟨rfl, ?_⟩⟩; simp [hl]
  · next ha => refine ⟨rfl, rfl, rfl, fun o => ⟨rfl, ?_⟩⟩; simp [ha]

theorem agrees_run (outLevel : Nat → Nat) (ms mo : List Nat) (d : Option Nat) (ops : List LogOp) :
    Agrees outLevel ms mo ops (runLog (World.init outLevel ms mo d) ops) := by
  induction ops using List.reverseRecOn with
  | nil => exact ⟨fun _ => rfl, fun _ => rfl, fun _ _ => by simp [runLog, World.init, specAttached, lastSet],
      fun _ => List.nodup_nil, fun _ => rfl, rfl, rfl⟩
  | append_singleton ops op ih =>
    obtain ⟨h1, h2, h3, h4, h5, h6, h7⟩ := ih
    simp only [runLog, List.foldl_append, List.foldl_cons, List.foldl_nil] at *
    generalize ops.foldl LogOp.run (World.init outLevel ms mo d) = w at *
    have q1 : ∀ s, specActive (ops ++ [op]) s = (saysActive s op).getD (specActive ops s) := fun s => lastSet_snoc ..
    have q2 : ∀ s, specLevel ms (ops ++ [op]) s = (saysLevel ms s op).getD (specLevel ms ops s) := fun s => lastSet_snoc ..
    have q3 : ∀ s o, specAttached (ops ++ [op]) s o = (saysAttached s o op).getD (specAttached ops s o) :=
      fun s o => lastSet_snoc ..
    have q4 : ∀ o, specOutLevel outLevel mo (ops ++ [op]) o =
        (saysOutLevel mo o op).getD (specOutLevel outLevel mo ops o) := fun o => lastSet_snoc ..
    cases op with
    | setActive s b =>
      simp only [saysActive, saysLevel, saysAttached, saysOutLevel, Option.getD_none] at q1 q2 q3 q4
      constructor <;> simp only [LogOp.run, upd, q1, q2, q3, q4] <;> intros <;> grind
    | addOutput s o =>
      simp only [saysActive, saysLevel, saysAttached, saysOutLevel, Option.getD_none] at q1 q2 q3 q4
      constructor <;> simp only [LogOp.run, upd, q1, q2, q3, q4] <;> intros <;> grind
    | removeOutput s o =>
      simp only [saysActive, saysLevel, saysAttached, saysOutLevel, Option.getD_none] at q1 q2 q3 q4
      constructor <;> simp only [LogOp.run, upd, q1, q2, q3, q4] <;> intros <;> grind
    | setOutputLevel o l =>
      simp only [saysActive, saysLevel, saysAttached, saysOutLevel, Option.getD_none] at q1 q2 q3 q4
      constructor <;> simp only [LogOp.run, upd, q1, q2, q3, q4] <;> intros <;> grind
    | setAll l =>
      have hs := fun j => foldl_upd_level (fun b : Stream => { b with level := l }) w.managedStreams w.stream j (fun _ => rfl)
      have ho := fun j => foldl_upd_level (fun b : Output => { b with level := l }) w.managedOutputs w.output j (fun _ => rfl)
      simp only [saysActive, saysLevel, saysAttached, saysOutLevel, Option.getD_none] at q1 q2 q3 q4
      constructor <;> simp only [LogOp.run, setAllLevels, q1, q2, q3, q4, hs, ho] <;> intros <;> grind
    | log s l t =>
      obtain ⟨e1, e2, e3, e4⟩ := logMsg_effect w s l t (h4 s)
      simp only [saysActive, saysLevel, saysAttached, saysOutLevel, Option.getD_none] at q1 q2 q3 q4
      constructor <;> simp only [LogOp.run, e1, e2, e3, e4, q1, q2, q3, q4] <;> (try assumption) <;> intros <;> grind

/-! ## C43 -/

/-- C43: after any history, a message of level `l` on stream `s` reaches output `o` (exactly once)
iff the stream is active, neither level is above `l` and the output is attached; nothing else
reaches any output. -/
theorem c43_delivery (outLevel : Nat → Nat) (ms mo : List Nat) (d : Option Nat) (ops : List LogOp)
    (s l : Nat) (text : String) (o : Nat) :
    ((runLog (World.init outLevel ms mo d) (ops ++ [.log s l text])).output o).got =
      ((runLog (World.init outLevel ms mo d) ops).output o).got ++
        (if specActive ops s = true ∧ specLevel ms ops s ≤ l ∧ specAttached ops s o = true ∧
            specOutLevel outLevel mo ops o ≤ l then [(l, text)] else []) := by
  have hA := agrees_run outLevel ms mo d ops
  have := (logMsg_effect _ s l text (hA.nodup s)).2.2.2 o
  simp only [runLog, List.foldl_append, List.foldl_cons, List.foldl_nil, LogOp.run] at *
  rw [this.2]
  simp only [hA.active, hA.level, hA.olevel, hA.outs]

/-- C43: no other call delivers anything. -/
theorem c43_only_log (outLevel : Nat → Nat) (ms mo : List Nat) (d : Option Nat) (ops : List LogOp) (op : LogOp)
    (hop : ∀ s l t, op ≠ .log s l t) (o : Nat) :
    ((runLog (World.init outLevel ms mo d) (ops ++ [op])).output o).got =
      ((runLog (World.init outLevel ms mo d) ops).output o).got := by
  simp only [runLog, List.foldl_append, List.foldl_cons, List.foldl_nil]
  generalize ops.foldl LogOp.run (World.init outLevel ms mo d) = w
  cases op with
  | setActive s b => rfl
  | addOutput s o => rfl
  | removeOutput s o => rfl
  | setOutputLevel o' l => simp only [LogOp.run, upd]; split <;> simp_all
  | setAll l =>
    simp only [LogOp.run, setAllLevels]
    rw [foldl_upd_level (fun b : Output => { b with level := l }) w.managedOutputs w.output o (fun _ => rfl)]
    split <;> rfl
  | log s l t => exact absurd rfl (hop s l t)

/-- C43: a muted or deactivated stream delivers no message below Mute. -/
theorem c43_mute (outLevel : Nat → Nat) (ms mo : List Nat) (d : Option Nat) (ops : List LogOp)
    (s l : Nat) (text : String) (o : Nat) (hl : l < 5)
    (h : specActive ops s = false ∨ specLevel ms ops s = 5 ∨ specOutLevel outLevel mo ops o = 5) :
    ((runLog (World.init outLevel ms mo d) (ops ++ [.log s l text])).output o).got =
      ((runLog (World.init outLevel ms mo d) ops).output o).got := by
  rw [c43_delivery, if_neg, List.append_nil]
  rintro ⟨h1, h2, h3, h4⟩
  rcases h with h | h | h
  · rw [h] at h1; cases h1
  · omega
  · omega

/-- A history: an output attached twice, a level raised, a message below and one above it. -/
example : ((runLog (World.init (fun _ => 1) [0] [7] none)
    [.addOutput 0 7, .addOutput 0 7, .log 0 2 "a", .setAll 3, .log 0 2 "b", .log 0 4 "c", .setActive 0 false,
     .log 0 4 "d"]).output 7).got = [(2, "a"), (4, "c")] := by decide

/-! ## C66: `LoggingManager::setLogLevel` -/

/-- C66, the part that holds: every stream and every configured output gets the level. Missing: the
default output, see `c66_default_output_ignored`. -/
theorem c66_setLogLevel_partial (outLevel : Nat → Nat) (ms mo : List Nat) (d : Option Nat) (ops : List LogOp) (l : Nat) :
    (∀ s ∈ ms, ((runLog (World.init outLevel ms mo d) (ops ++ [.setAll l])).stream s).level = l) ∧
    (∀ o ∈ mo, ((runLog (World.init outLevel ms mo d) (ops ++ [.setAll l])).output o).level = l) := by
  have hA := agrees_run outLevel ms mo d (ops ++ [.setAll l])
  refine ⟨fun s hs => ?_, fun o ho => ?_⟩
  · rw [hA.level]; simp [specLevel, lastSet_snoc, saysLevel, hs]
  · rw [hA.olevel]; simp [specOutLevel, lastSet_snoc, saysOutLevel, ho]

/-- Finding: with only the default output (no output configured), `setLogLevel(eLL_TRACE)` lets
trace messages into the streams but the default output still drops them. -/
theorem c66_default_output_ignored :
    let w := runLog (World.init (fun _ => 2) [0] [] (some 9)) [.addOutput 0 9, .setAll 0, .log 0 0 "trace"]
    (w.stream 0).level = 0 ∧ (w.output 9).got = [] := by decide

example : ((runLog (World.init (fun _ => 2) [0] [9] none) [.addOutput 0 9, .setAll 0, .log 0 0 "trace"]).output 9).got =
    [(0, "trace")] := by decide

end Verif.Logging
