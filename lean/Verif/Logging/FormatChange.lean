import Verif.Logging.Format

/-!
# Model: changing the format of a log output while lines are written (C116)

LogOutputStream.cpp:125-141 (`changeLogFormat`) and 182-296 (`pushImpl`) run by several threads on one output.
`m_format_mutex` is a semaphore with count 1. The entries of the new format are put one by one into
`m_new_log_format` by `parseLogFormat` (393-506) before the mutex is taken.

Simplifications. A call of `changeLogFormat` carries the entries that the parser makes of the string
(`Format.parse`; an empty string is no call, line 128). Copying and clearing a list are single steps; each entry is
rendered in one step by an arbitrary function `rnd`. A wait that blocks can be interrupted by a signal and
then returns false.
-/
namespace Verif.Logging.FormatChange

/-- Where a thread is. -/
inductive Pc (E M : Type) where
  | idle
  /-- lines 393-506 `parseLogFormat`: entries still to be appended -/
  | parse (todo : List E)
  /-- line 132, the wait -/
  | wantSet
  /-- line 134 -/
  | clear
  /-- line 135 -/
  | assign
  /-- line 136 -/
  | clearNew
  /-- line 138 -/
  | postSet
  /-- line 141, about to return -/
  | retSet
  /-- line 184, the wait -/
  | wantLog (m : M)
  /-- lines 187-291: position of the iterator and the text so far -/
  | draw (m : M) (i : Nat) (acc : List Char)
  /-- line 292 -/
  | postLog (m : M) (acc : List Char)
  /-- line 294 -/
  | write (m : M) (acc : List Char)

/-- What can be seen from outside. -/
inductive Ev (E M : Type) where
  | setCall (t : Nat) (es : List E)
  /-- `changeLogFormat` returns; false: its wait was interrupted (not visible to the caller) -/
  | setRet (t : Nat) (ok : Bool)
  | logCall (t : Nat) (m : M)
  | line (t : Nat) (m : M) (txt : List Char)
  | lost (t : Nat) (m : M)

/-- The output (LogOutputStream.h:340-346) and its threads; `hist` lists the events, the newest first. -/
structure St (E M : Type) where
  fmt : List E
  new : List E
  count : Nat
  pc : Nat → Pc E M
  hist : List (Ev E M)

/-- What happens next. -/
inductive Act (E M : Type) where
  | set (t : Nat) (es : List E)
  | log (t : Nat) (m : M)
  | go (t : Nat)
  | sig (t : Nat)

/-- Functional update. -/
def upd {α : Type} (f : Nat → α) (i : Nat) (a : α) : Nat → α := fun j => if j = i then a else f j

/-- LogOutputStream.cpp:83-108: after construction. -/
def St.init {E M : Type} (f0 : List E) : St E M := ⟨f0, [], 1, fun _ => .idle, []⟩

/-- LogOutputStream.cpp:125-141 and 182-296, one step of a thread; `none`: not possible now. -/
def exec {E M : Type} (rnd : M → E → List Char) (s : St E M) : Act E M → Option (St E M)
  | .set t es =>
    match s.pc t with
    | .idle => some { s with pc := upd s.pc t (.parse es), hist := .setCall t es :: s.hist }
    | _ => none
  | .log t m =>
    match s.pc t with
    | .idle => some { s with pc := upd s.pc t (.wantLog m), hist := .logCall t m :: s.hist }
    | _ => none
  | .go t =>
    match s.pc t with
    | .idle => none
    | .parse (e :: r) => some { s with new := s.new ++ [e], pc := upd s.pc t (.parse r) }
    | .parse [] => some { s with pc := upd s.pc t .wantSet }
    | .wantSet => if s.count > 0 then some { s with count := s.count - 1, pc := upd s.pc t .clear } else none
    | .clear => some { s with fmt := [], pc := upd s.pc t .assign }
    | .assign => some { s with fmt := s.new, pc := upd s.pc t .clearNew }
    | .clearNew => some { s with new := [], pc := upd s.pc t .postSet }
    | .postSet => some { s with count := s.count + 1, pc := upd s.pc t .retSet }
    | .retSet => some { s with pc := upd s.pc t .idle, hist := .setRet t true :: s.hist }
    | .wantLog m => if s.count > 0 then some { s with count := s.count - 1, pc := upd s.pc t (.draw m 0 []) } else none
    | .draw m i acc =>
      match s.fmt[i]? with
      | some e => some { s with pc := upd s.pc t (.draw m (i + 1) (acc ++ rnd m e)) }
      | none => some { s with pc := upd s.pc t (.postLog m acc) }
    | .postLog m acc => some { s with count := s.count + 1, pc := upd s.pc t (.write m acc) }
    | .write m acc => some { s with pc := upd s.pc t .idle, hist := .line t m acc :: s.hist }
  | .sig t =>
    if s.count > 0 then none else
    match s.pc t with
    | .wantSet => some { s with pc := upd s.pc t .idle, hist := .setRet t false :: s.hist }
    | .wantLog m => some { s with pc := upd s.pc t .idle, hist := .lost t m :: s.hist }
    | _ => none

/-- Any number of steps, in any order. -/
def run {E M : Type} (rnd : M → E → List Char) (s : St E M) (as : List (Act E M)) : Option (St E M) := as.foldlM (exec rnd) s

/-- LoggingManager.cpp:408-418 `changeLogFormat(name, format)` on the formats of the configured outputs
(`m_log_output_streams`, sorted by name); the default output is not in this map. `none`: undefined behaviour
of the parser. -/
def changeByName (name fmt : List Char) : List (List Char × List Format.Entry) → Option (List (List Char × List Format.Entry))
  | [] => some []
  | (n, f) :: os =>
    if n = name then
      match Format.changeLogFormat f fmt with
      | .ok f' => (changeByName name fmt os).map ((n, f') :: ·)
      | _ => none
    else (changeByName name fmt os).map ((n, f) :: ·)

end Verif.Logging.FormatChange
