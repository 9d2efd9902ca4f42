import Verif.Logging.Record

/-!
# Formatted printing into a fixed buffer (C100): `os_string.cpp`, `os_posix_string.cpp`,
`os_win32_string.cpp`, and its users `Thread::runThread` and `operator << (ThreadStream&, double)`

`none` is an access outside an array. The complete formatted text is an argument (the conversion itself
is the C library's); it is shorter than 2^31, so that its length is an `int`.
-/
namespace Verif.Os.Text
open Verif.Logging Verif.Logging.Record

/-- Which implementation. -/
inductive Plat where
  | posix
  | win32
  deriving DecidableEq, Repr

/-- Overwrite the beginning of an array. -/
def over (buf src : Mem) : Option Mem :=
  if src.length ≤ buf.length then some (src ++ buf.drop src.length) else none

/-- os_posix_string.cpp:50-53 `::vsnprintf` (C99: at most `max - 1` characters and a terminator, the length of the
complete text is returned); os_win32_string.cpp:44-47 `::_vsnprintf` (at most `max` characters, a terminator only if there
is room for it, `-1` if the text is longer than `max`). os_string.cpp:28-41 forwards. -/
def snprintf (p : Plat) (buf : Mem) (max : Nat) (text : S) : Option (Mem × Int) :=
  match p with
  | .posix =>
    if max = 0 then some (buf, text.length)
    else (over buf (text.take (max - 1) ++ ['\x00'])).map fun b => (b, (text.length : Int))
  | .win32 =>
    if text.length < max then (over buf (text ++ ['\x00'])).map fun b => (b, (text.length : Int))
    else (over buf (text.take max)).map fun b => (b, if text.length = max then (text.length : Int) else -1)

/-- Decimal digits of a thread id, `%lu`. -/
def digits (n : Nat) : S := Nat.toDigits 10 n

/-- Thread.cpp:217-227 in `Thread::runThread`: the description (`%s` of its `c_str()`), a comma and the id are printed into
`char buffer[1024]` with the old contents `g`, which then is assigned to the string `m_thread_info`. (Darwin prints
the id as a pointer.) -/
def threadInfo (p : Plat) (g : Nat → Char) (desc : S) (id : Nat) : Option S :=
  (snprintf p (array 1024 g) 1023 (cstr desc ++ [',', ' '] ++ digits id)).bind fun (b, _) => readC b

/-- `size_t(length)` of an `int`. -/
def toSize (i : Int) : Nat := (i % 18446744073709551616).toNat

/-- ThreadStream.cpp:80-98 `write(source, n)` at write index `idx`, the characters it copies from an array (`cutLen` as in
`Buffer.lean`). -/
def copied (idx : Nat) (b : Mem) (n : Nat) : Option S :=
  if cutLen idx n 0 ≤ b.length then some (b.take (cutLen idx n 0)) else none

/-- ThreadStream.cpp:162-295, the streaming operators for numbers: `snprintf` into `local_buffer[n]` with the old contents
`g`, then `write(local_buffer, length)` at write index `idx`; the result are the characters `write` copies. -/
def streamed (p : Plat) (n : Nat) (g : Nat → Char) (idx : Nat) (text : S) : Option S :=
  (snprintf p (array n g) n text).bind fun r => copied idx r.1 (toSize r.2)

/-- os_win32_string.cpp:32-37, os_posix_string.cpp:36-39 `stpcpy`: copies the string with its terminator and returns the
position of the terminator. -/
def stpcpy (dst : Mem) (src : S) : Option (Mem × Nat) :=
  (over dst (lit src)).map fun b => (b, (b.takeWhile (· ≠ '\x00')).length)

end Verif.Os.Text
