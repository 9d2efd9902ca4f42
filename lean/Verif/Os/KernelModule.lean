import Verif.Base

/-!
# `icl_core/os_lxrt.cpp`: `checkKernelModule`, `checkForLxrt`, `isLxrtAvailable` (C88)

The content of `/proc/modules` is a list of characters (without NUL characters); `none` means that the
file cannot be opened.
-/
namespace Verif.Os

/-- State of the stream after `getline`. -/
inductive Bits where
  | good | eof | fail
  deriving DecidableEq, Repr

/-- `std::istream::getline(line, 200)` (ISO C++ [istream.unformatted]): characters are stored until the
end of the input (eofbit), a newline (extracted, not stored), or, if another character follows, until
199 are stored (failbit); tested in this order. `n` is the free space, result: stored characters, rest of
the input, state. -/
def getline : Nat → List Char → List Char × List Char × Bits
  | _, [] => ([], [], .eof)
  | n, c :: cs =>
    if c = '\n' then ([], cs, .good)
    else match n with
      | 0 => ([], c :: cs, .fail)
      | n + 1 => (c :: (getline n cs).1, (getline n cs).2)

theorem getline_shorter (n : Nat) (t : List Char) : (getline n t).2.2 = .good → (getline n t).2.1.length < t.length := by
  fun_induction getline n t with
  | case1 => simp
  | case2 => simp
  | case3 => simp
  | case4 =>
    rename_i ih
    intro hg
    have := ih hg
    simp only [List.length_cons]
    omega

/-- os_lxrt.cpp:91: `!strncmp(line, name, strlen(name))` for texts without NUL characters. -/
def matchesName (line name : List Char) : Bool := decide (line.take name.length = name)

/-- os_lxrt.cpp:87-95 the loop of `checkKernelModule`. -/
def scan (name : List Char) (text : List Char) : Bool :=
  let r := getline 199 text
  if matchesName r.1 name then true
  else if h : r.2.2 = .good then scan name r.2.1 else false
termination_by text.length
decreasing_by exact getline_shorter 199 text h

/-- os_lxrt.cpp:83-97 `checkKernelModule(name)`. -/
def checkKernelModule (modules : Option (List Char)) (name : List Char) : Bool :=
  match modules with
  | none => false
  | some text => scan name text

/-- os_lxrt.cpp:99-139 `checkForLxrt()` (RTAI 3.8); the flag is `global_lxrt_available` before and after
the call. -/
def checkForLxrt (modules : Option (List Char)) (flag : Bool) : Bool × Bool :=
  if !checkKernelModule modules "rtai_hal".toList then (false, flag)
  else if !checkKernelModule modules "rtai_lxrt".toList then (false, flag)
  else if !checkKernelModule modules "rtai_sem".toList then (false, flag)
  else (true, true)

end Verif.Os
