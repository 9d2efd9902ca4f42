/-!
# Model of `icl_core/os_fs.cpp` `zipFile`

What zlib does is taken from its documentation: `gzopen(…, "wb")` makes the file empty, `gzread` returns the number of bytes read,
less than asked for only at the end of the file, 0 at the end, -1 for an error, and `gzwrite` the number of bytes written, or 0
for an error.  A file stands for the bytes that `gzread` gives (for a file that is not compressed, its bytes).  Not modelled: errors
of `gzclose`.
-/
namespace Verif.Os.ZipFile

variable {α : Type}

/-- What the system does during a call. -/
structure Env where
  /-- the file can be opened for reading (lines 45, 48) -/
  canRead : Bool := true
  /-- the archive can be opened for writing (lines 46, 48) -/
  canWrite : Bool := true
  /-- the `k`-th `gzread` fails -/
  readFails : Nat → Bool := fun _ => false
  /-- the `k`-th `gzwrite` fails … -/
  writeFails : Nat → Bool := fun _ => false
  /-- … after that many bytes -/
  part : Nat → Nat := fun _ => 0

/-- os_fs.cpp:50-62, the loop: `rest` has not been read, `out` has been written.  The result is `ret` and the archive. -/
def loop (e : Env) (k : Nat) (rest out : List α) : Bool × List α :=
  if e.readFails k then (true, out)
  else
    let bytes := rest.take 0x1000
    if h : bytes = [] then (true, out)
    else if e.writeFails k then (false, out ++ bytes.take (e.part k))
    else loop e (k + 1) (rest.drop 0x1000) (out ++ bytes)
termination_by rest.length
decreasing_by
  simp only [bytes, List.take_eq_nil_iff, not_or] at h
  have : rest.length ≠ 0 := fun h' => h.2 (List.length_eq_zero_iff.1 h')
  simp only [List.length_drop]; omega

/-- os_fs.cpp:39-74 `zipFile`: `file` are the contents of the file (`none`: there is no such file), `old` is the archive before the
call.  The result is what the function returns, and the archive. -/
def zipFile (e : Env) (file old : Option (List α)) : Bool × Option (List α) :=
  let unzipped := if e.canRead then file else none
  let zipped := if e.canWrite then some [] else old
  match unzipped with
  | some c => if e.canWrite then let r := loop e 0 c []; (r.1, some r.2) else (true, zipped)
  | none => (true, zipped)

end Verif.Os.ZipFile
