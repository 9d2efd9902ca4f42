import Mathlib.Data.Nat.Digits.Defs
import Mathlib.Data.List.TakeWhile
import Mathlib.Tactic.Linarith

/-!
# The line buffer of `icl_core_logging/ThreadStream.cpp` (C44, C65)

`none` is an access outside the buffer. Size computations are `size_t`, modulo `2^64`.
-/
namespace Verif.Logging

/-- Constants.h:36 `cDEFAULT_LOG_SIZE`. -/
def logSize : Nat := 2048

/-- ThreadStream.h:232-233 `m_data[cDEFAULT_LOG_SIZE + 1]` and `m_write_index`; `out` records the
texts handed to the output streams. -/
structure TStream where
  data : List Char
  idx : Nat
  out : List (List Char)
  deriving DecidableEq

/-- ThreadStream.cpp:149-159 the constructor. -/
def TStream.new : TStream := ⟨List.replicate (logSize + 1) '\x00', 0, []⟩

/-- `memcpy(&m_data[pos], src, n)` or `m_data[pos] = c`. -/
def put (d : List Char) (pos : Nat) (src : List Char) : Option (List Char) :=
  if pos + src.length ≤ d.length then some (d.take pos ++ src ++ d.drop (pos + src.length)) else none

/-- `a - b` of `size_t`. -/
def szSub (a b : Nat) : Nat := (a + 2 ^ 64 - b) % 2 ^ 64

/-- What a C string function reads. -/
def cstr (l : List Char) : List Char := l.takeWhile (· ≠ '\x00')

/-- ThreadStream.cpp:84, 104 `writable_length`. -/
def writableLen (idx : Nat) : Nat := szSub (szSub logSize idx) 1

/-- ThreadStream.cpp:85-95 the final `number_of_bytes`. -/
def cutLen (idx n prot : Nat) : Nat :=
  if (n + prot) % 2 ^ 64 > writableLen idx then (if writableLen idx > prot then szSub (writableLen idx) prot else 0) else n

/-- ThreadStream.cpp:80-98 `write(source, number_of_bytes, protected_buffer_size)`; `src` are the
bytes at `source`. -/
def TStream.write (s : TStream) (src : List Char) (prot : Nat) : Option TStream :=
  (put s.data s.idx (src.take (cutLen s.idx src.length prot))).map fun d =>
    { s with data := d, idx := s.idx + cutLen s.idx src.length prot }

/-- ThreadStream.cpp:125-147 `flush()`: terminate, hand over, start again. -/
def TStream.flush (s : TStream) : Option TStream :=
  (put s.data s.idx ['\x00']).map fun d => { data := d, idx := 0, out := s.out ++ [cstr d] }

/-- C99 `vsnprintf(p, size, …)` for the complete formatted text `r`: at most `size - 1` characters
and a terminator. -/
def vsnprintf (d : List Char) (pos size : Nat) (r : List Char) : Option (List Char) :=
  if size = 0 then some d else put d pos (r.take (size - 1) ++ ['\x00'])

/-- ThreadStream.cpp:111-122 how far the write index advances after `bytes_printed ≥ 0`. -/
def printfLen (idx n : Nat) : Nat := if n > writableLen idx then writableLen idx else n

/-- ThreadStream.cpp:100-123 `printf(fmt, …)`; `r` is the complete formatted text (`none`: the
conversion failed and -1 is returned, the buffer being left alone). -/
def TStream.printf (s : TStream) (r : Option (List Char)) : Option TStream :=
  match r with
  | none => s.flush
  | some r =>
    (vsnprintf s.data s.idx (writableLen s.idx) r).bind fun d =>
      TStream.flush { s with data := d, idx := s.idx + printfLen s.idx r.length }

/-- ThreadStream.h:249-253 `endl`. -/
def TStream.endl (s : TStream) : Option TStream := (s.write ['\n'] 0).bind TStream.flush

/-- A public call. -/
inductive BufOp where
  /-- `write(src, n, prot)` -/
  | write (src : List Char) (prot : Nat)
  | printf (r : Option (List Char))
  | flush
  | endl

/-- One call. -/
def BufOp.run (s : TStream) : BufOp → Option TStream
  | .write src prot => s.write src prot
  | .printf r => s.printf r
  | .flush => s.flush
  | .endl => s.endl

/-- Calls in order. -/
def runOps : TStream → List BufOp → Option TStream
  | s, [] => some s
  | s, o :: os => (o.run s).bind fun s => runOps s os

/-! ## Lemmas -/

/-- What holds of the buffer at any time; `pre` is the pending text. -/
structure BInv (s : TStream) (pre : List Char) : Prop where
  len : s.data.length = 2049
  idx : s.idx = pre.length
  le : pre.length ≤ 2047
  data : s.data.take s.idx = pre

theorem put_ok {d : List Char} {pos : Nat} {src : List Char} (h : pos + src.length ≤ d.length) :
    ∃ d', put d pos src = some d' ∧ d'.length = d.length ∧ d'.take (pos + src.length) = d.take pos ++ src := by
  refine ⟨_, if_pos h, ?_, ?_⟩
  · simp; omega
  · rw [List.take_append_of_le_length (by simp; omega), List.take_of_length_le (by simp)]

theorem writable_eq {i : Nat} (h : i ≤ 2047) : writableLen i = 2047 - i := by
  unfold writableLen szSub logSize; omega

theorem cutLen_eq {i n p : Nat} (h : i ≤ 2047) (hn : n + p < 2 ^ 64) :
    cutLen i n p = (if i + n + p ≤ 2047 then n else 2047 - p - i) := by
  have h1 : writableLen i = 2047 - i := writable_eq h
  unfold cutLen szSub
  rw [h1]
  split <;> split <;> try split
  all_goals omega

theorem printfLen_eq {i n : Nat} (h : i ≤ 2047) : printfLen i n = min n (2047 - i) := by
  unfold printfLen
  rw [writable_eq h]
  split <;> omega

theorem binv_new : BInv TStream.new [] := ⟨List.length_replicate, rfl, Nat.zero_le _, List.take_zero⟩

theorem write_ok {s : TStream} {pre src : List Char} {prot : Nat} (h : BInv s pre)
    (hn : src.length + prot < 2 ^ 64) :
    ∃ s', s.write src prot = some s' ∧ s'.out = s.out ∧
      BInv s' (pre ++ src.take (if pre.length + src.length + prot ≤ 2047 then src.length else 2047 - prot - pre.length)) := by
  obtain ⟨h1, h2, h3, h4⟩ := h
  unfold TStream.write
  rw [cutLen_eq (by omega) hn, h2]
  generalize hk : (if pre.length + src.length + prot ≤ 2047 then src.length else 2047 - prot - pre.length) = k
  have hkl : k ≤ src.length ∧ pre.length + k ≤ 2047 := by rw [← hk]; split <;> omega
  have hl : (src.take k).length = k := by simp; omega
  obtain ⟨d, e1, e2, e3⟩ := put_ok (d := s.data) (pos := pre.length) (src := src.take k) (by omega)
  rw [e1]
  refine ⟨_, rfl, rfl, by simp only; omega, by simp only [List.length_append, hl], by simp only [List.length_append, hl]; omega, ?_⟩
  rw [hl] at e3
  rw [h2] at h4
  simp only [e3, h4]

theorem cstr_append (a b : List Char) : cstr (a ++ '\x00' :: b) = cstr a := by
  unfold cstr
  rw [List.takeWhile_append]
  split
  · next h =>
    have : a.takeWhile (· ≠ '\x00') = a := (List.takeWhile_prefix _).eq_of_length h
    rw [this]; simp
  · rfl

theorem flush_ok {s : TStream} {pre : List Char} (h : BInv s pre) :
    ∃ s', s.flush = some s' ∧ s'.out = s.out ++ [cstr pre] ∧ BInv s' [] := by
  obtain ⟨h1, h2, h3, h4⟩ := h
  obtain ⟨d, e1, e2, e3⟩ := put_ok (d := s.data) (pos := s.idx) (src := ['\x00']) (by simp; omega)
  unfold TStream.flush
  rw [e1]
  refine ⟨_, rfl, ?_, by simp only; omega, rfl, by simp, rfl⟩
  simp only
  have : d = pre ++ '\x00' :: d.drop (s.idx + 1) := by
    conv_lhs => rw [← List.take_append_drop (s.idx + 1) d]
    rw [show s.idx + 1 = s.idx + ['\x00'].length from rfl, e3, h4]
    simp
  rw [this, cstr_append]

theorem endl_ok {s : TStream} {pre : List Char} (h : BInv s pre) :
    ∃ s', s.endl = some s' ∧ BInv s' [] ∧
      s'.out = s.out ++ [cstr (pre ++ (if pre.length ≤ 2046 then ['\n'] else []))] := by
  obtain ⟨s1, e1, o1, b1⟩ := write_ok (src := ['\n']) (prot := 0) h (by simp)
  obtain ⟨s2, e2, o2, b2⟩ := flush_ok b1
  refine ⟨s2, by unfold TStream.endl; rw [e1]; exact e2, b2, ?_⟩
  rw [o2, o1]
  have := h.le
  have e : ∀ k l : List Char, k = l → s.out ++ [cstr (pre ++ k)] = s.out ++ [cstr (pre ++ l)] := fun _ _ e => by rw [e]
  apply e
  simp only [List.length_singleton, Nat.add_zero]
  by_cases hp : pre.length ≤ 2046
  · rw [if_pos (by omega), if_pos hp]; rfl
  · rw [if_neg (by omega), if_neg hp, show 2047 - 0 - pre.length = 0 by omega]; rfl

theorem printf_ok {s : TStream} {pre : List Char} (h : BInv s pre) (r : Option (List Char)) :
    ∃ s', s.printf r = some s' ∧ BInv s' [] ∧
      s'.out = s.out ++ [cstr (pre ++ ((r.getD []).take (2046 - pre.length)))] := by
  cases r with
  | none =>
    obtain ⟨s2, e2, o2, b2⟩ := flush_ok h
    exact ⟨s2, e2, b2, by rw [o2]; simp⟩
  | some r =>
    obtain ⟨h1, h2, h3, h4⟩ := h
    unfold TStream.printf
    simp only [writable_eq (show s.idx ≤ 2047 by omega), printfLen_eq (show s.idx ≤ 2047 by omega)]
    by_cases hw : 2047 - s.idx = 0
    · rw [hw]
      have : vsnprintf s.data s.idx 0 r = some s.data := rfl
      rw [this]
      have hz : min r.length 0 = 0 := Nat.min_zero _
      simp only [hz, Nat.add_zero]
      obtain ⟨s2, e2, o2, b2⟩ := flush_ok ⟨h1, h2, h3, h4⟩
      refine ⟨s2, e2, b2, ?_⟩
      rw [o2, show 2046 - pre.length = 0 by omega]
      simp
    · unfold vsnprintf
      rw [if_neg hw]
      have hl : (r.take (2047 - s.idx - 1) ++ ['\x00']).length ≤ 2047 - s.idx := by simp; omega
      obtain ⟨d, e1, e2, e3⟩ := put_ok (d := s.data) (pos := s.idx) (src := r.take (2047 - s.idx - 1) ++ ['\x00']) (by omega)
      rw [e1, Option.bind_some]
      -- the new pending text
      generalize hk : min r.length (2047 - s.idx) = k
      have hk1 : s.idx + k ≤ 2047 := by omega
      obtain ⟨s2, f2, o2, b2⟩ := flush_ok (s := { s with data := d, idx := s.idx + k }) (pre := d.take (s.idx + k))
        ⟨by simp only; omega, by simp; omega, by simp; omega, rfl⟩
      refine ⟨s2, f2, b2, ?_⟩
      rw [o2]
      simp only [Option.getD_some]
      congr 2
      rw [h4] at e3
      rw [show 2047 - s.idx - 1 = 2046 - pre.length by omega] at e3
      by_cases hr : r.length ≤ 2046 - pre.length
      · -- everything fits
        have hkr : k = r.length := by omega
        have ht : r.take (2046 - pre.length) = r := List.take_of_length_le hr
        rw [ht] at e3 ⊢
        have := congrArg (List.take (s.idx + k)) e3
        rw [List.take_take, Nat.min_eq_left (by simp; omega)] at this
        rw [this, ← List.append_assoc, List.take_append_of_le_length (by simp; omega), List.take_of_length_le (by simp; omega)]
      · have hkr : k = 2047 - s.idx := by omega
        have hlen : (r.take (2046 - pre.length)).length = 2046 - pre.length := by simp; omega
        have : s.idx + k = s.idx + (r.take (2046 - pre.length) ++ ['\x00']).length := by
          rw [List.length_append, hlen]; simp; omega
        rw [this, e3, ← List.append_assoc, show ['\x00'] = '\x00' :: [] from rfl, cstr_append]

/-! ## C44 -/

/-- Nothing is written outside the buffer by any sequence of public calls. -/
theorem c44_no_overflow (ops : List BufOp)
    (hops : ∀ src prot, BufOp.write src prot ∈ ops → src.length + prot < 2 ^ 64) :
    ∃ s, runOps TStream.new ops = some s ∧ s.idx ≤ 2047 ∧ s.data.length = 2049 := by
  suffices H : ∀ ops : List BufOp, (∀ src prot, BufOp.write src prot ∈ ops → src.length + prot < 2 ^ 64) →
      ∀ s pre, BInv s pre → ∃ s', runOps s ops = some s' ∧ ∃ pre', BInv s' pre' by
    obtain ⟨s, e, pre, h⟩ := H ops hops _ _ binv_new
    exact ⟨s, e, by have := h.le; have := h.idx; omega, h.len⟩
  intro ops
  induction ops with
  | nil => intro _ s pre h; exact ⟨s, rfl, pre, h⟩
  | cons o os ih =>
    intro hops s pre h
    have : ∃ s', o.run s = some s' ∧ ∃ pre', BInv s' pre' := by
      cases o with
      | write src prot =>
        obtain ⟨s', e, _, b⟩ := write_ok h (hops src prot (by simp))
        exact ⟨s', e, _, b⟩
      | printf r => obtain ⟨s', e, b, _⟩ := printf_ok h r; exact ⟨s', e, _, b⟩
      | flush => obtain ⟨s', e, _, b⟩ := flush_ok h; exact ⟨s', e, _, b⟩
      | endl => obtain ⟨s', e, b, _⟩ := endl_ok h; exact ⟨s', e, _, b⟩
    obtain ⟨s1, e1, pre1, b1⟩ := this
    obtain ⟨s2, e2, h2⟩ := ih (fun src prot hm => hops src prot (by simp [hm])) s1 pre1 b1
    exact ⟨s2, by simp [runOps, e1, e2], h2⟩

/-- How a log message may end. -/
inductive Ending where
  /-- `<< endl` -/
  | endl
  /-- `<< flush` -/
  | flush
  /-- a final `printf` -/
  | printf (r : List Char)

/-- A log message as the user writes it: pieces streamed with `<<`, then an ending. -/
structure Msg where
  pieces : List (List Char)
  ending : Ending

/-- The calls made for it. -/
def Msg.ops (m : Msg) : List BufOp :=
  m.pieces.map (fun p => .write p 1) ++
    [match m.ending with | .endl => .endl | .flush => .flush | .printf r => .printf (some r)]

/-- The documented result: the text cut to 2046 characters, and then the newline; as every text
ends up in C strings, a NUL ends it. -/
def Msg.expected (m : Msg) : List Char :=
  match m.ending with
  | .endl => cstr (m.pieces.flatten.take 2046 ++ ['\n'])
  | .flush => cstr (m.pieces.flatten.take 2046)
  | .printf r => cstr ((m.pieces.flatten ++ r).take 2046)

theorem runOps_append (s : TStream) (a b : List BufOp) :
    runOps s (a ++ b) = (runOps s a).bind fun s => runOps s b := by
  induction a generalizing s with
  | nil => rfl
  | cons o os ih =>
    simp only [List.cons_append, runOps]
    cases o.run s with
    | none => rfl
    | some s' => exact ih s'

theorem pieces_ok (ps : List (List Char)) (hp : ∀ p ∈ ps, p.length + 1 < 2 ^ 64) :
    ∀ {s : TStream} {pre : List Char}, BInv s pre → pre.length ≤ 2046 →
      ∃ s', runOps s (ps.map fun p => .write p 1) = some s' ∧ s'.out = s.out ∧ BInv s' ((pre ++ ps.flatten).take 2046) := by
  induction ps with
  | nil =>
    intro s pre h hl
    refine ⟨s, rfl, rfl, ?_⟩
    rw [List.take_of_length_le (by simpa using hl)]; simpa using h
  | cons p ps ih =>
    intro s pre h hl
    obtain ⟨s1, e1, o1, b1⟩ := write_ok (prot := 1) h (hp p (by simp))
    have hw : pre ++ p.take (if pre.length + p.length + 1 ≤ 2047 then p.length else 2047 - 1 - pre.length) =
        (pre ++ p).take 2046 := by
      split
      · rw [List.take_length, List.take_of_length_le (by simp; omega)]
      · rw [List.take_append, List.take_of_length_le (l := pre) (by omega)]
    rw [hw] at b1
    obtain ⟨s2, e2, o2, b2⟩ := ih (fun q hq => hp q (by simp [hq])) b1 (by simp)
    refine ⟨s2, ?_, by rw [o2, o1], ?_⟩
    · simp only [List.map_cons, runOps, BufOp.run, e1, Option.bind_some]; exact e2
    · have : ((pre ++ p).take 2046 ++ ps.flatten).take 2046 = (pre ++ (p :: ps).flatten).take 2046 := by
        rw [List.flatten_cons, ← List.append_assoc]
        rw [List.take_append (l₁ := (pre ++ p).take 2046), List.take_append (l₁ := pre ++ p), List.take_take, Nat.min_self]
        congr 1
        by_cases hc : (pre ++ p).length ≤ 2046
        · rw [List.take_of_length_le hc]
        · have e1 : ((pre ++ p).take 2046).length = 2046 := by rw [List.length_take]; omega
          rw [e1, show 2046 - 2046 = 0 from rfl, show 2046 - (pre ++ p).length = 0 by omega]
      rw [← this]; exact b2

theorem msg_ok (m : Msg) (hp : ∀ p ∈ m.pieces, p.length + 1 < 2 ^ 64) {s : TStream} (h : BInv s []) :
    ∃ s', runOps s m.ops = some s' ∧ BInv s' [] ∧ s'.out = s.out ++ [m.expected] := by
  obtain ⟨s1, e1, o1, b1⟩ := pieces_ok m.pieces hp h (by simp)
  rw [List.nil_append] at b1
  have hl : (m.pieces.flatten.take 2046).length ≤ 2046 := by simp
  unfold Msg.ops
  rw [runOps_append, e1, Option.bind_some]
  unfold Msg.expected
  cases m.ending with
  | endl =>
    obtain ⟨s2, e2, b2, o2⟩ := endl_ok b1
    rw [if_pos hl, o1] at o2
    exact ⟨s2, by simp [runOps, BufOp.run, e2], b2, o2⟩
  | flush =>
    obtain ⟨s2, e2, o2, b2⟩ := flush_ok b1
    rw [o1] at o2
    exact ⟨s2, by simp [runOps, BufOp.run, e2], b2, o2⟩
  | printf r =>
    obtain ⟨s2, e2, b2, o2⟩ := printf_ok b1 (some r)
    rw [o1] at o2
    refine ⟨s2, by simp [runOps, BufOp.run, e2], b2, ?_⟩
    rw [o2, Option.getD_some]
    have e : m.pieces.flatten.take 2046 ++ r.take (2046 - (m.pieces.flatten.take 2046).length) =
        (m.pieces.flatten ++ r).take 2046 := by
      rw [List.take_append (l₁ := m.pieces.flatten)]
      by_cases hc : m.pieces.flatten.length ≤ 2046
      · rw [List.take_of_length_le hc]
      · rw [List.length_take, Nat.min_eq_left (by omega), show 2046 - 2046 = 0 from rfl,
          show 2046 - m.pieces.flatten.length = 0 by omega]
    rw [e]

/-- C44: any sequence of log messages is emitted with exactly the documented texts, whatever was in
the buffer from the messages before. -/
theorem c44_messages (ms : List Msg) (hp : ∀ m ∈ ms, ∀ p ∈ m.pieces, p.length + 1 < 2 ^ 64) :
    ∃ s, runOps TStream.new (ms.flatMap Msg.ops) = some s ∧ s.out = ms.map Msg.expected := by
  suffices H : ∀ ms : List Msg, (∀ m ∈ ms, ∀ p ∈ m.pieces, p.length + 1 < 2 ^ 64) → ∀ s, BInv s [] →
      ∃ s', runOps s (ms.flatMap Msg.ops) = some s' ∧ s'.out = s.out ++ ms.map Msg.expected by
    obtain ⟨s, e, o⟩ := H ms hp _ binv_new
    exact ⟨s, e, by rw [o]; rfl⟩
  intro ms
  induction ms with
  | nil => intro _ s _; exact ⟨s, rfl, by simp⟩
  | cons m ms ih =>
    intro hp s h
    obtain ⟨s1, e1, b1, o1⟩ := msg_ok m (hp m (by simp)) h
    obtain ⟨s2, e2, o2⟩ := ih (fun m' hm => hp m' (by simp [hm])) s1 b1
    refine ⟨s2, ?_, by rw [o2, o1]; simp⟩
    rw [List.flatMap_cons, runOps_append, e1, Option.bind_some, e2]

/-- C44: with `endl`, a text without NUL always ends with the newline, and short texts are not
cut. -/
theorem c44_newline (m : Msg) (he : m.ending = .endl) (h0 : ∀ p ∈ m.pieces, '\x00' ∉ p) :
    m.expected = m.pieces.flatten.take 2046 ++ ['\n'] ∧
    (m.pieces.flatten.length ≤ 2046 → m.expected = m.pieces.flatten ++ ['\n']) := by
  have hc : m.expected = m.pieces.flatten.take 2046 ++ ['\n'] := by
    unfold Msg.expected cstr
    rw [he]
    simp only
    rw [List.takeWhile_eq_self_iff]
    intro x hx
    have : x ≠ '\x00' := by
      rintro rfl
      rcases List.mem_append.1 hx with hx | hx
      · obtain ⟨p, hp, hxp⟩ := List.mem_flatten.1 (List.mem_of_mem_take hx)
        exact h0 p hp hxp
      · simp at hx
    simpa using this
  refine ⟨hc, fun h => ?_⟩
  rw [hc, List.take_of_length_le h]

/-- A message of more than 2046 characters followed by a short one. -/
example : ∃ s, runOps TStream.new ([⟨[List.replicate 3000 'x', ['y']], .endl⟩, ⟨[['a'], ['b']], .printf ['c']⟩].flatMap Msg.ops) = some s ∧
    s.out = [List.replicate 2046 'x' ++ ['\n'], ['a', 'b', 'c']] := by
  obtain ⟨s, e, o⟩ := c44_messages [⟨[List.replicate 3000 'x', ['y']], .endl⟩, ⟨[['a'], ['b']], .printf ['c']⟩] (by
    intro m hm p hp
    simp only [List.mem_cons, List.not_mem_nil, or_false] at hm
    rcases hm with rfl | rfl <;> simp only [List.mem_cons, List.not_mem_nil, or_false] at hp <;>
      rcases hp with rfl | rfl
    · rw [List.length_replicate]; omega
    all_goals decide)
  refine ⟨s, e, ?_⟩
  rw [o]
  have h1 := (c44_newline ⟨[List.replicate 3000 'x', ['y']], .endl⟩ rfl (by
    intro p hp
    simp only [List.mem_cons, List.not_mem_nil, or_false] at hp
    rcases hp with rfl | rfl
    · intro h; exact absurd (List.eq_of_mem_replicate h) (by decide)
    · decide)).1
  have h2 : (Msg.expected ⟨[['a'], ['b']], .printf ['c']⟩) = ['a', 'b', 'c'] := by decide
  simp only [List.map_cons, List.map_nil]
  rw [h1, h2]
  have e : ([List.replicate 3000 'x', ['y']] : List (List Char)).flatten.take 2046 = List.replicate 2046 'x' := by
    rw [List.flatten_cons, List.take_append_of_le_length (by rw [List.length_replicate]; omega), List.take_replicate]
    rfl
  rw [e]

/-! ## C65: streaming numbers -/

/-- `snprintf(local_buffer, n, …)` followed by `write(local_buffer, length)` where `length` is the
returned length of the complete text, ThreadStream.cpp:162-295: the bytes read from the local array
of size `n`. Reading past the array is undefined. -/
def localText (n : Nat) (text : List Char) : Option (List Char) :=
  let buf := text.take (n - 1) ++ ['\x00']
  if text.length ≤ n then some (buf.take text.length) else none

/-- Decimal text of an integer (`%d`, `%u`, `%lld`, `%llu`). -/
def decText (z : Int) : List Char :=
  if z < 0 then '-' :: Nat.toDigits 10 z.natAbs else Nat.toDigits 10 z.natAbs

/-- The integer types and the sizes of their local buffers, ThreadStream.cpp:162-244. -/
inductive IntTy where
  | u8 | u16 | u32 | u64 | i8 | i16 | i32 | i64
  deriving DecidableEq, Repr

/-- Values of the type. -/
def IntTy.Fits : IntTy → Int → Prop
  | .u8, z => 0 ≤ z ∧ z < 2 ^ 8
  | .u16, z => 0 ≤ z ∧ z < 2 ^ 16
  | .u32, z => 0 ≤ z ∧ z < 2 ^ 32
  | .u64, z => 0 ≤ z ∧ z < 2 ^ 64
  | .i8, z => -2 ^ 7 ≤ z ∧ z < 2 ^ 7
  | .i16, z => -2 ^ 15 ≤ z ∧ z < 2 ^ 15
  | .i32, z => -2 ^ 31 ≤ z ∧ z < 2 ^ 31
  | .i64, z => -2 ^ 63 ≤ z ∧ z < 2 ^ 63

/-- `local_buffer` sizes. -/
def IntTy.buf : IntTy → Nat
  | .u8 => 8 | .u16 => 8 | .u32 => 13 | .u64 => 23 | .i8 => 8 | .i16 => 8 | .i32 => 13 | .i64 => 23

theorem localText_ok {n : Nat} {t : List Char} (h : t.length + 1 ≤ n) : localText n t = some t := by
  unfold localText
  rw [if_pos (by omega), List.take_append_of_le_length (by simp; omega), List.take_take,
    Nat.min_eq_left (by omega), List.take_length]

/-- C65: every integer is written as its complete decimal text. -/
theorem c65_integers (ty : IntTy) (z : Int) (h : ty.Fits z) : localText ty.buf (decText z) = some (decText z) := by
  apply localText_ok
  have key : ∀ e, 0 < e → z.natAbs < 10 ^ e → (decText z).length ≤ e + (if z < 0 then 1 else 0) := by
    intro e he hz
    have := Nat.toDigits_length 10 z.natAbs e he hz
    unfold decText
    split <;> simp <;> omega
  cases ty <;> simp only [IntTy.Fits] at h <;> simp only [IntTy.buf]
  · have := key 3 (by decide) (by omega); split at this <;> omega
  · have := key 5 (by decide) (by omega); split at this <;> omega
  · have := key 10 (by decide) (by omega); split at this <;> omega
  · have := key 20 (by decide) (by omega); split at this <;> omega
  · have := key 3 (by decide) (by omega); split at this <;> omega
  · have := key 5 (by decide) (by omega); split at this <;> omega
  · have := key 10 (by decide) (by omega); split at this <;> omega
  · have := key 19 (by decide) (by omega); split at this <;> omega

/-- `%f`: sign, integer part, and six decimals. -/
def fText (neg : Bool) (ip frac : Nat) : List Char :=
  (if neg then ['-'] else []) ++ Nat.toDigits 10 ip ++ ['.'] ++
    (List.range 6).reverse.map fun i => Nat.digitChar (frac / 10 ^ i % 10)

/-- C65, the part that holds of ThreadStream.cpp:268-274: values below `10^91` are written in full.
Missing: larger values, see `c65_double_overread`. -/
theorem c65_double_partial (neg : Bool) (ip frac : Nat) (h : ip < 10 ^ 91) :
    localText 100 (fText neg ip frac) = some (fText neg ip frac) := by
  apply localText_ok
  have := Nat.toDigits_length 10 ip 91 (by decide) h
  unfold fText
  cases neg <;> simp <;> omega

/-- Finding: streaming a `double` of `10^100` (the exact value of the literal `1e100` is below)
reads past the local buffer. -/
theorem c65_double_overread :
    localText 100 (fText false
      10000000000000000159028911097599180468360808563945281389781327557747838772170381060813469985856815104 0) = none := by
  decide +kernel

/-- Finding, in general: any value of at least 94 digits. -/
theorem c65_double_overread_all (neg : Bool) (ip frac : Nat) (h : 10 ^ 93 ≤ ip) :
    localText 100 (fText neg ip frac) = none := by
  have hl : 94 ≤ (Nat.toDigits 10 ip).length := by
    by_contra hc
    have := (Nat.length_toDigits_le_iff (b := 10) (n := ip) (k := 93) (by decide) (by decide)).1 (by omega)
    omega
  unfold localText
  rw [if_neg]
  unfold fText
  cases neg <;> simp <;> omega

/-- Finding, at the boundary: a text of exactly 100 characters loses its last character, a zero byte is written instead. -/
theorem c65_double_boundary (text : List Char) (h : text.length = 100) :
    localText 100 text = some (text.take 99 ++ ['\x00']) := by
  unfold localText
  rw [if_pos (by omega)]
  congr 1
  exact List.take_of_length_le (by simp; omega)

/-- C65 for doubles, exactly: the complete text is written if and only if the integer part of the value is below `10^92`
(`10^91` for negative numbers); the array is left if and only if it is at least `10^93` (`10^92`); between, the last
digit is replaced by a zero byte (`c65_double_boundary`). -/
theorem c65_double_exact (neg : Bool) (ip frac : Nat) :
    (localText 100 (fText neg ip frac) = some (fText neg ip frac) ↔ ip < if neg then 10 ^ 91 else 10 ^ 92) ∧
    (localText 100 (fText neg ip frac) = none ↔ (if neg then 10 ^ 92 else 10 ^ 93) ≤ ip) := by
  have hl : (fText neg ip frac).length = (if neg then 1 else 0) + (Nat.toDigits 10 ip).length + 7 := by
    unfold fText; cases neg <;> simp <;> omega
  have hd : ∀ k, 0 < k → ((Nat.toDigits 10 ip).length ≤ k ↔ ip < 10 ^ k) := fun k hk =>
    Nat.length_toDigits_le_iff (b := 10) (n := ip) (k := k) (by decide) hk
  have h91 := hd 91 (by decide)
  have h92 := hd 92 (by decide)
  have h93 := hd 93 (by decide)
  have hlast : (fText neg ip frac).getLast? = some (Nat.digitChar (frac % 10)) := by
    unfold fText
    simp [List.range_succ]
  have hne : localText 100 (fText neg ip frac) = some (fText neg ip frac) → (fText neg ip frac).length ≤ 99 := by
    intro h
    apply Classical.byContradiction
    intro hc
    by_cases h100 : (fText neg ip frac).length = 100
    · rw [c65_double_boundary _ h100, Option.some.injEq] at h
      rw [← h] at hlast
      simp only [List.getLast?_append, List.getLast?_singleton, Option.some_or, Option.some.injEq] at hlast
      have hlt : frac % 10 < 10 := Nat.mod_lt _ (by decide)
      generalize frac % 10 = q at hlast hlt
      have : ∀ q : Nat, q < 10 → '\x00' ≠ Nat.digitChar q := by decide
      exact this q hlt hlast
    · unfold localText at h
      rw [if_neg (by omega)] at h
      cases h
  have hnone : localText 100 (fText neg ip frac) = none ↔ 100 < (fText neg ip frac).length := by
    unfold localText
    split <;> simp <;> omega
  generalize (10 : Nat) ^ 91 = a at *
  generalize (10 : Nat) ^ 92 = b at *
  generalize (10 : Nat) ^ 93 = c at *
  constructor
  · constructor
    · intro h
      have := hne h
      cases neg <;> simp at hl ⊢ <;> omega
    · intro h
      apply localText_ok
      cases neg <;> simp at hl h <;> omega
  · rw [hnone]
    cases neg <;> simp at hl ⊢ <;> omega

/-- There are such numbers: 93 digits before the point. -/
example : (fText false (10 ^ 92) 0).length = 100 := by decide +kernel

end Verif.Logging
