import Verif.Os.Snprintf

/-!
# C100: formatted printing into fixed buffers
-/
namespace Verif.Os.Text
open Verif.Logging Verif.Logging.Record

/-! ## Specification -/

/-- What a user of `snprintf(buffer, max, …)` relies on: the first `max - 1` characters of the text and a terminator are
stored, nothing from position `max` on is touched, and the length of the complete text is returned. -/
def Printed (buf : Mem) (max : Nat) (text : S) (b : Mem) (r : Int) : Prop :=
  (text.take (max - 1) ++ ['\x00']) <+: b ∧ b.length = buf.length ∧ b.drop max = buf.drop max ∧ r = text.length

theorem over_length {buf src b : Mem} (h : over buf src = some b) : b.length = buf.length := by
  unfold over at h
  split at h
  · cases h; simp; omega
  · cases h

/-- C100, POSIX: printing into a buffer of at least `max > 0` characters. -/
theorem c100_posix (buf : Mem) (max : Nat) (text : S) (h0 : 0 < max) (h : max ≤ buf.length) :
    ∃ b r, snprintf .posix buf max text = some (b, r) ∧ Printed buf max text b r := by
  have hl : (text.take (max - 1) ++ ['\x00']).length ≤ max := by simp; omega
  refine ⟨(text.take (max - 1) ++ ['\x00']) ++ buf.drop (text.take (max - 1) ++ ['\x00']).length, text.length, ?_, ?_, ?_, ?_, rfl⟩
  · unfold snprintf over
    simp only [if_neg (Nat.ne_of_gt h0), if_pos (Nat.le_trans hl h), Option.map_some]
  · exact List.prefix_append _ _
  · rw [List.length_append, List.length_drop]; omega
  · rw [List.drop_append, List.drop_eq_nil_of_le hl, List.nil_append, List.drop_drop]
    congr 1; omega

example : snprintf .posix ['a', 'b', 'c', 'd'] 3 ['x', 'y', 'z'] = some (['x', 'y', '\x00', 'd'], 3) := by decide

/-- C100, Windows: texts that fit are printed as on POSIX.
Missing: longer texts, see `c100_win32_long`. -/
theorem c100_win32_partial (buf : Mem) (max : Nat) (text : S) (ht : text.length < max) (h : max ≤ buf.length) :
    ∃ b r, snprintf .win32 buf max text = some (b, r) ∧ Printed buf max text b r := by
  have e : text.take (max - 1) = text := List.take_of_length_le (by omega)
  have hl : (text ++ ['\x00']).length ≤ max := by simp; omega
  refine ⟨(text ++ ['\x00']) ++ buf.drop (text ++ ['\x00']).length, text.length, ?_, ?_, ?_, ?_, rfl⟩
  · unfold snprintf over
    simp only [if_pos ht, if_pos (Nat.le_trans hl h), Option.map_some]
  · rw [e]; exact List.prefix_append _ _
  · rw [List.length_append, List.length_drop]; omega
  · rw [List.drop_append, List.drop_eq_nil_of_le hl, List.nil_append, List.drop_drop]
    congr 1; omega

/-- C100, violated on Windows: every text of at least `max` characters fills the whole buffer without a terminator, and
if it is longer, `-1` is returned instead of its length. -/
theorem c100_win32_long (buf : Mem) (max : Nat) (text : S) (h0 : 0 < max) (ht : max ≤ text.length) (h : max ≤ buf.length)
    (hn : '\x00' ∉ text) :
    ∃ b r, snprintf .win32 buf max text = some (b, r) ∧ b = text.take max ++ buf.drop max ∧ ¬ Printed buf max text b r ∧
      ('\x00' ∉ buf.drop max → readC b = none) ∧ (max < text.length → r = -1) := by
  have hl : (text.take max).length = max := by simp; omega
  have hh : text.take max ++ buf.drop (text.take max).length = text.take max ++ buf.drop max := by rw [hl]
  refine ⟨text.take max ++ buf.drop max, if text.length = max then (text.length : Int) else -1, ?_, rfl, ?_, ?_, ?_⟩
  · unfold snprintf over
    simp only [if_neg (Nat.not_lt.2 ht), hl, if_pos h, Option.map_some]
  · intro ⟨⟨c, hc⟩, _⟩
    apply hn
    have h1 : (text.take max ++ buf.drop max)[max - 1]? = some '\x00' := by
      rw [← hc, List.append_assoc, List.getElem?_append_right (by simp)]
      simp
      rw [Nat.min_eq_left (by omega)]
      simp
    rw [List.getElem?_append_left (by omega), List.getElem?_take_of_lt (by omega)] at h1
    exact List.mem_of_getElem? h1
  · intro hb
    unfold readC
    rw [if_neg]
    rw [List.mem_append]
    rintro (h1 | h1)
    · exact hn (List.mem_of_mem_take h1)
    · exact hb h1
  · intro hlt
    rw [if_neg (by omega)]

example : snprintf .win32 ['a', 'b', 'c', 'd'] 3 ['x', 'y', 'z', 'w'] = some (['x', 'y', 'z', 'd'], -1) := by decide

theorem cstr_of_not_mem {l : S} (h : '\x00' ∉ l) (r : Mem) : cstr (l ++ '\x00' :: r) = l := by
  unfold cstr
  rw [List.takeWhile_append_of_pos (fun a ha => by simp only [decide_eq_true_eq]; intro he; exact h (he ▸ ha))]
  simp

/-- A C string has no terminator in it. -/
theorem cstr_no_nul (l : Mem) : '\x00' ∉ cstr l := by
  intro h
  have := List.mem_takeWhile_imp h
  simp at this

theorem digits_no_nul (n : Nat) : '\x00' ∉ digits n := by
  intro h
  have hd := Nat.isDigit_of_mem_toDigits (b := 10) (by decide) (by decide) h
  simp at hd

/-- The complete info text: description, comma, id. -/
def infoText (desc : S) (id : Nat) : S := desc ++ [',', ' '] ++ digits id

theorem info_no_nul {desc : S} (hd : '\x00' ∉ desc) (id : Nat) : '\x00' ∉ infoText desc id := by
  unfold infoText
  simp only [List.mem_append, not_or]
  exact ⟨⟨hd, by decide⟩, digits_no_nul id⟩

theorem cstr_self {desc : S} (hd : '\x00' ∉ desc) : cstr desc = desc := by
  unfold cstr
  rw [List.takeWhile_eq_self_iff]
  intro a ha
  simp only [decide_eq_true_eq]
  intro he
  exact hd (he ▸ ha)

theorem read_printed {buf b : Mem} {max : Nat} {text : S} {r : Int} (hn : '\x00' ∉ text) (h : Printed buf max text b r) :
    readC b = some (text.take (max - 1)) := by
  obtain ⟨⟨c, rfl⟩, _⟩ := h
  unfold readC
  rw [if_pos (by simp), List.append_assoc]
  congr 1
  exact cstr_of_not_mem (fun h => hn (List.mem_of_mem_take h)) _

/-- C100: the info text of a running thread on POSIX is its description, a comma and its id, cut after 1022 characters
(whatever the stack contained before). -/
theorem c100_thread_info_posix (g : Nat → Char) (desc : S) (id : Nat) (hd : '\x00' ∉ desc) :
    threadInfo .posix g desc id = some ((infoText desc id).take 1022) := by
  obtain ⟨b, r, h, hp⟩ := c100_posix (array 1024 g) 1023 (infoText desc id) (by decide) (by simp [array])
  unfold threadInfo
  rw [cstr_self hd]
  change (snprintf .posix (array 1024 g) 1023 (infoText desc id)).bind _ = _
  rw [h]
  exact read_printed (info_no_nul hd id) hp

/-- C100: on Windows the same as long as the text is not cut.
Missing: see `c100_thread_info_win32_undefined`. -/
theorem c100_thread_info_win32_partial (g : Nat → Char) (desc : S) (id : Nat) (hd : '\x00' ∉ desc)
    (hl : (infoText desc id).length ≤ 1022) : threadInfo .win32 g desc id = some (infoText desc id) := by
  obtain ⟨b, r, h, hp⟩ := c100_win32_partial (array 1024 g) 1023 (infoText desc id) (by omega) (by simp [array])
  unfold threadInfo
  rw [cstr_self hd]
  change (snprintf .win32 (array 1024 g) 1023 (infoText desc id)).bind _ = _
  rw [h]
  have := read_printed (info_no_nul hd id) hp
  rw [List.take_of_length_le (by omega)] at this
  exact this

/-- C100, violated on Windows: with a longer text the last character of the buffer is never written. If it happened to be
zero, the info text has 1023 characters, otherwise the array is read beyond its end. -/
theorem c100_thread_info_win32_undefined (g : Nat → Char) (desc : S) (id : Nat) (hd : '\x00' ∉ desc)
    (hl : 1023 ≤ (infoText desc id).length) :
    threadInfo .win32 g desc id = if g 1023 = '\x00' then some ((infoText desc id).take 1023) else none := by
  have hn := info_no_nul hd id
  obtain ⟨b, r, h, hb, _⟩ := c100_win32_long (array 1024 g) 1023 (infoText desc id) (by decide) hl (by simp [array]) hn
  have e : (array 1024 g).drop 1023 = [g 1023] := by
    unfold array
    rw [← List.map_drop, List.range_eq_range', List.drop_range']
    rfl
  rw [e] at hb
  unfold threadInfo
  rw [cstr_self hd]
  change (snprintf .win32 (array 1024 g) 1023 (infoText desc id)).bind _ = _
  rw [h, hb]
  change readC _ = _
  unfold readC
  by_cases hg : g 1023 = '\x00'
  · rw [if_pos hg, hg, if_pos (by simp)]
    exact congrArg some (cstr_of_not_mem (fun h => hn (List.mem_of_mem_take h)) _)
  · rw [if_neg hg, if_neg]
    rw [List.mem_append]
    rintro (h1 | h1)
    · exact hn (List.mem_of_mem_take h1)
    · simp only [List.mem_singleton] at h1
      exact hg h1.symm

/-- A description of 1050 characters. -/
example : threadInfo .win32 (fun _ => 'g') (List.replicate 1050 'x') 7 = none := by
  rw [c100_thread_info_win32_undefined _ _ _ (by
    intro h
    exact absurd (List.eq_of_mem_replicate h) (by decide)) (by
    simp only [infoText, List.length_append, List.length_replicate]; omega)]
  rw [if_neg (by decide)]

example : threadInfo .posix (fun _ => 'g') ['w', 'o', 'r', 'k', 'e', 'r'] 42 = some ['w', 'o', 'r', 'k', 'e', 'r', ',', ' ', '4', '2'] := by
  rw [c100_thread_info_posix _ _ _ (by decide)]
  decide

/-- Finding: a description with an embedded zero is cut there. -/
theorem c100_thread_info_cut (g : Nat → Char) (a b : S) (id : Nat) (ha : '\x00' ∉ a) :
    threadInfo .posix g (a ++ '\x00' :: b) id = threadInfo .posix g a id := by
  unfold threadInfo
  rw [cstr_of_not_mem ha, cstr_self ha]

theorem streamed_eq {p : Plat} {n : Nat} {g : Nat → Char} {idx : Nat} {text : S} {b : Mem} {l : Int}
    (h : snprintf p (array n g) n text = some (b, l)) : streamed p n g idx text = copied idx b (toSize l) := by
  delta streamed
  rw [h, Option.bind_some]

theorem copied_some {idx n m : Nat} {b : Mem} (hc : cutLen idx n 0 = m) (h : m ≤ b.length) : copied idx b n = some (b.take m) := by
  unfold copied
  rw [hc, if_pos h]

theorem copied_none {idx n m : Nat} {b : Mem} (hc : cutLen idx n 0 = m) (h : ¬ m ≤ b.length) : copied idx b n = none := by
  unfold copied
  rw [hc, if_neg h]

theorem writable_eq {idx : Nat} (h : idx < 2048) : writableLen idx = 2047 - idx := by
  unfold writableLen szSub logSize
  omega

theorem cutLen_fits {idx n : Nat} (h : idx + n < logSize) : cutLen idx n 0 = n := by
  have h' : idx + n < 2048 := h
  unfold cutLen
  rw [writable_eq (by omega), if_neg]
  omega

theorem toSize_nat {n : Nat} (h : n < 2048) : toSize (n : Int) = n := by
  unfold toSize
  omega

theorem cutLen_max {idx x : Nat} (h : idx < 2047) (e : x = 18446744073709551615) : cutLen idx x 0 = 2047 - idx := by
  unfold cutLen
  rw [writable_eq (by omega), e, if_pos (by omega), if_pos (by omega)]
  unfold szSub
  omega

theorem toSize_neg : toSize (-1) = 18446744073709551615 := by unfold toSize; omega

theorem cutLen_all {idx : Nat} (h : idx < 2047) : cutLen idx (toSize (-1)) 0 = 2047 - idx := cutLen_max h toSize_neg

/-- C100: a number whose text fits is streamed in full, on both platforms, if the line has room for it. -/
theorem c100_streamed (p : Plat) (n : Nat) (g : Nat → Char) (idx : Nat) (text : S) (ht : text.length < n)
    (hr : idx + text.length < logSize) : streamed p n g idx text = some text := by
  have key : ∃ b, snprintf p (array n g) n text = some (b, (text.length : Int)) ∧ (text ++ ['\x00']) <+: b := by
    have hbl : n ≤ (array n g).length := by simp [array]
    cases p with
    | posix =>
      obtain ⟨b, r, h, h1, _, _, h3⟩ := c100_posix (array n g) n text (by omega) hbl
      rw [List.take_of_length_le (by omega)] at h1
      subst h3
      exact ⟨b, h, h1⟩
    | win32 =>
      obtain ⟨b, r, h, h1, _, _, h3⟩ := c100_win32_partial (array n g) n text ht hbl
      rw [List.take_of_length_le (by omega)] at h1
      subst h3
      exact ⟨b, h, h1⟩
  have hc := cutLen_fits hr
  have hs := toSize_nat (n := text.length) (by unfold logSize at hr; clear hc key; omega)
  obtain ⟨b, h, c, rfl⟩ := key
  rw [streamed_eq h, hs, copied_some hc (by rw [List.append_assoc, List.length_append]; exact Nat.le_add_right _ _),
    List.append_assoc, List.take_left]

example : streamed .win32 13 (fun _ => 'g') 2000 ['-', '1', '7'] = some ['-', '1', '7'] :=
  c100_streamed _ _ _ _ _ (by decide) (by decide)

/-- C100, violated on Windows: a `double` of more than 100 characters makes `write` copy up to the end of the line, far
beyond the local array of 100 characters (on POSIX beyond it by the missing characters, C65). -/
theorem c100_streamed_win32_long (g : Nat → Char) (idx : Nat) (text : S) (hi : idx + 101 < logSize) (ht : 100 < text.length) :
    streamed .win32 100 g idx text = none := by
  have hl : (text.take 100).length = 100 := by simp; omega
  have hs : snprintf .win32 (array 100 g) 100 text = some (text.take 100, -1) := by
    unfold snprintf over
    simp only [if_neg (show ¬ text.length < 100 by omega), hl, if_neg (show ¬ text.length = 100 by omega)]
    rw [if_pos (by simp [array]), List.drop_eq_nil_of_le (by simp [array])]
    simp
  have hi' : idx + 101 < 2048 := hi
  rw [streamed_eq hs]
  exact copied_none (cutLen_all (by clear hs; omega)) (by rw [hl]; clear hs; omega)

/-- C100: `stpcpy` copies the string and returns the place of its terminator. -/
theorem c100_stpcpy (dst : Mem) (src : S) (hn : '\x00' ∉ src) (h : src.length < dst.length) :
    stpcpy dst src = some (src ++ '\x00' :: dst.drop (src.length + 1), src.length) := by
  have hl : (lit src).length = src.length + 1 := by simp [lit]
  unfold stpcpy over
  rw [if_pos (by omega), Option.map_some, hl]
  have e : lit src ++ dst.drop (src.length + 1) = src ++ '\x00' :: dst.drop (src.length + 1) := by simp [lit]
  rw [e]
  have := cstr_of_not_mem hn (dst.drop (src.length + 1))
  unfold cstr at this
  rw [this]

example : stpcpy ['1', '2', '3', '4'] ['a', 'b'] = some (['a', 'b', '\x00', '4'], 2) := by decide

end Verif.Os.Text
