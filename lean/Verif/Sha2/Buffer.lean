import Verif.Sha2.Compress

/-! # Buffering and padding -/
namespace Verif.Sha2
open Spec

variable {w : Nat} {P : Params w} {A : Spec.Alg w} {z : BitVec 64}

/-- The sizes of the two versions. -/
def Sizes (P : Params w) (A : Spec.Alg w) : Prop :=
  (P.block = 64 ∧ A.lenBytes = 8 ∧ P.pad = 56) ∨ (P.block = 128 ∧ A.lenBytes = 16 ∧ P.pad = 112)

theorem hashBlocks_nil (H : Spec.Vars w) : hashBlocks A H [] = H := by simp [hashBlocks]

theorem hashBlocks_append (H : Spec.Vars w) (n : Nat) (full blk : List Byte) (h1 : full.length = n * blockBytes w)
    (h2 : blk.length = blockBytes w) (hpos : 0 < blockBytes w) :
    hashBlocks A H (full ++ blk) = compress A (hashBlocks A H full) blk := by
  unfold hashBlocks
  have e1 : (full ++ blk).length / blockBytes w = n + 1 := by
    rw [List.length_append, h1, h2, ← Nat.succ_mul, Nat.mul_div_cancel _ hpos]
  have e2 : full.length / blockBytes w = n := by rw [h1, Nat.mul_div_cancel _ hpos]
  rw [e1, e2, List.range_succ, List.foldl_append, List.foldl_cons, List.foldl_nil]
  congr 1
  · apply List.foldl_ext
    intro H' i hi
    rw [List.mem_range] at hi
    congr 1
    unfold blockAt
    have : (i + 1) * blockBytes w ≤ n * blockBytes w := Nat.mul_le_mul_right _ hi
    rw [Nat.succ_mul] at this
    rw [List.drop_append_of_le_length (by omega), List.take_append_of_le_length (by simp; omega)]
  · unfold blockAt
    rw [← h1, List.drop_left, List.take_of_length_le (by omega)]

theorem poke_ok (buf src : List Byte) (pos : Nat) (h : pos + src.length ≤ buf.length) :
    ∃ b, poke buf pos src = some b ∧ b.length = buf.length ∧ b.take (pos + src.length) = buf.take pos ++ src := by
  refine ⟨_, if_pos h, ?_, ?_⟩
  · simp; omega
  · rw [List.take_append_of_le_length (by simp; omega), List.take_of_length_le (by simp)]

/-- The object represents the message `m` processed so far (`z` is the size counter before it). -/
structure Rep (P : Params w) (A : Spec.Alg w) (z : BitVec 64) (iv : Spec.Vars w) (m : List Byte) (o : Obj w) : Prop where
  len : o.buffer.length = P.block
  fill : o.fill ≤ P.block
  size : o.size = z + BitVec.ofNat 64 m.length
  split : ∃ n full rest, m = full ++ rest ∧ full.length = n * P.block ∧ rest.length = o.fill ∧
    o.buffer.take o.fill = rest ∧ o.digest.toVars = hashBlocks A iv full

theorem rep_new (iv : St w) (garbage : List Byte) (h : garbage.length = P.block) :
    Rep P A 0 iv.toVars [] (new iv garbage) :=
  ⟨h, Nat.zero_le _, rfl, 0, [], [], rfl, by simp, rfl, rfl, (hashBlocks_nil _).symm⟩

theorem rep_clear (iv : St w) (o : Obj w) (h : o.buffer.length = P.block) : Rep P A 0 iv.toVars [] (clear iv o) :=
  ⟨h, Nat.zero_le _, rfl, 0, [], [], rfl, by simp, rfl, rfl, (hashBlocks_nil _).symm⟩

/-- Processing a full buffer. -/
theorem rep_flush (h : Match P A) (hpos : 0 < P.block) {iv : Spec.Vars w} {m : List Byte} {o : Obj w}
    (hr : Rep P A z iv m o) (hf : o.fill = P.block) :
    Rep P A z iv m { o with digest := processBuffer P o.digest o.buffer, fill := 0 } := by
  obtain ⟨h1, h2, h3, n, full, rest, h4, h5, h6, h7, h8⟩ := hr
  have hb : o.buffer = rest := by rw [← h7, List.take_of_length_le (by omega)]
  refine ⟨h1, Nat.zero_le _, h3, n + 1, m, [], (List.append_nil m).symm, ?_, rfl, rfl, ?_⟩
  · rw [h4, List.length_append, h5, h6, hf, Nat.succ_mul]
  · show (processBuffer P o.digest o.buffer).toVars = _
    rw [processBuffer_eq h _ _ h1, h8, h4, hb]
    rw [hashBlocks_append iv n full rest (by rw [h5, h.block]) (by rw [h6, hf, h.block]) (by rw [← h.block]; exact hpos)]

/-- Appending to the buffer. -/
theorem rep_poke {iv : Spec.Vars w} {m : List Byte} {o : Obj w} (hr : Rep P A z iv m o) (src : List Byte)
    (hs : o.fill + src.length ≤ P.block) :
    ∃ b, poke o.buffer o.fill src = some b ∧
      Rep P A z iv (m ++ src)
        { o with buffer := b, fill := o.fill + src.length, size := o.size + BitVec.ofNat 64 src.length } := by
  obtain ⟨h1, h2, h3, n, full, rest, h4, h5, h6, h7, h8⟩ := hr
  obtain ⟨b, e1, e2, e3⟩ := poke_ok o.buffer src o.fill (by omega)
  refine ⟨b, e1, by simp only; omega, hs, ?_, n, full, rest ++ src, by rw [h4, List.append_assoc], h5, ?_, ?_, h8⟩
  · simp only
    rw [h3, List.length_append, BitVec.ofNat_add, BitVec.add_assoc]
  · simp only [List.length_append, h6]
  · simp only
    rw [e3, h7]

theorem cstr_ok (h : Match P A) (hpos : 0 < P.block) {iv : Spec.Vars w} (s : List Byte) :
    ∀ {m : List Byte} {o : Obj w}, Rep P A z iv m o →
      ∃ o', processCStr P o (s ++ [0]) = some o' ∧ Rep P A z iv (m ++ s.takeWhile (· ≠ 0)) o' := by
  induction s with
  | nil => intro m o hr; exact ⟨o, rfl, by simpa using hr⟩
  | cons c cs ih =>
    intro m o hr
    by_cases hc : c = 0
    · subst hc; exact ⟨o, rfl, by simpa using hr⟩
    have key : ∃ o1, o1 = (if o.fill = P.block then { o with digest := processBuffer P o.digest o.buffer, fill := 0 } else o)
        ∧ Rep P A z iv m o1 ∧ o1.fill + 1 ≤ P.block := by
      refine ⟨_, rfl, ?_⟩
      split
      · next hf => exact ⟨rep_flush h hpos hr hf, by simp only; omega⟩
      · next hf => exact ⟨hr, by have := hr.fill; omega⟩
    obtain ⟨o1, e1, r1, f1⟩ := key
    obtain ⟨b, e2, r2⟩ := rep_poke r1 [c] f1
    rw [List.cons_append]
    unfold processCStr
    rw [if_neg hc]
    simp only [← e1, e2]
    obtain ⟨o', e3, r3⟩ := ih r2
    refine ⟨o', e3, ?_⟩
    rw [List.takeWhile_cons, if_pos (by simpa using hc)]
    simpa using r3

theorem loop_ok (h : Match P A) (hpos : 0 < P.block) {iv : Spec.Vars w} (fuel : Nat) :
    ∀ {m data : List Byte} {o : Obj w}, Rep P A z iv m o →
      data.length + (if o.fill = P.block then 2 else 1) ≤ fuel →
      ∃ o' used rest, processLoop P fuel o data = some (o', rest) ∧ data = used ++ rest ∧ Rep P A z iv (m ++ used) o' ∧
        o'.fill + rest.length ≤ P.block := by
  induction fuel with
  | zero => intro m data o _ hf; split at hf <;> omega
  | succ fuel ih =>
    intro m data o hr hf
    unfold processLoop
    by_cases hc : data.length ≥ P.block - o.fill
    · rw [if_pos hc]
      have hfill := hr.fill
      obtain ⟨b, e1, r1⟩ := rep_poke hr (data.take (P.block - o.fill)) (by simp; omega)
      have hl : (data.take (P.block - o.fill)).length = P.block - o.fill := by simp; omega
      have r2 := rep_flush h hpos r1 (by simp only [hl]; omega)
      simp only [hl] at r2
      simp only [e1]
      obtain ⟨o', used, rest, e2, e3, r3, f3⟩ := ih (data := data.drop (P.block - o.fill)) r2 (by
        simp only [List.length_drop]
        split at hf <;> split <;> omega)
      refine ⟨o', data.take (P.block - o.fill) ++ used, rest, e2, ?_, ?_, f3⟩
      · rw [List.append_assoc, ← e3, List.take_append_drop]
      · rw [← List.append_assoc]; exact r3
    · rw [if_neg hc]
      exact ⟨o, [], data, rfl, rfl, by simpa using hr, by omega⟩

theorem process_ok (h : Match P A) (hpos : 0 < P.block) {iv : Spec.Vars w} {m data : List Byte} {o : Obj w}
    (hr : Rep P A z iv m o) : ∃ o', process P o data = some o' ∧ Rep P A z iv (m ++ data) o' := by
  obtain ⟨o', used, rest, e1, e2, r1, f1⟩ := loop_ok h hpos (data.length + 2) (data := data) hr (by split <;> omega)
  obtain ⟨b, e3, r2⟩ := rep_poke r1 rest f1
  unfold process
  simp only [e1, e3]
  exact ⟨_, rfl, by rw [e2, ← List.append_assoc]; exact r2⟩

theorem feed_ok (h : Match P A) (hpos : 0 < P.block) {iv : Spec.Vars w} (fs : List Feed) :
    ∀ {m : List Byte} {o : Obj w}, Rep P A z iv m o →
      ∃ o', feedAll P o fs = some o' ∧ Rep P A z iv (m ++ fs.flatMap Feed.bytes) o' := by
  induction fs with
  | nil => intro m o hr; exact ⟨o, rfl, by simpa using hr⟩
  | cons f fs ih =>
    intro m o hr
    have : ∃ o', f.run P o = some o' ∧ Rep P A z iv (m ++ f.bytes) o' := by
      cases f with
      | cstr s => exact cstr_ok h hpos s hr
      | mem s => exact process_ok h hpos hr
    obtain ⟨o1, e1, r1⟩ := this
    obtain ⟨o2, e2, r2⟩ := ih r1
    refine ⟨o2, ?_, by simpa using r2⟩
    simp [feedAll, e1, e2]

/-! ## Finalisation -/

theorem lengthBytes_eq (x : Nat) (hx : x < 2 ^ 64) : lengthBytes (BitVec.ofNat 64 x) = beBytes 8 x := by
  have key : ∀ s i, s = 8 * i → ((BitVec.ofNat 64 x >>> s) &&& 0xff).setWidth 8 = BitVec.ofNat 8 (x / 256 ^ i) := by
    rintro s i rfl
    apply BitVec.eq_of_toNat_eq
    rw [BitVec.toNat_setWidth, BitVec.toNat_and, BitVec.toNat_ushiftRight, BitVec.toNat_ofNat, BitVec.toNat_ofNat,
      Nat.mod_eq_of_lt hx, Nat.shiftRight_eq_div_pow]
    have : (0xff : BitVec 64).toNat = 2 ^ 8 - 1 := rfl
    rw [this, Nat.and_two_pow_sub_one_eq_mod, Nat.mod_mod, Nat.pow_mul]
  unfold lengthBytes beBytes
  have hr : (List.range 8).reverse = [7, 6, 5, 4, 3, 2, 1, 0] := by decide
  rw [hr]
  simp only [List.map_cons, List.map_nil]
  rw [key 56 7 rfl, key 48 6 rfl, key 40 5 rfl, key 32 4 rfl, key 24 3 rfl, key 16 2 rfl, key 8 1 rfl, key 0 0 rfl]

theorem beBytes_16 (x : Nat) (hx : x < 2 ^ 64) : beBytes 16 x = List.replicate 8 0 ++ beBytes 8 x := by
  have key : ∀ i, 8 ≤ i → BitVec.ofNat 8 (x / 256 ^ i) = 0 := by
    intro i hi
    have : x < 256 ^ i := lt_of_lt_of_le hx (by
      calc (2:Nat) ^ 64 = 256 ^ 8 := by decide
        _ ≤ 256 ^ i := Nat.pow_le_pow_right (by decide) hi)
    rw [Nat.div_eq_of_lt this]
    rfl
  unfold beBytes
  have hr : (List.range 16).reverse = [15, 14, 13, 12, 11, 10, 9, 8] ++ (List.range 8).reverse := by decide
  rw [hr, List.map_append]
  congr 1
  simp only [List.map_cons, List.map_nil]
  rw [key 15 (by omega), key 14 (by omega), key 13 (by omega), key 12 (by omega), key 11 (by omega), key 10 (by omega),
    key 9 (by omega), key 8 (by omega)]
  rfl

theorem beBytes_sizes (hs : Sizes P A) (x : Nat) (hx : x < 2 ^ 64) :
    beBytes A.lenBytes x = List.replicate (A.lenBytes - 8) 0 ++ beBytes 8 x := by
  rcases hs with ⟨_, h, _⟩ | ⟨_, h, _⟩ <;> rw [h]
  · rfl
  · exact beBytes_16 x hx

theorem lengthBytes_length (x : BitVec 64) : (lengthBytes x).length = 8 := rfl

/-- Extend a known prefix of the buffer. -/
theorem poke_prefix {buf pre src : List Byte} (hp : buf.take pre.length = pre) (h : pre.length + src.length ≤ buf.length) :
    ∃ b, poke buf pre.length src = some b ∧ b.length = buf.length ∧ b.take (pre ++ src).length = pre ++ src := by
  obtain ⟨b, h1, h2, h3⟩ := poke_ok buf src pre.length h
  exact ⟨b, h1, h2, by rw [List.length_append, h3, hp]⟩

theorem take_all {b l : List Byte} (h : b.take l.length = l) (hl : b.length = l.length) : b = l := by
  rw [← h, List.take_of_length_le (by omega)]

theorem padZeros_eq (h : Match P A) (hs : Sizes P A) (n f : Nat) (hf : f < P.block) :
    padZeros w A.lenBytes (n * P.block + f) =
      if f + 1 ≤ P.pad then P.block - (f + 1 + A.lenBytes) else 2 * P.block - (f + 1 + A.lenBytes) := by
  unfold padZeros
  rw [← h.block]
  rcases hs with ⟨h1, h2, h3⟩ | ⟨h1, h2, h3⟩ <;> rw [h1, h2, h3] <;> split <;> omega

/-- The padded message with a 64-bit length field, whatever the size counter says. -/
def padMod (A : Spec.Alg w) (z : BitVec 64) (m : List Byte) : List Byte :=
  m ++ [0x80] ++ List.replicate (padZeros w A.lenBytes m.length + (A.lenBytes - 8)) 0 ++
    lengthBytes ((z + BitVec.ofNat 64 m.length) * 8)

theorem padMod_eq (hs : Sizes P A) (m : List Byte) (hm : m.length < 2 ^ 61) : padMod A 0 m = pad A m := by
  have hbits : (0 + BitVec.ofNat 64 m.length) * 8 = BitVec.ofNat 64 (8 * m.length) := by
    rw [show (0 : BitVec 64) + BitVec.ofNat 64 m.length = BitVec.ofNat 64 m.length from BitVec.zero_add _]
    apply BitVec.eq_of_toNat_eq
    simp only [BitVec.toNat_mul, BitVec.toNat_ofNat]
    rw [show (8 : BitVec 64).toNat = 8 from rfl, Nat.mod_eq_of_lt (a := m.length) (by omega), Nat.mul_comm]
  unfold padMod pad
  rw [beBytes_sizes hs _ (by omega), hbits, lengthBytes_eq _ (by omega), ← List.replicate_append_replicate]
  simp only [List.append_assoc]

theorem finalize_lt (h : Match P A) (hs : Sizes P A) {iv : Spec.Vars w} {m : List Byte} {o : Obj w}
    (hr : Rep P A z iv m o) (hf : o.fill < P.block) :
    ∃ o', finalizeBuffer P o o.fill = some o' ∧ o'.digest.toVars = hashBlocks A iv (padMod A z m) ∧
      o'.buffer.length = P.block ∧ o'.fill = o.fill := by
  obtain ⟨h1, h2, h3, n, full, rest, h4, h5, h6, h7, h8⟩ := hr
  have hbb : P.block = blockBytes w := h.block
  have hpos : 0 < blockBytes w := by rw [← hbb]; omega
  have hlen : m.length = n * P.block + o.fill := by rw [h4, List.length_append, h5, h6]
  have hkz := padZeros_eq h hs n o.fill hf
  rw [← hlen] at hkz
  have hp : padMod A z m = full ++ (rest ++ [0x80] ++ List.replicate (padZeros w A.lenBytes m.length + (A.lenBytes - 8)) 0
      ++ lengthBytes (o.size * 8)) := by
    unfold padMod
    rw [← h3]
    conv_lhs => rw [h4]
    simp only [List.append_assoc]
    rw [← h4]
  have hll : (lengthBytes (o.size * 8)).length = 8 := rfl
  have hL : 8 ≤ A.lenBytes ∧ A.lenBytes + P.pad = P.block := by rcases hs with h | h <;> omega
  obtain ⟨b1, e1, l1, t1⟩ := poke_prefix (buf := o.buffer) (pre := rest) (src := [0x80]) (by rw [h6, h7])
    (by simp; omega)
  unfold finalizeBuffer
  rw [h6] at e1
  simp only [if_pos hf, e1, Option.bind_eq_bind, Option.bind_some, Option.pure_def]
  by_cases hc : o.fill + 1 ≤ P.pad
  · rw [if_pos hc]
    rw [if_pos hc] at hkz
    obtain ⟨b2, e2, l2, t2⟩ := poke_prefix (buf := b1) (src := List.replicate (P.block - 8 - (o.fill + 1)) 0) t1
      (by simp; omega)
    obtain ⟨b3, e3, l3, t3⟩ := poke_prefix (buf := b2) (src := lengthBytes (o.size * 8)) t2 (by simp [lengthBytes_length]; omega)
    rw [show (rest ++ [(0x80 : Byte)]).length = o.fill + 1 by simp [h6]] at e2
    rw [show (rest ++ [(0x80 : Byte)] ++ List.replicate (P.block - 8 - (o.fill + 1)) (0 : Byte)).length = P.block - 8 by
      simp; omega] at e3
    simp only [e2, Option.bind_some, e3]
    have hb3 := take_all t3 (by simp [lengthBytes_length]; omega)
    have hl3 : b3.length = P.block := by omega
    refine ⟨_, rfl, ?_, hl3, rfl⟩
    simp only
    rw [processBuffer_eq h _ _ hl3, h8, ← hashBlocks_append iv n full b3 (by rw [h5, hbb]) (by omega) hpos, hp, hb3]
    congr 3
    rw [show padZeros w A.lenBytes m.length + (A.lenBytes - 8) = P.block - 8 - (o.fill + 1) by omega]
  · rw [if_neg hc]
    rw [if_neg hc] at hkz
    obtain ⟨b2, e2, l2, t2⟩ := poke_prefix (buf := b1) (src := List.replicate (P.block - (o.fill + 1)) 0) t1
      (by simp; omega)
    rw [show (rest ++ [(0x80 : Byte)]).length = o.fill + 1 by simp [h6]] at e2
    have hb2 := take_all t2 (by simp; omega)
    have hl2 : b2.length = P.block := by omega
    obtain ⟨b3, e3, l3, t3⟩ := poke_prefix (buf := b2) (pre := []) (src := List.replicate (P.block - 8) 0) rfl
      (by simp; omega)
    obtain ⟨b4, e4, l4, t4⟩ := poke_prefix (buf := b3) (src := lengthBytes (o.size * 8)) t3 (by simp [lengthBytes_length]; omega)
    rw [show (([] : List Byte) ++ List.replicate (P.block - 8) (0 : Byte)).length = P.block - 8 by simp] at e4
    rw [List.length_nil] at e3
    simp only [e2, Option.bind_some, e3, e4]
    have hb4 := take_all t4 (by simp [lengthBytes_length]; omega)
    have hl4 : b4.length = P.block := by omega
    refine ⟨_, rfl, ?_, hl4, rfl⟩
    simp only
    rw [processBuffer_eq h _ _ hl4, processBuffer_eq h _ _ hl2, h8,
      ← hashBlocks_append iv n full b2 (by rw [h5, hbb]) (by omega) hpos,
      ← hashBlocks_append iv (n + 1) (full ++ b2) b4 (by rw [List.length_append, h5, hl2, hbb, Nat.succ_mul]) (by omega) hpos,
      hp, hb2, hb4]
    rw [show padZeros w A.lenBytes m.length + (A.lenBytes - 8) = (P.block - (o.fill + 1)) + (P.block - 8) by omega,
      ← List.replicate_append_replicate]
    simp only [List.append_assoc, List.nil_append]

theorem fb_fill (o : Obj w) (f sz : Nat) :
    finalizeBuffer P { o with fill := f } sz = (finalizeBuffer P o sz).map fun o => { o with fill := f } := by
  unfold finalizeBuffer
  simp only [Option.bind_eq_bind, Option.pure_def]
  split
  · cases poke o.buffer sz [0x80] with
    | none => rfl
    | some b1 =>
      simp only [Option.bind_some]
      split
      · cases poke b1 (sz + 1) (List.replicate (P.block - 8 - (sz + 1)) 0) with
        | none => rfl
        | some b2 =>
          simp only [Option.bind_some]
          cases poke b2 (P.block - 8) (lengthBytes (o.size * 8)) <;> rfl
      · cases poke b1 (sz + 1) (List.replicate (P.block - (sz + 1)) 0) with
        | none => rfl
        | some b2 =>
          simp only [Option.bind_some]
          cases poke b2 0 (List.replicate (P.block - 8) 0) with
          | none => rfl
          | some b3 =>
            simp only [Option.bind_some]
            cases poke b3 (P.block - 8) (lengthBytes (o.size * 8)) <;> rfl
  · cases poke o.buffer 0 [0x80] with
    | none => rfl
    | some b1 =>
      simp only [Option.bind_some]
      split
      · cases poke b1 1 (List.replicate (P.block - 8 - 1) 0) with
        | none => rfl
        | some b2 =>
          simp only [Option.bind_some]
          cases poke b2 (P.block - 8) (lengthBytes (o.size * 8)) <;> rfl
      · cases poke b1 1 (List.replicate (P.block - 1) 0) with
        | none => rfl
        | some b2 =>
          simp only [Option.bind_some]
          cases poke b2 0 (List.replicate (P.block - 8) 0) with
          | none => rfl
          | some b3 =>
            simp only [Option.bind_some]
            cases poke b3 (P.block - 8) (lengthBytes (o.size * 8)) <;> rfl

theorem finalize_ok (h : Match P A) (hs : Sizes P A) {iv : Spec.Vars w} {m : List Byte} {o : Obj w}
    (hr : Rep P A z iv m o) :
    ∃ o', finalize P o = some o' ∧ o'.digest.toVars = hashBlocks A iv (padMod A z m) ∧ o'.buffer.length = P.block ∧
      o'.fill = o.fill := by
  have hpos : 0 < P.block := by rcases hs with h | h <;> omega
  by_cases hf : o.fill < P.block
  · exact finalize_lt h hs hr hf
  · have hf' : o.fill = P.block := by have := hr.fill; omega
    have r2 := rep_flush h hpos hr hf'
    obtain ⟨o', e, e1, e2, e3⟩ := finalize_lt h hs r2 hpos
    refine ⟨{ o' with fill := o.fill }, ?_, e1, e2, rfl⟩
    have : finalizeBuffer P o o.fill =
        finalizeBuffer P { { o with digest := processBuffer P o.digest o.buffer, fill := 0 } with fill := o.fill } 0 := by
      unfold finalizeBuffer
      simp only [if_pos hpos, if_neg hf]
    unfold finalize
    rw [this, fb_fill, e]
    rfl

/-- Whatever the digest and the size counter: an object with a proper buffer. -/
theorem rep_any (o : Obj w) (h1 : o.buffer.length = P.block) (h2 : o.fill ≤ P.block) :
    Rep P A (o.size - BitVec.ofNat 64 o.fill) o.digest.toVars (o.buffer.take o.fill) o := by
  have e : (o.buffer.take o.fill).length = o.fill := by simp; omega
  exact ⟨h1, h2, by rw [e, BitVec.sub_add_cancel], 0, [], _, rfl, by simp, e, rfl, (hashBlocks_nil _).symm⟩

theorem run_ok (h : Match P A) (hs : Sizes P A) (iv : St w) (cs : List Call) :
    ∀ o : Obj w, o.buffer.length = P.block → o.fill ≤ P.block →
      ∃ o', runAll P iv o cs = some o' ∧ o'.buffer.length = P.block ∧ o'.fill ≤ P.block := by
  have hpos : 0 < P.block := by rcases hs with h | h <;> omega
  induction cs with
  | nil => intro o h1 h2; exact ⟨o, rfl, h1, h2⟩
  | cons c cs ih =>
    intro o h1 h2
    have : ∃ o', c.run P iv o = some o' ∧ o'.buffer.length = P.block ∧ o'.fill ≤ P.block := by
      have hr := rep_any (A := A) o h1 h2
      cases c with
      | process f =>
        obtain ⟨o', e, r⟩ := feed_ok h hpos [f] hr
        refine ⟨o', ?_, r.len, r.fill⟩
        simp only [feedAll] at e
        simpa [Call.run] using e
      | finalize =>
        obtain ⟨o', e, _, e1, e2⟩ := finalize_ok h hs hr
        exact ⟨o', e, e1, by omega⟩
      | clear => exact ⟨_, rfl, h1, Nat.zero_le _⟩
    obtain ⟨o1, e1, l1, f1⟩ := this
    obtain ⟨o2, e2, l2, f2⟩ := ih o1 l1 f1
    exact ⟨o2, by simp [runAll, e1, e2], l2, f2⟩

/-! ## Hexadecimal output -/

theorem hexChars_eq (k n : Nat) (h : n < 16 ^ k) :
    List.replicate (k - (hexChars n).length) '0' ++ hexChars n =
      (if k = 0 then hexChars n else (List.range k).reverse.map fun i => Nat.digitChar (n / 16 ^ i % 16)) := by
  induction k generalizing n with
  | zero => simp
  | succ k ih =>
    rw [if_neg (by omega), List.range_succ_eq_map, List.reverse_cons, List.map_append]
    by_cases hn : n < 16
    · rw [hexChars, if_pos hn]
      simp only [List.length_singleton, Nat.add_sub_cancel, List.map_cons, List.map_nil, Nat.pow_zero, Nat.div_one]
      rw [Nat.mod_eq_of_lt hn]
      congr 1
      rw [← List.map_reverse, List.map_map]
      symm
      rw [List.eq_replicate_iff]
      refine ⟨by simp, ?_⟩
      intro b hb
      rw [List.mem_map] at hb
      obtain ⟨i, _, rfl⟩ := hb
      have : n / 16 ^ (i + 1) = 0 := Nat.div_eq_of_lt (by
        rw [Nat.pow_succ]
        have := Nat.one_le_pow i 16 (by decide)
        omega)
      simp [Function.comp, this]
    · rw [hexChars, if_neg hn]
      simp only [List.length_append, List.length_singleton, Nat.add_sub_add_right, List.map_cons, List.map_nil, Nat.pow_zero,
        Nat.div_one]
      rw [← List.append_assoc]
      congr 1
      have hk : k ≠ 0 := by rintro rfl; simp at h; omega
      have hlt : n / 16 < 16 ^ k := by
        rw [Nat.div_lt_iff_lt_mul (by decide)]; rw [Nat.pow_succ] at h; exact h
      have := ih (n / 16) hlt
      rw [if_neg hk] at this
      rw [this, ← List.map_reverse, List.map_map]
      apply List.map_congr_left
      intro i _
      simp only [Function.comp, Nat.pow_succ']
      rw [Nat.div_div_eq_div_mul]

theorem hexWord_eq (x : BitVec w) (hw : w = 4 * (w / 4)) (hpos : 0 < w) :
    List.replicate (w / 4 - (hexChars x.toNat).length) '0' ++ hexChars x.toNat = hexWord x := by
  have hx : x.toNat < 16 ^ (w / 4) := by
    have h := x.isLt
    have e : (2 : Nat) ^ w = 16 ^ (w / 4) := by conv_lhs => rw [hw, Nat.pow_mul]
    omega
  rw [hexChars_eq _ _ hx, if_neg (by omega)]
  rfl

theorem getHexDigest_eq (len : Nat) (o : Obj w) (hw : w = 4 * (w / 4)) (hpos : 0 < w) :
    getHexDigest len o = (o.digest.toVars.toList.take len).flatMap hexWord := by
  have e : o.digest.toVars.toList = (List.finRange 8).map o.digest.get := rfl
  rw [e, ← List.map_take, List.flatMap_map]
  unfold getHexDigest
  congr 1
  funext i
  exact hexWord_eq _ hw hpos


theorem hexOf_rep (h : Match P A) (hs : Sizes P A) (hw : w = 4 * (w / 4)) (hwpos : 0 < w) (len : Nat)
    {iv : Spec.Vars w} {m : List Byte} {o : Obj w} (hr : Rep P A z iv m o) (fs : List Feed) :
    hexOf P len o fs = some (((hashBlocks A iv (padMod A z (m ++ fs.flatMap Feed.bytes))).toList.take len).flatMap hexWord) := by
  have hpos : 0 < P.block := by rcases hs with h | h <;> omega
  obtain ⟨o1, e1, r1⟩ := feed_ok h hpos fs hr
  obtain ⟨o2, e2, e3, _⟩ := finalize_ok h hs r1
  unfold hexOf
  rw [e1, Option.bind_some, e2, Option.map_some, getHexDigest_eq len o2 hw hwpos, e3]

end Verif.Sha2
