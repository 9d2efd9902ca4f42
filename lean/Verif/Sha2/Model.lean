import Verif.Base

/-!
# Model of `icl_core_crypt/Sha2Impl.h(pp)` and `Sha2.h(pp)`

Words are `BitVec w` (`uint32_t`/`uint64_t`: arithmetic modulo `2^w`), bytes `BitVec 8`.
Writes outside `m_buffer` are undefined behaviour: the result is `none`.
-/
namespace Verif.Sha2

/-- `uint8_t`. -/
abbrev Byte := BitVec 8

/-- `m_digest` (Sha2Impl.h:78, 136) and the variables `v0 … v7` of `processBuffer`. -/
structure St (w : Nat) where
  x0 : BitVec w
  x1 : BitVec w
  x2 : BitVec w
  x3 : BitVec w
  x4 : BitVec w
  x5 : BitVec w
  x6 : BitVec w
  x7 : BitVec w
  deriving DecidableEq, Repr

/-- Sha2Impl.hpp:91 `wv(i)` read. -/
def St.get {w : Nat} (s : St w) : Fin 8 → BitVec w
  | 0 => s.x0 | 1 => s.x1 | 2 => s.x2 | 3 => s.x3 | 4 => s.x4 | 5 => s.x5 | 6 => s.x6 | 7 => s.x7

/-- Sha2Impl.hpp:91 `wv(i)` written. -/
def St.set {w : Nat} (s : St w) (i : Fin 8) (y : BitVec w) : St w :=
  match i with
  | 0 => { s with x0 := y } | 1 => { s with x1 := y } | 2 => { s with x2 := y } | 3 => { s with x3 := y }
  | 4 => { s with x4 := y } | 5 => { s with x5 := y } | 6 => { s with x6 := y } | 7 => { s with x7 := y }

/-- Sha2Impl.hpp:222-229, 432-439 `m_digest[i] += vi`. -/
def St.add {w : Nat} (s v : St w) : St w :=
  ⟨s.x0 + v.x0, s.x1 + v.x1, s.x2 + v.x2, s.x3 + v.x3, s.x4 + v.x4, s.x5 + v.x5, s.x6 + v.x6, s.x7 + v.x7⟩

/-- Sha2Impl.hpp:83 `Ch`. -/
def ch {w : Nat} (x y z : BitVec w) : BitVec w := z ^^^ (x &&& (y ^^^ z))

/-- Sha2Impl.hpp:85 `Maj`. -/
def maj {w : Nat} (x y z : BitVec w) : BitVec w := (x &&& y) ||| (z &&& (x ^^^ y))

/-- Sha2Impl.hpp:87 `Rotr`, `nbits = w`. -/
def rotr {w : Nat} (x : BitVec w) (n : Nat) : BitVec w := (x >>> n) ||| (x <<< (w - n))

/-- What differs between the 32-bit and the 64-bit version. -/
structure Params (w : Nat) where
  S0 : BitVec w → BitVec w
  S1 : BitVec w → BitVec w
  s0 : BitVec w → BitVec w
  s1 : BitVec w → BitVec w
  K : List (BitVec w)
  /-- start of each group of eight unrolled `round_16_…` lines -/
  groups : List Nat
  /-- `cMESSAGE_BLOCK_SIZE` -/
  block : Nat
  /-- `cMESSAGE_PAD_POSITION` -/
  pad : Nat
  /-- the macro reading word `i` from the buffer -/
  load : List Byte → Nat → BitVec w

/-- Sha2Impl.hpp:68-71 `bswaparr` (`T` = 32 bit). -/
def load32 (buf : List Byte) (i : Nat) : BitVec 32 :=
  (buf.getD (i * 4 + 3) 0).setWidth 32 ||| (buf.getD (i * 4 + 2) 0).setWidth 32 <<< 8 |||
  (buf.getD (i * 4 + 1) 0).setWidth 32 <<< 16 ||| (buf.getD (i * 4 + 0) 0).setWidth 32 <<< 24

/-- Sha2Impl.hpp:73-80 `bswaparr64`. -/
def load64 (buf : List Byte) (i : Nat) : BitVec 64 :=
  (buf.getD (i * 8 + 7) 0).setWidth 64 ||| (buf.getD (i * 8 + 6) 0).setWidth 64 <<< 8 |||
  (buf.getD (i * 8 + 5) 0).setWidth 64 <<< 16 ||| (buf.getD (i * 8 + 4) 0).setWidth 64 <<< 24 |||
  (buf.getD (i * 8 + 3) 0).setWidth 64 <<< 32 ||| (buf.getD (i * 8 + 2) 0).setWidth 64 <<< 40 |||
  (buf.getD (i * 8 + 1) 0).setWidth 64 <<< 48 ||| (buf.getD (i * 8 + 0) 0).setWidth 64 <<< 56

/-- Sha2Impl.hpp:102-111. -/
def k256 : List (BitVec 32) :=
  [0x428a2f98, 0x71374491, 0xb5c0fbcf, 0xe9b5dba5, 0x3956c25b, 0x59f111f1, 0x923f82a4, 0xab1c5ed5,
   0xd807aa98, 0x12835b01, 0x243185be, 0x550c7dc3, 0x72be5d74, 0x80deb1fe, 0x9bdc06a7, 0xc19bf174,
   0xe49b69c1, 0xefbe4786, 0x0fc19dc6, 0x240ca1cc, 0x2de92c6f, 0x4a7484aa, 0x5cb0a9dc, 0x76f988da,
   0x983e5152, 0xa831c66d, 0xb00327c8, 0xbf597fc7, 0xc6e00bf3, 0xd5a79147, 0x06ca6351, 0x14292967,
   0x27b70a85, 0x2e1b2138, 0x4d2c6dfc, 0x53380d13, 0x650a7354, 0x766a0abb, 0x81c2c92e, 0x92722c85,
   0xa2bfe8a1, 0xa81a664b, 0xc24b8b70, 0xc76c51a3, 0xd192e819, 0xd6990624, 0xf40e3585, 0x106aa070,
   0x19a4c116, 0x1e376c08, 0x2748774c, 0x34b0bcb5, 0x391c0cb3, 0x4ed8aa4a, 0x5b9cca4f, 0x682e6ff3,
   0x748f82ee, 0x78a5636f, 0x84c87814, 0x8cc70208, 0x90befffa, 0xa4506ceb, 0xbef9a3f7, 0xc67178f2]

/-- Sha2Impl.hpp:242-263. -/
def k512 : List (BitVec 64) :=
  [0x428a2f98d728ae22, 0x7137449123ef65cd, 0xb5c0fbcfec4d3b2f, 0xe9b5dba58189dbbc,
   0x3956c25bf348b538, 0x59f111f1b605d019, 0x923f82a4af194f9b, 0xab1c5ed5da6d8118,
   0xd807aa98a3030242, 0x12835b0145706fbe, 0x243185be4ee4b28c, 0x550c7dc3d5ffb4e2,
   0x72be5d74f27b896f, 0x80deb1fe3b1696b1, 0x9bdc06a725c71235, 0xc19bf174cf692694,
   0xe49b69c19ef14ad2, 0xefbe4786384f25e3, 0x0fc19dc68b8cd5b5, 0x240ca1cc77ac9c65,
   0x2de92c6f592b0275, 0x4a7484aa6ea6e483, 0x5cb0a9dcbd41fbd4, 0x76f988da831153b5,
   0x983e5152ee66dfab, 0xa831c66d2db43210, 0xb00327c898fb213f, 0xbf597fc7beef0ee4,
   0xc6e00bf33da88fc2, 0xd5a79147930aa725, 0x06ca6351e003826f, 0x142929670a0e6e70,
   0x27b70a8546d22ffc, 0x2e1b21385c26c926, 0x4d2c6dfc5ac42aed, 0x53380d139d95b3df,
   0x650a73548baf63de, 0x766a0abb3c77b2a8, 0x81c2c92e47edaee6, 0x92722c851482353b,
   0xa2bfe8a14cf10364, 0xa81a664bbc423001, 0xc24b8b70d0f89791, 0xc76c51a30654be30,
   0xd192e819d6ef5218, 0xd69906245565a910, 0xf40e35855771202a, 0x106aa07032bbd1b8,
   0x19a4c116b8d2d0c8, 0x1e376c085141ab53, 0x2748774cdf8eeb99, 0x34b0bcb5e19b48a8,
   0x391c0cb3c5c95a63, 0x4ed8aa4ae3418acb, 0x5b9cca4f7763e373, 0x682e6ff3d6b2b8a3,
   0x748f82ee5defb2fc, 0x78a5636f43172f60, 0x84c87814a1f0ab72, 0x8cc702081a6439ec,
   0x90befffa23631e28, 0xa4506cebde82bde9, 0xbef9a3f7b2c67915, 0xc67178f2e372532b,
   0xca273eceea26619c, 0xd186b8c721c0c207, 0xeada7dd6cde0eb1e, 0xf57d4f7fee6ed178,
   0x06f067aa72176fba, 0x0a637dc5a2c898a6, 0x113f9804bef90dae, 0x1b710b35131c471b,
   0x28db77f523047d84, 0x32caab7b40c72493, 0x3c9ebe0a15c9bebc, 0x431d67c49c100d4c,
   0x4cc5d4becb3e42b6, 0x597f299cfc657e2a, 0x5fcb6fab3ad6faec, 0x6c44198c4a475817]

/-- Sha2Impl.hpp:93-96 and Sha2Impl.h:56,60. -/
def p32 : Params 32 where
  S0 x := rotr x 2 ^^^ rotr x 13 ^^^ rotr x 22
  S1 x := rotr x 6 ^^^ rotr x 11 ^^^ rotr x 25
  s0 x := rotr x 7 ^^^ rotr x 18 ^^^ (x >>> 3)
  s1 x := rotr x 17 ^^^ rotr x 19 ^^^ (x >>> 10)
  K := k256
  groups := [16, 24, 32, 40, 48, 56]
  block := 64
  pad := 56
  load := load32

/-- Sha2Impl.hpp:268-271 and Sha2Impl.h:109,113. -/
def p64 : Params 64 where
  S0 x := rotr x 28 ^^^ rotr x 34 ^^^ rotr x 39
  S1 x := rotr x 14 ^^^ rotr x 18 ^^^ rotr x 41
  s0 x := rotr x 1 ^^^ rotr x 8 ^^^ (x >>> 7)
  s1 x := rotr x 19 ^^^ rotr x 61 ^^^ (x >>> 6)
  K := k512
  groups := [16, 24, 32, 40, 48, 56, 64, 72]
  block := 128
  pad := 112
  load := load64

/-- The array `w[16]`. -/
abbrev Arr (w : Nat) := Nat → BitVec w

/-- Sha2Impl.hpp:113-117, 305-309 `round_0_15`; also the last four lines of `round_16_63`
(121-124) and `round_16_79` (313-316). -/
def round {w : Nat} (P : Params w) (a b c d e f g h : Fin 8) (t : Nat) (v : St w) (W : Arr w) : St w :=
  let T1 := v.get h + P.S1 (v.get e) + ch (v.get e) (v.get f) (v.get g) + P.K.getD t 0 + W (t &&& 15)
  let T2 := P.S0 (v.get a) + maj (v.get a) (v.get b) (v.get c)
  let v := v.set d (v.get d + T1)
  v.set h (T1 + T2)

/-- Sha2Impl.hpp:120, 312 `W[(t)&15] += …`. -/
def extend {w : Nat} (P : Params w) (t : Nat) (W : Arr w) : Arr w :=
  let x := W (t &&& 15) + (P.s1 (W ((t + 14) &&& 15)) + W ((t + 9) &&& 15) + P.s0 (W ((t + 1) &&& 15)))
  fun i => if i = (t &&& 15) then x else W i

/-- Eight unrolled lines `round_0_15(…, t)` … `round_0_15(…, t+7)`, Sha2Impl.hpp:150-157,
159-166, 342-349, 351-358. -/
def group0 {w : Nat} (P : Params w) (t : Nat) (v : St w) (W : Arr w) : St w :=
  let v := round P 0 1 2 3 4 5 6 7 (t + 0) v W
  let v := round P 7 0 1 2 3 4 5 6 (t + 1) v W
  let v := round P 6 7 0 1 2 3 4 5 (t + 2) v W
  let v := round P 5 6 7 0 1 2 3 4 (t + 3) v W
  let v := round P 4 5 6 7 0 1 2 3 (t + 4) v W
  let v := round P 3 4 5 6 7 0 1 2 (t + 5) v W
  let v := round P 2 3 4 5 6 7 0 1 (t + 6) v W
  let v := round P 1 2 3 4 5 6 7 0 (t + 7) v W
  v

/-- Eight unrolled lines `round_16_63(…, t)` … (`round_16_79`), Sha2Impl.hpp:168-175 …
213-220, 360-367 … 423-430. -/
def group16 {w : Nat} (P : Params w) (v : St w) (W : Arr w) (t : Nat) : St w × Arr w :=
  let W := extend P (t + 0) W
  let v := round P 0 1 2 3 4 5 6 7 (t + 0) v W
  let W := extend P (t + 1) W
  let v := round P 7 0 1 2 3 4 5 6 (t + 1) v W
  let W := extend P (t + 2) W
  let v := round P 6 7 0 1 2 3 4 5 (t + 2) v W
  let W := extend P (t + 3) W
  let v := round P 5 6 7 0 1 2 3 4 (t + 3) v W
  let W := extend P (t + 4) W
  let v := round P 4 5 6 7 0 1 2 3 (t + 4) v W
  let W := extend P (t + 5) W
  let v := round P 3 4 5 6 7 0 1 2 (t + 5) v W
  let W := extend P (t + 6) W
  let v := round P 2 3 4 5 6 7 0 1 (t + 6) v W
  let W := extend P (t + 7) W
  let v := round P 1 2 3 4 5 6 7 0 (t + 7) v W
  (v, W)

/-- Sha2Impl.hpp:126-230, 318-440 `processBuffer()`: the new `m_digest`. -/
def processBuffer {w : Nat} (P : Params w) (digest : St w) (buf : List Byte) : St w :=
  let W : Arr w := fun i => P.load buf i
  let v := group0 P 0 digest W
  let v := group0 P 8 v W
  let r := P.groups.foldl (fun s t => group16 P s.1 s.2 t) (v, W)
  digest.add r.1

/-- Members, Sha2Impl.h:77-86, 135-144. -/
structure Obj (w : Nat) where
  digest : St w
  /-- `m_message_size`, `uint64_t` -/
  size : BitVec 64
  buffer : List Byte
  fill : Nat
  deriving DecidableEq, Repr

/-- Sha2Impl.hpp:42-55, 279-292 `clear()`; `iv` are the template parameters. The buffer is left
alone. -/
def clear {w : Nat} (iv : St w) (o : Obj w) : Obj w := { o with digest := iv, size := 0, fill := 0 }

/-- The constructor, Sha2Impl.hpp:36-40, 273-277: an uninitialised buffer. -/
def new {w : Nat} (iv : St w) (garbage : List Byte) : Obj w := clear iv { digest := iv, size := 0, buffer := garbage, fill := 0 }

/-- `memcpy(&m_buffer[at], src, n)` / `m_buffer[at] = …`; outside the buffer: undefined. -/
def poke (buf : List Byte) (pos : Nat) (src : List Byte) : Option (List Byte) :=
  if pos + src.length ≤ buf.length then some (buf.take pos ++ src ++ buf.drop (pos + src.length)) else none

/-- Sha2.hpp:43-57 `process(const char *)`; the list is the memory `data` points to. Running past
its end is undefined. -/
def processCStr {w : Nat} (P : Params w) (o : Obj w) : List Byte → Option (Obj w)
  | [] => none
  | c :: cs =>
    if c = 0 then some o
    else
      let o := if o.fill = P.block then { o with digest := processBuffer P o.digest o.buffer, fill := 0 } else o
      match poke o.buffer o.fill [c] with
      | none => none
      | some b => processCStr P { o with buffer := b, fill := o.fill + 1, size := o.size + 1 } cs

/-- Sha2.hpp:66-75 the loop of `process(const void *, size_t)`; `data` is what `ptr` points to,
`rest` its length. `none` also if the number of iterations exceeds `fuel`. -/
def processLoop {w : Nat} (P : Params w) : Nat → Obj w → List Byte → Option (Obj w × List Byte)
  | 0, _, _ => none
  | fuel + 1, o, data =>
    if data.length ≥ P.block - o.fill then
      let amount := P.block - o.fill
      match poke o.buffer o.fill (data.take amount) with
      | none => none
      | some b =>
        processLoop P fuel { digest := processBuffer P o.digest b, size := o.size + BitVec.ofNat 64 amount,
                             buffer := b, fill := 0 } (data.drop amount)
    else some (o, data)

/-- Sha2.hpp:59-81 `process(const void *, size_t)`. -/
def process {w : Nat} (P : Params w) (o : Obj w) (data : List Byte) : Option (Obj w) :=
  match processLoop P (data.length + 2) o data with
  | none => none
  | some (o, rest) =>
    match poke o.buffer o.fill rest with
    | none => none
    | some b => some { o with buffer := b, size := o.size + BitVec.ofNat 64 rest.length, fill := o.fill + rest.length }

/-- Sha2.hpp:124-131, 149-156: the eight length bytes. -/
def lengthBytes (bits : BitVec 64) : List Byte :=
  [56, 48, 40, 32, 24, 16, 8, 0].map fun s => ((bits >>> s) &&& 0xff).setWidth 8

/-- Sha2.hpp:99-159 `finalizeBuffer(size)`. -/
def finalizeBuffer {w : Nat} (P : Params w) (o : Obj w) (size : Nat) : Option (Obj w) := do
  let bits : BitVec 64 := o.size * 8
  let (o, size) ←
    if size < P.block then do
      let b ← poke o.buffer size [0x80]
      pure ({ o with buffer := b }, size + 1)
    else do
      let d := processBuffer P o.digest o.buffer
      let b ← poke o.buffer 0 [0x80]
      pure ({ o with digest := d, buffer := b }, 1)
  if size ≤ P.pad then
    let b ← poke o.buffer size (List.replicate (P.block - 8 - size) 0)
    let b ← poke b (P.block - 8) (lengthBytes bits)
    pure { o with buffer := b, digest := processBuffer P o.digest b }
  else
    let b ← poke o.buffer size (List.replicate (P.block - size) 0)
    let d := processBuffer P o.digest b
    let b ← poke b 0 (List.replicate (P.block - 8) 0)
    let b ← poke b (P.block - 8) (lengthBytes bits)
    pure { o with buffer := b, digest := processBuffer P d b }

/-- Sha2.hpp:83-88 `finalize()`. -/
def finalize {w : Nat} (P : Params w) (o : Obj w) : Option (Obj w) := finalizeBuffer P o o.fill

/-- `std::hex` output of an unsigned number: lower case, no leading zeros. -/
def hexChars (n : Nat) : List Char :=
  if n < 16 then [Nat.digitChar n] else hexChars (n / 16) ++ [Nat.digitChar (n % 16)]

/-- Sha2Impl.hpp:57-66, 294-303 `getHexDigest()`: `std::setw(w/4) << std::setfill('0')`. -/
def getHexDigest {w : Nat} (len : Nat) (o : Obj w) : List Char :=
  ((List.finRange 8).take len).flatMap fun i =>
    let c := hexChars (o.digest.get i).toNat
    List.replicate (w / 4 - c.length) '0' ++ c

/-- Sha2.h:111-113. -/
def iv224 : St 32 :=
  ⟨0xc1059ed8, 0x367cd507, 0x3070dd17, 0xf70e5939, 0xffc00b31, 0x68581511, 0x64f98fa7, 0xbefa4fa4⟩

/-- Sha2.h:114-117. -/
def iv256 : St 32 :=
  ⟨0x6a09e667, 0xbb67ae85, 0x3c6ef372, 0xa54ff53a, 0x510e527f, 0x9b05688c, 0x1f83d9ab, 0x5be0cd19⟩

/-- Sha2.h:118-121. -/
def iv384 : St 64 :=
  ⟨0xcbbb9d5dc1059ed8, 0x629a292a367cd507, 0x9159015a3070dd17, 0x152fecd8f70e5939,
   0x67332667ffc00b31, 0x8eb44a8768581511, 0xdb0c2e0d64f98fa7, 0x47b5481dbefa4fa4⟩

/-- Sha2.h:122-125. -/
def iv512 : St 64 :=
  ⟨0x6a09e667f3bcc908, 0xbb67ae8584caa73b, 0x3c6ef372fe94f82b, 0xa54ff53a5f1d36f1,
   0x510e527fade682d1, 0x9b05688c2b3e6c1f, 0x1f83d9abfb41bd6b, 0x5be0cd19137e2179⟩

/-- A call of one of the `process` overloads. -/
inductive Feed where
  /-- `process(const char *)`: an array of characters followed by a terminating zero -/
  | cstr (s : List Byte)
  /-- `process(const void *, size_t)` or `process(const String &)` -/
  | mem (s : List Byte)
  deriving DecidableEq, Repr

/-- The bytes a call contributes; a C string ends at its first zero. -/
def Feed.bytes : Feed → List Byte
  | .cstr s => s.takeWhile (· ≠ 0)
  | .mem s => s

/-- One call. -/
def Feed.run {w : Nat} (P : Params w) (o : Obj w) : Feed → Option (Obj w)
  | .cstr s => processCStr P o (s ++ [0])
  | .mem s => process P o s

/-- A sequence of calls. -/
def feedAll {w : Nat} (P : Params w) : Obj w → List Feed → Option (Obj w)
  | o, [] => some o
  | o, f :: fs => (f.run P o).bind fun o => feedAll P o fs

/-- Any public call that changes the object. -/
inductive Call where
  | process (f : Feed)
  | finalize
  | clear
  deriving DecidableEq, Repr

/-- One call; `iv` are the template parameters. -/
def Call.run {w : Nat} (P : Params w) (iv : St w) (o : Obj w) : Call → Option (Obj w)
  | .process f => f.run P o
  | .finalize => Sha2.finalize P o
  | .clear => some (Sha2.clear iv o)

/-- Any sequence of calls. -/
def runAll {w : Nat} (P : Params w) (iv : St w) : Obj w → List Call → Option (Obj w)
  | o, [] => some o
  | o, c :: cs => (c.run P iv o).bind fun o => runAll P iv o cs

/-- `process(…)` several times, then `finalize()` and `getHexDigest()`; `none` if undefined
behaviour occurs. -/
def hexOf {w : Nat} (P : Params w) (len : Nat) (o : Obj w) (fs : List Feed) : Option (List Char) :=
  ((feedAll P o fs).bind (Sha2.finalize P)).map (getHexDigest len)

end Verif.Sha2
