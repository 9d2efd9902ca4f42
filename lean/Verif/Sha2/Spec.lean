import Mathlib.Data.Nat.Nth
import Mathlib.Data.Nat.Prime.Basic

/-!
# FIPS 180-4, independently of the code

Everything here is a transcription of the standard (sections 4 to 6). Bytes are `BitVec 8`, words
`BitVec w` with `w = 32` or `64`. The constants are *not* copied: they are defined, as in the
standard, from the roots of the prime numbers.
-/
namespace Verif.Sha2.Spec

/-- The working variables `a … h` (6.2.2) and the hash value `H_0 … H_7`. -/
structure Vars (w : Nat) where
  a : BitVec w
  b : BitVec w
  c : BitVec w
  d : BitVec w
  e : BitVec w
  f : BitVec w
  g : BitVec w
  h : BitVec w
  deriving DecidableEq

/-- The words in order. -/
def Vars.toList {w : Nat} (v : Vars w) : List (BitVec w) := [v.a, v.b, v.c, v.d, v.e, v.f, v.g, v.h]

/-- `⌊n^(1/k)⌋`. -/
def floorRoot (k n : Nat) : Nat := Nat.findGreatest (fun r => r ^ k ≤ n) n

/-- The first `w` bits of the fractional part of the `k`-th root of `p`:
`⌊p^(1/k) · 2^w⌋ mod 2^w`. -/
def fracRoot (w k p : Nat) : BitVec w := BitVec.ofNat w (floorRoot k (p * 2 ^ (k * w)))

/-- The `i`-th prime number, counted from 0. -/
noncomputable def prime (i : Nat) : Nat := Nat.nth Nat.Prime i

/-- 4.1.2, (4.2). -/
def Ch {w : Nat} (x y z : BitVec w) : BitVec w := (x &&& y) ^^^ (~~~x &&& z)

/-- 4.1.2, (4.3). -/
def Maj {w : Nat} (x y z : BitVec w) : BitVec w := (x &&& y) ^^^ (x &&& z) ^^^ (y &&& z)

/-- The functions that differ between the two word sizes, the number of rounds, and the number of
bytes of the length field. -/
structure Alg (w : Nat) where
  S0 : BitVec w → BitVec w
  S1 : BitVec w → BitVec w
  s0 : BitVec w → BitVec w
  s1 : BitVec w → BitVec w
  rounds : Nat
  /-- bytes of the length field -/
  lenBytes : Nat

/-- 4.1.2. -/
def alg32 : Alg 32 where
  S0 x := x.rotateRight 2 ^^^ x.rotateRight 13 ^^^ x.rotateRight 22
  S1 x := x.rotateRight 6 ^^^ x.rotateRight 11 ^^^ x.rotateRight 25
  s0 x := x.rotateRight 7 ^^^ x.rotateRight 18 ^^^ x >>> 3
  s1 x := x.rotateRight 17 ^^^ x.rotateRight 19 ^^^ x >>> 10
  rounds := 64
  lenBytes := 8

/-- 4.1.3. -/
def alg64 : Alg 64 where
  S0 x := x.rotateRight 28 ^^^ x.rotateRight 34 ^^^ x.rotateRight 39
  S1 x := x.rotateRight 14 ^^^ x.rotateRight 18 ^^^ x.rotateRight 41
  s0 x := x.rotateRight 1 ^^^ x.rotateRight 8 ^^^ x >>> 7
  s1 x := x.rotateRight 19 ^^^ x.rotateRight 61 ^^^ x >>> 6
  rounds := 80
  lenBytes := 16

/-- 4.2.2, 4.2.3: `K_t`, from the cube root of the `t`-th prime. -/
noncomputable def K (w t : Nat) : BitVec w := fracRoot w 3 (prime t)

/-- 5.3.3, 5.3.5: square roots of the first eight primes. -/
noncomputable def ivFirst (w : Nat) : Vars w :=
  ⟨fracRoot w 2 (prime 0), fracRoot w 2 (prime 1), fracRoot w 2 (prime 2), fracRoot w 2 (prime 3),
   fracRoot w 2 (prime 4), fracRoot w 2 (prime 5), fracRoot w 2 (prime 6), fracRoot w 2 (prime 7)⟩

/-- 5.3.4: square roots of the ninth through sixteenth primes (SHA-384). -/
noncomputable def iv384 : Vars 64 :=
  ⟨fracRoot 64 2 (prime 8), fracRoot 64 2 (prime 9), fracRoot 64 2 (prime 10), fracRoot 64 2 (prime 11),
   fracRoot 64 2 (prime 12), fracRoot 64 2 (prime 13), fracRoot 64 2 (prime 14), fracRoot 64 2 (prime 15)⟩

/-- 5.3.2: SHA-224 uses the second 32 bits of the fractional parts used by SHA-384. -/
noncomputable def iv224 : Vars 32 :=
  ⟨iv384.a.setWidth 32, iv384.b.setWidth 32, iv384.c.setWidth 32, iv384.d.setWidth 32,
   iv384.e.setWidth 32, iv384.f.setWidth 32, iv384.g.setWidth 32, iv384.h.setWidth 32⟩

/-- Big-endian value of a byte string. -/
def beVal (l : List (BitVec 8)) : Nat := l.foldl (fun acc b => acc * 256 + b.toNat) 0

/-- The `n`-byte big-endian representation of `x`. -/
def beBytes (n x : Nat) : List (BitVec 8) := (List.range n).reverse.map fun i => BitVec.ofNat 8 (x / 256 ^ i)

/-- Block size in bytes: sixteen words. -/
def blockBytes (w : Nat) : Nat := 16 * (w / 8)

/-- 5.1: the smallest `k` completing the last block. -/
def padZeros (w lenBytes n : Nat) : Nat :=
  (blockBytes w - (n + 1 + lenBytes) % blockBytes w) % blockBytes w

/-- 5.1: message, bit `1`, zeros, length in bits. -/
def pad {w : Nat} (A : Alg w) (m : List (BitVec 8)) : List (BitVec 8) :=
  m ++ [0x80] ++ List.replicate (padZeros w A.lenBytes m.length) 0 ++ beBytes A.lenBytes (8 * m.length)

/-- 5.2: word `j` of a block. -/
def word (w : Nat) (block : List (BitVec 8)) (j : Nat) : BitVec w :=
  BitVec.ofNat w (beVal ((block.drop (j * (w / 8))).take (w / 8)))

/-- 6.2.2 step 1: the message schedule. -/
def W {w : Nat} (A : Alg w) (M : Nat → BitVec w) (t : Nat) : BitVec w :=
  if t < 16 then M t
  else A.s1 (W A M (t - 2)) + W A M (t - 7) + A.s0 (W A M (t - 15)) + W A M (t - 16)

/-- 6.2.2 step 3, one round. -/
def roundStep {w : Nat} (A : Alg w) (k x : BitVec w) (v : Vars w) : Vars w :=
  let T1 := v.h + A.S1 v.e + Ch v.e v.f v.g + k + x
  let T2 := A.S0 v.a + Maj v.a v.b v.c
  ⟨T1 + T2, v.a, v.b, v.c, v.d + T1, v.e, v.f, v.g⟩

/-- 6.2.2 steps 2 and 3: the variables after `t` rounds. -/
noncomputable def afterRounds {w : Nat} (A : Alg w) (M : Nat → BitVec w) (H : Vars w) : Nat → Vars w
  | 0 => H
  | t + 1 => roundStep A (K w t) (W A M t) (afterRounds A M H t)

/-- Componentwise addition modulo `2^w`. -/
def Vars.add {w : Nat} (x y : Vars w) : Vars w :=
  ⟨x.a + y.a, x.b + y.b, x.c + y.c, x.d + y.d, x.e + y.e, x.f + y.f, x.g + y.g, x.h + y.h⟩

/-- 6.2.2: the hash value after one block. -/
noncomputable def compress {w : Nat} (A : Alg w) (H : Vars w) (block : List (BitVec 8)) : Vars w :=
  H.add (afterRounds A (word w block) H A.rounds)

/-- Block `i` of a byte string. -/
def blockAt (w : Nat) (l : List (BitVec 8)) (i : Nat) : List (BitVec 8) :=
  (l.drop (i * blockBytes w)).take (blockBytes w)

/-- All blocks, in order. -/
noncomputable def hashBlocks {w : Nat} (A : Alg w) (H : Vars w) (l : List (BitVec 8)) : Vars w :=
  (List.range (l.length / blockBytes w)).foldl (fun H i => compress A H (blockAt w l i)) H

/-- Lower-case hexadecimal with all `w / 4` digits. -/
def hexWord {w : Nat} (x : BitVec w) : List Char :=
  (List.range (w / 4)).reverse.map fun i => Nat.digitChar (x.toNat / 16 ^ i % 16)

/-- The digest: the first `len` words of the final hash value, in hexadecimal. -/
noncomputable def hash {w : Nat} (A : Alg w) (iv : Vars w) (len : Nat) (m : List (BitVec 8)) : List Char :=
  ((hashBlocks A iv (pad A m)).toList.take len).flatMap hexWord

/-- SHA-224. -/
noncomputable def sha224 : List (BitVec 8) → List Char := hash alg32 iv224 7
/-- SHA-256. -/
noncomputable def sha256 : List (BitVec 8) → List Char := hash alg32 (ivFirst 32) 8
/-- SHA-384. -/
noncomputable def sha384 : List (BitVec 8) → List Char := hash alg64 iv384 6
/-- SHA-512. -/
noncomputable def sha512 : List (BitVec 8) → List Char := hash alg64 (ivFirst 64) 8

end Verif.Sha2.Spec
