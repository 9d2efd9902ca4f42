import Verif.Sha2.Model
import Verif.Sha2.Spec
import Mathlib.Tactic

/-! # The tables of constants are those of the standard -/
namespace Verif.Sha2
open Spec

theorem floorRoot_eq {k n r : Nat} (hk : 0 < k) (h1 : r ^ k ≤ n) (h2 : n < (r + 1) ^ k) : floorRoot k n = r := by
  unfold floorRoot
  rw [Nat.findGreatest_eq_iff]
  refine ⟨?_, fun _ => h1, ?_⟩
  · rcases Nat.eq_zero_or_pos r with h | h
    · omega
    · exact (Nat.le_self_pow (by omega) r).trans h1
  · intro m hm _ hle
    have := Nat.pow_le_pow_left (show r + 1 ≤ m from hm) k
    omega

/-- Primality by trial division, for evaluation. -/
def isP (n : Nat) : Bool := 2 ≤ n && (List.range n).all fun m => m < 2 || n % m != 0

theorem isP_iff (n : Nat) : isP n = true ↔ n.Prime := by
  unfold isP
  rw [Nat.prime_def_lt']
  simp only [Bool.and_eq_true, decide_eq_true_eq, List.all_eq_true, List.mem_range, Bool.or_eq_true,
    bne_iff_ne, ne_eq]
  refine and_congr Iff.rfl ⟨fun h m h2 hm hd => ?_, fun h m hm => ?_⟩
  · rcases h m hm with h | h
    · omega
    · exact h (Nat.mod_eq_zero_of_dvd hd)
  · by_cases h2 : m < 2
    · exact .inl h2
    · exact .inr fun h0 => h m (by omega) hm (Nat.dvd_of_mod_eq_zero h0)

theorem count_len (p : Nat → Bool) (N : Nat) : ((List.range N).filter p).length = Nat.count (p · = true) N := by
  induction N with
  | zero => rfl
  | succ N ih =>
    rw [List.range_succ, List.filter_append, List.length_append, ih, Nat.count_succ]
    by_cases h : p N = true <;> simp [h]

theorem filter_range_nth (p : Nat → Bool) (N i : Nat) (h : i < ((List.range N).filter p).length) :
    ((List.range N).filter p)[i] = Nat.nth (p · = true) i := by
  induction N with
  | zero => simp at h
  | succ N ih =>
    simp only [List.range_succ, List.filter_append] at h ⊢
    by_cases hi : i < ((List.range N).filter p).length
    · rw [List.getElem_append_left hi]; exact ih hi
    · rw [List.getElem_append_right (by omega)]
      by_cases hp : p N = true
      · have : i = ((List.range N).filter p).length := by simp [hp] at h; omega
        subst this
        simp only [Nat.sub_self]
        have e : Nat.nth (p · = true) ((List.range N).filter p).length = N := by
          rw [count_len, Nat.nth_count (p := (p · = true)) hp]
        rw [e]
        simp [hp]
      · simp [hp] at h; omega

/-- The first 80 primes. -/
def primes80 : List Nat := (List.range 410).filter isP

theorem prime_eq (i : Nat) (h : i < primes80.length) : Spec.prime i = primes80[i] := by
  unfold Spec.prime primes80
  rw [filter_range_nth isP 410 i h]
  congr 1
  funext n
  exact propext (isP_iff n).symm

theorem primes80_len : primes80.length = 80 := by decide +kernel

/-- Each entry `x` with integer part `r` is the `k`-th root of the prime at its place. -/
def checkRoots (w k : Nat) (ps ints : List Nat) (t : List (BitVec w)) : Bool :=
  (List.range t.length).all fun i =>
    let r := ints.getD i 0 * 2 ^ w + (t.getD i 0).toNat
    let n := ps.getD i 0 * 2 ^ (k * w)
    decide (r ^ k ≤ n) && decide (n < (r + 1) ^ k)

theorem fracRoot_of_check {w k : Nat} {ps ints : List Nat} {t : List (BitVec w)} (hk : 0 < k)
    (h : checkRoots w k ps ints t = true) (i : Nat) (hi : i < t.length) :
    fracRoot w k (ps.getD i 0) = t.getD i 0 := by
  unfold checkRoots at h
  rw [List.all_eq_true] at h
  have := h i (List.mem_range.2 hi)
  simp only [Bool.and_eq_true, decide_eq_true_eq] at this
  unfold fracRoot
  rw [floorRoot_eq hk this.1 this.2]
  apply BitVec.eq_of_toNat_eq
  rw [BitVec.toNat_ofNat, Nat.mul_add_mod_self_right, Nat.mod_eq_of_lt (BitVec.isLt _)]

/-- Integer parts of the cube roots of the primes in the table. -/
def ints3 : List Nat := primes80.map fun p => ((List.range 9).filter fun r => r ^ 3 ≤ p).length - 1
/-- Integer parts of the square roots. -/
def ints2 : List Nat := primes80.map fun p => ((List.range 22).filter fun r => r ^ 2 ≤ p).length - 1

theorem prime_getD (i : Nat) (h : i < 80) : Spec.prime i = primes80.getD i 0 := by
  rw [prime_eq i (by rw [primes80_len]; exact h)]
  rw [List.getD_eq_getElem?_getD, List.getElem?_eq_getElem (by rw [primes80_len]; exact h)]; rfl

theorem K32 (t : Nat) (h : t < 64) : k256.getD t 0 = Spec.K 32 t := by
  unfold Spec.K
  rw [prime_getD t (by omega)]
  exact (fracRoot_of_check (ints := ints3) (t := k256) (by decide) (by decide +kernel) t h).symm

theorem K64 (t : Nat) (h : t < 80) : k512.getD t 0 = Spec.K 64 t := by
  unfold Spec.K
  rw [prime_getD t (by omega)]
  exact (fracRoot_of_check (ints := ints3) (t := k512) (by decide) (by decide +kernel) t h).symm

/-- The hash value held in `m_digest`. -/
def St.toVars {w : Nat} (s : St w) : Spec.Vars w := ⟨s.x0, s.x1, s.x2, s.x3, s.x4, s.x5, s.x6, s.x7⟩

theorem iv256_eq : iv256.toVars = Spec.ivFirst 32 := by
  have h := fun i hi => fracRoot_of_check (w := 32) (k := 2) (ps := primes80) (ints := ints2)
    (t := [0x6a09e667, 0xbb67ae85, 0x3c6ef372, 0xa54ff53a, 0x510e527f, 0x9b05688c, 0x1f83d9ab, 0x5be0cd19])
    (by decide) (by decide +kernel) i hi
  unfold Spec.ivFirst iv256 St.toVars
  simp only [prime_getD _ (show (0 : Nat) < 80 by decide), prime_getD _ (show (1 : Nat) < 80 by decide),
    prime_getD _ (show (2 : Nat) < 80 by decide), prime_getD _ (show (3 : Nat) < 80 by decide),
    prime_getD _ (show (4 : Nat) < 80 by decide), prime_getD _ (show (5 : Nat) < 80 by decide),
    prime_getD _ (show (6 : Nat) < 80 by decide), prime_getD _ (show (7 : Nat) < 80 by decide)]
  rw [h 0 (by decide), h 1 (by decide), h 2 (by decide), h 3 (by decide), h 4 (by decide), h 5 (by decide),
    h 6 (by decide), h 7 (by decide)]
  rfl

theorem iv512_eq : iv512.toVars = Spec.ivFirst 64 := by
  have h := fun i hi => fracRoot_of_check (w := 64) (k := 2) (ps := primes80) (ints := ints2)
    (t := [0x6a09e667f3bcc908, 0xbb67ae8584caa73b, 0x3c6ef372fe94f82b, 0xa54ff53a5f1d36f1,
     0x510e527fade682d1, 0x9b05688c2b3e6c1f, 0x1f83d9abfb41bd6b, 0x5be0cd19137e2179])
    (by decide) (by decide +kernel) i hi
  unfold Spec.ivFirst iv512 St.toVars
  simp only [prime_getD _ (show (0 : Nat) < 80 by decide), prime_getD _ (show (1 : Nat) < 80 by decide),
    prime_getD _ (show (2 : Nat) < 80 by decide), prime_getD _ (show (3 : Nat) < 80 by decide),
    prime_getD _ (show (4 : Nat) < 80 by decide), prime_getD _ (show (5 : Nat) < 80 by decide),
    prime_getD _ (show (6 : Nat) < 80 by decide), prime_getD _ (show (7 : Nat) < 80 by decide)]
  rw [h 0 (by decide), h 1 (by decide), h 2 (by decide), h 3 (by decide), h 4 (by decide), h 5 (by decide),
    h 6 (by decide), h 7 (by decide)]
  rfl

theorem getD_drop (l : List Nat) (k i : Nat) : (l.drop k).getD i 0 = l.getD (k + i) 0 := by
  simp [List.getD_eq_getElem?_getD]

theorem iv384_eq : iv384.toVars = Spec.iv384 := by
  have h := fun i hi => fracRoot_of_check (w := 64) (k := 2) (ps := primes80.drop 8) (ints := ints2.drop 8)
    (t := [0xcbbb9d5dc1059ed8, 0x629a292a367cd507, 0x9159015a3070dd17, 0x152fecd8f70e5939,
     0x67332667ffc00b31, 0x8eb44a8768581511, 0xdb0c2e0d64f98fa7, 0x47b5481dbefa4fa4])
    (by decide) (by decide +kernel) i hi
  simp only [getD_drop] at h
  unfold Spec.iv384 iv384 St.toVars
  simp only [prime_getD _ (show (8 : Nat) < 80 by decide), prime_getD _ (show (9 : Nat) < 80 by decide),
    prime_getD _ (show (10 : Nat) < 80 by decide), prime_getD _ (show (11 : Nat) < 80 by decide),
    prime_getD _ (show (12 : Nat) < 80 by decide), prime_getD _ (show (13 : Nat) < 80 by decide),
    prime_getD _ (show (14 : Nat) < 80 by decide), prime_getD _ (show (15 : Nat) < 80 by decide)]
  rw [h 0 (by decide), h 1 (by decide), h 2 (by decide), h 3 (by decide), h 4 (by decide), h 5 (by decide),
    h 6 (by decide), h 7 (by decide)]
  rfl

theorem iv224_eq : iv224.toVars = Spec.iv224 := by
  unfold Spec.iv224
  rw [← iv384_eq]
  decide +kernel

end Verif.Sha2
