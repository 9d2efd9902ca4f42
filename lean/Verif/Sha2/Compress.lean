import Verif.Sha2.Consts

/-! # `processBuffer()` is the compression function of the standard -/
namespace Verif.Sha2
open Spec

theorem ch_eq {w : Nat} (x y z : BitVec w) : ch x y z = Spec.Ch x y z := by
  unfold ch Spec.Ch
  ext i hi
  simp only [BitVec.getElem_xor, BitVec.getElem_and, BitVec.getElem_not]
  cases x[i] <;> cases y[i] <;> cases z[i] <;> rfl

theorem maj_eq {w : Nat} (x y z : BitVec w) : maj x y z = Spec.Maj x y z := by
  unfold maj Spec.Maj
  ext i hi
  simp only [BitVec.getElem_xor, BitVec.getElem_and, BitVec.getElem_or]
  cases x[i] <;> cases y[i] <;> cases z[i] <;> rfl

theorem rotr_eq {w : Nat} (x : BitVec w) (n : Nat) (h : n < w) : rotr x n = x.rotateRight n := by
  unfold rotr
  rw [BitVec.rotateRight_def, Nat.mod_eq_of_lt h]

/-- What is needed of the parameters. -/
structure Match {w : Nat} (P : Params w) (A : Spec.Alg w) : Prop where
  S0 : P.S0 = A.S0
  S1 : P.S1 = A.S1
  s0 : P.s0 = A.s0
  s1 : P.s1 = A.s1
  K : ∀ t, t < A.rounds → P.K.getD t 0 = Spec.K w t
  groups : ∃ n, P.groups = (List.range n).map (fun i => 16 + 8 * i) ∧ A.rounds = 16 + 8 * n
  block : P.block = blockBytes w
  load : ∀ buf i, buf.length = P.block → i < 16 → P.load buf i = word w buf i

/-- The role of variable `v_i`: `r` rounds after the start of a group of eight. -/
def view {w : Nat} (r : Fin 8) (v : St w) : Spec.Vars w :=
  ⟨v.get (0 - r), v.get (1 - r), v.get (2 - r), v.get (3 - r), v.get (4 - r), v.get (5 - r), v.get (6 - r),
   v.get (7 - r)⟩

theorem view_zero {w : Nat} (v : St w) : view 0 v = v.toVars := rfl

theorem round_view {w : Nat} {P : Params w} {A : Spec.Alg w} (h : Match P A) (r : Fin 8) (t : Nat)
    (ht : t < A.rounds) (v : St w) (W : Arr w) :
    view (r + 1) (round P (0 - r) (1 - r) (2 - r) (3 - r) (4 - r) (5 - r) (6 - r) (7 - r) t v W) =
      roundStep A (Spec.K w t) (W (t &&& 15)) (view r v) := by
  unfold round roundStep view
  rw [h.S0, h.S1, h.K t ht]
  simp only [ch_eq, maj_eq]
  match r with
  | 0 => rfl
  | 1 => rfl
  | 2 => rfl
  | 3 => rfl
  | 4 => rfl
  | 5 => rfl
  | 6 => rfl
  | 7 => rfl

theorem and15 (t : Nat) : t &&& 15 = t % 16 := Nat.and_two_pow_sub_one_eq_mod t 4

/-- The circular buffer holds the last sixteen words of the schedule before `t`. -/
def Circ {w : Nat} (A : Spec.Alg w) (M : Nat → BitVec w) (t : Nat) (W : Arr w) : Prop :=
  ∀ j, j < t → t ≤ j + 16 → W (j % 16) = Spec.W A M j

theorem W_ge {w : Nat} (A : Spec.Alg w) (M : Nat → BitVec w) (t : Nat) (h : 16 ≤ t) :
    Spec.W A M t = A.s1 (Spec.W A M (t - 2)) + Spec.W A M (t - 7) + A.s0 (Spec.W A M (t - 15)) + Spec.W A M (t - 16) := by
  rw [Spec.W, if_neg (by omega)]

theorem circ_extend {w : Nat} {P : Params w} {A : Spec.Alg w} (h : Match P A) {M : Nat → BitVec w} {t : Nat}
    {W : Arr w} (ht : 16 ≤ t) (hc : Circ A M t W) : Circ A M (t + 1) (extend P t W) := by
  have e0 : W (t % 16) = Spec.W A M (t - 16) := by
    have := hc (t - 16) (by omega) (by omega); rwa [show (t - 16) % 16 = t % 16 by omega] at this
  have e1 : W ((t + 14) % 16) = Spec.W A M (t - 2) := by
    have := hc (t - 2) (by omega) (by omega); rwa [show (t - 2) % 16 = (t + 14) % 16 by omega] at this
  have e2 : W ((t + 9) % 16) = Spec.W A M (t - 7) := by
    have := hc (t - 7) (by omega) (by omega); rwa [show (t - 7) % 16 = (t + 9) % 16 by omega] at this
  have e3 : W ((t + 1) % 16) = Spec.W A M (t - 15) := by
    have := hc (t - 15) (by omega) (by omega); rwa [show (t - 15) % 16 = (t + 1) % 16 by omega] at this
  intro j hj hj'
  unfold extend
  simp only [and15, h.s0, h.s1, e0, e1, e2, e3]
  by_cases hjt : j = t
  · subst hjt
    rw [if_pos rfl, W_ge A M j ht]
    rw [BitVec.add_comm]
  · rw [if_neg (by omega)]
    exact hc j (by omega) (by omega)

/-- One round of the second kind. -/
theorem step16 {w : Nat} {P : Params w} {A : Spec.Alg w} (h : Match P A) {M : Nat → BitVec w} {H : Spec.Vars w}
    (r : Fin 8) {t : Nat} {W : Arr w} {v : St w} (ht : 16 ≤ t) (ht' : t < A.rounds)
    (hc : Circ A M t W) (hv : view r v = afterRounds A M H t) :
    Circ A M (t + 1) (extend P t W) ∧
    view (r + 1) (round P (0 - r) (1 - r) (2 - r) (3 - r) (4 - r) (5 - r) (6 - r) (7 - r) t v (extend P t W)) =
      afterRounds A M H (t + 1) := by
  have hc' := circ_extend h ht hc
  refine ⟨hc', ?_⟩
  rw [round_view h r t ht', hv, and15, hc' t (by omega) (by omega)]
  rfl

/-- One round of the first kind. -/
theorem step0 {w : Nat} {P : Params w} {A : Spec.Alg w} (h : Match P A) {M : Nat → BitVec w} {H : Spec.Vars w}
    (r : Fin 8) {t : Nat} {W : Arr w} {v : St w} (ht : t < 16) (ht' : t < A.rounds)
    (hW : ∀ i, i < 16 → W i = M i) (hv : view r v = afterRounds A M H t) :
    view (r + 1) (round P (0 - r) (1 - r) (2 - r) (3 - r) (4 - r) (5 - r) (6 - r) (7 - r) t v W) =
      afterRounds A M H (t + 1) := by
  rw [round_view h r t ht', hv, and15, Nat.mod_eq_of_lt ht, hW t ht]
  rw [afterRounds, Spec.W, if_pos ht]

theorem group0_eq {w : Nat} {P : Params w} {A : Spec.Alg w} (h : Match P A) {M : Nat → BitVec w} {H : Spec.Vars w}
    {t : Nat} {W : Arr w} {v : St w} (ht : t + 8 ≤ 16) (ht' : t + 8 ≤ A.rounds)
    (hW : ∀ i, i < 16 → W i = M i) (hv : v.toVars = afterRounds A M H t) :
    (group0 P t v W).toVars = afterRounds A M H (t + 8) := by
  have h0 := step0 h 0 (by omega) (by omega) hW (show view 0 v = _ from hv)
  have h1 := step0 h 1 (by omega) (by omega) hW h0
  have h2 := step0 h 2 (by omega) (by omega) hW h1
  have h3 := step0 h 3 (by omega) (by omega) hW h2
  have h4 := step0 h 4 (by omega) (by omega) hW h3
  have h5 := step0 h 5 (by omega) (by omega) hW h4
  have h6 := step0 h 6 (by omega) (by omega) hW h5
  have h7 := step0 h 7 (by omega) (by omega) hW h6
  exact h7

theorem group16_eq {w : Nat} {P : Params w} {A : Spec.Alg w} (h : Match P A) {M : Nat → BitVec w} {H : Spec.Vars w}
    {t : Nat} {W : Arr w} {v : St w} (ht : 16 ≤ t) (ht' : t + 8 ≤ A.rounds)
    (hc : Circ A M t W) (hv : v.toVars = afterRounds A M H t) :
    Circ A M (t + 8) (group16 P v W t).2 ∧ (group16 P v W t).1.toVars = afterRounds A M H (t + 8) := by
  have h0 := step16 h 0 (by omega) (by omega) hc (show view 0 v = _ from hv)
  have h1 := step16 h 1 (by omega) (by omega) h0.1 h0.2
  have h2 := step16 h 2 (by omega) (by omega) h1.1 h1.2
  have h3 := step16 h 3 (by omega) (by omega) h2.1 h2.2
  have h4 := step16 h 4 (by omega) (by omega) h3.1 h3.2
  have h5 := step16 h 5 (by omega) (by omega) h4.1 h4.2
  have h6 := step16 h 6 (by omega) (by omega) h5.1 h5.2
  have h7 := step16 h 7 (by omega) (by omega) h6.1 h6.2
  exact h7

theorem groups_eq {w : Nat} {P : Params w} {A : Spec.Alg w} (h : Match P A) {M : Nat → BitVec w} {H : Spec.Vars w}
    {W : Arr w} {v : St w} (n : Nat) (hn : 16 + 8 * n ≤ A.rounds)
    (hc : Circ A M 16 W) (hv : v.toVars = afterRounds A M H 16) :
    let r := ((List.range n).map (fun i => 16 + 8 * i)).foldl (fun s t => group16 P s.1 s.2 t) (v, W)
    Circ A M (16 + 8 * n) r.2 ∧ r.1.toVars = afterRounds A M H (16 + 8 * n) := by
  induction n with
  | zero => exact ⟨hc, hv⟩
  | succ n ih =>
    obtain ⟨i1, i2⟩ := ih (by omega)
    simp only [List.range_succ, List.map_append, List.map_cons, List.map_nil, List.foldl_append, List.foldl_cons,
      List.foldl_nil]
    exact group16_eq h (t := 16 + 8 * n) (by omega) (by omega) i1 i2

theorem add_toVars {w : Nat} (a b : St w) : (a.add b).toVars = a.toVars.add b.toVars := rfl

theorem processBuffer_eq {w : Nat} {P : Params w} {A : Spec.Alg w} (h : Match P A) (d : St w) (buf : List Byte)
    (hb : buf.length = P.block) : (processBuffer P d buf).toVars = compress A d.toVars buf := by
  obtain ⟨n, hg, hr⟩ := h.groups
  unfold processBuffer compress
  rw [add_toVars, hg, hr]
  congr 1
  have hW : ∀ i, i < 16 → P.load buf i = word w buf i := fun i hi => h.load buf i hb hi
  refine (groups_eq h n (by omega) ?_ ?_).2
  · intro j hj _
    rw [Nat.mod_eq_of_lt hj, Spec.W, if_pos hj]
    exact hW j hj
  · exact group0_eq h (t := 8) (by omega) (by omega) hW (group0_eq h (t := 0) (by omega) (by omega) hW rfl)

/-- Joining bytes by shifting. -/
theorem or_shift {w : Nat} (x : BitVec w) (b : Byte) (k : Nat) (hx : x.toNat < 2 ^ k) (hk : k + 8 ≤ w) :
    (x ||| b.setWidth w <<< k).toNat = b.toNat * 2 ^ k + x.toNat ∧
    (x ||| b.setWidth w <<< k).toNat < 2 ^ (k + 8) := by
  have hb : b.toNat < 256 := b.isLt
  have h1 : 2 ^ (k + 8) ≤ 2 ^ w := Nat.pow_le_pow_right (by decide) hk
  have h2 : (2:Nat) ^ (k + 8) = 256 * 2 ^ k := by rw [Nat.pow_add]; omega
  have h3 : b.toNat * 2 ^ k + 2 ^ k ≤ 256 * 2 ^ k := by
    have : (b.toNat + 1) * 2 ^ k ≤ 256 * 2 ^ k := Nat.mul_le_mul_right _ (by omega)
    rw [Nat.add_mul] at this; omega
  have h4 : (b.setWidth w).toNat = b.toNat := by
    rw [BitVec.toNat_setWidth, Nat.mod_eq_of_lt]
    have : (2:Nat) ^ 8 ≤ 2 ^ w := Nat.pow_le_pow_right (by decide) (by omega)
    omega
  have e : (x ||| b.setWidth w <<< k).toNat = b.toNat * 2 ^ k + x.toNat := by
    rw [BitVec.toNat_or, BitVec.toNat_shiftLeft, h4, Nat.shiftLeft_eq, Nat.mod_eq_of_lt (by omega)]
    rw [Nat.or_comm, Nat.mul_comm, ← Nat.two_pow_add_eq_or_of_lt hx]
  exact ⟨e, by omega⟩

theorem take4 (l : List Byte) (k : Nat) (h : k + 4 ≤ l.length) :
    (l.drop k).take 4 = [l.getD k 0, l.getD (k + 1) 0, l.getD (k + 2) 0, l.getD (k + 3) 0] := by
  have hg : ∀ j, (hj : j < 4) → l.getD (k + j) 0 = l[k + j]'(by omega) := by
    intro j hj
    rw [List.getD_eq_getElem?_getD, List.getElem?_eq_getElem (by omega)]; rfl
  rw [show l.getD k 0 = l.getD (k + 0) 0 from rfl, hg 0 (by omega), hg 1 (by omega), hg 2 (by omega), hg 3 (by omega)]
  apply List.ext_getElem
  · simp; omega
  · intro i h1 h2
    simp at h2
    simp only [List.getElem_take, List.getElem_drop]
    match i, h2 with
    | 0, _ => rfl
    | 1, _ => rfl
    | 2, _ => rfl
    | 3, _ => rfl

theorem take8 (l : List Byte) (k : Nat) (h : k + 8 ≤ l.length) :
    (l.drop k).take 8 = [l.getD k 0, l.getD (k + 1) 0, l.getD (k + 2) 0, l.getD (k + 3) 0,
      l.getD (k + 4) 0, l.getD (k + 5) 0, l.getD (k + 6) 0, l.getD (k + 7) 0] := by
  have h1 := take4 l k (by omega)
  have h2 := take4 l (k + 4) (by omega)
  have h3 : (l.drop k).take (4 + 4) = (l.drop k).take 4 ++ ((l.drop k).drop 4).take 4 := List.take_add
  rw [h1, List.drop_drop, h2] at h3
  exact h3

theorem load32_eq (buf : List Byte) (i : Nat) (hb : buf.length = 64) (hi : i < 16) :
    load32 buf i = word 32 buf i := by
  apply BitVec.eq_of_toNat_eq
  unfold word
  rw [show 32 / 8 = 4 from rfl, take4 buf (i * 4) (by omega)]
  unfold load32
  simp only [Nat.add_zero]
  generalize buf.getD (i * 4) 0 = a, buf.getD (i * 4 + 1) 0 = b, buf.getD (i * 4 + 2) 0 = c, buf.getD (i * 4 + 3) 0 = d
  have h0 : (d.setWidth 32).toNat = d.toNat := by
    rw [BitVec.toNat_setWidth, Nat.mod_eq_of_lt]; have := d.isLt; omega
  have h1 := or_shift (d.setWidth 32) c 8 (by rw [h0]; exact d.isLt) (by decide)
  have h2 := or_shift _ b 16 h1.2 (by decide)
  have h3 := or_shift _ a 24 h2.2 (by decide)
  have hlt := BitVec.isLt (d.setWidth 32 ||| c.setWidth 32 <<< 8 ||| b.setWidth 32 <<< 16 ||| a.setWidth 32 <<< 24)
  rw [BitVec.toNat_ofNat]
  simp only [beVal, List.foldl_cons, List.foldl_nil]
  rw [Nat.mod_eq_of_lt] <;> omega

theorem load64_eq (buf : List Byte) (i : Nat) (hb : buf.length = 128) (hi : i < 16) :
    load64 buf i = word 64 buf i := by
  apply BitVec.eq_of_toNat_eq
  unfold word
  rw [show 64 / 8 = 8 from rfl, take8 buf (i * 8) (by omega)]
  unfold load64
  simp only [Nat.add_zero]
  generalize buf.getD (i * 8) 0 = a, buf.getD (i * 8 + 1) 0 = b, buf.getD (i * 8 + 2) 0 = c, buf.getD (i * 8 + 3) 0 = d,
    buf.getD (i * 8 + 4) 0 = e, buf.getD (i * 8 + 5) 0 = f, buf.getD (i * 8 + 6) 0 = g, buf.getD (i * 8 + 7) 0 = k
  have h0 : (k.setWidth 64).toNat = k.toNat := by
    rw [BitVec.toNat_setWidth, Nat.mod_eq_of_lt]; have := k.isLt; omega
  have h1 := or_shift (k.setWidth 64) g 8 (by rw [h0]; exact k.isLt) (by decide)
  have h2 := or_shift _ f 16 h1.2 (by decide)
  have h3 := or_shift _ e 24 h2.2 (by decide)
  have h4 := or_shift _ d 32 h3.2 (by decide)
  have h5 := or_shift _ c 40 h4.2 (by decide)
  have h6 := or_shift _ b 48 h5.2 (by decide)
  have h7 := or_shift _ a 56 h6.2 (by decide)
  rw [BitVec.toNat_ofNat]
  simp only [beVal, List.foldl_cons, List.foldl_nil]
  rw [Nat.mod_eq_of_lt] <;> omega

theorem match32 : Match p32 alg32 where
  S0 := by funext x; simp only [p32, alg32]; repeat rw [rotr_eq _ _ (by decide)]
  S1 := by funext x; simp only [p32, alg32]; repeat rw [rotr_eq _ _ (by decide)]
  s0 := by funext x; simp only [p32, alg32]; repeat rw [rotr_eq _ _ (by decide)]
  s1 := by funext x; simp only [p32, alg32]; repeat rw [rotr_eq _ _ (by decide)]
  K := K32
  groups := ⟨6, rfl, rfl⟩
  block := rfl
  load := load32_eq

theorem match64 : Match p64 alg64 where
  S0 := by funext x; simp only [p64, alg64]; repeat rw [rotr_eq _ _ (by decide)]
  S1 := by funext x; simp only [p64, alg64]; repeat rw [rotr_eq _ _ (by decide)]
  s0 := by funext x; simp only [p64, alg64]; repeat rw [rotr_eq _ _ (by decide)]
  s1 := by funext x; simp only [p64, alg64]; repeat rw [rotr_eq _ _ (by decide)]
  K := K64
  groups := ⟨8, rfl, rfl⟩
  block := rfl
  load := load64_eq

end Verif.Sha2
