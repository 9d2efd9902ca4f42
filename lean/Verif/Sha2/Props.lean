import Verif.Sha2.Buffer

/-! # C28, C29, C30 -/
namespace Verif.Sha2

theorem sizes32 : Sizes p32 Spec.alg32 := .inl ⟨rfl, rfl, rfl⟩
theorem sizes64 : Sizes p64 Spec.alg64 := .inr ⟨rfl, rfl, rfl⟩

/-- C28: `Sha256`, for every message below `2^61` bytes, however it is cut into calls of the
`process` overloads, and whatever the uninitialised buffer contains. -/
theorem c28_sha256 (garbage : List Byte) (hg : garbage.length = 64) (fs : List Feed)
    (hm : (fs.flatMap Feed.bytes).length < 2 ^ 61) :
    hexOf p32 8 (new iv256 garbage) fs = some (Spec.sha256 (fs.flatMap Feed.bytes)) := by
  rw [hexOf_rep match32 sizes32 rfl (by decide) 8 (rep_new iv256 garbage hg) fs, List.nil_append,
    padMod_eq sizes32 _ hm, iv256_eq]
  rfl

/-- C28: `Sha224`. -/
theorem c28_sha224 (garbage : List Byte) (hg : garbage.length = 64) (fs : List Feed)
    (hm : (fs.flatMap Feed.bytes).length < 2 ^ 61) :
    hexOf p32 7 (new iv224 garbage) fs = some (Spec.sha224 (fs.flatMap Feed.bytes)) := by
  rw [hexOf_rep match32 sizes32 rfl (by decide) 7 (rep_new iv224 garbage hg) fs, List.nil_append,
    padMod_eq sizes32 _ hm, iv224_eq]
  rfl

/-- C29: `Sha512`. -/
theorem c29_sha512 (garbage : List Byte) (hg : garbage.length = 128) (fs : List Feed)
    (hm : (fs.flatMap Feed.bytes).length < 2 ^ 61) :
    hexOf p64 8 (new iv512 garbage) fs = some (Spec.sha512 (fs.flatMap Feed.bytes)) := by
  rw [hexOf_rep match64 sizes64 rfl (by decide) 8 (rep_new iv512 garbage hg) fs, List.nil_append,
    padMod_eq sizes64 _ hm, iv512_eq]
  rfl

/-- C29: `Sha384`. -/
theorem c29_sha384 (garbage : List Byte) (hg : garbage.length = 128) (fs : List Feed)
    (hm : (fs.flatMap Feed.bytes).length < 2 ^ 61) :
    hexOf p64 6 (new iv384 garbage) fs = some (Spec.sha384 (fs.flatMap Feed.bytes)) := by
  rw [hexOf_rep match64 sizes64 rfl (by decide) 6 (rep_new iv384 garbage hg) fs, List.nil_append,
    padMod_eq sizes64 _ hm, iv384_eq]
  rfl

/-- The padding rule of the specification is the one of the standard: the padded message is a
whole number of blocks, and no smaller number of zero bytes would do. -/
theorem c28_padding_least (w n L : Nat) (hw : w = 32 ∨ w = 64) :
    (n + 1 + Spec.padZeros w L n + L) % Spec.blockBytes w = 0 ∧
    ∀ k, (n + 1 + k + L) % Spec.blockBytes w = 0 → Spec.padZeros w L n ≤ k := by
  unfold Spec.padZeros Spec.blockBytes
  rcases hw with rfl | rfl
  · simp only [Nat.reduceDiv, Nat.reduceMul]
    exact ⟨by omega, fun k hk => by omega⟩
  · simp only [Nat.reduceDiv, Nat.reduceMul]
    exact ⟨by omega, fun k hk => by omega⟩

/-- "abc" in one `process(const char *)` call: the digest of FIPS 180-4's example, computed by the
model. -/
def abc : List Byte := [0x61, 0x62, 0x63]

/-- The hypotheses of `c28_sha256` are met by "abc" fed as a C string in two pieces with an empty
block between them; so the specification, too, has this value. -/
example : some (Spec.sha256 abc) =
    hexOf p32 8 (new iv256 (List.replicate 64 0xaa)) [.cstr [0x61, 0, 0x7a], .mem [], .mem [0x62, 0x63]] :=
  (c28_sha256 _ (by decide) [.cstr [0x61, 0, 0x7a], .mem [], .mem [0x62, 0x63]] (by decide)).symm

/-- C30: any two ways of cutting the same bytes into calls give the same digest (no bound on the
length), also when the objects are in different places of memory. -/
theorem c30_chunking32 (iv : St 32) (len : Nat) (g1 g2 : List Byte) (h1 : g1.length = 64) (h2 : g2.length = 64)
    (fs1 fs2 : List Feed) (h : fs1.flatMap Feed.bytes = fs2.flatMap Feed.bytes) :
    hexOf p32 len (new iv g1) fs1 = hexOf p32 len (new iv g2) fs2 ∧ (hexOf p32 len (new iv g1) fs1).isSome := by
  rw [hexOf_rep match32 sizes32 rfl (by decide) len (rep_new iv g1 h1) fs1,
    hexOf_rep match32 sizes32 rfl (by decide) len (rep_new iv g2 h2) fs2, h]
  exact ⟨rfl, rfl⟩

/-- C30, 64-bit words. -/
theorem c30_chunking64 (iv : St 64) (len : Nat) (g1 g2 : List Byte) (h1 : g1.length = 128) (h2 : g2.length = 128)
    (fs1 fs2 : List Feed) (h : fs1.flatMap Feed.bytes = fs2.flatMap Feed.bytes) :
    hexOf p64 len (new iv g1) fs1 = hexOf p64 len (new iv g2) fs2 ∧ (hexOf p64 len (new iv g1) fs1).isSome := by
  rw [hexOf_rep match64 sizes64 rfl (by decide) len (rep_new iv g1 h1) fs1,
    hexOf_rep match64 sizes64 rfl (by decide) len (rep_new iv g2 h2) fs2, h]
  exact ⟨rfl, rfl⟩

example : hexOf p32 8 (new iv256 (List.replicate 64 1)) [.mem [0x61, 0x62], .mem [0x63]] =
    hexOf p32 8 (new iv256 (List.replicate 64 2)) [.cstr [0x61, 0x62, 0x63, 0, 0x64]] :=
  (c30_chunking32 iv256 8 _ _ (by decide) (by decide) _ _ (by decide)).1

/-- C30: after any history of `process`, `finalize` and `clear` calls (none of which is
undefined), `clear()` makes the object produce the digests of a fresh one. -/
theorem c30_reuse32 (iv : St 32) (len : Nat) (g g' : List Byte) (hg : g.length = 64) (hg' : g'.length = 64)
    (history : List Call) (fs : List Feed) :
    ∃ o, runAll p32 iv (new iv g) history = some o ∧
      hexOf p32 len (clear iv o) fs = hexOf p32 len (new iv g') fs := by
  obtain ⟨o, e, l, f⟩ := run_ok match32 sizes32 iv history (new iv g) hg (Nat.zero_le _)
  refine ⟨o, e, ?_⟩
  rw [hexOf_rep match32 sizes32 rfl (by decide) len (rep_clear iv o l) fs,
    hexOf_rep match32 sizes32 rfl (by decide) len (rep_new iv g' hg') fs]

/-- C30, 64-bit words. -/
theorem c30_reuse64 (iv : St 64) (len : Nat) (g g' : List Byte) (hg : g.length = 128) (hg' : g'.length = 128)
    (history : List Call) (fs : List Feed) :
    ∃ o, runAll p64 iv (new iv g) history = some o ∧
      hexOf p64 len (clear iv o) fs = hexOf p64 len (new iv g') fs := by
  obtain ⟨o, e, l, f⟩ := run_ok match64 sizes64 iv history (new iv g) hg (Nat.zero_le _)
  refine ⟨o, e, ?_⟩
  rw [hexOf_rep match64 sizes64 rfl (by decide) len (rep_clear iv o l) fs,
    hexOf_rep match64 sizes64 rfl (by decide) len (rep_new iv g' hg') fs]

example : ∃ o, runAll p32 iv256 (new iv256 (List.replicate 64 1)) [.process (.mem abc), .finalize, .process (.cstr abc)] = some o ∧
    hexOf p32 8 (clear iv256 o) [.mem abc] = hexOf p32 8 (new iv256 (List.replicate 64 0)) [.mem abc] :=
  c30_reuse32 iv256 8 _ _ (by decide) (by decide) _ _

end Verif.Sha2
