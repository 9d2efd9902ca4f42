import Verif.Os.ZipFile

/-!
# C146: compressing a file
-/
namespace Verif.Os.ZipFile
variable {α : Type}

theorem loop_ok {e : Env} (hr : ∀ k, e.readFails k = false) (hw : ∀ k, e.writeFails k = false) (k : Nat) (rest out : List α) :
    loop e k rest out = (true, out ++ rest) := by
  induction k, rest, out using loop.induct (e := e) with
  | case1 k rest out h => rw [hr] at h; cases h
  | case2 k rest out _ bytes h =>
    have : rest = [] := by simpa [bytes] using h
    rw [loop]; simp [hr, this]
  | case3 k rest out _ bytes _ h => rw [hw] at h; cases h
  | case4 k rest out _ bytes h _ ih =>
    rw [loop]
    simp only [hr, hw, Bool.false_eq_true, if_false]
    rw [dif_neg h, ih]
    simp [bytes]

/-- If nothing fails, the archive holds the contents of the file, whatever their length, and the call reports success. -/
theorem c146_contents_partial (e : Env) (c : List α) (old : Option (List α)) (h1 : e.canRead = true) (h2 : e.canWrite = true)
    (hr : ∀ k, e.readFails k = false) (hw : ∀ k, e.writeFails k = false) :
    zipFile e (some c) old = (true, some c) := by
  simp [zipFile, h1, h2, loop_ok hr hw]

theorem loop_prefix (e : Env) (k : Nat) (rest out : List α) : ∃ l, l <+: rest ∧ (loop e k rest out).2 = out ++ l := by
  induction k, rest, out using loop.induct (e := e) with
  | case1 k rest out h => rw [loop]; simp [h]
  | case2 k rest out hr bytes h =>
    rw [loop]; simp only [hr]; rw [dif_pos h]
    exact ⟨[], by simp, by simp⟩
  | case3 k rest out hr bytes h hw =>
    rw [loop]; simp only [hr]; rw [dif_neg h]; simp only [hw, if_true]
    exact ⟨bytes.take (e.part k), (List.take_prefix _ _).trans (List.take_prefix _ _), rfl⟩
  | case4 k rest out hr bytes h hw ih =>
    obtain ⟨l, h1, h2⟩ := ih
    rw [loop]; simp only [hr]; rw [dif_neg h]; simp only [hw]
    refine ⟨bytes ++ l, ?_, ?_⟩
    · obtain ⟨t, ht⟩ := h1
      refine ⟨t, ?_⟩
      rw [List.append_assoc, ht]
      exact List.take_append_drop 0x1000 rest
    · exact h2.trans (List.append_assoc _ _ _)

/-- Whatever fails, an archive that could be opened holds the beginning of the file's contents (nothing, if the file could not be
read), and one that could not be opened is as it was. -/
theorem c146_archive (e : Env) (file old : Option (List α)) :
    (e.canWrite = true → ∃ l, (zipFile e file old).2 = some l ∧ l <+: file.getD [] ∧ (e.canRead = false → l = [])) ∧
    (e.canWrite = false → zipFile e file old = (true, old)) := by
  constructor
  · intro hw
    cases hr : e.canRead with
    | false => exact ⟨[], by simp [zipFile, hw, hr], by simp, fun _ => rfl⟩
    | true =>
      cases file with
      | none => exact ⟨[], by simp [zipFile, hw, hr], by simp, fun _ => rfl⟩
      | some c =>
        obtain ⟨l, h1, h2⟩ := loop_prefix e 0 c []
        exact ⟨l, by simp [zipFile, hw, hr, h2], h1, fun h => by cases h⟩
  · intro hw
    simp only [zipFile, hw]
    split <;> rfl

theorem loop_result (e : Env) (k : Nat) (rest out : List α) : (loop e k rest out).1 = false ↔
    ∃ n, 0x1000 * n < rest.length ∧ e.writeFails (k + n) = true ∧ (∀ j ≤ n, e.readFails (k + j) = false) ∧
      ∀ j < n, e.writeFails (k + j) = false := by
  induction k, rest, out using loop.induct (e := e) with
  | case1 k rest out h =>
    rw [loop]; simp only [h, if_true, Bool.true_eq_false, false_iff]
    rintro ⟨n, -, -, h1, -⟩
    have := h1 0 (Nat.zero_le _)
    rw [Nat.add_zero, h] at this; cases this
  | case2 k rest out hr bytes h =>
    rw [loop]; simp only [hr]; rw [dif_pos h]
    have : rest = [] := by simpa [bytes] using h
    simp [this]
  | case3 k rest out hr bytes h hw =>
    rw [loop]; simp only [hr]; rw [dif_neg h]; simp only [hw, if_true]
    have h0 : rest ≠ [] := by rintro rfl; simp [bytes] at h
    simp only [Bool.false_eq_true, if_false, true_iff]
    refine ⟨0, by simpa using List.length_pos_iff.2 h0, hw, fun j hj => ?_, fun j hj => absurd hj (Nat.not_lt_zero _)⟩
    obtain rfl : j = 0 := by omega
    simpa using hr
  | case4 k rest out hr bytes h hw ih =>
    rw [loop]; simp only [hr]; rw [dif_neg h]; simp only [hw]
    have hr : e.readFails k = false := by simpa using hr
    have hw : e.writeFails k = false := by simpa using hw
    refine Iff.trans ih ⟨?_, ?_⟩
    · rintro ⟨n, h1, h2, h3, h4⟩
      rw [List.length_drop] at h1
      refine ⟨n + 1, by omega, by rw [← h2]; congr 1; omega, fun j hj => ?_, fun j hj => ?_⟩
      · rcases j with _ | j
        · exact hr
        · rw [← h3 j (by omega)]; congr 1; omega
      · rcases j with _ | j
        · exact hw
        · rw [← h4 j (by omega)]; congr 1; omega
    · rintro ⟨n, h1, h2, h3, h4⟩
      rcases n with _ | n
      · rw [Nat.add_zero, hw] at h2; cases h2
      · refine ⟨n, by rw [List.length_drop]; omega, by rw [← h2]; congr 1; omega, fun j hj => ?_, fun j hj => ?_⟩
        · rw [← h3 (j + 1) (by omega)]; congr 1; omega
        · rw [← h4 (j + 1) (by omega)]; congr 1; omega

/-- The call reports a failure exactly if both files could be opened and a write failed that was reached: failures of opening
and of reading are not reported. -/
theorem c146_result (e : Env) (file old : Option (List α)) : (zipFile e file old).1 = false ↔
    e.canRead = true ∧ e.canWrite = true ∧ ∃ c, file = some c ∧ ∃ n, 0x1000 * n < c.length ∧ e.writeFails n = true ∧
      (∀ j ≤ n, e.readFails j = false) ∧ ∀ j < n, e.writeFails j = false := by
  cases hr : e.canRead with
  | false => simp [zipFile, hr]
  | true =>
    cases hw : e.canWrite with
    | false => cases file <;> simp [zipFile, hr, hw]
    | true =>
      cases file with
      | none => simp [zipFile, hr, hw]
      | some c => simpa [zipFile, hr, hw] using loop_result e 0 c []

/-- So a reported success does not mean that there is an archive: there was no file, and the archive that existed is now
empty; or the first read failed, or the archive cannot be opened. -/
theorem c146_success_without_archive (c a : List α) :
    zipFile {} none (some a) = (true, some []) ∧
    zipFile { readFails := fun _ => true } (some c) (some a) = (true, some []) ∧
    zipFile { canWrite := false } (some c) none = (true, none) := by
  refine ⟨rfl, ?_, rfl⟩
  have : loop { readFails := fun _ => true } 0 c [] = (true, []) := by rw [loop]; rfl
  simp [zipFile, this]

/-! ## Examples -/

example : (zipFile {} (some (List.replicate 5000 'x')) none) = (true, some (List.replicate 5000 'x')) :=
  c146_contents_partial _ _ _ rfl rfl (fun _ => rfl) fun _ => rfl

/-- 5000 bytes, the second write fails. -/
example : (zipFile { writeFails := fun k => k == 1 } (some (List.replicate 5000 'x')) none).1 = false :=
  (c146_result _ _ _).2 ⟨rfl, rfl, _, rfl, 1, by rw [List.length_replicate]; decide, rfl, fun _ _ => rfl, fun j hj => by
    obtain rfl : j = 0 := by omega
    rfl⟩

end Verif.Os.ZipFile
