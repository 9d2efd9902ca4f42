import Verif.Logging.Manager.ReuseLemmas

/-! # C75: exactly which programs may be run -/
namespace Verif.Logging.Manager

/-- C75, exactly: a program touches no deleted stream and runs into no failed assertion if and only if it
accesses only streams registered before, and does not initialize the logging or access a stream after a
shutdown that has deleted streams.  (A shutdown before any stream exists is harmless, and so are
registrations, level changes and further shutdowns at any time.) -/
theorem c75_exact (env : Env) (ops : List Op) : (run env ops).isSome ↔ UsesRegistered ops ∧ ¬ Reused ops := by
  suffices h : ((run env ops).isSome ↔ UsesRegistered ops ∧ ¬ Reused ops) ∧ ∀ m, run env ops = some m → Seen ops m from h.1
  induction ops using List.reverseRecOn with
  | nil =>
    have h0 : run env [] = some M.init := rfl
    refine ⟨?_, fun m hm => ?_⟩
    · rw [h0]
      refine ⟨fun _ => ⟨fun pre post n h => by simp at h, ?_⟩, fun _ => rfl⟩
      rintro ⟨a, op, b, h, -⟩
      simp at h
    · rw [h0] at hm
      cases hm
      refine ⟨StrMap.ok_nil, by simp [M.init], by simp [M.init], fun _ => ?_, fun h => absurd rfl h, ?_⟩
      · refine ⟨fun h => absurd rfl h, ?_⟩
        rintro ⟨a, op, b, n, h, -⟩
        simp at h
      · refine ⟨fun h => absurd rfl h, ?_⟩
        rintro ⟨a, b, h, -⟩
        simp at h
  | append_singleton ops op ih =>
    rw [run_snoc, uses_snoc, reused_snoc]
    cases hr : run env ops with
    | none =>
      rw [hr] at ih
      refine ⟨?_, by simp⟩
      have : ¬ (UsesRegistered ops ∧ ¬ Reused ops) := fun h => by simpa using ih.1.2 h
      simp only [Option.bind_none, Option.isSome_none, Bool.false_eq_true, false_iff]
      rintro ⟨⟨h1, -⟩, h2⟩
      exact this ⟨h1, fun h => h2 (Or.inl h)⟩
    | some m =>
      obtain ⟨a, b⟩ := seen_step env op (ih.2 m hr)
      rw [hr] at ih
      have hu := ih.1.1 rfl
      rw [Option.bind_some]
      refine ⟨?_, b⟩
      rw [a]
      constructor
      · rintro ⟨h1, h2⟩
        exact ⟨⟨hu.1, h1⟩, by rintro (h | h); exacts [hu.2 h, h2 h]⟩
      · rintro ⟨⟨-, h1⟩, h2⟩
        exact ⟨h1, fun h => h2 (Or.inr h)⟩

/-- C75: the example program may be run, and may be shut down before and after, but not be run again. -/
example : (run exEnv (.shutdown :: exOps ++ [.init, .use "A".toList, .shutdown, .setLevel 3, .shutdown])).isSome ∧
    (run exEnv (.shutdown :: exOps ++ [.init, .use "A".toList, .shutdown, .setLevel 3, .init])).isNone := by
  decide +kernel

end Verif.Logging.Manager
