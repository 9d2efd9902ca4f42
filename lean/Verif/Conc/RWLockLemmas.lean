import Verif.Conc.RWLock
/-! Auxiliary: the invariant of the Win32 read-write lock is inductive. -/
namespace Verif.RWLock

theorem inv_init (c : Cfg) : Inv c init := by
  constructor <;> simp [init, acc, wtok, wpid, wcnt, mown, rtr, extra]

theorem acc_tab : acc (.idle) = false ∧
    acc (.rLock) = false ∧
    acc (.rCheck) = true ∧
    acc (.rWait) = true ∧
    acc (.rPush) = true ∧
    acc (.rUnlock true) = true ∧
    acc (.rUnlock false) = true ∧
    acc (.wMutex) = false ∧
    acc (.wEvent) = false ∧
    acc (.wPid) = false ∧
    acc (.wCount) = false ∧
    acc (.holdW) = false ∧
    acc (.uCheck true) = false ∧
    acc (.uCheck false) = false ∧
    acc (.uwRelease) = false ∧
    acc (.uwCount) = false ∧
    acc (.uwPid) = false ∧
    acc (.uwSet) = false ∧
    acc (.urLock) = false ∧
    acc (.urErase) = true ∧
    acc (.urSet) = true ∧
    acc (.urUnlock) = true := by
  simp [acc]

theorem wtok_tab : wtok (.idle) = false ∧
    wtok (.rLock) = false ∧
    wtok (.rCheck) = false ∧
    wtok (.rWait) = false ∧
    wtok (.rPush) = false ∧
    wtok (.rUnlock true) = false ∧
    wtok (.rUnlock false) = false ∧
    wtok (.wMutex) = false ∧
    wtok (.wEvent) = false ∧
    wtok (.wPid) = true ∧
    wtok (.wCount) = true ∧
    wtok (.holdW) = true ∧
    wtok (.uCheck true) = true ∧
    wtok (.uCheck false) = false ∧
    wtok (.uwRelease) = true ∧
    wtok (.uwCount) = true ∧
    wtok (.uwPid) = true ∧
    wtok (.uwSet) = true ∧
    wtok (.urLock) = false ∧
    wtok (.urErase) = false ∧
    wtok (.urSet) = false ∧
    wtok (.urUnlock) = false := by
  simp [wtok]

theorem wpid_tab : wpid (.idle) = false ∧
    wpid (.rLock) = false ∧
    wpid (.rCheck) = false ∧
    wpid (.rWait) = false ∧
    wpid (.rPush) = false ∧
    wpid (.rUnlock true) = false ∧
    wpid (.rUnlock false) = false ∧
    wpid (.wMutex) = false ∧
    wpid (.wEvent) = false ∧
    wpid (.wPid) = false ∧
    wpid (.wCount) = true ∧
    wpid (.holdW) = true ∧
    wpid (.uCheck true) = true ∧
    wpid (.uCheck false) = false ∧
    wpid (.uwRelease) = true ∧
    wpid (.uwCount) = true ∧
    wpid (.uwPid) = true ∧
    wpid (.uwSet) = false ∧
    wpid (.urLock) = false ∧
    wpid (.urErase) = false ∧
    wpid (.urSet) = false ∧
    wpid (.urUnlock) = false := by
  simp [wpid]

theorem wcnt_tab : wcnt (.idle) = false ∧
    wcnt (.rLock) = false ∧
    wcnt (.rCheck) = false ∧
    wcnt (.rWait) = false ∧
    wcnt (.rPush) = false ∧
    wcnt (.rUnlock true) = false ∧
    wcnt (.rUnlock false) = false ∧
    wcnt (.wMutex) = false ∧
    wcnt (.wEvent) = false ∧
    wcnt (.wPid) = false ∧
    wcnt (.wCount) = false ∧
    wcnt (.holdW) = true ∧
    wcnt (.uCheck true) = true ∧
    wcnt (.uCheck false) = false ∧
    wcnt (.uwRelease) = true ∧
    wcnt (.uwCount) = true ∧
    wcnt (.uwPid) = false ∧
    wcnt (.uwSet) = false ∧
    wcnt (.urLock) = false ∧
    wcnt (.urErase) = false ∧
    wcnt (.urSet) = false ∧
    wcnt (.urUnlock) = false := by
  simp [wcnt]

theorem mown_tab : mown (.idle) = false ∧
    mown (.rLock) = false ∧
    mown (.rCheck) = false ∧
    mown (.rWait) = false ∧
    mown (.rPush) = false ∧
    mown (.rUnlock true) = false ∧
    mown (.rUnlock false) = false ∧
    mown (.wMutex) = false ∧
    mown (.wEvent) = true ∧
    mown (.wPid) = true ∧
    mown (.wCount) = true ∧
    mown (.holdW) = true ∧
    mown (.uCheck true) = true ∧
    mown (.uCheck false) = false ∧
    mown (.uwRelease) = true ∧
    mown (.uwCount) = false ∧
    mown (.uwPid) = false ∧
    mown (.uwSet) = false ∧
    mown (.urLock) = false ∧
    mown (.urErase) = false ∧
    mown (.urSet) = false ∧
    mown (.urUnlock) = false := by
  simp [mown]

theorem rtr_tab : rtr (.idle) = false ∧
    rtr (.rLock) = false ∧
    rtr (.rCheck) = false ∧
    rtr (.rWait) = false ∧
    rtr (.rPush) = true ∧
    rtr (.rUnlock true) = false ∧
    rtr (.rUnlock false) = false ∧
    rtr (.wMutex) = false ∧
    rtr (.wEvent) = false ∧
    rtr (.wPid) = false ∧
    rtr (.wCount) = false ∧
    rtr (.holdW) = false ∧
    rtr (.uCheck true) = false ∧
    rtr (.uCheck false) = false ∧
    rtr (.uwRelease) = false ∧
    rtr (.uwCount) = false ∧
    rtr (.uwPid) = false ∧
    rtr (.uwSet) = false ∧
    rtr (.urLock) = false ∧
    rtr (.urErase) = false ∧
    rtr (.urSet) = true ∧
    rtr (.urUnlock) = false := by
  simp [rtr]

theorem extra_tab : extra (.idle) = 0 ∧
    extra (.rLock) = 0 ∧
    extra (.rCheck) = 0 ∧
    extra (.rWait) = 0 ∧
    extra (.rPush) = 0 ∧
    extra (.rUnlock true) = 1 ∧
    extra (.rUnlock false) = 0 ∧
    extra (.wMutex) = 0 ∧
    extra (.wEvent) = 0 ∧
    extra (.wPid) = 0 ∧
    extra (.wCount) = 0 ∧
    extra (.holdW) = 0 ∧
    extra (.uCheck true) = 0 ∧
    extra (.uCheck false) = 1 ∧
    extra (.uwRelease) = 0 ∧
    extra (.uwCount) = 0 ∧
    extra (.uwPid) = 0 ∧
    extra (.uwSet) = 0 ∧
    extra (.urLock) = 1 ∧
    extra (.urErase) = 1 ∧
    extra (.urSet) = 0 ∧
    extra (.urUnlock) = 0 := by
  simp [extra]

theorem wpid_wtok : ∀ p, wpid p = true → wtok p = true := by
  rintro (_ | _ | _ | _ | _ | (_ | _) | _ | _ | _ | _ | _ | (_ | _) | _ | _ | _ | _ | _ | _ | _ | _) <;>
    simp [wpid, wtok]

theorem wcnt_wtok : ∀ p, wcnt p = true → wtok p = true := by
  rintro (_ | _ | _ | _ | _ | (_ | _) | _ | _ | _ | _ | _ | (_ | _) | _ | _ | _ | _ | _ | _ | _ | _) <;>
    simp [wcnt, wtok]

theorem rtr_acc : ∀ p, rtr p = true → acc p = true := by
  rintro (_ | _ | _ | _ | _ | (_ | _) | _ | _ | _ | _ | _ | (_ | _) | _ | _ | _ | _ | _ | _ | _ | _) <;>
    simp [rtr, acc]

set_option maxHeartbeats 4000000 in
theorem inv_step {c : Cfg} {s s' : State} (h : Inv c s) (t : Nat) (a : Act)
    (hs : step c s t a = some s') : Inv c s' := by
  obtain ⟨h1, h2, h3, h4, h5, h6, h7, h8, h9, h10, h11, h12, h13, h14, h15, h16, h17, h18, h19⟩ := h
  have k1 : ∀ u, wpid (s.pc u) = true → wtok (s.pc u) = true := fun u => wpid_wtok _
  have k2 : ∀ u, wcnt (s.pc u) = true → wtok (s.pc u) = true := fun u => wcnt_wtok _
  have k3 : ∀ u, rtr (s.pc u) = true → acc (s.pc u) = true := fun u => rtr_acc _
  have k4 : ∀ u, s.pc u = .rWait → acc (s.pc u) = true := fun u h => by rw [h]; rfl
  have k5 : ∀ u, s.pc u = .urSet → acc (s.pc u) = true := fun u h => by rw [h]; rfl
  have k6 : ∀ u, s.pc u = .uwPid → wtok (s.pc u) = true := fun u h => by rw [h]; rfl
  have k7 : ∀ u, s.pc u = .wCount → wtok (s.pc u) = true := fun u h => by rw [h]; rfl
  unfold step at hs
  rcases hp : s.pc t with _ | _ | _ | _ | _ | (_ | _) | _ | _ | _ | _ | _ | (_ | _) | _ | _ | _ | _ | _ | _ | _ | _ <;>
    cases a <;> rw [hp] at hs <;> simp only [reduceCtorEq] at hs
  all_goals (try split at hs)
  all_goals cases hs
  all_goals
    have q1 := congrArg acc hp
    have q2 := congrArg wtok hp
    have q3 := congrArg wpid hp
    have q4 := congrArg wcnt hp
    have q5 := congrArg mown hp
    have q6 := congrArg rtr hp
    have q7 := congrArg extra hp
  all_goals simp only [acc_tab] at q1
  all_goals simp only [wtok_tab] at q2
  all_goals simp only [wpid_tab] at q3
  all_goals simp only [wcnt_tab] at q4
  all_goals simp only [mown_tab] at q5
  all_goals simp only [rtr_tab] at q6
  all_goals simp only [extra_tab] at q7
  all_goals constructor
  all_goals simp only [setPc, apply_ite acc, apply_ite wtok, apply_ite wpid, apply_ite wcnt,
    apply_ite mown, apply_ite rtr, apply_ite extra, acc_tab, wtok_tab, wpid_tab, wcnt_tab, mown_tab,
    rtr_tab, extra_tab]
  all_goals (try assumption)
  all_goals (try (intro hh; have hm := h18 hh; clear h18; grind))
  all_goals (try (intro hh; have hm := h17 hh; clear h17; grind))
  all_goals (try grind)
  all_goals (try (have k8 : s.writerPid = none := by (cases hw : s.writerPid <;> grind)); grind)
  all_goals (try (have k9 : s.readers ≠ [] := by grind); grind)
  all_goals (intro _ hr; simp at hr)

theorem reach_inv {c : Cfg} {s : State} (h : Reach c s) : Inv c s := by
  induction h with
  | init => exact inv_init c
  | step t a _ hs ih => exact inv_step ih t a hs

end Verif.RWLock
