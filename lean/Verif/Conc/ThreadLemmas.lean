import Verif.Conc.Thread
/-! Auxiliary: the invariant of `Thread` is inductive. -/
namespace Verif.Thread

theorem holds_tab : holds .none = false ∧
    holds .lock = false ∧
    holds .setExec = true ∧
    holds .clrStarting = true ∧
    holds .clrFinished = true ∧
    holds .running = true ∧
    holds .clrExec = true ∧
    holds .unlock = true ∧
    holds .setFinished = false ∧
    holds .log = false ∧
    holds .exited = false ∧
    holds .joined = false := by
  simp [holds]

theorem exeW_tab : exeW .none = false ∧
    exeW .lock = false ∧
    exeW .setExec = false ∧
    exeW .clrStarting = true ∧
    exeW .clrFinished = true ∧
    exeW .running = true ∧
    exeW .clrExec = true ∧
    exeW .unlock = false ∧
    exeW .setFinished = false ∧
    exeW .log = false ∧
    exeW .exited = false ∧
    exeW .joined = false := by
  simp [exeW]

theorem over_tab : over .none = true ∧
    over .lock = false ∧
    over .setExec = false ∧
    over .clrStarting = false ∧
    over .clrFinished = false ∧
    over .running = false ∧
    over .clrExec = false ∧
    over .unlock = false ∧
    over .setFinished = false ∧
    over .log = true ∧
    over .exited = true ∧
    over .joined = true := by
  simp [over]

theorem early_tab : early .none = false ∧
    early .lock = true ∧
    early .setExec = true ∧
    early .clrStarting = true ∧
    early .clrFinished = false ∧
    early .running = false ∧
    early .clrExec = false ∧
    early .unlock = false ∧
    early .setFinished = false ∧
    early .log = false ∧
    early .exited = false ∧
    early .joined = false := by
  simp [early]

theorem preCreate_tab : preCreate .idle = false ∧
    preCreate .start = false ∧
    preCreate .startAgain = false ∧
    preCreate .start2 = false ∧
    preCreate .start3 = true ∧
    preCreate .start4 = true ∧
    preCreate .startJoin = true ∧
    preCreate .start5 = true ∧
    preCreate .start6 = true ∧
    preCreate .startWait = false ∧
    preCreate .stop = false ∧
    preCreate .join = false ∧
    preCreate .join2 = false ∧
    preCreate .join3 = false ∧
    preCreate .wait = false ∧
    preCreate .wait2 = false ∧
    preCreate .waitLock = false ∧
    preCreate .waitUnlock = false ∧
    preCreate .wait3 = false ∧
    preCreate .waitJoin = false ∧
    preCreate .waitJoin2 = false ∧
    preCreate .waitJoin3 = false ∧
    preCreate .cancel = false ∧
    preCreate .cancel2 = false ∧
    preCreate .destroy = false ∧
    preCreate .destroyStop = false ∧
    preCreate .destroyJoin = false ∧
    preCreate .destroyJoin2 = false ∧
    preCreate .destroyFree = false ∧
    preCreate .destroyed = false := by
  simp [preCreate]

theorem cleared_tab : cleared .idle = false ∧
    cleared .start = false ∧
    cleared .startAgain = false ∧
    cleared .start2 = false ∧
    cleared .start3 = false ∧
    cleared .start4 = true ∧
    cleared .startJoin = true ∧
    cleared .start5 = true ∧
    cleared .start6 = true ∧
    cleared .startWait = false ∧
    cleared .stop = false ∧
    cleared .join = false ∧
    cleared .join2 = false ∧
    cleared .join3 = false ∧
    cleared .wait = false ∧
    cleared .wait2 = false ∧
    cleared .waitLock = false ∧
    cleared .waitUnlock = false ∧
    cleared .wait3 = false ∧
    cleared .waitJoin = false ∧
    cleared .waitJoin2 = false ∧
    cleared .waitJoin3 = false ∧
    cleared .cancel = false ∧
    cleared .cancel2 = false ∧
    cleared .destroy = false ∧
    cleared .destroyStop = false ∧
    cleared .destroyJoin = false ∧
    cleared .destroyJoin2 = false ∧
    cleared .destroyFree = false ∧
    cleared .destroyed = false := by
  simp [cleared]

theorem over_not (p : WPC) : over p = true → holds p = false ∧ early p = false ∧ exeW p = false := by
  cases p <;> decide

theorem cleared_pre (p : OPC) : cleared p = true → preCreate p = true := by cases p <;> decide

theorem exeW_holds (p : WPC) : exeW p = true → holds p = true := by cases p <;> decide

theorem inv_init (trace : Bool) : Inv trace init := by
  constructor <;> simp [init, holds, exeW, over, early, preCreate, cleared]

set_option maxHeartbeats 8000000 in
theorem inv_work {trace : Bool} {s s' : State} (h : Inv trace s) (i : Nat) (hs : step trace s (.work i) = some s') :
    Inv trace s' := by
  obtain ⟨nc, oc, mu, mc, mx, fresh, curlt, old, fin, pre, st, st2, exe, fin2, w3, wj, dj, jd, pst, cl, js, ua⟩ := h
  have mui := mu i
  have oldi := old i
  have ovc := over_not (s.w i)
  have exc := exeW_holds (s.w i)
  have clp := cleared_pre s.o
  simp only [step, stepW] at hs
  rcases hp : s.w i with _ | _ | _ | _ | _ | _ | _ | _ | _ | _ | _ | _ <;> rw [hp] at hs <;>
    simp only [Option.map_none, Option.map_some, reduceCtorEq] at hs
  all_goals (try split at hs)
  all_goals (try (cases hs; done))
  all_goals cases hs
  all_goals have q1 := congrArg holds hp
  all_goals have q2 := congrArg over hp
  all_goals have q3 := congrArg early hp
  all_goals have q4 := congrArg exeW hp
  all_goals simp only [holds_tab, exeW_tab, over_tab, early_tab] at q1 q2 q3 q4
  all_goals constructor
  all_goals (try assumption)
  all_goals (try simp only [setW, apply_ite holds, apply_ite exeW, apply_ite over, apply_ite early, holds_tab, exeW_tab, over_tab, early_tab])
  all_goals (try assumption)
  all_goals (try grind)

set_option maxHeartbeats 16000000 in
theorem inv_ctl {trace : Bool} {s s' : State} (h : Inv trace s) (a : Act) (ha : a ≠ .callCancel)
    (hs : stepO s a = some s') : Inv trace s' := by
  obtain ⟨nc, oc, mu, mc, mx, fresh, curlt, old, fin, pre, st, st2, exe, fin2, w3, wj, dj, jd, pst, cl, js, ua⟩ := h
  have muc := mu s.cur
  have ovc := over_not (s.w s.cur)
  have exc := exeW_holds (s.w s.cur)
  have qe : s.w s.cur = .exited → over (s.w s.cur) = true := fun e => by rw [e]; rfl
  have qn : holds (s.w s.next) = false := by rw [fresh _ (Nat.le_refl _)]; rfl
  have mun := mu s.next
  have frn := fresh s.next (Nat.le_refl _)
  unfold stepO at hs
  rcases hp : s.o with _ | _ | _ | _ | _ | _ | _ | _ | _ | _ | _ | _ | _ | _ | _ | _ | _ | _ | _ | _ | _ | _ | _ | _ | _ | _ | _ | _ | _ | _ <;>
    cases a <;> rw [hp] at hs <;> simp only [reduceCtorEq] at hs
  all_goals (try split at hs)
  all_goals (try split at hs)
  all_goals (try (cases hs; done))
  all_goals cases hs
  all_goals have q1 := congrArg preCreate hp
  all_goals have q2 := congrArg cleared hp
  all_goals simp only [preCreate_tab, cleared_tab] at q1 q2
  all_goals constructor
  all_goals (try assumption)
  all_goals (try simp only [setW, apply_ite holds, apply_ite exeW, apply_ite over, apply_ite early, apply_ite cleared, holds_tab, exeW_tab, over_tab, early_tab, preCreate_tab, cleared_tab])
  all_goals (try assumption)
  all_goals (try grind)

end Verif.Thread
