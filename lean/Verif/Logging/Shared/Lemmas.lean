import Verif.Conc.Race.Order
import Verif.Logging.Shared.Model

/-!
# Lock discipline of the logging functions
-/
namespace Verif.Logging.Shared
open Verif.Race

section
variable {M X : Type} [DecidableEq M] [DecidableEq X]

theorem guarded_quiet (P : Ev M X → Bool) (m : M) (es : List (Ev M X)) (b : Bool)
    (h : ∀ e ∈ es, e ≠ .acq m ∧ e ≠ .rel m ∧ P e = false) : guarded P m b es = some b := by
  induction es with
  | nil => rfl
  | cons e es ih =>
    have h1 := h e (by simp)
    have i := ih (fun x hx => h x (by simp [hx]))
    cases e with
    | acq k => have : k ≠ m := by rintro rfl; exact h1.1 rfl
               simp [guarded, this, i]
    | rel k => have : k ≠ m := by rintro rfl; exact h1.2.1 rfl
               simp [guarded, this, i]
    | rd y => simp [guarded, h1.2.2, i]
    | wr y => simp [guarded, h1.2.2, i]

theorem guarded_inside (P : Ev M X → Bool) (m : M) (es : List (Ev M X))
    (h : ∀ e ∈ es, e ≠ .acq m ∧ e ≠ .rel m) : guarded P m true es = some true := by
  induction es with
  | nil => rfl
  | cons e es ih =>
    have h1 := h e (by simp)
    have i := ih (fun x hx => h x (by simp [hx]))
    cases e with
    | acq k => have : k ≠ m := by rintro rfl; exact h1.1 rfl
               simp [guarded, this, i]
    | rel k => have : k ≠ m := by rintro rfl; exact h1.2 rfl
               simp [guarded, this, i]
    | rd y => simp [guarded, i]
    | wr y => simp [guarded, i]

theorem closed_flatten (P : Ev M X → Bool) (m : M) (cs : List (List (Ev M X)))
    (h : ∀ c ∈ cs, guarded P m false c = some false) : guarded P m false cs.flatten = some false := by
  induction cs with
  | nil => rfl
  | cons c cs ih =>
    rw [List.flatten_cons, guarded_append, h c (by simp)]
    exact ih (fun x hx => h x (by simp [hx]))

theorem locksTo_flatten (mutex : M → Bool) (rank : M → Nat) (cs : List (List (Ev M X)))
    (h : ∀ c ∈ cs, locksTo mutex rank [] c = some []) : locksTo mutex rank [] cs.flatten = some [] := by
  induction cs with
  | nil => rfl
  | cons c cs ih =>
    rw [List.flatten_cons, locksTo_append, h c (by simp)]
    exact ih (fun x hx => h x (by simp [hx]))
end

/-! ## Which events occur in which part -/

theorem PushImpl.mem {o : Nat} {es : List E} (h : PushImpl o es) (e : E) (he : e ∈ es) :
    e = .acq (.format o) ∨ e = .rel (.format o) ∨ e = .rd (.format o) ∨ e = .rd (.timeFormat o) ∨ e = .wr (.sink o) := by
  cases h <;> simp only [List.mem_cons, List.not_mem_nil, or_false] at he <;> grind

theorem Push.mem {worker : Nat → Bool} {o : Nat} {es : List E} (h : Push worker o es) (e : E) (he : e ∈ es) :
    e = .rd (.outLevel o) ∨
    (worker o = true ∧ (e = .acq (.queue o) ∨ e = .rel (.queue o) ∨ e = .rd (.queue o) ∨ e = .wr (.queue o) ∨ e = .rel (.fill o))) ∨
    (worker o = false ∧ (e = .acq (.direct o) ∨ e = .rel (.direct o) ∨
      e = .acq (.format o) ∨ e = .rel (.format o) ∨ e = .rd (.format o) ∨ e = .rd (.timeFormat o) ∨ e = .wr (.sink o))) := by
  cases h with
  | nothing => simp only [List.mem_cons, List.mem_append, List.not_mem_nil, or_false] at he; grind
  | queued h => simp only [List.mem_cons, List.mem_append, List.not_mem_nil, or_false] at he; grind
  | full h => simp only [List.mem_cons, List.mem_append, List.not_mem_nil, or_false] at he; grind
  | direct h es hp =>
    have := hp.mem e
    simp only [List.mem_cons, List.mem_append, List.not_mem_nil, or_false] at he
    grind

theorem PushAll.mem {worker : Nat → Bool} {es : List E} (h : PushAll worker es) (e : E) (he : e ∈ es) :
    ∃ o es', Push worker o es' ∧ e ∈ es' := by
  induction h with
  | done => simp at he
  | push o es rest hp hr ih =>
    rcases List.mem_append.1 he with h | h
    · exact ⟨o, es, hp, h⟩
    · exact ih h

theorem Round.mem {o : Nat} {es : List E} (h : Round o es) (e : E) (he : e ∈ es) :
    e = .rd (.execute o) ∨ e = .acq (.fill o) ∨ e = .rd (.queue o) ∨ e = .wr (.queue o) ∨ e = .acq (.queue o) ∨
    e = .rel (.queue o) ∨ e = .acq (.format o) ∨ e = .rel (.format o) ∨ e = .rd (.format o) ∨
    e = .rd (.timeFormat o) ∨ e = .wr (.sink o) := by
  cases h with
  | fails => simp only [List.mem_cons, List.mem_append, List.not_mem_nil, or_false] at he; grind
  | empty => simp only [List.mem_cons, List.mem_append, List.not_mem_nil, or_false] at he; grind
  | late => simp only [List.mem_cons, List.mem_append, List.not_mem_nil, or_false] at he; grind
  | message es hp =>
    have := hp.mem e
    simp only [List.mem_cons, List.mem_append, List.not_mem_nil, or_false] at he
    grind

theorem Drain.mem {o : Nat} {es : List E} (h : Drain o es) (e : E) (he : e ∈ es) :
    e = .rd (.queue o) ∨ e = .wr (.queue o) ∨ e = .acq (.format o) ∨ e = .rel (.format o) ∨ e = .rd (.format o) ∨
    e = .rd (.timeFormat o) ∨ e = .wr (.sink o) := by
  induction h with
  | done => simp only [List.mem_cons, List.mem_append, List.not_mem_nil, or_false] at he; grind
  | message es rest hp hr ih =>
    have := hp.mem e
    simp only [List.mem_cons, List.mem_append, List.not_mem_nil, or_false] at he
    grind

theorem Worker.mem {o : Nat} {es : List E} (h : Worker o es) (e : E) (he : e ∈ es) :
    e = .rd (.execute o) ∨ e = .wr (.execute o) ∨ e = .wr (.finished o) ∨ e = .acq (.fill o) ∨ e = .rel (.ended o) ∨
    e = .rd (.queue o) ∨ e = .wr (.queue o) ∨ e = .acq (.queue o) ∨
    e = .rel (.queue o) ∨ e = .acq (.format o) ∨ e = .rel (.format o) ∨ e = .rd (.format o) ∨
    e = .rd (.timeFormat o) ∨ e = .wr (.sink o) := by
  cases h with
  | run rounds hr drain hd =>
    have h1 := hd.mem e
    have h2 : e ∈ rounds.flatten → ∃ r ∈ rounds, e ∈ r := by simp
    have h3 : ∀ r ∈ rounds, e ∈ r → _ := fun r h h' => (hr r h).mem e h'
    simp only [List.mem_cons, List.mem_append, List.not_mem_nil, or_false] at he
    grind
  | noDrain rounds hr =>
    have h2 : e ∈ rounds.flatten → ∃ r ∈ rounds, e ∈ r := by simp
    have h3 : ∀ r ∈ rounds, e ∈ r → _ := fun r h h' => (hr r h).mem e h'
    simp only [List.mem_cons, List.mem_append, List.not_mem_nil, or_false] at he
    grind
  | waiting rounds hr =>
    have h2 : e ∈ rounds.flatten → ∃ r ∈ rounds, e ∈ r := by simp
    have h3 : ∀ r ∈ rounds, e ∈ r → _ := fun r h h' => (hr r h).mem e h'
    simp only [List.mem_cons, List.mem_append, List.not_mem_nil, or_false] at he
    grind

end Verif.Logging.Shared
