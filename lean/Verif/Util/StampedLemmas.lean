import Verif.Util.StampedSpec
import Verif.Config.ReadProps

/-!
# Lemmas for C119
-/
namespace Verif.Stamped

variable {D : Type}

/-- The text of a field of a header. -/
def Header.text (h : Header) : Field → Option Text
  | .cs => some h.cs
  | .ts => some h.ts
  | .seq => some (Nat.toDigits 10 h.seq)
  | .dsin => h.dsin.map (Nat.toDigits 10)

theorem text_dflt (f : Field) : Header.dflt.text f = fresh f := by cases f <;> rfl

theorem text_make (cs ts : Text) (n : Nat) (f : Field) :
    (Header.make cs ts n).text f = made cs ts n f := by cases f <;> rfl

theorem text_set (h : Header) (v : Set') (f : Field) :
    (h.set v).text f = if v.field = f then some v.text else h.text f := by
  cases v <;> cases f <;> rfl

/-- The header at a location. -/
def Vars.at (v : Vars D) : Loc → Header
  | .hdr h => v.H h
  | .st s => (v.S s).header

theorem fieldOf_eq [DefaultInit D] (f : Field) (past : List (Stmt D)) : ∀ l,
    ((runRev past).at l).text f = fieldOf f past l := by
  induction past with
  | nil => intro l; cases l <;> exact text_dflt f
  | cons st past ih =>
    intro l
    cases st <;> cases l <;>
      simp only [runRev, exec, Vars.at, fieldOf, upd, Loc.hdr.injEq, Loc.st.injEq, reduceCtorEq,
        if_false, false_and] <;>
      (try split) <;>
      simp_all [← ih, Vars.at, text_dflt, text_make, text_set, Obj.dflt, Obj.ofData, Obj.ofHeader,
        Obj.full]

theorem dataOf_eq [DefaultInit D] (past : List (Stmt D)) : ∀ s,
    ((runRev past).S s).data = dataOf past s := by
  induction past with
  | nil => intro s; rfl
  | cons st past ih =>
    intro s
    cases st <;> simp only [runRev, exec, dataOf, upd, ih] <;> (try split) <;>
      simp_all [Obj.dflt, Obj.ofData, Obj.ofHeader, Obj.full]

theorem cut_first {α : Type} {c : α} : ∀ {a b x y : List α}, c ∉ a → c ∉ b →
    a ++ c :: x = b ++ c :: y → a = b ∧ x = y
  | [], [], _, _, _, _, h => ⟨rfl, (List.cons.inj h).2⟩
  | [], d :: b, _, _, _, hb, h => absurd (List.cons.inj h).1 (fun e => hb (by simp [e]))
  | d :: a, [], _, _, ha, _, h => absurd (List.cons.inj h).1 (fun e => ha (by simp [e]))
  | d :: a, e :: b, x, y, ha, hb, h => by
    obtain ⟨h1, h2⟩ := List.cons.inj h
    obtain ⟨h3, h4⟩ := cut_first (fun m => ha (List.mem_cons_of_mem _ m))
      (fun m => hb (List.mem_cons_of_mem _ m)) h2
    exact ⟨by rw [h1, h3], h4⟩

theorem digits_no (n : Nat) {c : Char} (hc : ∀ d, Cfg.digitVal c = some d → 10 ≤ d) :
    c ∉ Nat.toDigits 10 n := by
  intro hm
  obtain ⟨d, h1, h2⟩ := (Cfg.toDigits_spec (b := 10) (by omega) (by omega) n).1 c hm
  have := hc d h1
  omega

theorem toDigits_inj' {m n : Nat} (h : Nat.toDigits 10 m = Nat.toDigits 10 n) : m = n := by
  rw [← Cfg.magnitude_toDigits m, h, Cfg.magnitude_toDigits]

theorem comma_not (n : Nat) : ',' ∉ Nat.toDigits 10 n :=
  digits_no n (by intro d h; revert h; decide +revert)

end Verif.Stamped
