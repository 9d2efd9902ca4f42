import Verif.Util.StampedLemmas

/-!
# C119: stamped data
-/
namespace Verif.Stamped

variable {D : Type}

/-- C119 (violated by the code). No constructor gives the device-specific item number a value:
in every program that never assigns it explicitly, printing **any** stamped object reads an
indeterminate value. -/
theorem c119_dsin_never_initialised [DefaultInit D] (sh : Shown D) (p : List (Stmt D))
    (h : ∀ st ∈ p, assignsDsin st = false) (s : Nat) : printAfter sh p s = .ub := by
  have key : ∀ (past : List (Stmt D)), (∀ st ∈ past, assignsDsin st = false) → ∀ l,
      fieldOf .dsin past l = none := by
    intro past
    induction past with
    | nil => intro _ l; rfl
    | cons st past ih =>
      intro hp l
      have ih' := ih (fun st hs => hp st (List.mem_cons_of_mem _ hs))
      have h0 := hp st (by simp)
      cases st <;> simp only [fieldOf, fresh, made, ih'] <;> (try split) <;>
        simp_all [assignsDsin]
  have hk := key p.reverse (by intro st hs; exact h st (by simpa using hs)) (.st s)
  rw [← fieldOf_eq] at hk
  simp only [Vars.at, Header.text, Option.map_eq_none_iff] at hk
  simp only [printAfter, Obj.print, hk]

/-- C119 (the part that holds). Printing a stamped object after any program shows, in the
documented places, exactly the values last given to its fields, followed through all copies of
headers and objects; it is undefined exactly when the item number, or streamed data, was never
given a value. -/
theorem c119_print_exact_partial [DefaultInit D] (sh : Shown D) (p : List (Stmt D)) (s : Nat) :
    printAfter sh p s =
      match fieldOf .seq p.reverse (.st s), fieldOf .ts p.reverse (.st s),
            fieldOf .dsin p.reverse (.st s), fieldOf .cs p.reverse (.st s) with
      | some seq, some ts, some dsin, some frame =>
        (match sh, dataOf p.reverse s with
        | .streamed f, some d =>
          .ok ("[seq: ".toList ++ seq ++ ", timestamp: ".toList ++ ts ++ ", DSIN: ".toList ++ dsin
            ++ ", Frame: ".toList ++ frame ++ "; ".toList ++ f d ++ "]".toList)
        | .streamed _, none => .ub
        | .sizeOnly n, _ =>
          .ok ("[seq: ".toList ++ seq ++ ", timestamp: ".toList ++ ts ++ ", DSIN: ".toList ++ dsin
            ++ ", Frame: ".toList ++ frame ++ "; ".toList
            ++ (Nat.toDigits 10 n ++ " data bytes".toList) ++ "]".toList))
      | _, _, _, _ => .ub := by
  rw [← fieldOf_eq, ← fieldOf_eq, ← fieldOf_eq, ← fieldOf_eq, ← dataOf_eq]
  simp only [printAfter, Vars.at, Header.text]
  generalize (runRev p.reverse).S s = o
  cases hd : o.header.dsin with
  | none => simp only [Obj.print, hd, Option.map_none]
  | some n =>
    cases sh with
    | sizeOnly k => simp only [Obj.print, hd, Shown.print, Option.map_some]
    | streamed f =>
      cases hv : o.data with
      | none => simp only [Obj.print, hd, Shown.print, hv, Option.map_some]
      | some d => simp only [Obj.print, hd, Shown.print, hv, Option.map_some]

/-- C119 (the part that holds). The sequence number, the time and the frame of a header always have a
value, after every program: only the item number can be missing. -/
theorem c119_only_dsin_can_miss (f : Field) (past : List (Stmt D)) (l : Loc) (hf : f ≠ .dsin) :
    (fieldOf f past l).isSome = true := by
  induction past generalizing l with
  | nil => cases f <;> simp_all [fieldOf, fresh]
  | cons st past ih =>
    cases st <;> simp only [fieldOf] <;> (try split) <;> cases f <;>
      simp_all [fresh, made]

/-- C119 (the part that holds). Two headers whose frames contain no `;` (and times whose texts
contain no `,`) print the same text only if all fields and the printed data agree. -/
theorem c119_text_determines_fields_partial (a b : Header) (da db : D) (show' : D → Text) (t : Text)
    (ha : ',' ∉ a.ts ∧ ';' ∉ a.cs) (hb : ',' ∉ b.ts ∧ ';' ∉ b.cs)
    (h1 : (Obj.full da a).print (.streamed show') = .ok t)
    (h2 : (Obj.full db b).print (.streamed show') = .ok t) :
    a = b ∧ show' da = show' db := by
  obtain ⟨acs, ats, aseq, ad⟩ := a
  obtain ⟨bcs, bts, bseq, bd⟩ := b
  cases ad with
  | none => simp only [Obj.print, Obj.full] at h1; exact absurd h1 (by simp)
  | some m =>
  cases bd with
  | none => simp only [Obj.print, Obj.full] at h2; exact absurd h2 (by simp)
  | some n =>
  simp only [Obj.print, Obj.full, Shown.print, Outcome.ok.injEq] at h1 h2
  have h := h1.trans h2.symm
  have e1 : ", timestamp: ".toList = ',' :: " timestamp: ".toList := rfl
  have e2 : ", DSIN: ".toList = ',' :: " DSIN: ".toList := rfl
  have e3 : ", Frame: ".toList = ',' :: " Frame: ".toList := rfl
  have e4 : "; ".toList = ';' :: " ".toList := rfl
  rw [e1, e2, e3, e4] at h
  simp only [List.append_assoc, List.cons_append] at h
  have h := List.append_cancel_left h
  obtain ⟨q1, h⟩ := cut_first (comma_not _) (comma_not _) h
  have h := List.append_cancel_left h
  obtain ⟨q2, h⟩ := cut_first ha.1 hb.1 h
  have h := List.append_cancel_left h
  obtain ⟨q3, h⟩ := cut_first (comma_not _) (comma_not _) h
  have h := List.append_cancel_left h
  obtain ⟨q4, h⟩ := cut_first ha.2 hb.2 h
  have h := List.append_cancel_left h
  have h := List.append_cancel_right h
  have q2 : ats = bts := q2
  have q4 : acs = bcs := q4
  exact ⟨by rw [toDigits_inj' q1, q2, toDigits_inj' q3, q4], h⟩

/-- C119 (violated by the code). The frame is printed without any quoting: two different objects
print the same text. -/
theorem c119_text_ambiguous :
    ∃ (a b : Header) (da db : Text), (a, da) ≠ (b, db) ∧
      (Obj.full da a).print (.streamed id) = (Obj.full db b).print (.streamed id) ∧
      ∃ t, (Obj.full da a).print (.streamed id) = .ok t :=
  ⟨⟨"map".toList, "now".toList, 1, some 2⟩, ⟨"map; x".toList, "now".toList, 1, some 2⟩,
    "x; y".toList, "y".toList, by decide, by decide, ⟨_, rfl⟩⟩

instance : DefaultInit Text := ⟨some []⟩
instance : DefaultInit Nat := ⟨none⟩

/-- A header with an item number, used for two objects; the second is changed afterwards. -/
example : printAfter (.sizeOnly 4 : Shown Nat)
    [.hMake 0 "cam".toList "t0".toList 7, .hSet 0 (.dsin 42), .sFull 0 5 0, .sCopy 1 0,
     .sSet 1 (.seq 8), .hSet 0 (.dsin 1)] 0
    = .ok "[seq: 7, timestamp: t0, DSIN: 42, Frame: cam; 4 data bytes]".toList := by decide +kernel

/-- The documented full constructor, then printing: undefined. -/
example : printAfter (.streamed id : Shown Text)
    [.hMake 0 "cam".toList "t0".toList 7, .sFull 0 "data".toList 0] 0 = .ub := by decide +kernel

end Verif.Stamped
