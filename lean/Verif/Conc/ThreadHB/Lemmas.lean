import Verif.Conc.ThreadHB.Spec
import Verif.Conc.ThreadLemmas
import Verif.Conc.Race.Lemmas

/-!
# Lemmas for C139
-/
namespace Verif.Thread.HBT

open Verif.Race (Ev HB DataRace Accesses)

/-! ## What a thread and a synchronisation object know -/

theorem get_append {α : Type} {l : List α} {q : Nat} {a : α} (m : List α) (h : l[q]? = some a) : (l ++ m)[q]? = some a := by
  obtain ⟨h1, h2⟩ := List.getElem?_eq_some_iff.1 h
  rw [List.getElem?_append_left h1]; exact h

theorem HB_append {tr : Tr} {a b : Nat} (l : Tr) (h : HB tr a b) : HB (tr ++ l) a b := by
  induction h with
  | thread h1 h2 h3 => exact .thread h1 (get_append l h2) (get_append l h3)
  | sync h1 h2 h3 => exact .sync h1 (get_append l h2) (get_append l h3)
  | trans _ _ h1 h2 => exact .trans h1 h2

theorem HB_lt {tr : Tr} {a b : Nat} (h : HB tr a b) : ∃ e, tr[a]? = some e := by
  induction h with
  | thread h1 h2 h3 => exact ⟨_, h2⟩
  | sync h1 h2 h3 => exact ⟨_, h2⟩
  | trans _ _ h1 _ => exact h1

/-- Position `q` happens before whatever `t` does next. -/
def Known (tr : Tr) (q : Nat) (t : Option Nat) : Prop := ∃ p e, tr[p]? = some (t, e) ∧ (q = p ∨ HB tr q p)

/-- Position `q` happens before whatever follows a later acquisition of `m`. -/
def Told (tr : Tr) (q : Nat) (m : Sync) : Prop := ∃ p t, tr[p]? = some (t, .rel m) ∧ (q = p ∨ HB tr q p)

theorem Known.append {tr : Tr} {q : Nat} {t : Option Nat} (l : Tr) (h : Known tr q t) : Known (tr ++ l) q t := by
  obtain ⟨p, e, h1, h2⟩ := h
  exact ⟨p, e, get_append l h1, h2.imp id (HB_append l)⟩

theorem Told.append {tr : Tr} {q : Nat} {m : Sync} (l : Tr) (h : Told tr q m) : Told (tr ++ l) q m := by
  obtain ⟨p, e, h1, h2⟩ := h
  exact ⟨p, e, get_append l h1, h2.imp id (HB_append l)⟩

theorem get_lt {tr : Tr} {q : Nat} {a} (h : tr[q]? = some a) : q < tr.length := (List.getElem?_eq_some_iff.1 h).1

/-- An event of `l` in `tr ++ l`. -/
theorem get_new {tr l : Tr} {a} (h : a ∈ l) : ∃ p, tr.length ≤ p ∧ (tr ++ l)[p]? = some a := by
  obtain ⟨n, hn⟩ := List.mem_iff_getElem?.1 h
  refine ⟨tr.length + n, Nat.le_add_right _ _, ?_⟩
  rw [List.getElem?_append_right (Nat.le_add_right _ _), Nat.add_sub_cancel_left]; exact hn

theorem Known.hb {tr l : Tr} {q p : Nat} {t : Option Nat} {e} (h : Known tr q t) (hp : tr.length ≤ p)
    (hl : (tr ++ l)[p]? = some (t, e)) : HB (tr ++ l) q p := by
  obtain ⟨r, f, h1, h2⟩ := h
  have hr := get_lt h1
  have key : HB (tr ++ l) r p := .thread (by omega) (get_append l h1) hl
  rcases h2 with rfl | h2
  · exact key
  · exact .trans (HB_append l h2) key

theorem Told.hb {tr l : Tr} {q p : Nat} {m : Sync} {t} (h : Told tr q m) (hp : tr.length ≤ p)
    (hl : (tr ++ l)[p]? = some (t, .acq m)) : HB (tr ++ l) q p := by
  obtain ⟨r, f, h1, h2⟩ := h
  have hr := get_lt h1
  have key : HB (tr ++ l) r p := .sync (by omega) (get_append l h1) hl
  rcases h2 with rfl | h2
  · exact key
  · exact .trans (HB_append l h2) key

theorem Told.acq {tr l : Tr} {q : Nat} {m : Sync} {t} (h : Told tr q m) (hl : (t, Ev.acq m) ∈ l) : Known (tr ++ l) q t := by
  obtain ⟨p, hp, h1⟩ := get_new (tr := tr) hl
  exact ⟨p, _, h1, .inr (h.hb hp h1)⟩

theorem Known.rel {tr l : Tr} {q : Nat} {m : Sync} {t} (h : Known tr q t) (hl : (t, Ev.rel m) ∈ l) : Told (tr ++ l) q m := by
  obtain ⟨p, hp, h1⟩ := get_new (tr := tr) hl
  exact ⟨p, _, h1, .inr (h.hb hp h1)⟩

theorem Known.create {tr : Tr} {q : Nat} {n : Nat} (e : Option Nat × Ev Sync Var) (h : Known tr q none) :
    Known (tr ++ [(none, .rel (.create n)), e, (some n, .acq (.create n))]) q (some n) := by
  have h1 : Told (tr ++ [(none, .rel (.create n)), e]) q (.create n) := h.rel (by simp)
  have h2 := h1.acq (l := [(some n, .acq (.create n))]) (t := some n) (by simp)
  simpa using h2

theorem known_self {tr : Tr} {q : Nat} {t e} (h : tr[q]? = some (t, e)) : Known tr q t := ⟨q, e, h, .inl rfl⟩

/-- Positions of accesses to the data. -/
def Data (tr : Tr) (q : Nat) (t : Option Nat) : Prop := ∃ w, tr[q]? = some (t, access w)

theorem Data.append {tr : Tr} {q t} (l : Tr) (h : Data tr q t) : Data (tr ++ l) q t :=
  h.imp fun _ h => get_append l h

/-- Events other than accesses to the data. -/
def noData (l : Tr) : Prop := ∀ t w, (t, access w) ∉ l

theorem Data.old {tr l : Tr} {q t} (hl : noData l) (h : Data (tr ++ l) q t) : Data tr q t := by
  obtain ⟨w, h⟩ := h
  by_cases hq : q < tr.length
  · rw [List.getElem?_append_left hq] at h; exact ⟨w, h⟩
  · rw [List.getElem?_append_right (by omega)] at h
    exact absurd (List.mem_of_getElem? h) (hl _ _)

theorem Data.push {tr : Tr} {q t u w} (h : Data (tr ++ [(u, access w)]) q t) : Data tr q t ∨ q = tr.length ∧ t = u := by
  obtain ⟨w', h⟩ := h
  by_cases hq : q < tr.length
  · rw [List.getElem?_append_left hq] at h; exact .inl ⟨w', h⟩
  · have : q = tr.length := by
      have := get_lt h; simp at this; omega
    subst this
    simp at h
    exact .inr ⟨rfl, h.1.symm⟩

theorem Data.lt {tr : Tr} {q t} (h : Data tr q t) : q < tr.length := by
  obtain ⟨_, h⟩ := h; exact get_lt h

/-- No synchronisation of the owner with threads. -/
def neutral (l : Tr) : Prop := ∀ e ∈ l, (∀ i, e ≠ (none, .rel (.create i))) ∧ (∀ i, e ≠ (none, .acq (.exit i))) ∧
  e ≠ (none, .acq .mutex)

theorem settled_append (tr l : Tr) : settled (tr ++ l) = l.foldl settle (settled tr) := by
  simp only [settled, List.foldl_append]

theorem settle_neutral {b : Bool} {e : Option Nat × Ev Sync Var} (h : (∀ i, e ≠ (none, .rel (.create i))) ∧
    (∀ i, e ≠ (none, .acq (.exit i))) ∧ e ≠ (none, .acq .mutex)) : settle b e = b := by
  obtain ⟨h1, h2, h3⟩ := h
  rcases e with ⟨t, e⟩
  rcases t with _ | t
  · cases e with
    | acq m => cases m <;> first | rfl | exact absurd rfl (h2 _) | exact absurd rfl h3
    | rel m => cases m <;> first | rfl | exact absurd rfl (h1 _)
    | rd => rfl
    | wr => rfl
  · rfl

theorem settled_neutral {tr l : Tr} (h : neutral l) : settled (tr ++ l) = settled tr := by
  rw [settled_append]
  generalize settled tr = b
  induction l generalizing b with
  | nil => rfl
  | cons e l ih =>
    rw [List.foldl_cons, settle_neutral (h e (by simp))]
    exact ih (fun e h' => h e (by simp [h'])) b

/-! ## What one action does -/

/-- Not created, or past the end of `run()` and the release of the mutex. -/
def quiet : WPC → Bool
  | .none | .setFinished | .log | .exited | .joined => true
  | _ => false

/-- Created and past taking the mutex. -/
def past : WPC → Bool
  | .none | .lock => false
  | _ => true

/-- The kinds of actions of the control thread. -/
theorem ctl_kinds {s s' : State} {a : Act} (hw : ∀ i, a ≠ .work i) (hd : ∀ i, a ≠ .die i)
    (h : step false s a = some s') :
    (noData (events s a) ∧ neutral (events s a) ∧ s'.w = s.w ∧ s'.cur = s.cur ∧ s'.mutex = s.mutex) ∨
    (events s a = [(none, .rel (.create s.next)), (none, .wr .threadId), (some s.next, .acq (.create s.next))] ∧
      s'.w = (fun u => if u = s.next then .lock else s.w u) ∧ s'.cur = s.next ∧ s'.mutex = s.mutex) ∨
    (noData (events s a) ∧ (∃ l, events s a = l ++ [(none, .acq (.exit s.cur))]) ∧ s.w s.cur = .exited ∧
      s'.w = (fun u => if u = s.cur then .joined else s.w u) ∧ s'.cur = s.cur ∧ s'.mutex = s.mutex) ∨
    (events s a = [(none, .acq .mutex)] ∧ s.o = .waitLock ∧ s.mutex = none ∧ s'.w = s.w ∧ s'.cur = s.cur ∧
      s'.mutex = s.mutex) := by
  have h' : stepO s a = some s' := by
    cases a <;> first | exact h | exact absurd rfl (hw _) | exact absurd rfl (hd _)
  clear h
  unfold stepO at h'
  cases ho : s.o <;> cases a <;> simp only [ho, reduceCtorEq] at h' <;>
    (try (exact absurd rfl (hw _))) <;> (try (exact absurd rfl (hd _))) <;>
    (try (split at h' <;> try simp only [reduceCtorEq] at h')) <;>
    (try (split at h' <;> try simp only [reduceCtorEq] at h')) <;>
    simp only [Option.some.injEq] at h' <;> subst h' <;>
    simp_all [events, evO, evNew, noData, neutral, access, setW]
  exact ⟨[(none, .rd .finished)], rfl⟩

/-- The next step of an OS thread. -/
def nextW : WPC → WPC
  | .lock => .setExec
  | .setExec => .clrStarting
  | .clrStarting => .clrFinished
  | .clrFinished => .running
  | .running => .clrExec
  | .clrExec => .unlock
  | .unlock => .setFinished
  | .setFinished => .log
  | .log => .exited
  | p => p

theorem work_kind {s s' : State} {i : Nat} (h : step false s (.work i) = some s') :
    s.w i ≠ .none ∧ s.w i ≠ .exited ∧ s.w i ≠ .joined ∧ s'.w = (fun u => if u = i then nextW (s.w i) else s.w u) ∧
    s'.cur = s.cur ∧ (s.w i = .lock → s.mutex = none ∧ s'.mutex = some i) ∧
    (s.w i = .unlock → s'.mutex = none) ∧ (s.w i ≠ .lock → s.w i ≠ .unlock → s'.mutex = s.mutex) := by
  simp only [step, stepW] at h
  cases hp : s.w i <;> simp only [hp, Option.map_none, reduceCtorEq] at h <;>
    (try (split at h)) <;> simp only [Option.map_some, Option.map_none, Option.some.injEq, reduceCtorEq] at h <;>
    subst h <;> simp_all [setW, nextW]

theorem evW_noData (i : Nat) (p : WPC) : noData ((evW i p).map (Prod.mk (some i))) := by
  cases p <;> simp [evW, noData, access]

theorem evW_neutral (i : Nat) (p : WPC) : neutral ((evW i p).map (Prod.mk (some i))) := by
  cases p <;> simp [evW, neutral]

/-! ## The invariant -/

/-- See the fields; `c`: the owner is careful. -/
structure H (c : Prop) (x : X) : Prop where
  /-- accesses of different threads are ordered -/
  d1 : ∀ q r t u, Data x.tr q t → Data x.tr r u → q < r → t ≠ u →
    (c ∨ t ≠ none ∧ u ≠ none) → HB x.tr q r
  /-- what a thread did is told through the mutex, unless it still holds it -/
  d2 : ∀ q i, Data x.tr q (some i) → x.s.mutex = some i ∨ Told x.tr q .mutex
  /-- the current thread knows what all threads did once it has the mutex -/
  d4 : past (x.s.w x.s.cur) = true → ∀ q i, Data x.tr q (some i) → Known x.tr q (some x.s.cur)
  /-- its end tells it -/
  d5 : x.s.w x.s.cur = .exited ∨ x.s.w x.s.cur = .joined → ∀ q i, Data x.tr q (some i) → Told x.tr q (.exit x.s.cur)
  d6 : settled x.tr = true → quiet (x.s.w x.s.cur) = true ∧ ∀ q i, Data x.tr q (some i) → Known x.tr q none
  /-- a thread that has not finished knows what the owner did -/
  d7 : c → ∀ q, Data x.tr q none → ∀ i, quiet (x.s.w i) = false → Known x.tr q (some i)

theorem over_quiet {p : WPC} (h : over p = true) : quiet p = true := by cases p <;> simp_all [over, quiet]

theorem quiet_of {p : WPC} (h1 : early p = false) (h2 : holds p = false) : quiet p = true := by
  cases p <;> simp_all [early, holds, quiet]

theorem H.init (c : Prop) : H c xinit :=
  ⟨by simp [Data, xinit], by simp [Data, xinit], by simp [Data, xinit], by simp [Data, xinit],
    by simp [Data, xinit, Thread.init, quiet], by simp [Data, xinit]⟩

theorem H.ctl {c : Prop} {s s' : State} {tr : Tr} {a : Act} (h : H c ⟨s, tr⟩) (hI : Inv false s) (hw : ∀ i, a ≠ .work i)
    (hd : ∀ i, a ≠ .die i) (hs : step false s a = some s') : H c ⟨s', tr ++ events s a⟩ := by
  obtain ⟨d1, d2, d4, d5, d6, d7⟩ := h
  simp only at d1 d2 d4 d5 d6 d7
  rcases ctl_kinds hw hd hs with ⟨k1, k2, k3, k4, k5⟩ | ⟨k1, k3, k4, k5⟩ | ⟨k1, ⟨l, k2⟩, k6, k3, k4, k5⟩ | ⟨k1, k6, k7, k3, k4, k5⟩
  · refine ⟨?_, ?_, ?_, ?_, ?_, ?_⟩ <;> simp only [k3, k4, k5, settled_neutral k2]
    · exact fun q r t u h1 h2 h3 h4 hc => HB_append _ (d1 q r t u (h1.old k1) (h2.old k1) h3 h4 hc)
    · exact fun q i h1 => (d2 q i (h1.old k1)).imp id (Told.append _)
    · exact fun h q i h1 => (d4 h q i (h1.old k1)).append _
    · exact fun h q i h1 => (d5 h q i (h1.old k1)).append _
    · exact fun h => ⟨(d6 h).1, fun q i h1 => ((d6 h).2 q i (h1.old k1)).append _⟩
    · exact fun hc q h1 i h2 => (d7 hc q (h1.old k1) i h2).append _
  · rw [k1]
    have kd : noData [(none, Ev.rel (Sync.create s.next)), (none, .wr Var.threadId), (some s.next, .acq (.create s.next))] := by
      simp [noData, access]
    refine ⟨?_, ?_, ?_, ?_, ?_, ?_⟩ <;> simp only [k3, k4, k5, if_pos]
    · exact fun q r t u h1 h2 h3 h4 hc => HB_append _ (d1 q r t u (h1.old kd) (h2.old kd) h3 h4 hc)
    · exact fun q i h1 => (d2 q i (h1.old kd)).imp id (Told.append _)
    · intro h; cases h
    · intro h; rcases h with h | h <;> cases h
    · intro h
      rw [settled_append] at h; simp [settle] at h
    · intro hc q h1 i h2
      by_cases hi : i = s.next
      · subst hi
        obtain ⟨w, hw'⟩ := h1.old kd
        exact (known_self hw').create _
      · rw [if_neg hi] at h2
        exact (d7 hc q (h1.old kd) i h2).append _
  · have key : ∀ q i, Data tr q (some i) → Known (tr ++ events s a) q none := fun q i h1 =>
      (d5 (.inl k6) q i h1).acq (by rw [k2]; simp)
    refine ⟨?_, ?_, ?_, ?_, ?_, ?_⟩ <;> simp only [k3, k4, k5, if_pos]
    · exact fun q r t u h1 h2 h3 h4 hc => HB_append _ (d1 q r t u (h1.old k1) (h2.old k1) h3 h4 hc)
    · exact fun q i h1 => (d2 q i (h1.old k1)).imp id (Told.append _)
    · exact fun h q i h1 => (d4 (by rw [k6]; rfl) q i (h1.old k1)).append _
    · exact fun h q i h1 => (d5 (.inl k6) q i (h1.old k1)).append _
    · exact fun h => ⟨rfl, fun q i h1 => key q i (h1.old k1)⟩
    · intro hc q h1 i h2
      by_cases hi : i = s.cur
      · rw [if_pos hi] at h2; cases h2
      · rw [if_neg hi] at h2
        exact (d7 hc q (h1.old k1) i h2).append _
  · have kd : noData (events s a) := by rw [k1]; simp [noData, access]
    have hq : quiet (s.w s.cur) = true := by
      refine quiet_of ?_ ?_
      · cases he : early (s.w s.cur) with
        | false => rfl
        | true => have := (hI.st2 he).2; rw [k6] at this; cases this
      · cases he : holds (s.w s.cur) with
        | false => rfl
        | true => have := (hI.mu s.cur).1 he; rw [k7] at this; cases this
    refine ⟨?_, ?_, ?_, ?_, ?_, ?_⟩ <;> simp only [k3, k4, k5]
    · exact fun q r t u h1 h2 h3 h4 hc => HB_append _ (d1 q r t u (h1.old kd) (h2.old kd) h3 h4 hc)
    · exact fun q i h1 => (d2 q i (h1.old kd)).imp id (Told.append _)
    · exact fun h q i h1 => (d4 h q i (h1.old kd)).append _
    · exact fun h q i h1 => (d5 h q i (h1.old kd)).append _
    · refine fun h => ⟨hq, fun q i h1 => ?_⟩
      rcases d2 q i (h1.old kd) with h2 | h2
      · rw [k7] at h2; cases h2
      · exact h2.acq (by rw [k1]; simp)
    · exact fun hc q h1 i h2 => (d7 hc q (h1.old kd) i h2).append _

theorem past_next {p : WPC} (h : p ≠ .none) : past (nextW p) = true := by cases p <;> simp_all [past, nextW]
theorem quiet_next {p : WPC} (h : quiet p = true) : quiet (nextW p) = true := by cases p <;> simp_all [quiet, nextW]

theorem H.work {c : Prop} {s s' : State} {tr : Tr} {i : Nat} (h : H c ⟨s, tr⟩) (hI : Inv false s)
    (hs : step false s (.work i) = some s') : H c ⟨s', tr ++ events s (.work i)⟩ := by
  obtain ⟨d1, d2, d4, d5, d6, d7⟩ := h
  simp only at d1 d2 d4 d5 d6 d7
  obtain ⟨n1, n2, n3, k3, k4, m1, m2, m3⟩ := work_kind hs
  have kd := evW_noData i (s.w i)
  have kn := evW_neutral i (s.w i)
  show H c ⟨s', tr ++ (evW i (s.w i)).map (Prod.mk (some i))⟩
  refine ⟨?_, ?_, ?_, ?_, ?_, ?_⟩ <;> simp only [k3, k4, settled_neutral kn]
  · exact fun q r t u h1 h2 h3 h4 hc => HB_append _ (d1 q r t u (h1.old kd) (h2.old kd) h3 h4 hc)
  · intro q j h1
    rcases d2 q j (h1.old kd) with h2 | h2
    · by_cases hl : s.w i = .lock
      · rw [(m1 hl).1] at h2; cases h2
      · by_cases hu : s.w i = .unlock
        · have := (hI.mu i).1 (by rw [hu]; rfl)
          rw [h2] at this; cases this
          obtain ⟨w, hw⟩ := h1.old kd
          exact .inr ((known_self hw).rel (by rw [hu]; simp [evW]))
        · rw [m3 hl hu]; exact .inl h2
    · exact .inr (h2.append _)
  · intro hp q j h1
    by_cases hi : s.cur = i
    · by_cases hl : s.w i = .lock
      · rcases d2 q j (h1.old kd) with h2 | h2
        · rw [(m1 hl).1] at h2; cases h2
        · rw [hi]; exact h2.acq (by rw [hl]; simp [evW])
      · refine (d4 ?_ q j (h1.old kd)).append _
        rw [hi]; revert hl n1; cases s.w i <;> simp [past]
    · rw [if_neg hi] at hp
      exact (d4 hp q j (h1.old kd)).append _
  · intro hp q j h1
    by_cases hi : s.cur = i
    · have hl : s.w i = .log := by
        rw [if_pos hi] at hp
        revert hp n2 n3; cases s.w i <;> simp [nextW]
      refine (d4 (by rw [hi, hl]; rfl) q j (h1.old kd)).rel ?_
      rw [hi, hl]; simp [evW]
    · rw [if_neg hi] at hp
      exact (d5 hp q j (h1.old kd)).append _
  · intro hp
    refine ⟨?_, fun q j h1 => ((d6 hp).2 q j (h1.old kd)).append _⟩
    by_cases hi : s.cur = i
    · rw [if_pos hi]; exact quiet_next (hi ▸ (d6 hp).1)
    · rw [if_neg hi]; exact (d6 hp).1
  · intro hc q h1 j hp
    refine (d7 hc q (h1.old kd) j ?_).append _
    by_cases hj : j = i
    · rw [if_pos hj] at hp; rw [hj]
      cases hq : quiet (s.w i) with
      | false => rfl
      | true => rw [quiet_next hq] at hp; cases hp
    · rw [if_neg hj] at hp; exact hp

theorem push_neutral (t : Option Nat) (w : Bool) : neutral [(t, access w)] := by cases w <;> simp [neutral, access]

theorem H.owner {c : Prop} {s : State} {tr : Tr} {w : Bool} (h : H c ⟨s, tr⟩) (hI : Inv false s) (hs : c → settled tr = true) :
    H c ⟨s, tr ++ [(none, access w)]⟩ := by
  obtain ⟨d1, d2, d4, d5, d6, d7⟩ := h
  simp only at d1 d2 d4 d5 d6 d7
  have some_old : ∀ q i, Data (tr ++ [(none, access w)]) q (some i) → Data tr q (some i) := fun q i h1 => by
    rcases h1.push with h | ⟨_, h⟩
    · exact h
    · cases h
  refine ⟨?_, ?_, ?_, ?_, ?_, ?_⟩ <;> simp only [settled_neutral (push_neutral none w)]
  · intro q r t u h1 h2 h3 h4 hc
    rcases h2.push with h2' | ⟨h2', h5⟩
    · rcases h1.push with h1' | ⟨h1', _⟩
      · exact HB_append _ (d1 q r t u h1' h2' h3 h4 hc)
      · have := h2'.lt; omega
    · rcases h1.push with h1' | ⟨h1', _⟩
      · subst h5 h2'
        rcases t with _ | i
        · exact absurd rfl h4
        · exact ((d6 (hs (hc.resolve_right fun h => h.2 rfl))).2 q i h1').hb (e := access w) (Nat.le_refl _) (by simp)
      · omega
  · exact fun q i h1 => (d2 q i (some_old _ _ h1)).imp id (Told.append _)
  · exact fun h q i h1 => (d4 h q i (some_old _ _ h1)).append _
  · exact fun h q i h1 => (d5 h q i (some_old _ _ h1)).append _
  · exact fun h => ⟨(d6 h).1, fun q i h1 => ((d6 h).2 q i (some_old _ _ h1)).append _⟩
  · intro hc q h1 i h2
    rcases h1.push with h1' | ⟨h1', _⟩
    · exact (d7 hc q h1' i h2).append _
    · exfalso
      by_cases hi : i = s.cur
      · rw [hi, (d6 (hs hc)).1] at h2; cases h2
      · rw [over_quiet (hI.old i hi)] at h2; cases h2

theorem H.body {c : Prop} {s : State} {tr : Tr} {i : Nat} {w : Bool} (h : H c ⟨s, tr⟩) (hI : Inv false s) (hr : s.w i = .running) :
    H c ⟨s, tr ++ [(some i, access w)]⟩ := by
  obtain ⟨d1, d2, d4, d5, d6, d7⟩ := h
  simp only at d1 d2 d4 d5 d6 d7
  have hi : i = s.cur := by
    refine Classical.byContradiction fun hi => ?_
    have := hI.old i hi; rw [hr] at this; cases this
  subst hi
  have hm : s.mutex = some s.cur := (hI.mu s.cur).1 (by rw [hr]; rfl)
  have ns : settled tr = false := by
    cases hx : settled tr with
    | false => rfl
    | true => have := (d6 hx).1; rw [hr] at this; cases this
  have none_old : ∀ q, Data (tr ++ [(some s.cur, access w)]) q none → Data tr q none := fun q h1 => by
    rcases h1.push with h | ⟨_, h⟩
    · exact h
    · cases h
  refine ⟨?_, ?_, ?_, ?_, ?_, ?_⟩ <;> simp only [settled_neutral (push_neutral (some s.cur) w)]
  · intro q r t u h1 h2 h3 h4 hc
    rcases h2.push with h2' | ⟨h2', h5⟩
    · rcases h1.push with h1' | ⟨h1', _⟩
      · exact HB_append _ (d1 q r t u h1' h2' h3 h4 hc)
      · have := h2'.lt; omega
    · rcases h1.push with h1' | ⟨h1', _⟩
      · subst h5 h2'
        rcases t with _ | j
        · exact (d7 (hc.resolve_right fun h => h.1 rfl) q h1' s.cur (by rw [hr]; rfl)).hb (e := access w) (Nat.le_refl _) (by simp)
        · exact (d4 (by rw [hr]; rfl) q j h1').hb (e := access w) (Nat.le_refl _) (by simp)
      · omega
  · intro q j h1
    rcases h1.push with h1' | ⟨_, h1'⟩
    · exact (d2 q j h1').imp id (Told.append _)
    · cases h1'; exact .inl hm
  · intro h q j h1
    rcases h1.push with h1' | ⟨h1', _⟩
    · exact (d4 h q j h1').append _
    · subst h1'
      exact known_self (e := access w) (by simp)
  · intro h; rw [hr] at h; rcases h with h | h <;> cases h
  · intro h; rw [ns] at h; cases h
  · exact fun hc q h1 j h2 => (d7 hc q (none_old q h1) j h2).append _

end Verif.Thread.HBT
