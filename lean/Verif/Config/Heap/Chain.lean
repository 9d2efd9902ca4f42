import Verif.Config.Heap.Spec
import Mathlib.Data.List.Nodup

/-!
# Lemmas about `SubTreeList` chains
-/
namespace Verif.ATHeap

open Verif.AT (S newSubNode)

@[simp] theorem Res.ok_bind {α β : Type} (a : α) (f : α → Res β) : (Res.ok a >>= f) = f a := rfl
@[simp] theorem Res.ub_bind {α β : Type} (f : α → Res β) : ((Res.ub : Res α) >>= f) = .ub := rfl
@[simp] theorem Res.fuel_bind {α β : Type} (f : α → Res β) : ((Res.fuel : Res α) >>= f) = .fuel := rfl

@[simp] theorem upd_same {α : Type} (f : Addr → Option α) (a : Addr) (v : Option α) : upd f a v a = v := by
  simp [upd]

theorem upd_ne {α : Type} (f : Addr → Option α) {a x : Addr} (v : Option α) (h : x ≠ a) :
    upd f a v x = f x := by
  simp [upd, h]

theorem rdT_eq {h : Heap} {t : Addr} {n : Node} (e : h.trees t = some n) : rdT h t = .ok n := by
  simp [rdT, e]
theorem wrT_eq {h : Heap} {t : Addr} {n : Node} (e : h.trees t = some n) (n' : Node) :
    wrT h t n' = .ok { h with trees := upd h.trees t (some n') } := by
  simp [wrT, e]
theorem freeT_eq {h : Heap} {t : Addr} {n : Node} (e : h.trees t = some n) :
    freeT h t = .ok { h with trees := upd h.trees t none } := by
  simp [freeT, e]
theorem rdC_eq {h : Heap} {t : Addr} {n : Cell} (e : h.cells t = some n) : rdC h t = .ok n := by
  simp [rdC, e]
theorem wrC_eq {h : Heap} {t : Addr} {n : Cell} (e : h.cells t = some n) (n' : Cell) :
    wrC h t n' = .ok { h with cells := upd h.cells t (some n') } := by
  simp [wrC, e]
theorem freeC_eq {h : Heap} {t : Addr} {n : Cell} (e : h.cells t = some n) :
    freeC h t = .ok { h with cells := upd h.cells t none } := by
  simp [freeC, e]

/-- The cells from `o` on are those of the list, with their trees. -/
def Chain (cells : Addr → Option Cell) : Option Addr → List (Addr × Addr) → Prop
  | o, [] => o = none
  | o, x :: l => o = some x.1 ∧ ∃ n, cells x.1 = some ⟨n, some x.2⟩ ∧ Chain cells n l

theorem Chain.congr {cells cells' : Addr → Option Cell} : ∀ {l : List (Addr × Addr)} {o : Option Addr},
    Chain cells o l → (∀ c ∈ l.map Prod.fst, cells' c = cells c) → Chain cells' o l := by
  intro l
  induction l with
  | nil => intro o h _; exact h
  | cons x l ih =>
    intro o h he
    obtain ⟨h1, n, h2, h3⟩ := h
    exact ⟨h1, n, by rw [he x.1 (by simp), h2], ih h3 fun c hc => he c (by simp [hc])⟩

theorem findName_spec (h : Heap) (d : S) : ∀ (l : List (Addr × Addr)) (o : Option Addr) (k : Nat),
    Chain h.cells o l → (∀ x ∈ l, ∃ n, h.trees x.2 = some n) → l.length < k →
    findName k h o d = .ok ((l.map Prod.snd).find? fun s => (h.trees s).bind Node.desc == some d) := by
  intro l
  induction l with
  | nil =>
    intro o k hc _ hk
    obtain ⟨k, rfl⟩ : ∃ j, k = j + 1 := ⟨k - 1, by simp at hk; omega⟩
    cases hc
    rfl
  | cons x l ih =>
    intro o k hc hl hk
    obtain ⟨k, rfl⟩ : ∃ j, k = j + 1 := ⟨k - 1, by simp at hk; omega⟩
    obtain ⟨rfl, n, h2, h3⟩ := hc
    obtain ⟨nd, hn⟩ := hl x (by simp)
    simp only [findName, rdC_eq h2, Res.ok_bind, rdT_eq hn, List.map_cons, List.find?_cons, hn,
      Option.bind_some]
    by_cases he : nd.desc = some d
    · simp [he]
    · have : (nd.desc == some d) = false := by simpa using he
      simp only [he, if_false, this]
      exact ih n k h3 (fun y hy => hl y (by simp [hy])) (by simp at hk; omega)

theorem names_spec (h : Heap) : ∀ (l : List (Addr × Addr)) (o : Option Addr) (k : Nat),
    Chain h.cells o l → (∀ x ∈ l, ∃ n, h.trees x.2 = some n) → l.length < k →
    names k h o = .ok ((l.map Prod.snd).map fun s => (h.trees s).bind Node.desc) := by
  intro l
  induction l with
  | nil =>
    intro o k hc _ hk
    obtain ⟨k, rfl⟩ : ∃ j, k = j + 1 := ⟨k - 1, by simp at hk; omega⟩
    cases hc
    rfl
  | cons x l ih =>
    intro o k hc hl hk
    obtain ⟨k, rfl⟩ : ∃ j, k = j + 1 := ⟨k - 1, by simp at hk; omega⟩
    obtain ⟨rfl, n, h2, h3⟩ := hc
    obtain ⟨nd, hn⟩ := hl x (by simp)
    simp only [names, rdC_eq h2, Res.ok_bind, rdT_eq hn, List.map_cons, hn, Option.bind_some,
      ih n k h3 (fun y hy => hl y (by simp [hy])) (by simp at hk; omega)]

/-- The insertion behind an entry. -/
theorem newSubTreeList_spec (t a : Addr) (c1 : Addr) (l2 : List (Addr × Addr)) :
    ∀ (l1 : List (Addr × Addr)) (h : Heap) (c : Addr),
    Chain h.cells (some c) (l1 ++ (c1, a) :: l2) → a ∉ l1.map Prod.snd →
    ((l1 ++ (c1, a) :: l2).map Prod.fst).Nodup → h.fresh ∉ (l1 ++ (c1, a) :: l2).map Prod.fst →
    ∃ h', (∀ k, l1.length + l2.length + 1 < k → newSubTreeList k h c t a = .ok h') ∧ h'.trees = h.trees ∧ h'.fresh = h.fresh + 1 ∧
      Chain h'.cells (some c) (l1 ++ (c1, a) :: (h.fresh, t) :: l2) ∧
      (∀ x, x ∉ (l1 ++ (c1, a) :: l2).map Prod.fst → x ≠ h.fresh → h'.cells x = h.cells x) := by
  intro l1
  induction l1 with
  | nil =>
    intro h c hc _ hnd hf
    obtain ⟨h1, n, h2, h3⟩ := hc
    have hcc : c1 = c := by simpa using h1.symm
    subst hcc
    simp only [List.nil_append, List.map_cons, List.mem_cons, not_or, List.nodup_cons] at hf hnd
    have hc1 : (allocC h ⟨n, some t⟩).cells c1 = some ⟨n, some a⟩ := by
      simp only [allocC]
      rw [upd_ne _ _ (fun e => hf.1 e.symm)]
      exact h2
    have hw := wrC_eq hc1 ⟨some h.fresh, some a⟩
    have hch : Chain (upd (upd h.cells h.fresh (some ⟨n, some t⟩)) c1 (some ⟨some h.fresh, some a⟩)) n l2 := by
      refine h3.congr fun x hx => ?_
      have h6 : x ≠ c1 := fun e => hnd.1 (e ▸ hx)
      have h7 : x ≠ h.fresh := fun e => hf.2 (e ▸ hx)
      rw [upd_ne _ _ h6, upd_ne _ _ h7]
    refine ⟨{ trees := h.trees, cells := upd (upd h.cells h.fresh (some ⟨n, some t⟩)) c1 (some ⟨some h.fresh, some a⟩), fresh := h.fresh + 1 },
      ?_, rfl, rfl, ⟨rfl, some h.fresh, upd_same _ _ _, rfl, n, ?_, hch⟩, ?_⟩
    · intro k hk
      obtain ⟨k, rfl⟩ : ∃ j, k = j + 1 := ⟨k - 1, by omega⟩
      simp only [newSubTreeList, rdC_eq h2, Res.ok_bind]
      cases n with
      | none => exact hw
      | some nx =>
        simp only [ne_eq, not_true_eq_false, if_false]
        exact hw
    · show upd (upd h.cells h.fresh (some ⟨n, some t⟩)) c1 (some ⟨some h.fresh, some a⟩) h.fresh = _
      rw [upd_ne _ _ hf.1, upd_same]
    · intro x hx hxf
      simp only [List.nil_append, List.map_cons, List.mem_cons, not_or] at hx
      show upd (upd h.cells h.fresh (some ⟨n, some t⟩)) c1 (some ⟨some h.fresh, some a⟩) x = _
      rw [upd_ne _ _ hx.1, upd_ne _ _ hxf]
  | cons y l1 ih =>
    intro h c hc ha hnd hf
    obtain ⟨h1, n, h2, h3⟩ := hc
    cases h1
    simp only [List.cons_append, List.map_cons, List.mem_cons, not_or, List.nodup_cons] at hf hnd ha
    obtain ⟨nx, rfl⟩ : ∃ nx, n = some nx := by
      cases l1 with
      | nil => exact ⟨_, h3.1⟩
      | cons z l1 => exact ⟨_, h3.1⟩
    obtain ⟨h', e1, e2, e3, e4, e5⟩ := ih h nx h3 ha.2 hnd.2 hf.2
    refine ⟨h', ?_, e2, e3, ⟨rfl, some nx, ?_, e4⟩, ?_⟩
    · intro k hk
      obtain ⟨k, rfl⟩ : ∃ j, k = j + 1 := ⟨k - 1, by omega⟩
      simp only [newSubTreeList, rdC_eq h2, Res.ok_bind]
      rw [if_pos (by simp; exact fun e => ha.1 e.symm)]
      exact e1 k (by simp at hk; omega)
    · rw [e5 _ hnd.1 (fun e => hf.1 e.symm)]
      exact h2
    · intro x hx hxf
      simp only [List.cons_append, List.map_cons, List.mem_cons, not_or] at hx
      exact e5 x hx.2 hxf

/-- Removal of an entry that has a predecessor. -/
theorem unlinkCell_prev (t c1 : Addr) (l2 : List (Addr × Addr)) :
    ∀ (l1 : List (Addr × Addr)) (h : Heap) (q sq c : Addr),
    Chain h.cells (some q) ((q, sq) :: (l1 ++ (c1, t) :: l2)) → Chain h.cells (some c) (l1 ++ (c1, t) :: l2) →
    t ∉ l1.map Prod.snd → (((q, sq) :: (l1 ++ (c1, t) :: l2)).map Prod.fst).Nodup →
    ∃ h', (∀ k, l1.length + l2.length + 1 < k → unlinkCell k h (some q) c t = .ok h') ∧ h'.trees = h.trees ∧ h'.fresh = h.fresh ∧
      Chain h'.cells (some q) ((q, sq) :: (l1 ++ l2)) ∧ h'.cells c1 = none ∧
      (∀ x, x ∉ ((q, sq) :: (l1 ++ (c1, t) :: l2)).map Prod.fst → h'.cells x = h.cells x) := by
  intro l1
  induction l1 with
  | nil =>
    intro h q sq c hq hc _ hnd
    obtain ⟨h1, n, h2, h3⟩ := hc
    have hcc : c1 = c := by simpa using h1.symm
    subst hcc
    obtain ⟨-, m, h4, -⟩ := hq
    simp only [List.nil_append, List.map_cons, List.mem_cons, not_or, List.nodup_cons] at hnd h2 h4
    obtain ⟨⟨hqc, hq2⟩, hc2, -⟩ := hnd
    have w1 := wrC_eq h4 ⟨n, some sq⟩
    have hc1 : ({ h with cells := upd h.cells q (some ⟨n, some sq⟩) } : Heap).cells c1 = some ⟨n, some t⟩ := by
      show upd _ _ _ _ = _
      rw [upd_ne _ _ (fun e => hqc e.symm)]; exact h2
    have w2 := wrC_eq hc1 ⟨none, none⟩
    have hc2' : ({ h with cells := upd (upd h.cells q (some ⟨n, some sq⟩)) c1 (some ⟨none, none⟩) } : Heap).cells c1 =
      some ⟨none, none⟩ := upd_same _ _ _
    have w3 := freeC_eq hc2'
    refine ⟨{ h with cells := upd (upd (upd h.cells q (some ⟨n, some sq⟩)) c1 (some ⟨none, none⟩)) c1 none },
      ?_, rfl, rfl, ⟨rfl, n, ?_, ?_⟩, upd_same _ _ _, ?_⟩
    · intro k hk
      obtain ⟨k, rfl⟩ : ∃ j, k = j + 1 := ⟨k - 1, by omega⟩
      simp only [unlinkCell, rdC_eq h2, Res.ok_bind, if_true, rdC_eq h4]
      rw [w1]
      simp only [Res.ok_bind]
      rw [w2]
      simp only [Res.ok_bind]
      exact w3
    · show upd (upd (upd h.cells q (some ⟨n, some sq⟩)) c1 (some ⟨none, none⟩)) c1 none q = _
      rw [upd_ne _ _ hqc, upd_ne _ _ hqc, upd_same]
    · refine h3.congr fun x hx => ?_
      show upd (upd (upd h.cells q (some ⟨n, some sq⟩)) c1 (some ⟨none, none⟩)) c1 none x = _
      have hxc : x ≠ c1 := fun e => hc2 (e ▸ hx)
      have hxq : x ≠ q := fun e => hq2 (e ▸ hx)
      rw [upd_ne _ _ hxc, upd_ne _ _ hxc, upd_ne _ _ hxq]
    · intro x hx
      simp only [List.nil_append, List.map_cons, List.mem_cons, not_or] at hx
      show upd (upd (upd h.cells q (some ⟨n, some sq⟩)) c1 (some ⟨none, none⟩)) c1 none x = _
      rw [upd_ne _ _ hx.2.1, upd_ne _ _ hx.2.1, upd_ne _ _ hx.1]
  | cons y l1 ih =>
    intro h q sq c hq hc ht hnd
    have hc0 := hc
    obtain ⟨h1, n, h2, h3⟩ := hc
    cases h1
    obtain ⟨-, m, h4, h5⟩ := hq
    simp only [List.cons_append, List.map_cons, List.mem_cons, not_or, List.nodup_cons] at hnd ht
    obtain ⟨nx, rfl⟩ : ∃ nx, n = some nx := by
      cases l1 with
      | nil => exact ⟨_, h3.1⟩
      | cons z l1 => exact ⟨_, h3.1⟩
    obtain ⟨h', e1, e2, e3, e4, e5, e6⟩ := ih h y.1 y.2 nx hc0 h3 ht.2
      (by simp only [List.map_cons, List.nodup_cons]; exact hnd.2)
    refine ⟨h', ?_, e2, e3, ⟨rfl, m, ?_, ?_⟩, e5, ?_⟩
    · intro k hk
      obtain ⟨k, rfl⟩ : ∃ j, k = j + 1 := ⟨k - 1, by omega⟩
      simp only [unlinkCell, rdC_eq h2, Res.ok_bind]
      rw [if_neg (by simp; exact fun e => ht.1 e.symm)]
      exact e1 k (by simp at hk; omega)
    · rw [e6 _ (by simp only [List.map_cons, List.mem_cons, not_or]; exact hnd.1)]
      exact h4
    · rw [h5.1]
      exact e4
    · intro x hx
      simp only [List.cons_append, List.map_cons, List.mem_cons, not_or] at hx
      exact e6 x (by simp only [List.map_cons, List.mem_cons, not_or]; exact hx.2)

/-- Removal of an entry: the code in `unlink` up to the call of `SubTreeList::unlink` is part of it
as `o'`, the new start of the list. -/
theorem unlinkCell_spec (t c1 : Addr) (l1 l2 : List (Addr × Addr)) (h : Heap) (c : Addr) (cell : Cell)
    (hcell : h.cells c = some cell)
    (hc : Chain h.cells (some c) (l1 ++ (c1, t) :: l2)) (ht : t ∉ l1.map Prod.snd)
    (hnd : ((l1 ++ (c1, t) :: l2).map Prod.fst).Nodup) :
    ∃ h', (∀ k, l1.length + l2.length + 1 < k → unlinkCell k h none c t = .ok h') ∧ h'.trees = h.trees ∧ h'.fresh = h.fresh ∧
      Chain h'.cells (if cell.sub = some t then cell.next else some c) (l1 ++ l2) ∧ h'.cells c1 = none ∧
      (∀ x, x ∉ (l1 ++ (c1, t) :: l2).map Prod.fst → h'.cells x = h.cells x) := by
  cases l1 with
  | nil =>
    obtain ⟨h1, n, h2, h3⟩ := hc
    have hcc : c1 = c := by simpa using h1.symm
    subst hcc
    rw [h2] at hcell
    cases hcell
    simp only [List.nil_append, List.map_cons, List.nodup_cons] at hnd
    have w2 := wrC_eq h2 ⟨none, none⟩
    have hc2' : ({ h with cells := upd h.cells c1 (some ⟨none, none⟩) } : Heap).cells c1 =
      some ⟨none, none⟩ := upd_same _ _ _
    have w3 := freeC_eq hc2'
    refine ⟨{ h with cells := upd (upd h.cells c1 (some ⟨none, none⟩)) c1 none }, ?_, rfl, rfl, ?_, upd_same _ _ _, ?_⟩
    · intro k hk
      obtain ⟨k, rfl⟩ : ∃ j, k = j + 1 := ⟨k - 1, by omega⟩
      simp only [unlinkCell, rdC_eq h2, Res.ok_bind, if_true]
      rw [w2]
      simp only [Res.ok_bind]
      exact w3
    · simp only [if_true]
      refine h3.congr fun x hx => ?_
      show upd (upd h.cells c1 (some ⟨none, none⟩)) c1 none x = _
      have hxc : x ≠ c1 := fun e => hnd.1 (e ▸ hx)
      rw [upd_ne _ _ hxc, upd_ne _ _ hxc]
    · intro x hx
      simp only [List.nil_append, List.map_cons, List.mem_cons, not_or] at hx
      show upd (upd h.cells c1 (some ⟨none, none⟩)) c1 none x = _
      rw [upd_ne _ _ hx.1, upd_ne _ _ hx.1]
  | cons y l1 =>
    have hc0 := hc
    obtain ⟨h1, n, h2, h3⟩ := hc
    cases h1
    rw [h2] at hcell
    cases hcell
    simp only [List.map_cons, List.mem_cons, not_or] at ht
    obtain ⟨nx, rfl⟩ : ∃ nx, n = some nx := by
      cases l1 with
      | nil => exact ⟨_, h3.1⟩
      | cons z l1 => exact ⟨_, h3.1⟩
    obtain ⟨h', e1, e2, e3, e4, e5, e6⟩ := unlinkCell_prev t c1 l2 l1 h y.1 y.2 nx hc0 h3 ht.2 hnd
    have hne : ¬ (some y.2 = some t) := by simp; exact fun e => ht.1 e.symm
    refine ⟨h', ?_, e2, e3, ?_, e5, e6⟩
    · intro k hk
      obtain ⟨k, rfl⟩ : ∃ j, k = j + 1 := ⟨k - 1, by omega⟩
      simp only [unlinkCell, rdC_eq h2, Res.ok_bind]
      rw [if_neg hne]
      exact e1 k (by simp at hk; omega)
    · simp only [hne, if_false]
      exact e4

end Verif.ATHeap
