import Verif.Config.Heap.Link

/-!
# Reachable heaps, and the functions that browse the tree
-/
namespace Verif.ATHeap

open Verif.AT (S newSubNode)
open scoped Classical

theorem Runs.unique {h : Heap} {op : Op} {r r' : Option Addr} {h1 h2 : Heap} (a : Runs h op r h1) (b : Runs h op r' h2) :
    r = r' ∧ h1 = h2 := by
  obtain ⟨k1, a⟩ := a
  obtain ⟨k2, b⟩ := b
  have := (a (k1 + k2) (by omega)).symm.trans (b (k1 + k2) (by omega))
  cases this
  exact ⟨rfl, rfl⟩

theorem NewDesc.unique {f : Forest} {np nt : SNode} {a b : Option S} (h1 : NewDesc f np nt a) (h2 : NewDesc f np nt b) : a = b := by
  obtain ⟨d, hd, h1⟩ := h1
  obtain ⟨d', hd', h2⟩ := h2
  rw [hd] at hd'
  cases hd'
  by_cases e : some d ∈ descs f np.kids
  · rw [if_pos e] at h1 h2
    obtain ⟨x, h3, h4⟩ := h1
    obtain ⟨y, h5, h6⟩ := h2
    rw [h3] at h5
    cases h5
    rw [h4, h6]
  · rw [if_neg e] at h1 h2
    rw [h1, h2]

theorem SStep.unique {f : Forest} (hu : ∀ p q a, Child f p a → Child f q a → p = q) {op : Op} {r : Option Addr} {f1 f2 : Forest}
    (h1 : SStep f op r f1) (h2 : SStep f op r f2) : f1 = f2 := by
  cases op with
  | new d =>
    obtain ⟨t, e, _, h1⟩ := h1
    obtain ⟨t', e', _, h2⟩ := h2
    rw [e] at e'
    cases e'
    rw [h1, h2]
  | newIn d p =>
    obtain ⟨t, n, e, _, hn, h1⟩ := h1
    obtain ⟨t', n', e', _, hn', h2⟩ := h2
    rw [e] at e'
    cases e'
    rw [hn] at hn'
    cases hn'
    rw [h1, h2]
  | add p t =>
    obtain ⟨_, np, nt, d, a, b, c, h1⟩ := h1
    obtain ⟨_, np', nt', d', a', b', c', h2⟩ := h2
    rw [a] at a'
    cases a'
    rw [b] at b'
    cases b'
    rw [h1, h2, c.unique c']
  | addNext a t =>
    obtain ⟨_, ⟨g, h1⟩ | ⟨p, np, nt, d, g, a, b, c, h1⟩⟩ := h1 <;>
      obtain ⟨_, ⟨g', h2⟩ | ⟨p', np', nt', d', g', a', b', c', h2⟩⟩ := h2
    · rw [h1, h2]
    · exact absurd g' (g _)
    · exact absurd g (g' _)
    · have := hu _ _ _ g g'
      subst this
      rw [a] at a'
      cases a'
      rw [b] at b'
      cases b'
      rw [h1, h2, c.unique c']
  | unlink t => rw [h1.2, h2.2]
  | unlinkSub t => rw [h1.2, h2.2]
  | delete t => rw [h1.2, h2.2]
  | setDesc t d => rw [h1.2, h2.2]

theorem uniq_child {h : Heap} {cs : Cells} (I : Inv h cs) (p q a : Addr) (h1 : Child (absF h cs) p a)
    (h2 : Child (absF h cs) q a) : p = q := by
  obtain ⟨c, hc⟩ := (child_iff I p a).1 h1
  obtain ⟨c', hc'⟩ := (child_iff I q a).1 h2
  exact I.shape.uniq _ _ _ _ _ hc hc'

theorem empty_rep : Rep True Heap.empty (fun _ => none) := by
  refine ⟨fun _ => [], ⟨⟨fun _ => List.nodup_nil, fun _ => List.nodup_nil, ?_, ?_, ⟨fun _ => 0, ?_⟩⟩, fun _ _ => rfl, fun _ _ => rfl,
    fun t n hn => ?_, fun _ _ => rfl, ?_, fun s n t hn => ?_⟩, rfl, fun _ c hc => absurd rfl hc⟩
  · intro t t' c s s' hm; cases hm
  · intro t t' c s s' hm; cases hm
  · intro t c s hm; cases hm
  · cases hn
  · intro t c s hm; cases hm
  · cases hn

theorem reach_rep {ops : List Op} {h : Heap} {f : Forest} (R : Reach ops h f) :
    Rep (∀ t, Op.unlinkSub t ∉ ops) h f := by
  induction R with
  | init =>
    obtain ⟨cs, I, e, L⟩ := empty_rep
    exact ⟨cs, I, e, fun _ => L trivial⟩
  | @step ops h h' f f' op r R hl hr hs ih =>
    obtain ⟨r2, h2, f2, a, b, c⟩ := good ih op hl
    obtain ⟨rfl, rfl⟩ := hr.unique a
    obtain ⟨cs, I, rfl, L⟩ := ih
    have : f' = f2 := SStep.unique (uniq_child I) hs b
    subst this
    obtain ⟨cs', J, e, LJ⟩ := c
    refine ⟨cs', J, e, fun ht => LJ ⟨fun t hm => ht t (List.mem_cons_of_mem _ hm), fun t e => ht t (by rw [e]; simp)⟩⟩

theorem next_spec (h : Heap) (s : Addr) : ∀ (l : List (Addr × Addr)) (o : Option Addr) (k : Nat),
    Chain h.cells o l → (l.map Prod.snd).Nodup → l.length < k → next k h o s = .ok (after s (l.map Prod.snd)) := by
  intro l
  induction l with
  | nil =>
    intro o k hc _ hk
    have hc : o = none := hc
    subst hc
    obtain ⟨j, rfl⟩ : ∃ j, k = j + 1 := ⟨k - 1, by omega⟩
    rfl
  | cons y l ih =>
    intro o k hc hnd hk
    obtain ⟨e, m, hcell, hch⟩ := hc
    subst e
    rw [List.length_cons] at hk
    obtain ⟨j, rfl⟩ : ∃ j, k = j + 1 := ⟨k - 1, by omega⟩
    rw [List.map_cons, List.nodup_cons] at hnd
    simp only [next, rdC_eq hcell, Res.ok_bind, List.map_cons, after, Option.some.injEq]
    by_cases e : y.2 = s
    · rw [if_pos e, if_pos e]
      cases l with
      | nil =>
        have hch : m = none := hch
        subst hch
        obtain ⟨i, rfl⟩ : ∃ i, j = i + 1 := ⟨j - 1, by simp at hk; omega⟩
        rfl
      | cons z l =>
        obtain ⟨e', m', hcell', _⟩ := hch
        subst e'
        simp only [rdC_eq hcell', Res.ok_bind, List.map_cons, List.head?_cons]
    · rw [if_neg e, if_neg e]
      exact ih m j hch hnd.2 (by omega)

theorem root_spec {h : Heap} {cs : Cells} (I : Inv h cs) : ∀ (m : Nat) (rank : Addr → Nat),
    (∀ t c s, (c, s) ∈ cs t → rank s < rank t) → ∀ (B : Nat), (∀ x, h.trees x ≠ none → rank x < B) →
    ∀ t n, h.trees t = some n → B - rank t ≤ m →
    ∃ r, (∀ x c, (c, r) ∉ cs x) ∧ Sub cs r t ∧ ∀ k > m, root k h t = .ok r := by
  intro m
  induction m with
  | zero =>
    intro rank hr B hB t n hn hm
    have := hB t (by rw [hn]; simp)
    omega
  | succ m ih =>
    intro rank hr B hB t n hn hm
    cases hp : n.parent with
    | none =>
      refine ⟨t, I.root_not_kid hn hp, .self, fun k hk => ?_⟩
      obtain ⟨j, rfl⟩ : ∃ j, k = j + 1 := ⟨k - 1, by omega⟩
      simp only [root, rdT_eq hn, Res.ok_bind, hp]
    | some p =>
      obtain ⟨c, hc⟩ := I.par t n p hn hp
      obtain ⟨np, hnp⟩ := I.live hc
      have h1 := hr _ _ _ hc
      have h2 := hB p (by rw [hnp]; simp)
      obtain ⟨r, q1, q2, q3⟩ := ih rank hr B hB p np hnp (by omega)
      refine ⟨r, q1, .step q2 hc, fun k hk => ?_⟩
      obtain ⟨j, rfl⟩ : ∃ j, k = j + 1 := ⟨k - 1, by omega⟩
      simp only [root, rdT_eq hn, Res.ok_bind, hp]
      exact q3 j (by omega)

/-- A bound for the values of a function below a number. -/
theorem bounded (g : Nat → Nat) : ∀ n, ∃ B, ∀ x < n, g x < B := by
  intro n
  induction n with
  | zero => exact ⟨0, fun x hx => by omega⟩
  | succ n ih =>
    obtain ⟨B, hB⟩ := ih
    refine ⟨B + g n + 1, fun x hx => ?_⟩
    by_cases e : x = n
    · subst e; omega
    · have := hB x (by omega)
      omega

theorem root_ok {h : Heap} {cs : Cells} (I : Inv h cs) {t : Addr} {n : Node} (hn : h.trees t = some n) :
    ∃ r k0, (∀ x c, (c, r) ∉ cs x) ∧ Sub cs r t ∧ ∀ k ≥ k0, root k h t = .ok r := by
  obtain ⟨rank, hr⟩ := I.shape.rank
  obtain ⟨B, hB⟩ := bounded rank h.fresh
  obtain ⟨r, q1, q2, q3⟩ := root_spec I B rank hr B (fun x hx => by
    obtain ⟨m, hm⟩ := Option.ne_none_iff_exists'.1 hx
    exact hB x (I.tree_lt hm)) t n hn (by omega)
  exact ⟨r, B + 1, q1, q2, fun k hk => q3 k (by omega)⟩

end Verif.ATHeap
