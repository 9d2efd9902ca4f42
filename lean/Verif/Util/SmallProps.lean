import Verif.Util.SmallModel

/-!
# Properties of the small helpers (C18-C21, C23-C26)
-/
namespace Verif.Small

/-! ## C18 setRelation -/

/-- `cmp` is a strict total order whose equivalence is equality (what `std::set` together
with the `==` used by the code require). -/
structure StrictTotal {α : Type u} (cmp : α → α → Bool) : Prop where
  irrefl : ∀ a, cmp a a = false
  trans : ∀ a b c, cmp a b = true → cmp b c = true → cmp a c = true
  total : ∀ a b, a = b ∨ cmp a b = true ∨ cmp b a = true

/-- The elements of a `std::set` in iteration order. -/
def Ascending {α : Type u} (cmp : α → α → Bool) (l : List α) : Prop :=
  l.Pairwise fun a b => cmp a b = true

/-- Specification: the mathematical relation of two sets (given by their members). -/
def RelSpec {α : Type u} (A B : α → Prop) : SetRelation → Prop
  | .equal => ∀ x, A x ↔ B x
  | .properSuperset => (∀ x, B x → A x) ∧ ∃ x, A x ∧ ¬ B x
  | .properSubset => (∀ x, A x → B x) ∧ ∃ x, B x ∧ ¬ A x
  | .intersectionNonempty => (∃ x, A x ∧ B x) ∧ (∃ x, A x ∧ ¬ B x) ∧ ∃ x, B x ∧ ¬ A x
  | .disjunct => (∀ x, ¬ (A x ∧ B x)) ∧ (∃ x, A x ∧ ¬ B x) ∧ ∃ x, B x ∧ ¬ A x

/-- What the flags must say after complete processing. -/
structure FlagSpec {α : Type u} (l1 l2 : List α) (f0 f : Flags) : Prop where
  sub : f.sub = true ↔ f0.sub = true ∧ ∀ x ∈ l1, x ∈ l2
  super : f.super = true ↔ f0.super = true ∧ ∀ x ∈ l2, x ∈ l1
  equal : f.equal = true ↔ f0.equal = true ∧ (∀ x ∈ l1, x ∈ l2) ∧ ∀ x ∈ l2, x ∈ l1
  inter : f.inter = true ↔ f0.inter = true ∨ ∃ x, x ∈ l1 ∧ x ∈ l2

/-- The flag corrections of SetHelper.h:77-86. -/
def endFlags {α : Type u} : Flags × List α × List α → Flags
  | (f, r1, r2) =>
    let f := if r1 ≠ [] then { f with equal := false, sub := false } else f
    if r2 ≠ [] then { f with equal := false, super := false } else f

theorem asc_not_mem {α : Type u} {cmp : α → α → Bool} (hc : StrictTotal cmp) {x y : α} {ys : List α}
    (h : cmp x y = true) (hy : Ascending cmp (y :: ys)) : x ∉ y :: ys := by
  intro hm
  rcases List.mem_cons.1 hm with rfl | hm
  · rw [hc.irrefl] at h; cases h
  · have := (List.pairwise_cons.1 hy).1 x hm
    have := hc.trans _ _ _ h this
    rw [hc.irrefl] at this; cases this

theorem relLoop_spec {α : Type u} [DecidableEq α] (cmp : α → α → Bool) (hc : StrictTotal cmp)
    (l1 l2 : List α) (f : Flags) (h1 : Ascending cmp l1) (h2 : Ascending cmp l2) :
    FlagSpec l1 l2 f (endFlags (relLoop cmp l1 l2 f)) := by
  fun_induction relLoop cmp l1 l2 f with
  | case1 l2 f =>
    cases l2 with
    | nil => constructor <;> simp [endFlags]
    | cons y ys =>
      have hn : ¬ ∀ z ∈ y :: ys, z ∈ ([] : List α) := fun h => absurd (h y (by simp)) (by simp)
      constructor
      · simp [endFlags]
      · exact ⟨fun h => by simp [endFlags] at h, fun h => absurd h.2 hn⟩
      · exact ⟨fun h => by simp [endFlags] at h, fun h => absurd h.2.2 hn⟩
      · simp [endFlags]
  | case2 l1 f hne =>
    cases l1 with
    | nil => exact absurd rfl hne
    | cons x xs =>
      have hn : ¬ ∀ z ∈ x :: xs, z ∈ ([] : List α) := fun h => absurd (h x (by simp)) (by simp)
      constructor
      · exact ⟨fun h => by simp [endFlags] at h, fun h => absurd h.2 hn⟩
      · simp [endFlags]
      · exact ⟨fun h => by simp [endFlags] at h, fun h => absurd h.2.1 hn⟩
      · simp [endFlags]
  | case3 xs x ys f ih =>
    have h1' := List.pairwise_cons.1 h1
    have h2' := List.pairwise_cons.1 h2
    have hx1 : x ∉ xs := fun hm => by have := h1'.1 x hm; rw [hc.irrefl] at this; cases this
    have hx2 : x ∉ ys := fun hm => by have := h2'.1 x hm; rw [hc.irrefl] at this; cases this
    obtain ⟨a, b, c, d⟩ := ih h1'.2 h2'.2
    have e1 : (∀ z ∈ x :: xs, z ∈ x :: ys) ↔ ∀ z ∈ xs, z ∈ ys := by
      constructor
      · intro h z hz
        rcases List.mem_cons.1 (h z (List.mem_cons_of_mem _ hz)) with rfl | h
        · exact absurd hz hx1
        · exact h
      · intro h z hz
        rcases List.mem_cons.1 hz with rfl | hz
        · exact List.mem_cons_self
        · exact List.mem_cons_of_mem _ (h z hz)
    have e2 : (∀ z ∈ x :: ys, z ∈ x :: xs) ↔ ∀ z ∈ ys, z ∈ xs := by
      constructor
      · intro h z hz
        rcases List.mem_cons.1 (h z (List.mem_cons_of_mem _ hz)) with rfl | h
        · exact absurd hz hx2
        · exact h
      · intro h z hz
        rcases List.mem_cons.1 hz with rfl | hz
        · exact List.mem_cons_self
        · exact List.mem_cons_of_mem _ (h z hz)
    refine ⟨?_, ?_, ?_, ?_⟩
    · rw [a, e1]
    · rw [b, e2]
    · rw [c, e1, e2]
    · rw [d]
      constructor
      · intro _; exact Or.inr ⟨x, List.mem_cons_self, List.mem_cons_self⟩
      · intro _; exact Or.inl rfl
  | case4 x xs y ys f hne hlt ih =>
    have h1' := List.pairwise_cons.1 h1
    have hx : x ∉ y :: ys := asc_not_mem hc hlt h2
    obtain ⟨a, b, c, d⟩ := ih h1'.2 h2
    have e1 : ¬ ∀ z ∈ x :: xs, z ∈ y :: ys := fun h => hx (h x List.mem_cons_self)
    have e2 : (∀ z ∈ y :: ys, z ∈ x :: xs) ↔ ∀ z ∈ y :: ys, z ∈ xs := by
      constructor
      · intro h z hz
        rcases List.mem_cons.1 (h z hz) with rfl | h
        · exact absurd hz hx
        · exact h
      · intro h z hz; exact List.mem_cons_of_mem _ (h z hz)
    have e3 : (∃ z, z ∈ x :: xs ∧ z ∈ y :: ys) ↔ ∃ z, z ∈ xs ∧ z ∈ y :: ys := by
      constructor
      · rintro ⟨z, hz1, hz2⟩
        rcases List.mem_cons.1 hz1 with rfl | hz1
        · exact absurd hz2 hx
        · exact ⟨z, hz1, hz2⟩
      · rintro ⟨z, hz1, hz2⟩; exact ⟨z, List.mem_cons_of_mem _ hz1, hz2⟩
    refine ⟨?_, ?_, ?_, ?_⟩
    · rw [a]; constructor
      · rintro ⟨h, _⟩; cases h
      · rintro ⟨_, h⟩; exact absurd h e1
    · rw [b, e2]
    · rw [c]; constructor
      · rintro ⟨h, _⟩; cases h
      · rintro ⟨_, h, _⟩; exact absurd h e1
    · rw [d, e3]
  | case5 x xs y ys f hne hlt ih =>
    have h2' := List.pairwise_cons.1 h2
    have hgt : cmp y x = true := by
      rcases hc.total x y with h | h | h
      · exact absurd h hne
      · exact absurd h hlt
      · exact h
    have hy : y ∉ x :: xs := asc_not_mem hc hgt h1
    obtain ⟨a, b, c, d⟩ := ih h1 h2'.2
    have e1 : ¬ ∀ z ∈ y :: ys, z ∈ x :: xs := fun h => hy (h y List.mem_cons_self)
    have e2 : (∀ z ∈ x :: xs, z ∈ y :: ys) ↔ ∀ z ∈ x :: xs, z ∈ ys := by
      constructor
      · intro h z hz
        rcases List.mem_cons.1 (h z hz) with rfl | h
        · exact absurd hz hy
        · exact h
      · intro h z hz; exact List.mem_cons_of_mem _ (h z hz)
    have e3 : (∃ z, z ∈ x :: xs ∧ z ∈ y :: ys) ↔ ∃ z, z ∈ x :: xs ∧ z ∈ ys := by
      constructor
      · rintro ⟨z, hz1, hz2⟩
        rcases List.mem_cons.1 hz2 with rfl | hz2
        · exact absurd hz1 hy
        · exact ⟨z, hz1, hz2⟩
      · rintro ⟨z, hz1, hz2⟩; exact ⟨z, hz1, List.mem_cons_of_mem _ hz2⟩
    refine ⟨?_, ?_, ?_, ?_⟩
    · rw [a, e2]
    · rw [b]; constructor
      · rintro ⟨h, _⟩; cases h
      · rintro ⟨_, h⟩; exact absurd h e1
    · rw [c]; constructor
      · rintro ⟨h, _⟩; cases h
      · rintro ⟨_, _, h⟩; exact absurd h e1
    · rw [d, e3]

/-- C18. For any two sets, `setRelation` returns the mathematical relation between them. -/
theorem c18_setRelation {α : Type u} [DecidableEq α] (cmp : α → α → Bool) (hc : StrictTotal cmp)
    (s1 s2 : List α) (h1 : Ascending cmp s1) (h2 : Ascending cmp s2) :
    RelSpec (· ∈ s1) (· ∈ s2) (setRelation cmp s1 s2) := by
  have h := relLoop_spec cmp hc s1 s2 ⟨true, true, true, false⟩ h1 h2
  have hr : setRelation cmp s1 s2 =
      (let f := endFlags (relLoop cmp s1 s2 ⟨true, true, true, false⟩)
       if f.equal then .equal else if f.super then .properSuperset
       else if f.sub then .properSubset else if f.inter then .intersectionNonempty
       else .disjunct) := rfl
  rw [hr]
  generalize endFlags (relLoop cmp s1 s2 ⟨true, true, true, false⟩) = f at h
  obtain ⟨a, b, c, d⟩ := h
  simp only [true_and, Bool.false_eq_true, false_or] at a b c d
  have nsub : ∀ {p q : List α}, ¬ (∀ x ∈ p, x ∈ q) → ∃ x, x ∈ p ∧ x ∉ q := by
    intro p q h
    exact Classical.byContradiction fun hn => h fun x hx =>
      Classical.byContradiction fun hq => hn ⟨x, hx, hq⟩
  by_cases he : f.equal = true
  · simp only [he, if_true, RelSpec]
    exact fun x => ⟨(c.1 he).1 x, (c.1 he).2 x⟩
  · simp only [he, if_false, Bool.false_eq_true]
    by_cases hp : f.super = true
    · simp only [hp, if_true, RelSpec]
      exact ⟨b.1 hp, nsub fun h => he (c.2 ⟨h, b.1 hp⟩)⟩
    · simp only [hp, if_false, Bool.false_eq_true]
      by_cases hs : f.sub = true
      · simp only [hs, if_true, RelSpec]
        exact ⟨a.1 hs, nsub fun h => he (c.2 ⟨a.1 hs, h⟩)⟩
      · simp only [hs, if_false, Bool.false_eq_true]
        have n1 := nsub fun h => hs (a.2 h)
        have n2 := nsub fun h => hp (b.2 h)
        by_cases hi : f.inter = true
        · simp only [hi, if_true, RelSpec]
          exact ⟨d.1 hi, n1, n2⟩
        · simp only [hi, if_false, Bool.false_eq_true, RelSpec]
          exact ⟨fun x hx => hi (d.2 ⟨x, hx⟩), n1, n2⟩

/-- C18. The five relations exclude each other, so the result is determined: whenever the
sets are in relation `r`, `setRelation` returns `r`. -/
theorem c18_setRelation_complete {α : Type u} [DecidableEq α] (cmp : α → α → Bool)
    (hc : StrictTotal cmp) (s1 s2 : List α) (h1 : Ascending cmp s1) (h2 : Ascending cmp s2)
    (r : SetRelation) (hr : RelSpec (· ∈ s1) (· ∈ s2) r) : setRelation cmp s1 s2 = r := by
  have h := c18_setRelation cmp hc s1 s2 h1 h2
  generalize setRelation cmp s1 s2 = q at h
  cases q <;> cases r <;> simp only [RelSpec] at h hr <;> first | rfl | exfalso
  · obtain ⟨x, h3, h4⟩ := hr.2; exact h4 ((h x).1 h3)
  · obtain ⟨x, h3, h4⟩ := hr.2; exact h4 ((h x).2 h3)
  · obtain ⟨x, h3, h4⟩ := hr.2.1; exact h4 ((h x).1 h3)
  · obtain ⟨x, h3, h4⟩ := hr.2.1; exact h4 ((h x).1 h3)
  · obtain ⟨x, h3, h4⟩ := h.2; exact h4 ((hr x).1 h3)
  · obtain ⟨x, h3, h4⟩ := h.2; exact h4 (hr.1 x h3)
  · obtain ⟨x, h3, h4⟩ := hr.2.2; exact h4 (h.1 x h3)
  · obtain ⟨x, h3, h4⟩ := hr.2.2; exact h4 (h.1 x h3)
  · obtain ⟨x, h3, h4⟩ := h.2; exact h4 ((hr x).2 h3)
  · obtain ⟨x, h3, h4⟩ := h.2; exact h4 (hr.1 x h3)
  · obtain ⟨x, h3, h4⟩ := hr.2.1; exact h4 (h.1 x h3)
  · obtain ⟨x, h3, h4⟩ := hr.2.1; exact h4 (h.1 x h3)
  · obtain ⟨x, h3, h4⟩ := h.2.1; exact h4 ((hr x).1 h3)
  · obtain ⟨x, h3, h4⟩ := h.2.2; exact h4 (hr.1 x h3)
  · obtain ⟨x, h3, h4⟩ := h.2.1; exact h4 (hr.1 x h3)
  · obtain ⟨x, h3⟩ := h.1; exact hr.1 x h3
  · obtain ⟨x, h3, h4⟩ := h.2.1; exact h4 ((hr x).1 h3)
  · obtain ⟨x, h3, h4⟩ := h.2.2; exact h4 (hr.1 x h3)
  · obtain ⟨x, h3, h4⟩ := h.2.1; exact h4 (hr.1 x h3)
  · obtain ⟨x, h3⟩ := hr.1; exact h.1 x h3

theorem natLt_strict : StrictTotal (fun a b : Nat => decide (a < b)) := by
  constructor <;> intros <;> simp_all <;> omega

example : setRelation (fun a b : Nat => decide (a < b)) [1, 3, 5] [3, 5] = .properSuperset ∧
    setRelation (fun a b : Nat => decide (a < b)) [1, 3] [3, 5] = .intersectionNonempty ∧
    Ascending (fun a b : Nat => decide (a < b)) [1, 3, 5] := by
  refine ⟨by simp [setRelation, relLoop, relEnd], by simp [setRelation, relLoop, relEnd], ?_⟩
  simp [Ascending]

/-! ## C19 string2Enum -/

/-- Specification: the descriptions before the terminator (`NULL` or the end marker). -/
inductive Terminated : List (Option (List Char)) → Option (List Char) → List (List Char) → Prop
  | null (rest) : Terminated (none :: rest) none []
  | marker (m rest) : Terminated (some m :: rest) (some m) []
  | consNull (t) {ds ts} : Terminated ds none ts → Terminated (some t :: ds) none (t :: ts)
  | consMarker (t m) {ds ts} : t ≠ m → Terminated ds (some m) ts →
      Terminated (some t :: ds) (some m) (t :: ts)

theorem vecLoop_spec (str : List Char) : ∀ (ds : List (List Char)) (idx : Nat) (acc : Int × Bool),
    (str ∉ ds ∧ string2EnumVecLoop str ds idx acc = acc) ∨
    (∃ i : Nat, ds[i]? = some str ∧ string2EnumVecLoop str ds idx acc = (((idx + i : Nat) : Int), true)) := by
  intro ds
  induction ds with
  | nil => intro idx acc; left; exact ⟨by simp, rfl⟩
  | cons d ds ih =>
    intro idx acc
    simp only [string2EnumVecLoop]
    rcases ih (idx + 1) (if str = d then (idx, true) else acc) with ⟨h1, h2⟩ | ⟨i, h1, h2⟩
    · by_cases h : str = d
      · right; exact ⟨0, by simp [h], by rw [h2]; simp [h]⟩
      · left; refine ⟨by simp [h, h1], by rw [h2]; simp [h]⟩
    · right; exact ⟨i + 1, by simpa using h1, by rw [h2]; simp only [Prod.mk.injEq, and_true]; omega⟩

theorem enumLoop_eq_vec (str : List Char) {ds : List (Option (List Char))} {e : Option (List Char)}
    {ts : List (List Char)} (h : Terminated ds e ts) : ∀ (idx : Nat) (acc : Int × Bool),
    string2EnumLoop str e ds idx acc = .ok (string2EnumVecLoop (cstr str) ts idx acc) := by
  induction h with
  | null => intro idx acc; rfl
  | marker m rest => intro idx acc; simp [string2EnumLoop, string2EnumVecLoop]
  | consNull t _ ih => intro idx acc; simp only [string2EnumLoop, string2EnumVecLoop]; exact ih _ _
  | consMarker t m hne _ ih =>
    intro idx acc; simp only [string2EnumLoop, string2EnumVecLoop, hne, if_false]; exact ih _ _

/-- C19. For every correctly terminated description array, `string2Enum` reads only inside
it; it succeeds iff the C string is among the descriptions before the terminator; then the
value is an index whose description is the string, else the value is unchanged. -/
theorem c19_string2Enum (str : List Char) (value : Int) (ds : List (Option (List Char)))
    (e : Option (List Char)) (ts : List (List Char)) (h : Terminated ds e ts) :
    ∃ v b, string2Enum str value ds e = .ok (v, b) ∧
      (b = true ↔ cstr str ∈ ts) ∧
      (b = true → ∃ i : Nat, v = i ∧ i < ts.length ∧ ts[i]? = some (cstr str) ∧
        ds[i]? = some (some (cstr str))) ∧
      (b = false → v = value) := by
  have hts : ∀ i : Nat, i < ts.length → ds[i]? = (ts[i]?).map some := by
    clear value
    induction h with
    | null => intro i hi; simp at hi
    | marker => intro i hi; simp at hi
    | consNull t _ ih =>
      intro i hi
      cases i with
      | zero => simp
      | succ i => simpa using ih i (by simpa using hi)
    | consMarker t m _ _ ih =>
      intro i hi
      cases i with
      | zero => simp
      | succ i => simpa using ih i (by simpa using hi)
  unfold string2Enum
  rw [enumLoop_eq_vec str h]
  rcases vecLoop_spec (cstr str) ts 0 (value, false) with ⟨h1, h2⟩ | ⟨i, h1, h2⟩
  · exact ⟨value, false, by rw [h2], by simp [h1], by simp, by simp⟩
  · have hi : i < ts.length := by
      rcases Nat.lt_or_ge i ts.length with h | h
      · exact h
      · rw [List.getElem?_eq_none h] at h1; cases h1
    refine ⟨(i : Int), true, by rw [h2]; simp, ?_, ?_, by simp⟩
    · simp only [true_iff]; exact List.mem_of_getElem? h1
    · intro _; exact ⟨i, rfl, hi, h1, by rw [hts i hi, h1]; rfl⟩

/-- C19. The same for the overloads taking a vector (complete comparison, no terminator). -/
theorem c19_string2Enum_vector (str : List Char) (value : Int) (ds : List (List Char)) :
    ((string2EnumVec str value ds).2 = true ↔ str ∈ ds) ∧
    ((string2EnumVec str value ds).2 = true →
      ∃ i : Nat, (string2EnumVec str value ds).1 = i ∧ ds[i]? = some str) ∧
    ((string2EnumVec str value ds).2 = false → (string2EnumVec str value ds).1 = value) := by
  unfold string2EnumVec
  rcases vecLoop_spec str ds 0 (value, false) with ⟨h1, h2⟩ | ⟨i, h1, h2⟩
  · simp [h1, h2]
  · rw [h2]
    refine ⟨by simp only [true_iff]; exact List.mem_of_getElem? h1, ?_, by simp⟩
    intro _; exact ⟨i, by simp, h1⟩

/-- C19. An array without terminator is overrun. -/
theorem c19_unterminated (str : List Char) (value : Int) (ts : List (List Char)) :
    string2Enum str value (ts.map some) none = .ub := by
  have : ∀ (ts : List (List Char)) idx acc, string2EnumLoop str none (ts.map some) idx acc = .ub := by
    intro ts
    induction ts with
    | nil => intro idx acc; rfl
    | cons t ts ih => intro idx acc; simp only [List.map_cons, string2EnumLoop]; exact ih _ _
  exact this ts 0 _

example : Terminated [some ['a'], some ['b'], none] none [['a'], ['b']] ∧
    string2Enum ['b'] 7 [some ['a'], some ['b'], none] none = .ok (1, true) ∧
    string2Enum ['x'] 7 [some ['a'], some ['b'], some ['#']] (some ['#']) = .ok (7, false) :=
  ⟨.consNull _ (.consNull _ (.null [])), by decide, by decide⟩

/-! ## C20 bit fields -/

/-- C20. For integer types of at most 32 bits, `setBits` sets exactly the bits of the mask,
`clearBits` clears exactly them, all other bits keep their value, and `isBitSet` tells
whether one of the mask's bits (inside the type) is set.
Missing with respect to the full claim: wider types, see `c20_wide_types_lose_bits`. -/
theorem c20_bits_partial {w : Nat} (hw : w ≤ 32) (sgn : Bool) (bits : BitVec 32) (f : BitVec w) :
    (∀ i, i < w → (setBits sgn bits f).getLsbD i = (f.getLsbD i || bits.getLsbD i)) ∧
    (∀ i, i < w → (clearBits sgn bits f).getLsbD i = (f.getLsbD i && !bits.getLsbD i)) ∧
    (isBitSet bits f = true ↔ ∃ i, i < w ∧ f.getLsbD i = true ∧ bits.getLsbD i = true) := by
  have e1 : ∀ i, i < w → (toInt sgn f).getLsbD i = f.getLsbD i := by
    intro i hi
    unfold toInt
    split
    · rw [BitVec.getLsbD_signExtend]; simp [hi, show i < 32 by omega]
    · rw [BitVec.getLsbD_setWidth]; simp [show i < 32 by omega]
  have e2 : ∀ (x : BitVec 32) i, i < w → (ofInt w x).getLsbD i = x.getLsbD i := by
    intro x i hi
    unfold ofInt
    rw [BitVec.getLsbD_signExtend]; simp [hi, show i < 32 by omega]
  refine ⟨?_, ?_, ?_⟩
  · intro i hi
    unfold setBits
    rw [e2 _ i hi, BitVec.getLsbD_or, e1 i hi]
  · intro i hi
    unfold clearBits
    rw [e2 _ i hi, BitVec.getLsbD_and, e1 i hi, BitVec.getLsbD_not]; simp [show i < 32 by omega]
  · unfold isBitSet
    rw [bne_iff_ne]
    constructor
    · intro h
      apply Classical.byContradiction
      intro hn
      apply h
      apply BitVec.eq_of_getLsbD_eq
      intro i hi
      rw [BitVec.getLsbD_and, e2 _ i hi]
      cases h1 : f.getLsbD i <;> cases h2 : bits.getLsbD i <;> simp
      exact hn ⟨i, hi, h1, h2⟩
    · rintro ⟨i, hi, h1, h2⟩ h
      have := congrArg (fun x => x.getLsbD i) h
      simp only [BitVec.getLsbD_and, e2 _ i hi, h1, h2] at this
      simp at this

/-- C20 (exact for wider types). In types of more than 32 bits the lower 32 bits are right, but every
higher bit becomes a copy of the new bit 31, and `isBitSet` treats bit 31 of the mask as all higher bits. -/
theorem c20_wide_exact {w : Nat} (hw : 32 < w) (sgn : Bool) (bits : BitVec 32) (f : BitVec w) :
    (∀ i, i < w → (setBits sgn bits f).getLsbD i = (f.getLsbD (min i 31) || bits.getLsbD (min i 31))) ∧
    (∀ i, i < w → (clearBits sgn bits f).getLsbD i = (f.getLsbD (min i 31) && !bits.getLsbD (min i 31))) ∧
    (isBitSet bits f = true ↔ ∃ i, i < w ∧ f.getLsbD i = true ∧ bits.getLsbD (min i 31) = true) := by
  have e1 : ∀ i, i < 32 → (toInt sgn f).getLsbD i = f.getLsbD i := by
    intro i hi
    unfold toInt
    split
    · rw [BitVec.getLsbD_signExtend]; simp [hi, show i < w by omega]
    · rw [BitVec.getLsbD_setWidth]; simp [hi]
  have e2 : ∀ (x : BitVec 32) i, i < w → (ofInt w x).getLsbD i = x.getLsbD (min i 31) := by
    intro x i hi
    unfold ofInt
    rw [BitVec.getLsbD_signExtend]
    by_cases h : i < 32
    · simp [hi, h, show min i 31 = i by omega]
    · simp [hi, h, show min i 31 = 31 by omega, BitVec.msb_eq_getLsbD_last]
  refine ⟨?_, ?_, ?_⟩
  · intro i hi
    unfold setBits
    rw [e2 _ i hi, BitVec.getLsbD_or, e1 _ (by omega)]
  · intro i hi
    unfold clearBits
    rw [e2 _ i hi, BitVec.getLsbD_and, e1 _ (by omega), BitVec.getLsbD_not]
    simp [show min i 31 < 32 by omega]
  · unfold isBitSet
    rw [bne_iff_ne]
    constructor
    · intro h
      apply Classical.byContradiction
      intro hn
      apply h
      apply BitVec.eq_of_getLsbD_eq
      intro i hi
      rw [BitVec.getLsbD_and, e2 _ i hi]
      cases h1 : f.getLsbD i <;> cases h2 : bits.getLsbD (min i 31) <;> simp
      exact hn ⟨i, hi, h1, h2⟩
    · rintro ⟨i, hi, h1, h2⟩ h
      have := congrArg (fun x => x.getLsbD i) h
      simp only [BitVec.getLsbD_and, e2 _ i hi, h1, h2] at this
      simp at this

/-- C20 is violated for 64-bit types: setting bit 0 destroys bit 40, and setting bit 31 sets
all the upper bits. -/
theorem c20_wide_types_lose_bits :
    setBits (w := 64) false 1#32 (1#64 <<< 40) = 1#64 ∧
    setBits (w := 64) false (1#32 <<< 31) 0#64 = 0xFFFFFFFF80000000#64 ∧
    isBitSet (w := 64) (1#32 <<< 31) (1#64 <<< 40) = true := by decide

example : setBits (w := 8) false 0x05#32 0xF0#8 = 0xF5#8 ∧ clearBits (w := 8) true 0x30#32 0xF0#8 = 0xC0#8 := by
  decide

/-! ## C21 Array2D -/

namespace Array2D
variable {α : Type u}

/-- The class invariant (established by every constructor, `c21_invariant`), for arrays
whose number of cells is representable. -/
def Wf (a : Array2D α) : Prop :=
  a.width * a.height < 2 ^ 64 ∧ a.container.length = a.width * a.height

theorem idx_lt {w h c r : Nat} (hc : c < w) (hr : r < h) : r * w + c < w * h := by
  have h1 : r * w + w ≤ h * w := by
    have := Nat.mul_le_mul_right w hr; rw [Nat.succ_mul] at this; exact this
  rw [Nat.mul_comm w h]; omega

theorem index_eq (a : Array2D α) (h : a.Wf) {c r : Nat} (hc : c < a.width) (hr : r < a.height) :
    a.index1D c r = r * a.width + c :=
  Nat.mod_eq_of_lt (Nat.lt_trans (idx_lt hc hr) h.1)

/-- C21. Constructor, `assign`, `set`/`reset`, `resize` and cell assignment keep the
invariant: as many cells as `width*height`. -/
theorem c21_invariant (a : Array2D α) (w h : Nat) (v : α) (hwh : w * h < 2 ^ 64) :
    (mk' w h v).Wf ∧ (a.assign w h v).Wf ∧ (a.resize w h v).Wf ∧
    (a.Wf → (a.set v).Wf) ∧ (∀ c r a', a.Wf → a.put c r v = .ok a' → a'.Wf) := by
  have hm : mulSize w h = w * h := Nat.mod_eq_of_lt hwh
  refine ⟨⟨hwh, by simp [mk', hm]⟩, ⟨hwh, by simp [assign, hm]⟩, ⟨hwh, ?_⟩, ?_, ?_⟩
  · simp only [resize, vecResize, hm, List.length_append, List.length_take, List.length_replicate]
    omega
  · intro ha
    refine ⟨ha.1, ?_⟩
    simp [set, mulSize, Nat.mod_eq_of_lt ha.1]
  · intro c r a' ha hp
    unfold put Outcome.vecSet Outcome.map at hp
    split at hp
    · rename_i l hl
      split at hl
      · cases hl
        cases hp; exact ⟨ha.1, by simp [ha.2]⟩
      · cases hl
    · cases hp
    · cases hp

/-- C21. Every cell in range can be read and written; writing one changes exactly that
one. -/
theorem c21_no_aliasing (a : Array2D α) (h : a.Wf) (c r : Nat) (hc : c < a.width)
    (hr : r < a.height) (v : α) :
    ∃ a', a.put c r v = .ok a' ∧ a'.width = a.width ∧ a'.height = a.height ∧
      a'.at' c r = .ok v ∧
      ∀ c' r', c' < a.width → r' < a.height → (c', r') ≠ (c, r) →
        a'.at' c' r' = a.at' c' r' ∧ ∃ x, a.at' c' r' = .ok x := by
  have hi := index_eq a h hc hr
  have hlt : r * a.width + c < a.container.length := by rw [h.2]; exact idx_lt hc hr
  refine ⟨{ a with container := a.container.set (r * a.width + c) v }, ?_, rfl, rfl, ?_, ?_⟩
  · unfold put Outcome.vecSet
    rw [hi, if_pos hlt]; rfl
  · have : index1D { a with container := a.container.set (r * a.width + c) v } c r = r * a.width + c := hi
    unfold at' Outcome.vecGet
    rw [this]
    simp [hlt]
  · intro c' r' hc' hr' hne
    have hi' := index_eq a h hc' hr'
    have hlt' : r' * a.width + c' < a.container.length := by rw [h.2]; exact idx_lt hc' hr'
    have hi2 : index1D { a with container := a.container.set (r * a.width + c) v } c' r' = r' * a.width + c' := hi'
    have hneq : r * a.width + c ≠ r' * a.width + c' := by
      intro he
      have h1 : (r * a.width + c) / a.width = r := by
        rw [Nat.mul_comm, Nat.mul_add_div (by omega), Nat.div_eq_of_lt hc]; rfl
      have h2 : (r' * a.width + c') / a.width = r' := by
        rw [Nat.mul_comm, Nat.mul_add_div (by omega), Nat.div_eq_of_lt hc']; rfl
      have h3 : r = r' := by rw [← h1, ← h2, he]
      subst h3
      have : c = c' := by omega
      exact hne (by rw [this])
    unfold at' Outcome.vecGet
    rw [hi2, hi']
    refine ⟨by simp only [List.getElem?_set_ne hneq], ?_⟩
    exact ⟨a.container[r' * a.width + c'], by simp [hlt']⟩

/-- C21. `index1D` and `indexTo2D` are inverse bijections between the coordinates in range
and `0 … size()-1`. -/
theorem c21_index_bijection (a : Array2D α) (h : a.Wf) :
    (∀ c r, c < a.width → r < a.height → a.index1D c r < a.container.length ∧
      a.indexTo2D (a.index1D c r) = .ok (c, r)) ∧
    (∀ i, i < a.container.length → ∃ c r, a.indexTo2D i = .ok (c, r) ∧ c < a.width ∧ r < a.height ∧
      a.index1D c r = i) := by
  constructor
  · intro c r hc hr
    rw [index_eq a h hc hr, h.2]
    refine ⟨idx_lt hc hr, ?_⟩
    unfold indexTo2D
    rw [if_neg (by omega)]
    congr 2
    · rw [Nat.add_comm, Nat.add_mul_mod_self_right, Nat.mod_eq_of_lt hc]
    · rw [Nat.mul_comm, Nat.mul_add_div (by omega), Nat.div_eq_of_lt hc]; rfl
  · intro i hi
    rw [h.2] at hi
    have hw : 0 < a.width := by
      rcases Nat.eq_zero_or_pos a.width with h0 | h0
      · rw [h0] at hi; simp at hi
      · exact h0
    have hc := Nat.mod_lt i hw
    have hr : i / a.width < a.height := by
      rw [Nat.div_lt_iff_lt_mul hw, Nat.mul_comm]; exact hi
    refine ⟨i % a.width, i / a.width, ?_, hc, hr, ?_⟩
    · unfold indexTo2D; rw [if_neg (by omega)]
    · rw [index_eq a h hc hr, Nat.mul_comm]; exact Nat.div_add_mod _ _

/-- C21. `set`, `assign` and construction give every cell the value; `swap` exchanges. -/
theorem c21_fill (a b : Array2D α) (v : α) (w h : Nat) (hwh : w * h < 2 ^ 64) (ha : a.Wf) :
    (∀ c r, c < w → r < h → (mk' w h v).at' c r = .ok v ∧ (a.assign w h v).at' c r = .ok v) ∧
    (∀ c r, c < a.width → r < a.height → (a.set v).at' c r = .ok v) ∧ swap a b = (b, a) := by
  have key : ∀ (x : Array2D α), x.Wf → (x.container = List.replicate (x.width * x.height) v) →
      ∀ c r, c < x.width → r < x.height → x.at' c r = .ok v := by
    intro x hx hxc c r hc hr
    unfold at' Outcome.vecGet
    rw [index_eq x hx hc hr, hxc]
    simp [idx_lt hc hr]
  have inv := c21_invariant a w h v hwh
  have hm : mulSize w h = w * h := Nat.mod_eq_of_lt hwh
  refine ⟨fun c r hc hr => ⟨key _ inv.1 (by simp [mk', hm]) c r hc hr,
    key _ inv.2.1 (by simp [assign, hm]) c r hc hr⟩, ?_, rfl⟩
  intro c r hc hr
  exact key _ (inv.2.2.2.1 ha) (by simp [set, mulSize, Nat.mod_eq_of_lt ha.1]) c r hc hr

/-- C21 (the part of the resize claim that holds). A resize that keeps the width keeps every
cell that exists before and after, and new cells get the fill value. Missing: resizes that
change the width, see `c21_resize_moves_cells`. -/
theorem c21_resize_same_width_partial (a : Array2D α) (ha : a.Wf) (h : Nat) (v : α)
    (hwh : a.width * h < 2 ^ 64) (c r : Nat) (hc : c < a.width) (hr : r < h) :
    (a.resize a.width h v).at' c r = if r < a.height then a.at' c r else .ok v := by
  have hm : mulSize a.width h = a.width * h := Nat.mod_eq_of_lt hwh
  have hw := (c21_invariant a a.width h v hwh).2.2.1
  have hi : index1D (a.resize a.width h v) c r = r * a.width + c := index_eq _ hw hc hr
  have hl := idx_lt hc hr
  unfold at' Outcome.vecGet
  rw [hi]
  simp only [resize, vecResize, hm]
  by_cases hr' : r < a.height
  · rw [if_pos hr', index_eq a ha hc hr']
    have hl' := idx_lt hc hr'
    rw [List.getElem?_append_left (by rw [List.length_take, ha.2]; omega), List.getElem?_take_of_lt hl]
  · rw [if_neg hr']
    have hge : a.width * a.height ≤ r * a.width := by
      rw [Nat.mul_comm r]; exact Nat.mul_le_mul_left _ (by omega)
    rw [List.getElem?_append_right (by simp only [List.length_take, ha.2]; omega),
      List.getElem?_replicate]
    rw [if_pos (by simp only [List.length_take, ha.2]; omega)]

/-- C21 (exact, for every resize). `resize` keeps the cells in the order of memory: the cell at (c, r)
gets the old value with the same distance from the beginning, and the fill value behind the old cells. -/
theorem c21_resize_exact (a : Array2D α) (ha : a.Wf) (w h : Nat) (v : α)
    (hwh : w * h < 2 ^ 64) (c r : Nat) (hc : c < w) (hr : r < h) :
    (a.resize w h v).at' c r =
      if r * w + c < a.width * a.height then a.at' ((r * w + c) % a.width) ((r * w + c) / a.width) else .ok v := by
  have hm : mulSize w h = w * h := Nat.mod_eq_of_lt hwh
  have hw := (c21_invariant a w h v hwh).2.2.1
  have hi : index1D (a.resize w h v) c r = r * w + c := index_eq _ hw hc hr
  have hl := idx_lt hc hr
  by_cases hold : r * w + c < a.width * a.height
  · rw [if_pos hold]
    have hwp : 0 < a.width := by
      rcases Nat.eq_zero_or_pos a.width with e | e
      · rw [e, Nat.zero_mul] at hold; omega
      · exact e
    have hc' : (r * w + c) % a.width < a.width := Nat.mod_lt _ hwp
    have hr' : (r * w + c) / a.width < a.height := Nat.div_lt_of_lt_mul hold
    have hi' := index_eq a ha hc' hr'
    have hd : (r * w + c) / a.width * a.width + (r * w + c) % a.width = r * w + c := by
      rw [Nat.mul_comm]; exact Nat.div_add_mod _ _
    rw [hd] at hi'
    unfold at' Outcome.vecGet
    rw [hi, hi']
    simp only [resize, vecResize, hm]
    rw [List.getElem?_append_left (by rw [List.length_take, ha.2]; omega), List.getElem?_take_of_lt hl]
  · rw [if_neg hold]
    unfold at' Outcome.vecGet
    rw [hi]
    simp only [resize, vecResize, hm]
    rw [List.getElem?_append_right (by simp only [List.length_take, ha.2]; omega),
      List.getElem?_replicate]
    rw [if_pos (by simp only [List.length_take, ha.2]; omega)]

/-- C21 is violated by `resize` with a new width: growing a 2x2 array to 3x2 moves the cell
(1,1): it becomes the cell (0,1). -/
theorem c21_resize_moves_cells :
    let a : Array2D Nat := ⟨[10, 11, 20, 21], 2, 2⟩
    a.Wf ∧ a.at' 0 1 = .ok 20 ∧ (a.resize 3 2 0).at' 0 1 = .ok 21 := by
  refine ⟨⟨by decide, rfl⟩, by decide, by decide⟩

/-- C21. The representability hypothesis is needed: with 2^32 x 2^32 cells the product
wraps around, the array is empty and reading any cell is undefined. -/
theorem c21_size_overflow (v : α) :
    (mk' (2 ^ 32) (2 ^ 32) v).container = [] ∧ (mk' (2 ^ 32) (2 ^ 32) v).at' 0 0 = .ub := by
  have : mulSize (2 ^ 32) (2 ^ 32) = 0 := by decide
  constructor
  · simp [mk', this]
  · simp [mk', this, at', Outcome.vecGet]

end Array2D

/-! ## C23 ZBuffer -/

/-- Specification: the best of a list of offers, the earliest one among equals; `lt` is the
strict order. -/
def IsFirstMin {α : Type u} (lt : α → α → Bool) (offers : List α) (v : α) : Prop :=
  ∃ before after, offers = before ++ v :: after ∧
    (∀ x ∈ before, lt v x = true) ∧ (∀ x ∈ after, lt x v = false)

/-- The values offered for one cell. -/
def offersAt {α : Type u} (us : List (Nat × α)) (p : Nat) : List α :=
  (us.filter fun u => u.1 = p).map Prod.snd

theorem zRun_spec {α : Type u} (cmp : α → α → Bool)
    (htr : ∀ a b c, cmp a b = true → cmp b c = true → cmp a c = true)
    (hneg : ∀ a b c, cmp a b = false → cmp b c = false → cmp a c = false)
    (us : List (Nat × α)) : ∀ (b : List (Option α)) (done : List (Nat × α)),
    (∀ p, p < b.length → (b[p]? = some none ∧ offersAt done p = []) ∨
      ∃ v, b[p]? = some (some v) ∧ IsFirstMin cmp (offersAt done p) v) →
    (∀ u ∈ us, u.1 < b.length) →
    ∃ b', zRun cmp b us = .ok b' ∧ b'.length = b.length ∧
      ∀ p, p < b.length → (b'[p]? = some none ∧ offersAt (done ++ us) p = []) ∨
        ∃ v, b'[p]? = some (some v) ∧ IsFirstMin cmp (offersAt (done ++ us) p) v := by
  induction us with
  | nil => intro b done h _; exact ⟨b, rfl, rfl, by simpa using h⟩
  | cons u us ih =>
    obtain ⟨q, v⟩ := u
    intro b done h hu
    have hq : q < b.length := hu (q, v) (by simp)
    have hoff : ∀ p, offersAt (done ++ [(q, v)]) p =
        if q = p then offersAt done p ++ [v] else offersAt done p := by
      intro p
      unfold offersAt
      by_cases hp : q = p <;> simp [List.filter_append, hp]
    have main : ∃ b1 r, zUpdate cmp b q v = .ok (b1, r) ∧ b1.length = b.length ∧
        ∀ p, p < b.length → (b1[p]? = some none ∧ offersAt (done ++ [(q, v)]) p = []) ∨
          ∃ w, b1[p]? = some (some w) ∧ IsFirstMin cmp (offersAt (done ++ [(q, v)]) p) w := by
      rcases h q hq with ⟨h1, h2⟩ | ⟨w, h1, bef, aft, h2, h3, h4⟩
      · refine ⟨b.set q (some v), true, by unfold zUpdate; rw [h1], by simp, ?_⟩
        intro p hp
        by_cases he : q = p
        · subst he
          right
          refine ⟨v, by simp [hq], [], [], by simp [hoff, h2], by simp, by simp⟩
        · rw [List.getElem?_set_ne he, hoff, if_neg he]; exact h p hp
      · by_cases hc : cmp v w = true
        · refine ⟨b.set q (some v), true, by unfold zUpdate; rw [h1]; simp [hc], by simp, ?_⟩
          intro p hp
          by_cases he : q = p
          · subst he
            right
            refine ⟨v, by simp [hq], offersAt done q, [], by simp [hoff], ?_, by simp⟩
            intro x hx
            rw [h2] at hx
            rcases List.mem_append.1 hx with hx | hx
            · exact htr _ _ _ hc (h3 x hx)
            · rcases List.mem_cons.1 hx with rfl | hx
              · exact hc
              · -- x not better than w, so v is better than x
                cases hvx : cmp v x with
                | true => rfl
                | false =>
                  have := hneg _ _ _ hvx (h4 x hx)
                  rw [this] at hc; cases hc
          · rw [List.getElem?_set_ne he, hoff, if_neg he]; exact h p hp
        · refine ⟨b, false, by unfold zUpdate; rw [h1]; simp [hc], rfl, ?_⟩
          intro p hp
          by_cases he : q = p
          · subst he
            right
            refine ⟨w, h1, bef, aft ++ [v], by simp [hoff, h2], h3, ?_⟩
            intro x hx
            rcases List.mem_append.1 hx with hx | hx
            · exact h4 x hx
            · rw [List.mem_singleton.1 hx]; simpa using hc
          · rw [hoff, if_neg he]; exact h p hp
    obtain ⟨b1, r, e1, e2, e3⟩ := main
    obtain ⟨b', e4, e5, e6⟩ := ih b1 (done ++ [(q, v)]) (by rw [e2]; exact e3)
      (by rw [e2]; intro u hu'; exact hu u (by simp [hu']))
    refine ⟨b', ?_, by rw [e5, e2], ?_⟩
    · simp only [zRun, e1]; exact e4
    · rw [e2] at e6
      simpa using e6

/-- C23. For every strict weak order and every history of updates inside the buffer, each
cell is empty iff nothing was offered for it, and otherwise holds the best value offered,
the first one among equally good ones. -/
theorem c23_nearest {α : Type u} (cmp : α → α → Bool)
    (htr : ∀ a b c, cmp a b = true → cmp b c = true → cmp a c = true)
    (hneg : ∀ a b c, cmp a b = false → cmp b c = false → cmp a c = false)
    (n : Nat) (us : List (Nat × α)) (hu : ∀ u ∈ us, u.1 < n) :
    ∃ b, zRun cmp (zInit α n) us = .ok b ∧ b.length = n ∧
      ∀ p, p < n → (b[p]? = some none ∧ offersAt us p = []) ∨
        ∃ v, b[p]? = some (some v) ∧ IsFirstMin cmp (offersAt us p) v := by
  obtain ⟨b, h1, h2, h3⟩ := zRun_spec cmp htr hneg us (zInit α n) [] (by
    intro p hp; left; refine ⟨?_, rfl⟩
    simp only [zInit, List.length_replicate] at hp
    simp [zInit, hp]) (by simpa [zInit] using hu)
  exact ⟨b, h1, by simpa [zInit] using h2, by simpa [zInit] using h3⟩

/-- C23. `update` reports exactly whether the cell was replaced by the offered value. -/
theorem c23_update_result {α : Type u} (cmp : α → α → Bool) (b b' : List (Option α)) (p : Nat) (v : α)
    (r : Bool) (h : zUpdate cmp b p v = .ok (b', r)) :
    (r = true → b' = b.set p (some v) ∧ ∀ c, b[p]? = some (some c) → cmp v c = true) ∧
    (r = false → b' = b ∧ ∃ c, b[p]? = some (some c) ∧ cmp v c = false) := by
  unfold zUpdate at h
  split at h
  · cases h
  · rename_i hp
    cases h
    exact ⟨fun _ => ⟨rfl, fun c hc => by rw [hp] at hc; cases hc⟩, by simp⟩
  · rename_i c hp
    split at h <;> cases h
    · rename_i hc
      exact ⟨fun _ => ⟨rfl, fun d hd => by rw [hp] at hd; cases hd; exact hc⟩, by simp⟩
    · rename_i hc
      exact ⟨by simp, fun _ => ⟨rfl, c, hp, by simpa using hc⟩⟩

example : zRun (fun a b : Nat × Nat => decide (a.1 < b.1)) (zInit _ 2)
    [(0, (5, 1)), (0, (3, 2)), (0, (3, 3)), (1, (9, 4))] = .ok [some (3, 2), some (9, 4)] := by decide

/-! ## C24 SearchableStack -/

/-- C24. The operations are those of a stack seen as a list with the top first. -/
theorem c24_stack {α : Type u} (v : List α) :
    (∀ a, stackStep v (.push a) = .ok (v ++ [a]) ∧ (v ++ [a]).reverse = a :: v.reverse ∧
      stackTop (v ++ [a]) = .ok a ∧ stackStep (v ++ [a]) .pop = .ok v) ∧
    (v ≠ [] → ∃ a w, v.reverse = a :: w.reverse ∧ stackTop v = .ok a ∧ stackStep v .pop = .ok w ∧
      ∀ x, stackStep v (.setTop x) = .ok (w ++ [x])) ∧
    (v = [] → stackStep v .pop = .ub ∧ stackTop v = .ub) ∧ stackStep v .clear = .ok [] := by
  refine ⟨?_, ?_, ?_, rfl⟩
  · intro a; simp [stackStep, stackTop]
  · intro hv
    refine ⟨v.getLast hv, v.dropLast, ?_, ?_, by simp [stackStep, hv], fun x => by simp [stackStep, hv]⟩
    · conv => lhs; rw [← List.dropLast_concat_getLast hv]
      simp
    · simp [stackTop, List.getLast?_eq_some_getLast hv]
  · rintro rfl; exact ⟨rfl, rfl⟩

/-- C24. `find` returns the lowest position holding a matching element; it returns `end()`
iff no element matches. -/
theorem c24_find {α : Type u} (comp : α → α → Bool) (t : α) (v : List α) :
    stackFind comp t v ≤ v.length ∧
    (∀ a, v[stackFind comp t v]? = some a → comp a t = true) ∧
    (∀ i a, i < stackFind comp t v → v[i]? = some a → comp a t = false) ∧
    (stackFind comp t v = v.length ↔ ∀ a ∈ v, comp a t = false) := by
  induction v with
  | nil => simp [stackFind]
  | cons x xs ih =>
    obtain ⟨h1, h2, h3, h4⟩ := ih
    by_cases h : comp x t = true
    · simp [stackFind, h]
    · simp only [stackFind, h, Bool.false_eq_true, if_false]
      refine ⟨by simpa using h1, by simpa using h2, ?_, ?_⟩
      · intro i a hi ha
        cases i with
        | zero => simp at ha; subst ha; simpa using h
        | succ i => exact h3 i a (by omega) (by simpa using ha)
      · simp only [List.length_cons, Nat.add_right_cancel_iff, h4, List.mem_cons, forall_eq_or_imp]
        simp [show comp x t = false by simpa using h]

example : stackFind (fun a b : Nat => a == b) 7 [3, 7, 5, 7] = 1 ∧
    stackFind (fun a b : Nat => a == b) 9 [3, 7] = 2 := by decide

/-! ## C25 Finalizable -/

namespace Finalizable
variable {α : Type u}

/-- Specification: the value assigned last (by `=`). -/
def lastAssigned (v0 : α) : List (Op α) → α
  | [] => v0
  | .assign v :: ops => lastAssigned v ops
  | .assignFrom o :: ops => lastAssigned o.value ops
  | .finalize :: ops => lastAssigned v0 ops

/-- Is the call an assignment? -/
def isAssign : Op α → Bool
  | .assign _ => true
  | .assignFrom _ => true
  | .finalize => false

/-- C25. As long as `finalize` has not been called no assignment throws and reading yields
the value assigned last; after the first `finalize` every assignment throws
`std::logic_error`, and the value stays the one assigned before, whatever follows. -/
theorem c25_final (v0 : α) (pre post : List (Op α)) (hpre : ∀ op ∈ pre, isAssign op = true) :
    (run (init v0) pre).1 = pre.map (fun _ => none) ∧
    (run (init v0) pre).2 = ⟨lastAssigned v0 pre, false⟩ ∧
    (run (init v0) (pre ++ .finalize :: post)).2 = ⟨lastAssigned v0 pre, true⟩ ∧
    (run (init v0) (pre ++ .finalize :: post)).1 =
      pre.map (fun _ => none) ++ none :: post.map (fun op => if isAssign op then some .logicError else none) := by
  have hpost : ∀ (post : List (Op α)) (v : α), run ⟨v, true⟩ post =
      (post.map (fun op => if isAssign op then some Exc.logicError else none), ⟨v, true⟩) := by
    intro post
    induction post with
    | nil => intro v; rfl
    | cons op ops ih =>
      intro v
      cases op <;> simp [run, step, Finalizable.assign, Finalizable.assignFrom, Finalizable.finalize, ih, isAssign]
  have hrun : ∀ (pre : List (Op α)) (v : α), (∀ op ∈ pre, isAssign op = true) → ∀ post,
      run ⟨v, false⟩ (pre ++ post) =
        (pre.map (fun _ => none) ++ (run ⟨lastAssigned v pre, false⟩ post).1,
         (run ⟨lastAssigned v pre, false⟩ post).2) := by
    intro pre
    induction pre with
    | nil => intro v _ post; rfl
    | cons op ops ih =>
      intro v h post
      have h' := fun op hop => h op (List.mem_cons_of_mem _ hop)
      cases op with
      | assign w => simp [run, step, Finalizable.assign, ih w h', lastAssigned]
      | assignFrom o => simp [run, step, Finalizable.assignFrom, ih _ h', lastAssigned]
      | finalize => have := h .finalize (by simp); simp [isAssign] at this
  have h1 := hrun pre v0 hpre []
  have h2 := hrun pre v0 hpre (.finalize :: post)
  simp only [List.append_nil] at h1
  unfold init
  rw [h1, h2]
  refine ⟨by simp [run], rfl, ?_, ?_⟩
  · simp [run, step, Finalizable.finalize, hpost]
  · simp [run, step, Finalizable.finalize, hpost]

/-- C25. A copy of a final object is final and has the same value; assigning *from* a final
object does not make the target final. -/
theorem c25_copy (o f : Finalizable α) :
    (copy o) = o ∧ (f.final = false → assignFrom f o = .ok ⟨o.value, false⟩) := by
  refine ⟨rfl, fun h => by simp [assignFrom, h]⟩

example : run (init 1) [.assign 2, .finalize, .assign 3, .assignFrom (init 4)] =
    ([none, none, some .logicError, some .logicError], ⟨2, true⟩) := by decide

end Finalizable

/-! ## C26 AtScopeEnd -/

/-- Specification: is object `i` enabled after `ops`, if it is (`b`) before? The last
`enable`/`disable` call on it decides. -/
def enabledAfter (i : Nat) (b : Bool) : List ScopeOp → Bool
  | [] => b
  | .enable j :: ops => enabledAfter i (if j = i then true else b) ops
  | .disable j :: ops => enabledAfter i (if j = i then false else b) ops
  | _ :: ops => enabledAfter i b ops

/-- Number of objects constructed by a history. -/
def born : List ScopeOp → Nat
  | [] => 0
  | .create :: ops => born ops + 1
  | .copy _ :: ops => born ops + 1
  | _ :: ops => born ops

theorem scopeRun_append (s s' : ScopeState) (a b : List ScopeOp) (h : scopeRun s (a ++ b) = .ok s') :
    ∃ m, scopeRun s a = .ok m ∧ scopeRun m b = .ok s' := by
  induction a generalizing s with
  | nil => exact ⟨s, rfl, h⟩
  | cons op ops ih =>
    simp only [List.cons_append, scopeRun] at h ⊢
    cases hs : scopeStep s op with
    | ok s1 => rw [hs] at h; exact ih s1 h
    | throws e => rw [hs] at h; cases h
    | ub => rw [hs] at h; cases h

/-- Effect of a step on a living object other than its destruction. -/
theorem scopeStep_alive (s s' : ScopeState) (op : ScopeOp) (h : scopeStep s op = .ok s') (i : Nat)
    (b : Bool) (hi : s.objs[i]? = some (some b)) (hd : op ≠ .destroy i) :
    s'.objs[i]? = some (some (enabledAfter i b [op])) ∧ s'.calls.count i = s.calls.count i := by
  have hlt : i < s.objs.length := (List.getElem?_eq_some_iff.1 hi).1
  cases op with
  | create =>
    simp only [scopeStep] at h; cases h
    exact ⟨by simp [List.getElem?_append_left hlt, hi, enabledAfter], rfl⟩
  | copy j =>
    simp only [scopeStep] at h
    split at h <;> cases h
    exact ⟨by simp [List.getElem?_append_left hlt, hi, enabledAfter], rfl⟩
  | enable j =>
    simp only [scopeStep] at h
    split at h <;> cases h
    refine ⟨?_, rfl⟩
    by_cases hj : j = i
    · subst hj; simp [hlt, enabledAfter]
    · simp [List.getElem?_set_ne hj, hi, enabledAfter, hj]
  | disable j =>
    simp only [scopeStep] at h
    split at h <;> cases h
    refine ⟨?_, rfl⟩
    by_cases hj : j = i
    · subst hj; simp [hlt, enabledAfter]
    · simp [List.getElem?_set_ne hj, hi, enabledAfter, hj]
  | destroy j =>
    have hj : j ≠ i := fun e => hd (by rw [e])
    simp only [scopeStep] at h
    split at h <;> cases h
    refine ⟨by simp [List.getElem?_set_ne hj, hi, enabledAfter], ?_⟩
    simp only []
    split
    · simp [List.count_append, hj]
    · rfl

theorem enabledAfter_cons (i : Nat) (b : Bool) (op : ScopeOp) (ops : List ScopeOp) :
    enabledAfter i b (op :: ops) = enabledAfter i (enabledAfter i b [op]) ops := by
  cases op <;> rfl

theorem scopeRun_alive (ops : List ScopeOp) : ∀ (s s' : ScopeState), scopeRun s ops = .ok s' →
    ∀ (i : Nat) (b : Bool), s.objs[i]? = some (some b) → (.destroy i : ScopeOp) ∉ ops →
    s'.objs[i]? = some (some (enabledAfter i b ops)) ∧ s'.calls.count i = s.calls.count i := by
  induction ops with
  | nil => intro s s' h i b hi _; cases h; exact ⟨hi, rfl⟩
  | cons op ops ih =>
    intro s s' h i b hi hd
    simp only [scopeRun] at h
    cases hs : scopeStep s op with
    | ok s1 =>
      rw [hs] at h
      have h1 := scopeStep_alive s s1 op hs i b hi (fun e => hd (by simp [e]))
      have h2 := ih s1 s' h i _ h1.1 (fun e => hd (by simp [e]))
      rw [enabledAfter_cons]; exact ⟨h2.1, by rw [h2.2, h1.2]⟩
    | throws e => rw [hs] at h; cases h
    | ub => rw [hs] at h; cases h

/-- After destruction an object never calls again. -/
theorem scopeRun_dead (ops : List ScopeOp) : ∀ (s s' : ScopeState), scopeRun s ops = .ok s' →
    ∀ (i : Nat), s.objs[i]? = some none → s'.calls.count i = s.calls.count i := by
  induction ops with
  | nil => intro s s' h i _; cases h; rfl
  | cons op ops ih =>
    intro s s' h i hi
    simp only [scopeRun] at h
    cases hs : scopeStep s op with
    | throws e => rw [hs] at h; cases h
    | ub => rw [hs] at h; cases h
    | ok s1 =>
      rw [hs] at h
      have hlt : i < s.objs.length := (List.getElem?_eq_some_iff.1 hi).1
      have h1 : s1.objs[i]? = some none ∧ s1.calls.count i = s.calls.count i := by
        cases op with
        | create =>
          simp only [scopeStep] at hs; cases hs
          exact ⟨by simp [List.getElem?_append_left hlt, hi], rfl⟩
        | copy j =>
          simp only [scopeStep] at hs
          split at hs <;> cases hs
          exact ⟨by simp [List.getElem?_append_left hlt, hi], rfl⟩
        | enable j =>
          simp only [scopeStep] at hs
          split at hs <;> cases hs
          rename_i hj
          have : j ≠ i := fun e => by rw [e, hi] at hj; cases hj
          exact ⟨by simp [List.getElem?_set_ne this, hi], rfl⟩
        | disable j =>
          simp only [scopeStep] at hs
          split at hs <;> cases hs
          rename_i hj
          have : j ≠ i := fun e => by rw [e, hi] at hj; cases hj
          exact ⟨by simp [List.getElem?_set_ne this, hi], rfl⟩
        | destroy j =>
          simp only [scopeStep] at hs
          split at hs <;> cases hs
          rename_i b hj
          have : j ≠ i := fun e => by rw [e, hi] at hj; cases hj
          refine ⟨by simp [List.getElem?_set_ne this, hi], ?_⟩
          simp only []
          split
          · simp [List.count_append, this]
          · rfl
      rw [ih s1 s' h i h1.1, h1.2]

theorem scopeRun_born (ops : List ScopeOp) : ∀ (s s' : ScopeState), scopeRun s ops = .ok s' →
    s'.objs.length = s.objs.length + born ops ∧
    (∀ i, (∀ k ∈ s.calls, k < s.objs.length) → i ∈ s'.calls → i < s'.objs.length) := by
  induction ops with
  | nil => intro s s' h; cases h; exact ⟨rfl, fun i hk hi => hk i hi⟩
  | cons op ops ih =>
    intro s s' h
    simp only [scopeRun] at h
    cases hs : scopeStep s op with
    | throws e => rw [hs] at h; cases h
    | ub => rw [hs] at h; cases h
    | ok s1 =>
      rw [hs] at h
      have := ih s1 s' h
      cases op with
      | create =>
        simp only [scopeStep] at hs; cases hs
        refine ⟨by rw [this.1]; simp [born]; omega, fun i hk => this.2 i ?_⟩
        intro k hk'; have := hk k hk'; simp; omega
      | copy j =>
        simp only [scopeStep] at hs
        split at hs <;> cases hs
        refine ⟨by rw [this.1]; simp [born]; omega, fun i hk => this.2 i ?_⟩
        intro k hk'; have := hk k hk'; simp; omega
      | enable j =>
        simp only [scopeStep] at hs
        split at hs <;> cases hs
        exact ⟨by rw [this.1]; simp [born], fun i hk => this.2 i (by simpa using hk)⟩
      | disable j =>
        simp only [scopeStep] at hs
        split at hs <;> cases hs
        exact ⟨by rw [this.1]; simp [born], fun i hk => this.2 i (by simpa using hk)⟩
      | destroy j =>
        simp only [scopeStep] at hs
        split at hs <;> cases hs
        rename_i b hj
        refine ⟨by rw [this.1]; simp [born], fun i hk => this.2 i ?_⟩
        have hlt : j < s.objs.length := (List.getElem?_eq_some_iff.1 hj).1
        intro k hk'
        simp only [List.length_set]
        simp only [] at hk'
        split at hk'
        · rcases List.mem_append.1 hk' with hk' | hk'
          · exact hk k hk'
          · rw [List.mem_singleton.1 hk']; exact hlt
        · exact hk k hk'

/-- C26. In every history without undefined behaviour: an object constructed at some point
and destroyed later has, at the end of the history, called its function exactly once if the
last `enable`/`disable` in between (or, without one, the construction) left it enabled, and
never otherwise. -/
theorem c26_exactly_once (pre mid post : List ScopeOp) (s : ScopeState)
    (hd : (.destroy (born pre) : ScopeOp) ∉ mid)
    (h : scopeRun ⟨[], []⟩ (pre ++ (.create :: (mid ++ (.destroy (born pre) :: post)))) = .ok s) :
    s.calls.count (born pre) = if enabledAfter (born pre) true mid then 1 else 0 := by
  obtain ⟨s1, h1, h2⟩ := scopeRun_append _ _ _ _ h
  have hb := scopeRun_born pre _ _ h1
  simp only [List.length_nil, Nat.zero_add] at hb
  have hcnt0 : s1.calls.count (born pre) = 0 := by
    apply List.count_eq_zero.2
    intro hm
    have := hb.2 (born pre) (by simp) hm
    omega
  simp only [scopeRun, scopeStep] at h2
  obtain ⟨s2, h3, h4⟩ := scopeRun_append _ _ _ _ h2
  have ha := scopeRun_alive mid _ _ h3 (born pre) true (by simp [← hb.1]) hd
  simp only [scopeRun, scopeStep, ha.1] at h4
  have hlt : born pre < s2.objs.length := (List.getElem?_eq_some_iff.1 ha.1).1
  have hdead := scopeRun_dead post _ _ h4 (born pre) (by simp [hlt])
  rw [hdead]
  simp only []
  cases enabledAfter (born pre) true mid with
  | true => simp [List.count_append, ha.2, hcnt0]
  | false => simp [ha.2, hcnt0]

/-- C26. An object that has not been destroyed has not called its function. -/
theorem c26_not_before_destruction (ops : List ScopeOp) (s : ScopeState)
    (h : scopeRun ⟨[], []⟩ ops = .ok s) (i : Nat) (hd : (.destroy i : ScopeOp) ∉ ops) : i ∉ s.calls := by
  have key : ∀ (ops : List ScopeOp) (s0 s : ScopeState), scopeRun s0 ops = .ok s → i ∉ s0.calls →
      (.destroy i : ScopeOp) ∉ ops → i ∉ s.calls := by
    intro ops
    induction ops with
    | nil => intro s0 s h hi _; cases h; exact hi
    | cons op ops ih =>
      intro s0 s h hi hd
      simp only [scopeRun] at h
      cases hs : scopeStep s0 op with
      | throws e => rw [hs] at h; cases h
      | ub => rw [hs] at h; cases h
      | ok s1 =>
        rw [hs] at h
        refine ih s1 s h ?_ (fun e => hd (by simp [e]))
        cases op with
        | create => simp only [scopeStep] at hs; cases hs; exact hi
        | copy j => simp only [scopeStep] at hs; split at hs <;> cases hs; exact hi
        | enable j => simp only [scopeStep] at hs; split at hs <;> cases hs; exact hi
        | disable j => simp only [scopeStep] at hs; split at hs <;> cases hs; exact hi
        | destroy j =>
          have hj : i ≠ j := fun e => hd (by simp [e])
          simp only [scopeStep] at hs
          split at hs <;> cases hs
          simp only []
          split
          · simp [hi, hj]
          · exact hi
  exact key ops _ _ h (by simp) hd

/-- C26. The class does not forbid copying: after a copy the function runs once per
object, i.e. twice for one cleanup action. -/
theorem c26_copy_runs_twice :
    scopeRun ⟨[], []⟩ [.create, .copy 0, .destroy 1, .destroy 0] = .ok ⟨[none, none], [1, 0]⟩ := by
  decide

example : scopeRun ⟨[], []⟩ [.create, .disable 0, .enable 0, .create, .disable 1, .destroy 1, .destroy 0] =
    .ok ⟨[none, none], [0]⟩ := by decide

end Verif.Small
