import Verif.Config.CfgIncludeSpec
import Verif.Config.CfgFileProps

/-! # C114: configuration files that include other files -/
namespace Verif.Cfg
open Verif.StdMap

theorem isTreeExt_iff (e : S) : isTreeExt e = true ↔ TreeEnding e := by
  simp only [isTreeExt, TreeEnding, Bool.or_eq_true, beq_iff_eq]
  exact Or.comm

theorem getText_none {kids : List Xml} (h : ∀ s r, kids ≠ .text s :: r) : getText kids = none := by
  cases kids with
  | nil => rfl
  | cons x xs =>
    cases x with
    | text s => exact absurd rfl (h s xs)
    | elem a b => rfl
    | other => rfl

theorem load_entries (fs : Files) {f : S} {es : List (S × S)} {ok : Bool} (h : FileEntries fs f es ok) :
    ∃ K, ∀ k, K ≤ k → ∀ m, load fs k f m = some (.ok (ok, es.foldl put m)) := by
  refine FileEntries.rec (fs := fs)
    (motive_1 := fun f es ok _ => ∃ K, ∀ k, K ≤ k → ∀ m, load fs k f m = some (.ok (ok, es.foldl put m)))
    (motive_2 := fun dir p ks es _ => ∃ K, ∀ k, K ≤ k → ∀ m,
      readKids (load fs k) dir (keyOf p) ks m = some (.ok (es.foldl put m)))
    ?_ ?_ ?_ ?_ ?_ ?_ ?_ ?_ ?_ ?_ ?_ h
  · intro f fp ext t hfp hext ht h
    refine ⟨1, fun k hk m => ?_⟩
    obtain ⟨k, rfl⟩ : ∃ j, k = j + 1 := ⟨k - 1, by omega⟩
    rw [← rootEntries_attrs, ← readRoot_entries]
    simp [load, hfp, hext, (isTreeExt_iff ext).2 ht, h]
  · intro f fp ext hfp hext ht h
    refine ⟨1, fun k hk m => ?_⟩
    obtain ⟨k, rfl⟩ : ∃ j, k = j + 1 := ⟨k - 1, by omega⟩
    simp [load, hfp, hext, (isTreeExt_iff ext).2 ht, h]
  · intro f fp ext kids es hfp hext ht h hd ⟨K, ih⟩
    refine ⟨K + 1, fun k hk m => ?_⟩
    obtain ⟨k, rfl⟩ : ∃ j, k = j + 1 := ⟨k - 1, by omega⟩
    have ht' : isTreeExt ext = false := by
      cases hh : isTreeExt ext with
      | false => rfl
      | true => exact absurd ((isTreeExt_iff ext).1 hh) ht
    have hk0 : keyOf [] = [] := rfl
    have := ih k (by omega) m
    rw [hk0] at this
    simp [load, hfp, hext, ht', h, this, Outcome.map]
  · intro f fp ext hfp hext ht h
    refine ⟨1, fun k hk m => ?_⟩
    obtain ⟨k, rfl⟩ : ∃ j, k = j + 1 := ⟨k - 1, by omega⟩
    have ht' : isTreeExt ext = false := by
      cases hh : isTreeExt ext with
      | false => rfl
      | true => exact absurd ((isTreeExt_iff ext).1 hh) ht
    simp [load, hfp, hext, ht', h]
  · intro f fp ext hfp hext ht h
    refine ⟨1, fun k hk m => ?_⟩
    obtain ⟨k, rfl⟩ : ∃ j, k = j + 1 := ⟨k - 1, by omega⟩
    have ht' : isTreeExt ext = false := by
      cases hh : isTreeExt ext with
      | false => rfl
      | true => exact absurd ((isTreeExt_iff ext).1 hh) ht
    simp [load, hfp, hext, ht', h]
  · intro dir p
    exact ⟨0, fun k _ m => by simp [readKids]⟩
  · intro dir p s ks es h ⟨K, ih⟩
    refine ⟨K, fun k hk m => ?_⟩
    simp [readKids, readKid, ih k hk]
  · intro dir p ks es h ⟨K, ih⟩
    refine ⟨K, fun k hk m => ?_⟩
    simp [readKids, readKid, ih k hk]
  · intro dir p n kids ks es1 es2 hn h1 h2 ⟨K1, ih1⟩ ⟨K2, ih2⟩
    refine ⟨K1 + K2, fun k hk m => ?_⟩
    have hn' : n ≠ includeName := hn
    have := ih1 k (by omega) m
    rw [keyOf_append, keyOf_single] at this
    simp [readKids, readKid, hn', this, ih2 k (by omega)]
  · intro dir p g rest ks es1 es2 ok h1 h2 ⟨K1, ih1⟩ ⟨K2, ih2⟩
    refine ⟨K1 + K2, fun k hk m => ?_⟩
    have hn' : incElem = includeName := rfl
    simp [readKids, readKid, hn', getText, ih1 k (by omega), ih2 k (by omega), Outcome.map]
  · intro dir p kids ks es hk h ⟨K, ih⟩
    refine ⟨K, fun k hk' m => ?_⟩
    have hn' : incElem = includeName := rfl
    simp [readKids, readKid, hn', getText_none hk, ih k hk']

/-- C114: loading a configuration file gives every key the last value that the file and the files it includes
give it, in the order of the document with the included files in place of the inclusions, and leaves all other
keys alone; the result says whether the file itself could be read. -/
theorem c114_file_with_inclusions (fs : Files) (k : Nat) (rx : S → S → Bool) (ops : List Op) (m : Mgr)
    (hm : runOps fs k rx newMgr ops = some m) (f : S) (es : List (S × S)) (ok : Bool) (h : FileEntries fs f es ok) :
    ∃ K, ∀ j, K ≤ j → ∃ m', load fs j f m = some (.ok (ok, m')) ∧
      ∀ key, lookup m'.items key = (lastValue es key).or (lookup m.items key) := by
  obtain ⟨K, hK⟩ := load_entries fs h
  exact ⟨K, fun j hj => ⟨_, hK j hj m, (putAll_spec _ _ (inv_run ops hm).items).2⟩⟩

/-- C114: an inclusion whose file cannot be read is skipped without a trace in the result. -/
theorem c114_missing_inclusion (fs : Files) (f g : S) (fp fp' : FP.FilePath) (ext ext' : S) (kids : List Xml) (es : List (S × S))
    (hfp : FP.init fs.env (FP.initBudget fs.env f) f = some fp) (hext : fp.extension = .ok ext) (ht : ¬ TreeEnding ext)
    (hx : fs.xml f = some (some (.elem "INCLUDE".toList [.text g] :: kids))) (hd : DocEntries fs fp.path [] kids es)
    (hfp' : FP.init fs.env (FP.initBudget fs.env (fp.path ++ g)) (fp.path ++ g) = some fp') (hext' : fp'.extension = .ok ext')
    (hm1 : TreeEnding ext' → fs.tree (fp.path ++ g) = none) (hm2 : ¬ TreeEnding ext' → fs.xml (fp.path ++ g) = none) :
    ∃ K, ∀ k, K ≤ k → ∀ m, load fs k f m = some (.ok (true, es.foldl put m)) := by
  have hi : "INCLUDE".toList = incElem := by decide +kernel
  have hg : FileEntries fs (fp.path ++ g) [] false := by
    by_cases h : TreeEnding ext'
    · exact .treeMissing _ fp' ext' hfp' hext' h (hm1 h)
    · exact .missing _ fp' ext' hfp' hext' h (hm2 h)
  refine load_entries fs (.doc f fp ext _ es hfp hext ht hx ?_)
  rw [hi]
  exact .inclusion _ _ g [] kids [] es false hg hd

/-- C114: the place of an inclusion in the document does not matter for its keys: an inclusion inside an element `n` does
the same as one at the top. -/
theorem c114_place_ignored (fs : Files) (f f2 g n : S) (fp fp2 : FP.FilePath) (ext ext2 : S) (es : List (S × S)) (ok : Bool)
    (hn : n ≠ "INCLUDE".toList)
    (hfp : FP.init fs.env (FP.initBudget fs.env f) f = some fp) (hext : fp.extension = .ok ext) (ht : ¬ TreeEnding ext)
    (hx : fs.xml f = some (some [.elem "INCLUDE".toList [.text g]]))
    (hfp2 : FP.init fs.env (FP.initBudget fs.env f2) f2 = some fp2) (hext2 : fp2.extension = .ok ext2) (ht2 : ¬ TreeEnding ext2)
    (hx2 : fs.xml f2 = some (some [.elem n [.elem "INCLUDE".toList [.text g]]]))
    (hp : fp.path = fp2.path) (h : FileEntries fs (fp.path ++ g) es ok) :
    ∃ K, ∀ k, K ≤ k → ∀ m, load fs k f m = load fs k f2 m ∧ load fs k f m = some (.ok (true, es.foldl put m)) := by
  have hi : "INCLUDE".toList = incElem := by decide +kernel
  rw [hi] at hx hx2 hn
  have e1 : FileEntries fs f es true := by
    refine .doc f fp ext _ es hfp hext ht hx ?_
    have := DocEntries.inclusion (fs := fs) fp.path [] g [] [] es [] ok h (.nil _ _)
    simpa using this
  have e2 : FileEntries fs f2 es true := by
    refine .doc f2 fp2 ext2 _ es hfp2 hext2 ht2 hx2 ?_
    have := DocEntries.inclusion (fs := fs) fp2.path ([] ++ [n]) g [] [] es [] ok (hp ▸ h) (.nil _ _)
    have := DocEntries.elem (fs := fs) fp2.path [] n _ [] _ [] hn this (.nil _ _)
    simpa using this
  obtain ⟨K1, h1⟩ := load_entries fs e1
  obtain ⟨K2, h2⟩ := load_entries fs e2
  exact ⟨K1 + K2, fun k hk m => ⟨by rw [h1 k (by omega), h2 k (by omega)], h1 k (by omega) m⟩⟩

/-- C114: the observers are told about the entries of included files in the same order. -/
theorem c114_included_entries_notified (fs : Files) (f : S) (es : List (S × S)) (ok : Bool) (h : FileEntries fs f es ok) (o : Nat) (m : Mgr)
    (ho : lookup m.observers [] = some [o]) (hm : ∀ e ∈ es, lookup m.observers e.1 = none) :
    ∃ K, ∀ k, K ≤ k → ∃ m', load fs k f m = some (.ok (ok, m')) ∧
      m'.calls.map (fun c => (c.1, c.2.1)) = m.calls.map (fun c => (c.1, c.2.1)) ++ es.map fun e => (o, e.1) := by
  obtain ⟨K, hK⟩ := load_entries fs h
  refine ⟨K, fun k hk => ⟨_, hK k hk m, ?_⟩⟩
  have : ∀ (es : List (S × S)) (m : Mgr), lookup m.observers [] = some [o] → (∀ e ∈ es, lookup m.observers e.1 = none) →
      (es.foldl put m).calls.map (fun c => (c.1, c.2.1)) = m.calls.map (fun c => (c.1, c.2.1)) ++ es.map fun e => (o, e.1) := by
    intro es
    induction es with
    | nil => intro m _ _; simp
    | cons e es ih =>
      intro m h1 h2
      have := ih (put m e) h1 (fun x hx => h2 x (List.mem_cons_of_mem _ hx))
      rw [List.foldl_cons, this]
      have h3 := h2 e List.mem_cons_self
      simp [put, notify, insert, h1, h3]
  exact this es m ho hm

/-! ## A concrete case -/

/-- The first demo file includes the second. -/
example : FileEntries demoFiles "/c/main.xml".toList
    [("/net/port".toList, "80".toList), ("/net/port".toList, "81".toList), ("/log".toList, "on".toList)] true := by
  have h0 : ∀ f d : S, (FP.init demoFiles.env (FP.initBudget demoFiles.env f) f).map (fun fp => (fp.path, fp.extension)) =
      some (d, .ok ".xml".toList) → ∃ fp, FP.init demoFiles.env (FP.initBudget demoFiles.env f) f = some fp ∧ fp.path = d ∧
        fp.extension = .ok ".xml".toList := by
    intro f d h
    cases hfp : FP.init demoFiles.env (FP.initBudget demoFiles.env f) f with
    | none => rw [hfp] at h; cases h
    | some fp =>
      rw [hfp] at h
      simp only [Option.map_some, Option.some.injEq, Prod.mk.injEq] at h
      exact ⟨fp, rfl, h.1, h.2⟩
  have hnt : ¬ TreeEnding ".xml".toList := by unfold TreeEnding; decide +kernel
  obtain ⟨fp, h1, h2, h3⟩ := h0 "/c/main.xml".toList "/c/".toList (by decide +kernel)
  obtain ⟨fp', h1', h2', h3'⟩ := h0 "/c/more.xml".toList "/c/".toList (by decide +kernel)
  have hmore : FileEntries demoFiles "/c/more.xml".toList [("/log".toList, "on".toList)] true := by
    have hx : demoFiles.xml "/c/more.xml".toList = some (some [.elem "log".toList [.text "on".toList]]) := by
      have : "/c/more.xml".toList ≠ "/c/main.xml".toList := by decide +kernel
      simp only [demoFiles, this, if_false, if_true]
    refine .doc _ fp' _ _ _ h1' h3' hnt hx ?_
    have := DocEntries.elem (fs := demoFiles) fp'.path [] "log".toList [.text "on".toList] [] _ [] (by decide +kernel)
      (.text _ _ "on".toList [] [] (.nil _ _)) (.nil _ _)
    exact this
  have hx : demoFiles.xml "/c/main.xml".toList = some (some [.other, .elem "net".toList [.elem "port".toList [.text "80".toList],
          .elem "port".toList [.text "81".toList]], .elem includeName [.text "more.xml".toList]]) := by
    simp only [demoFiles, if_true]
  refine .doc _ fp _ _ _ h1 h3 hnt hx ?_
  refine .other _ _ _ _ ?_
  refine .elem _ _ _ _ _ [("/net/port".toList, "80".toList), ("/net/port".toList, "81".toList)] [("/log".toList, "on".toList)] (by decide +kernel) ?_ ?_
  · refine .elem _ _ _ _ _ [("/net/port".toList, "80".toList)] [("/net/port".toList, "81".toList)] (by decide +kernel) ?_ ?_
    · exact .text _ _ "80".toList [] [] (.nil _ _)
    · exact .elem _ _ _ _ _ [("/net/port".toList, "81".toList)] [] (by decide +kernel) (.text _ _ "81".toList [] [] (.nil _ _)) (.nil _ _)
  · refine .inclusion _ _ _ [] [] [("/log".toList, "on".toList)] [] true ?_ (.nil _ _)
    rw [h2]
    have : "/c/".toList ++ "more.xml".toList = "/c/more.xml".toList := by decide +kernel
    rw [this]; exact hmore

end Verif.Cfg
