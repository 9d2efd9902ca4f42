import Verif.Logging.Line.Spec

/-! # Lemmas for C109 -/
namespace Verif.Logging.Line
open Verif.Logging.Record Verif.Logging.Format

theorem upd_same {α : Type} (f : Nat → α) (i : Nat) (a : α) : upd f i a i = a := if_pos rfl

theorem upd_ne {α : Type} (f : Nat → α) {i j : Nat} (a : α) (h : j ≠ i) : upd f i a j = f j := if_neg h

theorem format_ok (old : List Entry) {is : List Item} (h : GoodFormat is) :
    changeLogFormat old (write is) = .ok (is.map Item.entry) := by
  obtain ⟨hne, hwf, hlen⟩ := h
  have hw : write is ≠ [] := by
    rcases is with _ | ⟨i, is⟩
    · exact absurd rfl hne
    · rw [write_cons]; simp [write_ne_nil (wf_head hwf)]
  have := parse_items is (write is).length [] [] hwf (fun i hi => Nat.le_of_lt (hlen i hi)) (write_length hwf)
    (by simp) (Or.inl hne)
  rw [List.append_nil] at this
  rw [changeLogFormat, if_neg hw, this]; simp

theorem render_ok (m : Message) (hm : m.msec < 1000) {is : List Item} (hwf : wfItems is) (hlen : ∀ i ∈ is, i.len < 100) :
    render m (is.map Item.entry) = some ((is.map (Item.show m)).flatten) := by
  induction is with
  | nil => rfl
  | cons i is ih =>
    simp only [List.map_cons, render, renderEntry_eq m i hm (wf_head hwf) (hlen i (by simp)), Option.bind_some,
      ih (wf_tail hwf) (fun j hj => hlen j (by simp [hj])), Option.map_some, List.flatten_cons]

theorem flush_data {s s' : TStream} (h : s.flush = some s') : s'.out = s.out ++ [cstr s'.data] := by
  unfold TStream.flush at h
  obtain ⟨d, -, rfl⟩ := Option.map_eq_some_iff.1 h
  rfl

theorem flush_zero {s s' : TStream} (h : s.flush = some s') : '\x00' ∈ s'.data := by
  unfold TStream.flush at h
  obtain ⟨d, hd, rfl⟩ := Option.map_eq_some_iff.1 h
  unfold Logging.put at hd
  split at hd
  · cases hd; simp
  · cases hd

theorem last_flush (o : BufOp) (ho : ∀ src prot, o ≠ .write src prot) {s s' : TStream} (h : o.run s = some s') :
    ∃ s0, TStream.flush s0 = some s' := by
  cases o with
  | write src prot => exact absurd rfl (ho src prot)
  | printf r =>
    cases r with
    | none => exact ⟨s, h⟩
    | some r =>
      simp only [BufOp.run, TStream.printf] at h
      obtain ⟨d, -, h⟩ := Option.bind_eq_some_iff.1 h
      exact ⟨_, h⟩
  | flush => exact ⟨s, h⟩
  | endl =>
    simp only [BufOp.run, TStream.endl] at h
    obtain ⟨d, -, h⟩ := Option.bind_eq_some_iff.1 h
    exact ⟨_, h⟩

/-- After a message the buffer holds its text as a C string. -/
theorem msg_data (m : Msg) (hp : ∀ p ∈ m.pieces, p.length + 1 < 2 ^ 64) {s : TStream} (h : BInv s []) :
    ∃ s', runOps s m.ops = some s' ∧ BInv s' [] ∧ cstr s'.data = m.expected ∧ '\x00' ∈ s'.data := by
  obtain ⟨s', e, b, o⟩ := msg_ok m hp h
  refine ⟨s', e, b, ?_⟩
  unfold Msg.ops at e
  rw [runOps_append] at e
  obtain ⟨s1, -, e⟩ := Option.bind_eq_some_iff.1 e
  simp only [runOps] at e
  obtain ⟨s2, e2, e3⟩ := Option.bind_eq_some_iff.1 e
  cases e3
  obtain ⟨s0, hs0⟩ := last_flush _ (by intro src prot; cases m.ending <;> simp) e2
  have := flush_data hs0
  rw [this] at o
  have := List.append_inj' o rfl
  exact ⟨by simpa using this.2, flush_zero hs0⟩

theorem text_read {d : Mem} {g : Nat → Char} (hl : d.length = 2049) (h0 : '\x00' ∈ d) :
    ∃ m, strncpy (array (logSize + 1) g) d (logSize + 1) = some m ∧ readC m = some (cstr d) := by
  have hlt : (cstr d).length < 2049 := by
    have h1 : (cstr d).length ≤ d.length := (List.takeWhile_prefix _).length_le
    rcases Nat.lt_or_ge (cstr d).length 2049 with h | h
    · exact h
    · have : cstr d = d := (List.takeWhile_prefix _).eq_of_length (by unfold cstr at h1 h; omega)
      have h2 : '\x00' ∈ cstr d := by rw [this]; exact h0
      have := List.mem_takeWhile_imp h2
      simp at this
  have hn : CStr (cstr d) := by
    intro h
    have := List.mem_takeWhile_imp h
    simp at this
  have ht : d.take (logSize + 1) = d := List.take_of_length_le (by rw [hl]; decide)
  refine ⟨_, if_pos ⟨by simp [array], Or.inl h0⟩, ?_⟩
  rw [ht]
  obtain ⟨k, hk⟩ : ∃ k, logSize + 1 - (cstr d).length = k + 1 := by
    have : logSize + 1 = 2049 := rfl
    exact ⟨2048 - (cstr d).length, by omega⟩
  have hdrop : (array (logSize + 1) g).drop (logSize + 1) = [] := List.drop_of_length_le (by simp [array])
  rw [hk, hdrop, List.append_nil, List.replicate_succ]
  unfold readC
  rw [if_pos (by simp), cstr_term hn]

/-- The model and the configuration agree. -/
structure Sim (name : Nat → List Char) (c : Cfg) (w : World) : Prop where
  active : ∀ s, (w.stream s).active = c.active s
  level : ∀ s, (w.stream s).level = c.level s
  sname : ∀ s, (w.stream s).name = name s
  nodup : ∀ s, (w.stream s).outs.Nodup
  outs : ∀ s o, o ∈ (w.stream s).outs ↔ c.attached s o = true
  sized : ∀ k, Sized (w.ts k).names
  buf : ∀ k, BInv (w.ts k).buf []
  olevel : ∀ o, (w.out o).level = c.outLevel o
  format : ∀ o, (w.out o).format = (c.format o).map Item.entry
  good : ∀ o, GoodFormat (c.format o)

/-- What a thread stream holds when the outputs are reached. -/
structure Ready (st : Stmt) (t : TSt) : Prop where
  level : t.names.lineLevel = st.level
  line : t.names.line = st.line
  file : Holds t.names.file logSize st.file
  cls : Holds t.names.cls logSize st.cls
  obj : Holds t.names.obj logSize st.obj
  fn : Holds t.names.fn logSize st.fn
  text : cstr t.buf.data = st.msg.expected
  zero : '\x00' ∈ t.buf.data
  len : t.buf.data.length = 2049

/-- One output. -/
theorem pushOut_ok {name : Nat → List Char} {c : Cfg} {st : Stmt} (hst : st.Legal name) {t : TSt} (ht : Ready st t)
    {outs : Nat → Out} (ho1 : ∀ o, (outs o).level = c.outLevel o) (ho2 : ∀ o, (outs o).format = (c.format o).map Item.entry)
    (hg : ∀ o, GoodFormat (c.format o)) (o : Nat) :
    pushOut st (name st.stream) t outs o = some (upd outs o { outs o with lines := (outs o).lines ++
      (if c.outLevel o ≤ st.level then [((c.format o).map (Item.show (st.message (name st.stream) o))).flatten] else []) }) := by
  unfold pushOut
  rw [ht.level, ho1 o]
  by_cases hl : c.outLevel o ≤ st.level
  · rw [if_pos hl, if_pos hl]
    have hf := Record.flush_ok (t := t.names) (st.junk o) hst.stream.1 hst.file.1 hst.cls.1 hst.obj.1 hst.fn.1 ht.file ht.cls ht.obj ht.fn
    rw [if_pos ⟨hst.stream.2, hst.file.2, hst.cls.2, hst.obj.2, hst.fn.2⟩] at hf
    rw [hf, Option.bind_some]
    obtain ⟨m, e1, e2⟩ := text_read (g := st.junk o 5) ht.len ht.zero
    rw [e1, Option.bind_some, e2, Option.bind_some, ht.text, ho2 o, ht.level, ht.line]
    have hr := render_ok (st.message (name st.stream) o) (hst.msec o) (hg o).2.1 (hg o).2.2
    unfold Stmt.message at hr ⊢
    simp only [hr, Option.map_some]
  · rw [if_neg hl, if_neg (by omega)]
    congr 1
    funext j
    by_cases hj : j = o
    · subst hj; rw [upd_same, List.append_nil]
    · rw [upd_ne _ _ hj]

/-- All outputs of a stream. -/
theorem push_all {name : Nat → List Char} {c : Cfg} {st : Stmt} (hst : st.Legal name) {t : TSt} (ht : Ready st t)
    (hg : ∀ o, GoodFormat (c.format o)) : ∀ (l : List Nat), l.Nodup → ∀ outs : Nat → Out, (∀ o, (outs o).level = c.outLevel o) →
    (∀ o, (outs o).format = (c.format o).map Item.entry) →
    ∃ outs', l.foldlM (pushOut st (name st.stream) t) outs = some outs' ∧ ∀ o, outs' o = { outs o with lines := (outs o).lines ++
      (if o ∈ l ∧ c.outLevel o ≤ st.level then [((c.format o).map (Item.show (st.message (name st.stream) o))).flatten] else []) } := by
  intro l
  induction l with
  | nil => intro _ outs _ _; exact ⟨outs, rfl, fun o => by simp⟩
  | cons a l ih =>
    intro hnd outs h1 h2
    obtain ⟨ha, hnd⟩ := List.nodup_cons.1 hnd
    rw [List.foldlM_cons, pushOut_ok hst ht h1 h2 hg a]
    obtain ⟨outs', e, h⟩ := ih hnd (upd outs a { outs a with lines := (outs a).lines ++
      (if c.outLevel a ≤ st.level then [((c.format a).map (Item.show (st.message (name st.stream) a))).flatten] else []) })
      (fun o => by
        by_cases ho : o = a
        · subst ho; rw [upd_same]; exact h1 o
        · rw [upd_ne _ _ ho]; exact h1 o)
      (fun o => by
        by_cases ho : o = a
        · subst ho; rw [upd_same]; exact h2 o
        · rw [upd_ne _ _ ho]; exact h2 o)
    refine ⟨outs', e, fun o => ?_⟩
    rw [h]
    by_cases ho : o = a
    · subst ho
      rw [upd_same]
      simp [ha]
    · rw [upd_ne _ _ ho]
      simp [ho]

/-- A log statement. -/
theorem log_ok {name : Nat → List Char} {c : Cfg} {w : World} (h : Sim name c w) (st : Stmt) (hst : st.Legal name) :
    ∃ w', logStmt w st = some w' ∧ Sim name c w' ∧ ∀ o, (w'.out o).lines = (w.out o).lines ++
      (if c.delivers st o then [((c.format o).map (Item.show (st.message (name st.stream) o))).flatten] else []) := by
  unfold logStmt
  rw [h.active, h.level, h.sname]
  by_cases ha : c.active st.stream = true
  · rw [if_pos ha]
    by_cases hl : c.level st.stream ≤ st.level
    · rw [if_pos hl]
      obtain ⟨t', e, a1, a2, i1, i2, i3, i4⟩ := macro_ok (h.sized st.slot) st.level st.file st.line st.cls st.obj st.fn
        hst.file.1 hst.cls.1 hst.obj.1 hst.fn.1
      obtain ⟨b', eb, bb, bt, bz⟩ := msg_data st.msg hst.pieces (h.buf st.slot)
      have hr : Ready st ⟨t', b'⟩ := ⟨a1, a2, i1, i2, i3, i4, bt, bz, bb.len⟩
      rw [e, Option.bind_some, eb, Option.bind_some]
      obtain ⟨outs', eo, ho⟩ := push_all hst hr h.good _ (h.nodup st.stream) w.out h.olevel h.format
      rw [eo, Option.map_some]
      refine ⟨_, rfl, ⟨h.active, h.level, h.sname, h.nodup, h.outs, fun k => ?_, fun k => ?_, fun o => ?_, fun o => ?_, h.good⟩, fun o => ?_⟩
      · by_cases hk : k = st.slot
        · subst hk
          simp only [upd_same]
          exact ⟨i1.1, i2.1, i3.1, i4.1⟩
        · simp only [upd_ne _ _ hk]
          exact h.sized k
      · by_cases hk : k = st.slot
        · subst hk
          simp only [upd_same]
          exact bb
        · simp only [upd_ne _ _ hk]
          exact h.buf k
      · simp only [ho]; exact h.olevel o
      · simp only [ho]; exact h.format o
      · simp only [ho, h.outs]
        have : c.delivers st o = true ↔ (c.attached st.stream o = true ∧ c.outLevel o ≤ st.level) := by
          simp [Cfg.delivers, ha, hl]
        simp only [this]
    · rw [if_neg hl]
      refine ⟨w, rfl, h, fun o => ?_⟩
      have : c.delivers st o = false := by simp [Cfg.delivers, hl]
      simp [this]
  · rw [if_neg ha]
    refine ⟨w, rfl, h, fun o => ?_⟩
    have : c.delivers st o = false := by simp [Cfg.delivers, ha]
    simp [this]

/-- Any other call. -/
theorem call_ok {name : Nat → List Char} {c : Cfg} {w : World} (h : Sim name c w) (call : Call) (hc : call.Legal name)
    (hn : ∀ st, call ≠ .log st) :
    ∃ w', step w call.op = some w' ∧ Sim name (c.after call) w' ∧ ∀ o, (w'.out o).lines = (w.out o).lines := by
  have hstream : ∀ (s : Nat) (f : LStream → LStream) (x : Nat),
      upd w.stream s (f (w.stream s)) x = if x = s then f (w.stream x) else w.stream x := by
    intro s f x
    by_cases hx : x = s
    · subst hx; simp [upd]
    · simp [upd, hx]
  have hout : ∀ (s : Nat) (f : Out → Out) (x : Nat),
      upd w.out s (f (w.out s)) x = if x = s then f (w.out x) else w.out x := by
    intro s f x
    by_cases hx : x = s
    · subst hx; simp [upd]
    · simp [upd, hx]
  cases call with
  | log st => exact absurd rfl (hn st)
  | setActive s b =>
    refine ⟨_, rfl, ⟨fun x => ?_, fun x => ?_, fun x => ?_, fun x => ?_, fun x o => ?_, h.sized, h.buf, h.olevel, h.format, h.good⟩, fun o => rfl⟩
    all_goals
      simp only [hstream s (fun q => { q with active := b }), Cfg.after]
      split
      · first | rfl | exact h.level x | exact h.sname x | exact h.nodup x | exact h.outs x o
      · first | exact h.active x | exact h.level x | exact h.sname x | exact h.nodup x | exact h.outs x o
  | setLevel s l =>
    refine ⟨_, rfl, ⟨fun x => ?_, fun x => ?_, fun x => ?_, fun x => ?_, fun x o => ?_, h.sized, h.buf, h.olevel, h.format, h.good⟩, fun o => rfl⟩
    all_goals
      simp only [hstream s (fun q => { q with level := l }), Cfg.after]
      split
      · first | exact h.active x | rfl | exact h.sname x | exact h.nodup x | exact h.outs x o
      · first | exact h.active x | exact h.level x | exact h.sname x | exact h.nodup x | exact h.outs x o
  | addOutput s o =>
    have hadd : ∀ x, (upd w.stream s { w.stream s with outs := if o ∈ (w.stream s).outs then (w.stream s).outs else (w.stream s).outs ++ [o] } x) =
        if x = s then { w.stream x with outs := if o ∈ (w.stream x).outs then (w.stream x).outs else (w.stream x).outs ++ [o] } else w.stream x :=
      hstream s (fun q => { q with outs := if o ∈ q.outs then q.outs else q.outs ++ [o] })
    refine ⟨_, rfl, ⟨fun x => ?_, fun x => ?_, fun x => ?_, fun x => ?_, fun x p => ?_, h.sized, h.buf, h.olevel, h.format, h.good⟩, fun o => rfl⟩
    · simp only [hadd]; split <;> exact h.active x
    · simp only [hadd]; split <;> exact h.level x
    · simp only [hadd]; split <;> exact h.sname x
    · simp only [hadd]
      split
      · show (if o ∈ (w.stream x).outs then (w.stream x).outs else (w.stream x).outs ++ [o]).Nodup
        split
        · exact h.nodup x
        · next hno =>
          rw [List.nodup_append]
          refine ⟨h.nodup x, by simp, ?_⟩
          rintro a ha b hb rfl
          exact hno (by simpa [List.mem_singleton.1 hb] using ha)
      · exact h.nodup x
    · simp only [hadd, Cfg.after]
      have hm := h.outs x p
      by_cases hx : x = s
      · by_cases hp : p = o
        · simp only [hx, hp, if_true, and_self, iff_true]
          split
          · assumption
          · simp
        · simp only [hx, hp, if_true, and_false, if_false]
          rw [hx] at hm
          rw [← hm]
          split
          · rfl
          · simp [hp]
      · simp only [hx, if_false, false_and]
        exact hm
  | removeOutput s o =>
    refine ⟨_, rfl, ⟨fun x => ?_, fun x => ?_, fun x => ?_, fun x => ?_, fun x p => ?_, h.sized, h.buf, h.olevel, h.format, h.good⟩, fun o => rfl⟩
    · simp only [hstream s (fun q => { q with outs := q.outs.filter (· ≠ o) })]; split <;> exact h.active x
    · simp only [hstream s (fun q => { q with outs := q.outs.filter (· ≠ o) })]; split <;> exact h.level x
    · simp only [hstream s (fun q => { q with outs := q.outs.filter (· ≠ o) })]; split <;> exact h.sname x
    · simp only [hstream s (fun q => { q with outs := q.outs.filter (· ≠ o) })]
      split
      · exact (h.nodup x).filter _
      · exact h.nodup x
    · simp only [hstream s (fun q => { q with outs := q.outs.filter (· ≠ o) }), Cfg.after]
      have hm := h.outs x p
      by_cases hx : x = s
      · subst hx
        by_cases hp : p = o
        · simp [hp]
        · simp [hp, hm]
      · simp only [hx, if_false, false_and]
        exact hm
  | setOutLevel o l =>
    refine ⟨_, rfl, ⟨h.active, h.level, h.sname, h.nodup, h.outs, h.sized, h.buf, fun x => ?_, fun x => ?_, h.good⟩, fun x => ?_⟩
    all_goals
      simp only [hout o (fun q => { q with level := l }), Cfg.after]
      split
      · first | rfl | exact h.format x
      · first | exact h.olevel x | exact h.format x | rfl
  | setFormat o is =>
    simp only [Call.op, step, format_ok _ hc]
    refine ⟨_, rfl, ⟨h.active, h.level, h.sname, h.nodup, h.outs, h.sized, h.buf, fun x => ?_, fun x => ?_, fun x => ?_⟩, fun x => ?_⟩
    · simp only [hout o (fun q => { q with format := is.map Item.entry }), Cfg.after]
      split <;> exact h.olevel x
    · simp only [hout o (fun q => { q with format := is.map Item.entry }), Cfg.after]
      split
      · rfl
      · exact h.format x
    · simp only [Cfg.after]
      split
      · exact hc
      · exact h.good x
    · simp only [hout o (fun q => { q with format := is.map Item.entry })]
      split <;> rfl

/-- Any history. -/
theorem run_ok {name : Nat → List Char} : ∀ (calls : List Call), (∀ x ∈ calls, x.Legal name) → ∀ {c : Cfg} {w : World},
    Sim name c w → ∃ w', run w (calls.map Call.op) = some w' ∧ ∀ o, (w'.out o).lines = (w.out o).lines ++ lines name o c calls := by
  intro calls
  induction calls with
  | nil => intro _ c w _; exact ⟨w, rfl, fun o => by simp [lines]⟩
  | cons x xs ih =>
    intro hl c w h
    have hxs := fun y hy => hl y (List.mem_cons_of_mem x hy)
    by_cases hx : ∃ st, x = .log st
    · obtain ⟨st, rfl⟩ := hx
      obtain ⟨w1, e1, s1, l1⟩ := log_ok h st (hl (.log st) (by simp))
      obtain ⟨w2, e2, l2⟩ := ih hxs s1
      refine ⟨w2, ?_, fun o => ?_⟩
      · unfold run at e2 ⊢
        rw [List.map_cons, List.foldlM_cons, show step w (Call.log st).op = some w1 from e1]
        exact e2
      · rw [l2, l1, lines, List.append_assoc]
    · obtain ⟨w1, e1, s1, l1⟩ := call_ok h x (hl _ (by simp)) (fun st hs => hx ⟨st, hs⟩)
      obtain ⟨w2, e2, l2⟩ := ih hxs s1
      refine ⟨w2, ?_, fun o => ?_⟩
      · unfold run at e2 ⊢
        rw [List.map_cons, List.foldlM_cons, e1]
        exact e2
      · rw [l2, l1]
        cases x <;> first | rfl | exact absurd ⟨_, rfl⟩ hx

end Verif.Logging.Line
