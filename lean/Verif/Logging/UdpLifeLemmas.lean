import Verif.Logging.UdpLifeSpec
import Verif.Logging.UdpProps

namespace Verif.Logging.Udp

theorem openLoop_done (k : Kernel) (as : List Addr) (n : Nat) (o : Fds) :
    openLoop k as (n : Int) o = ((n : Int), o) := by
  cases as with
  | nil => rfl
  | cons a as => simp only [openLoop]; rw [if_neg (by omega)]

theorem fresh_ne (k : Kernel) (o : Fds) : ∀ e ∈ o, e.1 ≠ k.alloc o := by
  intro e he h
  exact k.fresh o e.2 (by rw [← h]; exact he)

theorem close_fresh (k : Kernel) (o : Fds) (x : Option Nat) :
    sysClose (k.alloc o : Int) ((k.alloc o, x) :: o) = o := by
  simp only [sysClose]
  rw [List.filter_cons_of_neg (by simp)]
  apply List.filter_eq_self.2
  intro e he
  have := fresh_ne k o e he
  simp only [decide_eq_true_eq]
  omega

theorem connect_fresh (k : Kernel) (o : Fds) (p : Nat) :
    ((k.alloc o, none) :: o : Fds).map (fun e => if (e.1 : Int) = (k.alloc o : Int) then (e.1, some p) else e)
      = (k.alloc o, some p) :: o := by
  rw [List.map_cons, if_pos rfl]
  congr 1
  have : o.map (fun e => if (e.1 : Int) = (k.alloc o : Int) then (e.1, some p) else e) = o.map id := by
    apply List.map_congr_left
    intro e he
    have := fresh_ne k o e he
    rw [if_neg (by omega)]; rfl
  rw [this, List.map_id]

theorem openLoop_spec (k : Kernel) (as : List Addr) (o : Fds) :
    openLoop k as (-1) o = match firstWorking as with
      | none => (-1, o)
      | some a => ((k.alloc o : Int), (k.alloc o, some a.peer) :: o) := by
  induction as with
  | nil => rfl
  | cons a as ih =>
    obtain ⟨p, s, c⟩ := a
    simp only [openLoop]
    rw [if_pos (by omega)]
    cases s with
    | false =>
      have e : firstWorking (⟨p, false, c⟩ :: as) = firstWorking as := rfl
      rw [e, ← ih]
      simp only [sysSocket, Bool.false_eq_true, if_false]
      rw [if_neg (by omega)]
    | true =>
      simp only [sysSocket, if_true]
      rw [if_pos (by omega)]
      cases c with
      | false =>
        have e : firstWorking (⟨p, true, false⟩ :: as) = firstWorking as := rfl
        rw [e, ← ih]
        simp only [sysConnect, Bool.false_eq_true, if_false]
        rw [if_pos (by omega), close_fresh]
      | true =>
        have e : firstWorking (⟨p, true, true⟩ :: as) = some ⟨p, true, true⟩ := rfl
        rw [e]
        simp only [sysConnect, if_true]
        rw [if_neg (by omega), connect_fresh, openLoop_done]

theorem create_eq (k : Kernel) (dns : Resolver) (c : Cfg) (w : World) :
    create k dns c w = match peerFor dns c with
      | none => ({ system := c.systemName.getD [], sock := -1 },
          { w with err := w.err ++ (if c.host.isNone then [.noHost] else [])
            ++ (if c.systemName.isNone then [.noSystemName] else []) })
      | some q => ({ system := c.systemName.getD [], sock := (k.alloc w.fds : Int) },
          { w with fds := (k.alloc w.fds, some q) :: w.fds
                   err := w.err ++ (if c.host.isNone then [.noHost] else [])
            ++ (if c.systemName.isNone then [.noSystemName] else []) }) := by
  obtain ⟨host, port, sys⟩ := c
  cases host <;> cases sys <;> simp only [create, peerFor] <;>
    (cases dns _ (port.getD "60000".toList) with
     | none => rfl
     | some as =>
       simp only [openLoop_spec]
       cases firstWorking as <;> rfl)

theorem destroy_neg {u : Out} (w : World) (h : u.sock = -1) : destroy u w = w := by
  simp only [destroy, h]; rw [if_neg (by omega)]

theorem destroy_pos {u : Out} (w : World) (n : Nat) (h : u.sock = (n : Int)) :
    destroy u w = { w with fds := sysClose (n : Int) w.fds } := by
  simp only [destroy, h]; rw [if_pos (by omega)]

theorem push_neg {u : Out} (m : Msg) (ok : Bool) (w : World) (h : u.sock = -1) : push u m ok w = w := by
  simp only [push, h]; rw [if_neg (by omega)]

theorem push_pos {u : Out} (m : Msg) (w : World) (n q : Nat) (h : u.sock = (n : Int))
    (hp : peerOf (n : Int) w.fds = some q) (ok : Bool) :
    push u m ok w = if ok then { w with wire := w.wire ++ [(q, record { m with system := u.system })] }
      else { w with err := w.err ++ [.writeFailed] } := by
  simp only [push, h, hp]; rw [if_pos (by omega)]
  cases ok <;> rfl

/-- The bookkeeping entry of a live output: name, system name, descriptor and peer. -/
abbrev Entry := Nat × S × Option (Nat × Nat)

/-- The object of an entry. -/
def Entry.out (e : Entry) : Nat × Out :=
  (e.1, { system := e.2.1, sock := match e.2.2 with | some (fd, _) => (fd : Int) | none => -1 })

/-- The descriptor of an entry. -/
def Entry.fd (e : Entry) : Option (Nat × Option Nat) := e.2.2.map fun x => (x.1, some x.2)

/-- The specification's view of an entry. -/
def Entry.live (e : Entry) : Nat × S × Option Nat := (e.1, e.2.1, e.2.2.map Prod.snd)

/-- Model and specification agree through the entries `L`. -/
structure Rel (base : Fds) (L : List Entry) (p : Proc) (s : Spec) : Prop where
  outs : p.outs = L.map Entry.out
  fds : p.w.fds = L.filterMap Entry.fd ++ base
  live : s.live = L.map Entry.live
  ids : (L.map Prod.fst).Nodup
  nodup : (p.w.fds.map Prod.fst).Nodup
  err : p.w.err = s.err
  wire : p.w.wire = s.sent.map fun x => (x.1, record x.2)

theorem lookup_out (L : List Entry) (i : Nat) :
    (L.map Entry.out).lookup i = (L.lookup i).map fun x => (Entry.out (i, x)).2 := by
  induction L with
  | nil => rfl
  | cons e L ih =>
    obtain ⟨j, x⟩ := e
    simp only [List.map_cons, Entry.out, List.lookup]
    cases h : i == j with
    | true => simp
    | false => simpa [Entry.out] using ih

theorem lookup_live (L : List Entry) (i : Nat) :
    (L.map Entry.live).lookup i = (L.lookup i).map fun x => (Entry.live (i, x)).2 := by
  induction L with
  | nil => rfl
  | cons e L ih =>
    obtain ⟨j, x⟩ := e
    simp only [List.map_cons, Entry.live, List.lookup]
    cases h : i == j with
    | true => simp
    | false => simpa [Entry.live] using ih

theorem lookup_none {L : List Entry} {i : Nat} (h : L.lookup i = none) : i ∉ L.map Prod.fst := by
  induction L with
  | nil => simp
  | cons e L ih =>
    obtain ⟨j, x⟩ := e
    simp only [List.lookup] at h
    cases hij : i == j with
    | true => rw [hij] at h; cases h
    | false =>
      rw [hij] at h
      simp only [List.map_cons, List.mem_cons, not_or]
      exact ⟨by simpa using hij, ih h⟩

theorem lookup_mem {L : List Entry} {i : Nat} {x} (h : L.lookup i = some x) : (i, x) ∈ L := by
  induction L with
  | nil => cases h
  | cons e L ih =>
    obtain ⟨j, y⟩ := e
    simp only [List.lookup] at h
    cases hij : i == j with
    | true => rw [hij] at h; cases h; simp at hij; subst hij; simp
    | false => rw [hij] at h; exact List.mem_cons_of_mem _ (ih h)

theorem filter_ids_absent {L : List Entry} {i : Nat} (h : i ∉ L.map Prod.fst) :
    L.filter (fun e => e.1 != i) = L := by
  apply List.filter_eq_self.2
  intro e he
  simp only [bne_iff_ne]
  intro hh
  exact h (hh ▸ List.mem_map_of_mem he)

theorem fd_filter_none {L : List Entry} {i : Nat} {sys : S} (hids : (L.map Prod.fst).Nodup)
    (h : (i, sys, none) ∈ L) :
    (L.filter fun e => e.1 != i).filterMap Entry.fd = L.filterMap Entry.fd := by
  induction L with
  | nil => cases h
  | cons e L ih =>
    simp only [List.map_cons, List.nodup_cons] at hids
    rcases List.mem_cons.1 h with h | h
    · subst h
      rw [List.filter_cons_of_neg (by simp), filter_ids_absent hids.1]
      rfl
    · have hne : e.1 ≠ i := by
        intro hh
        exact hids.1 (hh ▸ List.mem_map_of_mem (f := Prod.fst) h)
      rw [List.filter_cons_of_pos (by simpa using hne), List.filterMap_cons, List.filterMap_cons, ih hids.2 h]

theorem fd_filter_some {L : List Entry} {i fd pr : Nat} {sys : S} {base : Fds}
    (hids : (L.map Prod.fst).Nodup)
    (hn : ((L.filterMap Entry.fd ++ base).map Prod.fst).Nodup) (h : (i, sys, some (fd, pr)) ∈ L) :
    sysClose (fd : Int) (L.filterMap Entry.fd ++ base)
      = (L.filter fun e => e.1 != i).filterMap Entry.fd ++ base := by
  induction L with
  | nil => cases h
  | cons e L ih =>
    simp only [List.map_cons, List.nodup_cons] at hids
    rcases List.mem_cons.1 h with h | h
    · subst h
      rw [List.filter_cons_of_neg (by simp), filter_ids_absent hids.1]
      have e1 : (List.filterMap Entry.fd ((i, sys, some (fd, pr)) :: L)) = (fd, some pr) :: L.filterMap Entry.fd := rfl
      rw [e1] at hn ⊢
      simp only [List.cons_append, List.map_cons, List.nodup_cons] at hn
      simp only [sysClose, List.cons_append]
      rw [List.filter_cons_of_neg (by simp)]
      apply List.filter_eq_self.2
      intro x hx
      simp only [decide_eq_true_eq]
      intro hh
      have : x.1 = fd := by omega
      exact hn.1 (this ▸ List.mem_map_of_mem hx)
    · have hne : e.1 ≠ i := by
        intro hh
        exact hids.1 (hh ▸ List.mem_map_of_mem (f := Prod.fst) h)
      rw [List.filter_cons_of_pos (by simpa using hne)]
      have hin : (fd, some pr) ∈ L.filterMap Entry.fd := List.mem_filterMap.2 ⟨_, h, rfl⟩
      cases hf : Entry.fd e with
      | none =>
        rw [List.filterMap_cons_none hf, List.filterMap_cons_none hf]
        rw [List.filterMap_cons_none hf] at hn
        exact ih hids.2 hn h
      | some y =>
        rw [List.filterMap_cons_some hf, List.filterMap_cons_some hf]
        rw [List.filterMap_cons_some hf] at hn
        simp only [List.cons_append, List.map_cons, List.nodup_cons] at hn
        have hy : y.1 ≠ fd := by
          intro hh
          apply hn.1
          rw [hh]
          exact List.mem_map.2 ⟨(fd, some pr), List.mem_append_left _ hin, rfl⟩
        have := ih hids.2 hn.2 h
        simp only [sysClose, List.cons_append] at this ⊢
        rw [List.filter_cons_of_pos (by simp; omega), this]

theorem peerOf_mem {o : Fds} {fd pr : Nat} (hn : (o.map Prod.fst).Nodup) (h : (fd, some pr) ∈ o) :
    peerOf (fd : Int) o = some pr := by
  induction o with
  | nil => cases h
  | cons e o ih =>
    simp only [List.map_cons, List.nodup_cons] at hn
    simp only [peerOf]
    rcases List.mem_cons.1 h with h | h
    · subst h
      rw [List.find?_cons_of_pos (by simp)]
      rfl
    · have : e.1 ≠ fd := by
        intro hh
        exact hn.1 (hh ▸ List.mem_map_of_mem (f := Prod.fst) h)
      rw [List.find?_cons_of_neg (by simp; omega)]
      exact ih hn.2 h

theorem sub_nodup {o : Fds} (f : Nat × Option Nat → Bool) (h : (o.map Prod.fst).Nodup) :
    ((o.filter f).map Prod.fst).Nodup :=
  h.sublist (List.filter_sublist.map _)

theorem rel_step (k : Kernel) (base : Fds) (L : List Entry) (p : Proc) (s : Spec)
    (r : Rel base L p s) (e : Ev) : ∃ L', Rel base L' (p.step k e) (s.step e) := by
  cases e with
  | create i dns c =>
    have h1 := lookup_out L i
    have h2 := lookup_live L i
    rw [← r.outs] at h1
    rw [← r.live] at h2
    cases hl : L.lookup i with
    | some x =>
      rw [hl] at h1 h2
      refine ⟨L, ?_⟩
      simp only [Proc.step, Spec.step, h1, h2, Option.map_some, Option.isSome_some, if_true]
      exact r
    | none =>
      rw [hl] at h1 h2
      have hid := lookup_none hl
      simp only [Proc.step, Spec.step, h1, h2, Option.map_none, Option.isSome_none, Bool.false_eq_true, if_false]
      refine ⟨(i, c.systemName.getD [], (peerFor dns c).map fun q => (k.alloc p.w.fds, q)) :: L, ?_⟩
      rw [create_eq]
      cases peerFor dns c with
      | none =>
        refine ⟨?_, r.fds, ?_, ?_, r.nodup, ?_, r.wire⟩
        · simp only [List.map_cons, r.outs]; rfl
        · simp only [List.map_cons, r.live]; rfl
        · simp only [List.map_cons, List.nodup_cons]; exact ⟨hid, r.ids⟩
        · simp only [r.err]
      | some q =>
        refine ⟨?_, ?_, ?_, ?_, ?_, ?_, r.wire⟩
        · simp only [List.map_cons, r.outs]; rfl
        · simp only [r.fds]; rfl
        · simp only [List.map_cons, r.live]; rfl
        · simp only [List.map_cons, List.nodup_cons]; exact ⟨hid, r.ids⟩
        · simp only [List.map_cons, List.nodup_cons]
          refine ⟨?_, r.nodup⟩
          intro hm
          obtain ⟨x, hx, hx'⟩ := List.mem_map.1 hm
          exact fresh_ne k _ x hx hx'
        · simp only [r.err]
  | destroy i =>
    have h1 := lookup_out L i
    rw [← r.outs] at h1
    have hout : p.outs.filter (fun e => e.1 != i) = (L.filter fun e => e.1 != i).map Entry.out := by
      rw [r.outs, List.filter_map]; rfl
    have hlive : s.live.filter (fun e => e.1 != i) = (L.filter fun e => e.1 != i).map Entry.live := by
      rw [r.live, List.filter_map]; rfl
    cases hl : L.lookup i with
    | none =>
      rw [hl] at h1
      have hid := lookup_none hl
      refine ⟨L, ?_⟩
      simp only [Proc.step, Spec.step, h1, Option.map_none]
      refine ⟨r.outs, r.fds, ?_, r.ids, r.nodup, r.err, r.wire⟩
      rw [hlive, filter_ids_absent hid]
    | some x =>
      rw [hl] at h1
      have hm := lookup_mem hl
      refine ⟨L.filter fun e => e.1 != i, ?_⟩
      simp only [Proc.step, Spec.step, h1, Option.map_some]
      have hids : ((L.filter fun e => e.1 != i).map Prod.fst).Nodup :=
        r.ids.sublist (List.filter_sublist.map _)
      obtain ⟨sys, pe⟩ := x
      cases pe with
      | none =>
        rw [destroy_neg p.w rfl]
        refine ⟨hout, ?_, hlive, hids, r.nodup, r.err, r.wire⟩
        rw [fd_filter_none r.ids hm]
        exact r.fds
      | some y =>
        obtain ⟨fd, pr⟩ := y
        have hn := r.nodup
        rw [r.fds] at hn
        rw [destroy_pos p.w fd rfl]
        refine ⟨hout, ?_, hlive, hids, sub_nodup _ r.nodup, r.err, r.wire⟩
        rw [← fd_filter_some r.ids hn hm, ← r.fds]
  | push i m ok =>
    have h1 := lookup_out L i
    have h2 := lookup_live L i
    rw [← r.outs] at h1
    rw [← r.live] at h2
    refine ⟨L, ?_⟩
    cases hl : L.lookup i with
    | none =>
      rw [hl] at h1 h2
      simp only [Proc.step, Spec.step, h1, h2, Option.map_none]
      exact r
    | some x =>
      rw [hl] at h1 h2
      have hm := lookup_mem hl
      obtain ⟨sys, pe⟩ := x
      cases pe with
      | none =>
        simp only [Proc.step, Spec.step, h1, h2, Option.map_some]
        rw [push_neg m ok p.w rfl]
        exact r
      | some y =>
        obtain ⟨fd, pr⟩ := y
        have hin : (fd, some pr) ∈ p.w.fds := by
          rw [r.fds]
          exact List.mem_append_left _ (List.mem_filterMap.2 ⟨_, hm, rfl⟩)
        have hp := peerOf_mem r.nodup hin
        simp only [Proc.step, Spec.step, h1, h2, Option.map_some]
        rw [push_pos m p.w fd pr rfl hp]
        cases ok with
        | true =>
          exact ⟨r.outs, r.fds, r.live, r.ids, r.nodup, r.err, by simp [r.wire, Entry.live, Entry.out]⟩
        | false =>
          exact ⟨r.outs, r.fds, r.live, r.ids, r.nodup, by simp [r.err, Entry.live], r.wire⟩

theorem rel_run (k : Kernel) (base : Fds) (evs : List Ev) : ∀ (L : List Entry) (p : Proc) (s : Spec),
    Rel base L p s → ∃ L', Rel base L' (p.run k evs) (evs.foldl Spec.step s) := by
  induction evs with
  | nil => intro L p s r; exact ⟨L, r⟩
  | cons e evs ih =>
    intro L p s r
    obtain ⟨L', r'⟩ := rel_step k base L p s r e
    exact ih L' _ _ r'

theorem rel_start (base : Fds) (hb : (base.map Prod.fst).Nodup) :
    Rel base [] (Proc.start base) { live := [], err := [], sent := [] } :=
  ⟨rfl, rfl, rfl, List.nodup_nil, hb, rfl, rfl⟩

end Verif.Logging.Udp
namespace Verif.Logging.Udp

/-- Everything in the specification's state stems from events of `all`. -/
structure Stems (all : List Ev) (s : Spec) : Prop where
  live : ∀ i sys pe, (i, sys, pe) ∈ s.live → ∃ dns c, Ev.create i dns c ∈ all ∧ sys = c.systemName.getD [] ∧
    pe = peerFor dns c
  sent : ∀ q m', (q, m') ∈ s.sent → ∃ i dns c m, Ev.create i dns c ∈ all ∧ Ev.push i m true ∈ all ∧
    peerFor dns c = some q ∧ m' = { m with system := c.systemName.getD [] }

theorem lookup_mem' {L : List (Nat × S × Option Nat)} {i : Nat} {x} (h : L.lookup i = some x) : (i, x) ∈ L := by
  induction L with
  | nil => cases h
  | cons e L ih =>
    obtain ⟨j, y⟩ := e
    simp only [List.lookup] at h
    cases hij : i == j with
    | true => rw [hij] at h; cases h; simp at hij; subst hij; simp
    | false => rw [hij] at h; exact List.mem_cons_of_mem _ (ih h)

theorem stems_step {all : List Ev} {s : Spec} (h : Stems all s) {e : Ev} (he : e ∈ all) : Stems all (s.step e) := by
  cases e with
  | create i dns c =>
    simp only [Spec.step]
    split
    · exact h
    · refine ⟨?_, h.sent⟩
      intro j sys pe hm
      rcases List.mem_cons.1 hm with hm | hm
      · cases hm; exact ⟨dns, c, he, rfl, rfl⟩
      · exact h.live j sys pe hm
  | destroy i =>
    refine ⟨?_, h.sent⟩
    intro j sys pe hm
    exact h.live j sys pe (List.mem_filter.1 hm).1
  | push i m ok =>
    simp only [Spec.step]
    split
    · rename_i sys p hl
      cases ok with
      | false => simp only [Bool.false_eq_true, if_false]; exact ⟨h.live, h.sent⟩
      | true =>
        simp only [if_true]
        refine ⟨h.live, ?_⟩
        intro q m' hm
        rcases List.mem_append.1 hm with hm | hm
        · exact h.sent q m' hm
        · simp only [List.mem_singleton, Prod.mk.injEq] at hm
          obtain ⟨rfl, rfl⟩ := hm
          obtain ⟨dns, c, h1, h2, h3⟩ := h.live i sys _ (lookup_mem' hl)
          exact ⟨i, dns, c, m, h1, he, h3.symm, by rw [h2]⟩
    · exact h

theorem stems_run {all : List Ev} (evs : List Ev) : ∀ {s : Spec}, Stems all s → (∀ e ∈ evs, e ∈ all) →
    Stems all (evs.foldl Spec.step s) := by
  induction evs with
  | nil => intro s h _; exact h
  | cons e evs ih =>
    intro s h hs
    exact ih (stems_step h (hs e (by simp))) (fun x hx => hs x (List.mem_cons_of_mem _ hx))

theorem stems_all (evs : List Ev) : Stems evs (Spec.run evs) :=
  stems_run evs ⟨fun _ _ _ h => (List.not_mem_nil h).elim, fun _ _ h => (List.not_mem_nil h).elim⟩ (fun _ h => h)

theorem server_rows (good : List Val → Prop) (evs : List SrvEv) : ∀ (s : Server),
    (∀ d, SrvEv.arrive d ∈ evs → ∀ r ∈ inserted d, good r) →
    (∀ t, s.table = some t → ∀ r ∈ t, good r) →
    ∀ t, (s.run evs).table = some t → ∀ r ∈ t, good r := by
  induction evs with
  | nil => intro s _ h; exact h
  | cons e evs ih =>
    intro s hd h
    apply ih (s.step e) (fun d hm => hd d (List.mem_cons_of_mem _ hm))
    intro t ht
    cases e with
    | start ok =>
      simp only [Server.step] at ht
      cases ok with
      | false => simp only [Bool.false_eq_true, if_false] at ht; exact h t ht
      | true =>
        simp only [if_true] at ht
        cases hs : s.table with
        | none => rw [hs] at ht; cases ht; intro r hr; cases hr
        | some t' => rw [hs] at ht; cases ht; exact h _ hs
    | stop => exact h t ht
    | arrive d =>
      simp only [Server.step] at ht
      split at ht
      · simp only [Option.map_eq_some_iff] at ht
        obtain ⟨t', h1, rfl⟩ := ht
        intro r hr
        rcases List.mem_append.1 hr with hr | hr
        · exact h t' h1 r hr
        · exact hd d (by simp) r hr
      · exact h t ht

theorem server_all (ds : List S) : ∀ (t : List (List Val)),
    (Server.run { table := some t, up := true, db := true } (ds.map .arrive)).table
      = some (t ++ ds.flatMap inserted) := by
  induction ds with
  | nil => intro t; simp [Server.run]
  | cons d ds ih =>
    intro t
    have := ih (t ++ inserted d)
    simp only [Server.run, List.map_cons, List.foldl_cons, Server.step, Bool.and_self, if_true,
      Option.map_some] at this ⊢
    rw [this]
    simp

theorem texts_system (m : Msg) (sys : S) (h : ∀ s ∈ m.texts, '\'' ∉ s) (hs : '\'' ∉ sys) :
    ∀ s ∈ ({ m with system := sys } : Msg).texts, '\'' ∉ s := by
  simp only [Msg.texts, List.mem_cons] at h ⊢
  intro s hm
  rcases hm with rfl | hm
  · exact hs
  · exact h s (Or.inr hm)

end Verif.Logging.Udp
