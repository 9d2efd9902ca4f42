import Verif.Logging.UdpLifeLemmas

/-!
# C120: logging by UDP — sockets, datagrams and the rows in the database

`Proc.run` executes a history of outputs being created, used and destroyed; `Spec.run`
(`UdpLifeSpec.lean`) is the same without descriptors.  The kernel, the name service and the results
of `socket`, `connect` and `write` are arbitrary.
-/
namespace Verif.Logging.Udp

/-- C120. An output connects to the **first** address for which both `socket` and `connect` succeed
and opens exactly one descriptor for it; if there is none it opens none.  Descriptors opened for
addresses that failed are closed again. -/
theorem c120_connects_to_first_working (k : Kernel) (dns : Resolver) (c : Cfg) (w : World) :
    match peerFor dns c with
    | none => (create k dns c w).1.sock = -1 ∧ (create k dns c w).2.fds = w.fds
    | some q => ∃ fd : Nat, (create k dns c w).1.sock = (fd : Int) ∧ (∀ e ∈ w.fds, e.1 ≠ fd) ∧
        (create k dns c w).2.fds = (fd, some q) :: w.fds := by
  rw [create_eq]
  cases peerFor dns c with
  | none => exact ⟨rfl, rfl⟩
  | some q => exact ⟨k.alloc w.fds, rfl, fresh_ne k _, rfl⟩

/-- C120. No descriptor is leaked or closed twice: after every history the descriptors opened before
are all still open, there is one more for every live output that is connected, and they are all
different; when no output is left, exactly the old ones are open. -/
theorem c120_no_descriptor_leak (k : Kernel) (base : Fds) (hb : (base.map Prod.fst).Nodup)
    (evs : List Ev) :
    let p := (Proc.start base).run k evs
    (p.outs = [] → p.w.fds = base) ∧
    (∀ e ∈ base, e ∈ p.w.fds) ∧
    (p.w.fds.map Prod.fst).Nodup ∧
    p.w.fds.length = base.length + (p.outs.filter fun o => decide (0 ≤ o.2.sock)).length := by
  obtain ⟨L, r⟩ := rel_run k base evs _ _ _ (rel_start base hb)
  refine ⟨?_, ?_, r.nodup, ?_⟩
  · intro h
    rw [r.outs] at h
    have : L = [] := by simpa using h
    rw [r.fds, this]; rfl
  · intro e he; rw [r.fds]; exact List.mem_append_right _ he
  · rw [r.fds, r.outs, List.length_append, Nat.add_comm]
    congr 1
    generalize L = L
    induction L with
    | nil => rfl
    | cons e L ih =>
      obtain ⟨i, sys, pe⟩ := e
      cases pe with
      | none =>
        rw [List.filterMap_cons_none rfl, List.map_cons, List.filter_cons_of_neg (by simp [Entry.out]), ih]
      | some x =>
        rw [List.filterMap_cons_some (f := Entry.fd) (a := (i, sys, some x)) (b := (x.1, some x.2)) rfl, List.map_cons,
          List.filter_cons_of_pos (by simp [Entry.out]), List.length_cons, List.length_cons, ih]

/-- C120. Exactly the messages pushed to a live, connected output with a successful `write` are
sent, once each, in order, to the peer of that output, with the output's system name; the error
stream gets exactly the documented lines. -/
theorem c120_exact_datagrams (k : Kernel) (base : Fds) (hb : (base.map Prod.fst).Nodup)
    (evs : List Ev) :
    ((Proc.start base).run k evs).w.wire = (Spec.run evs).sent.map (fun x => (x.1, record x.2)) ∧
    ((Proc.start base).run k evs).w.err = (Spec.run evs).err := by
  obtain ⟨L, r⟩ := rel_run k base evs _ _ _ (rel_start base hb)
  exact ⟨r.wire, r.err⟩

/-- C120 (violated by the code). If no address works (an unknown host, no network) the output says
nothing about it, and every message pushed to it disappears without a line on the error stream. -/
theorem c120_unreachable_is_silent (k : Kernel) (dns : Resolver) (c : Cfg) (w : World)
    (hc : c.host.isSome = true ∧ c.systemName.isSome = true) (hno : peerFor dns c = none)
    (ms : List (Msg × Bool)) :
    (create k dns c w).2 = w ∧
    ms.foldl (fun w' x => push (create k dns c w).1 x.1 x.2 w') w = w := by
  obtain ⟨host, port, sys⟩ := c
  obtain ⟨h1, h2⟩ := hc
  cases host with
  | none => cases h1
  | some host =>
  cases sys with
  | none => cases h2
  | some sys =>
  have e : create k dns ⟨some host, port, some sys⟩ w = ({ system := sys, sock := -1 }, w) := by
    rw [create_eq, hno]
    simp
  rw [e]
  refine ⟨rfl, ?_⟩
  induction ms with
  | nil => rfl
  | cons x ms ih => rw [List.foldl_cons, push_neg _ _ _ rfl]; exact ih

/-- C120 (the part that holds). If no text contains an apostrophe, then whatever the network does —
lose, repeat or reorder datagrams — and however often the server is stopped and started again, every
row of the database is exactly the row of a message that was pushed to an output connected to this
server. -/
theorem c120_only_logged_rows_partial (k : Kernel) (base : Fds) (hb : (base.map Prod.fst).Nodup)
    (evs : List Ev) (srv : Nat) (sevs : List SrvEv)
    (hsys : ∀ i dns c, Ev.create i dns c ∈ evs → '\'' ∉ c.systemName.getD [])
    (hmsg : ∀ i m ok, Ev.push i m ok ∈ evs → ∀ s ∈ m.texts, '\'' ∉ s)
    (hnet : ∀ d, SrvEv.arrive d ∈ sevs → (srv, d) ∈ ((Proc.start base).run k evs).w.wire)
    (t : List (List Val))
    (ht : (Server.run { table := none, up := false, db := false } sevs).table = some t) :
    ∀ r ∈ t, ∃ i dns c m, Ev.create i dns c ∈ evs ∧ peerFor dns c = some srv ∧
      Ev.push i m true ∈ evs ∧ r = ({ m with system := c.systemName.getD [] } : Msg).row := by
  refine server_rows _ sevs _ ?_ (by intro t h; cases h) t ht
  intro d hd r hr
  have h1 := hnet d hd
  rw [(c120_exact_datagrams k base hb evs).1] at h1
  obtain ⟨x, hx, he⟩ := List.mem_map.1 h1
  obtain ⟨q, m'⟩ := x
  simp only [Prod.mk.injEq] at he
  obtain ⟨rfl, rfl⟩ := he
  obtain ⟨i, dns, c, m, a1, a2, a3, rfl⟩ := (stems_all evs).sent q m' hx
  rw [c71_record_partial _ (texts_system m _ (hmsg i m true a2) (hsys i dns c a1))] at hr
  simp only [List.mem_singleton] at hr
  exact ⟨i, dns, c, m, a1, a3, a2, hr⟩

/-- C120 (the part that holds). If moreover the server runs with an open database and every datagram
arrives once, in order, the table is extended by exactly the rows of the messages sent, in order. -/
theorem c120_reliable_network_partial (k : Kernel) (base : Fds) (hb : (base.map Prod.fst).Nodup)
    (evs : List Ev) (t : List (List Val))
    (hsys : ∀ i dns c, Ev.create i dns c ∈ evs → '\'' ∉ c.systemName.getD [])
    (hmsg : ∀ i m ok, Ev.push i m ok ∈ evs → ∀ s ∈ m.texts, '\'' ∉ s) :
    (Server.run { table := some t, up := true, db := true }
      ((((Proc.start base).run k evs).w.wire.map Prod.snd).map .arrive)).table
      = some (t ++ (Spec.run evs).sent.map fun x => x.2.row) := by
  rw [server_all, (c120_exact_datagrams k base hb evs).1, List.map_map, List.flatMap_map]
  congr 2
  have hs := (stems_all evs).sent
  generalize (Spec.run evs).sent = l at hs ⊢
  induction l with
  | nil => rfl
  | cons x l ih =>
    rw [List.flatMap_cons, List.map_cons, ih (fun q m' hm => hs q m' (List.mem_cons_of_mem _ hm))]
    obtain ⟨i, dns, c, m, a1, a2, -, a4⟩ := hs x.1 x.2 (by simp)
    have : inserted (record x.2) = [x.2.row] := by
      rw [a4]
      exact c71_record_partial _ (texts_system m _ (hmsg i m true a2) (hsys i dns c a1))
    simp only [Function.comp, this]
    rfl

/-- C120. Rows stay: whatever arrives and however often the server is stopped and started, also with
a database that cannot be opened, the table only grows at its end. -/
theorem c120_rows_stay (s : Server) (t : List (List Val)) (h : s.table = some t) (sevs : List SrvEv) :
    ∃ t', (s.run sevs).table = some (t ++ t') := by
  induction sevs generalizing s t with
  | nil => exact ⟨[], by simpa [Server.run] using h⟩
  | cons e sevs ih =>
    have key : ∃ t1, (s.step e).table = some (t ++ t1) := by
      cases e with
      | start ok => exact ⟨[], by cases ok <;> simp [Server.step, h]⟩
      | stop => exact ⟨[], by simpa [Server.step] using h⟩
      | arrive d =>
        simp only [Server.step]
        split
        · exact ⟨inserted d, by rw [h]; rfl⟩
        · exact ⟨[], by simpa using h⟩
    obtain ⟨t1, h1⟩ := key
    obtain ⟨t2, h2⟩ := ih (s.step e) (t ++ t1) h1
    exact ⟨t1 ++ t2, by rw [← List.append_assoc]; exact h2⟩

example : (Server.run { table := none, up := false, db := false }
    [.start true, .arrive (record exampleMsg), .stop, .arrive (record exampleMsg), .start false,
     .arrive (record exampleMsg), .stop, .start true, .arrive (record exampleMsg)]).table
    = some [exampleMsg.row, exampleMsg.row] := by decide +kernel

/-- A kernel: the smallest number above all open descriptors. -/
def exampleKernel : Kernel where
  alloc o := (o.map fun e => e.1 + 1).foldr Nat.max 0
  fresh := by
    intro o p hm
    have key : ∀ (l : Fds) (e : Nat × Option Nat), e ∈ l → e.1 + 1 ≤ (l.map fun e => e.1 + 1).foldr Nat.max 0 := by
      intro l
      induction l with
      | nil => intro e h; cases h
      | cons a l ih =>
        intro e h
        rw [List.map_cons, List.foldr_cons]
        rcases List.mem_cons.1 h with h | h
        · subst h; exact Nat.le_max_left _ _
        · exact Nat.le_trans (ih e h) (Nat.le_max_right _ _)
    have := key o _ hm
    simp only at this
    omega

/-- Two addresses: the first cannot be connected, the second can. -/
def exampleDns : Resolver := fun h _ =>
  if h = "log".toList then some [⟨1, true, false⟩, ⟨2, true, true⟩, ⟨3, true, true⟩] else none

/-- An output connected to the second address, one for an unknown host. -/
def exampleEvs : List Ev :=
  [.create 0 exampleDns ⟨some "log".toList, none, some "robot".toList⟩,
   .create 1 exampleDns ⟨some "nowhere".toList, none, none⟩,
   .push 0 exampleMsg true, .push 1 exampleMsg true, .push 0 exampleMsg false]

example : ((Proc.start [(0, none), (1, none), (2, none)]).run exampleKernel exampleEvs).w.fds
      = [(3, some 2), (0, none), (1, none), (2, none)] ∧
    ((Proc.start [(0, none), (1, none), (2, none)]).run exampleKernel exampleEvs).w.err
      = [.noSystemName, .writeFailed] ∧
    ((Proc.start [(0, none), (1, none), (2, none)]).run exampleKernel (exampleEvs ++ [.destroy 0, .destroy 1])).w.fds
      = [(0, none), (1, none), (2, none)] := by decide +kernel

/-- The hypotheses of the two theorems about the database hold for this history. -/
example : (∀ i dns c, Ev.create i dns c ∈ exampleEvs → '\'' ∉ c.systemName.getD []) ∧
    (∀ i m ok, Ev.push i m ok ∈ exampleEvs → ∀ s ∈ m.texts, '\'' ∉ s) ∧
    ((Proc.start []).run exampleKernel exampleEvs).w.wire.length = 1 := by
  refine ⟨?_, ?_, by decide +kernel⟩
  · intro i dns c h
    simp only [exampleEvs, List.mem_cons, Ev.create.injEq, reduceCtorEq, List.not_mem_nil, or_false, false_or] at h
    rcases h with ⟨-, -, rfl⟩ | ⟨-, -, rfl⟩ <;> decide +kernel
  · intro i m ok h
    have hm : m = exampleMsg := by
      simp only [exampleEvs, List.mem_cons, Ev.push.injEq, reduceCtorEq, List.not_mem_nil, or_false, false_or] at h
      rcases h with ⟨-, h, -⟩ | ⟨-, h, -⟩ | ⟨-, h, -⟩ <;> exact h
    subst hm
    decide +kernel

end Verif.Logging.Udp
