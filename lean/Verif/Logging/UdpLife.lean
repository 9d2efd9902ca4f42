import Verif.Logging.Udp

/-!
# Model of the life of a `UdpLogOutput` and of the server `uls`

What `getaddrinfo`, `socket`, `connect` and `write` answer is chosen by the environment.  Not
modelled: errors of `close`, the worker thread (C46, C47) and the SQL column check for rows of the
wrong length.
-/
namespace Verif.Logging.Udp

/-- One entry of the list `getaddrinfo` returns, with what `socket` and `connect` will answer for
it. -/
structure Addr where
  peer : Nat
  socketOk : Bool
  connectOk : Bool
  deriving DecidableEq, Repr

/-- The open descriptors of the process: descriptor and connected peer. -/
abbrev Fds := List (Nat × Option Nat)

/-- How the operating system picks a descriptor that is not open. -/
structure Kernel where
  alloc : Fds → Nat
  fresh : ∀ o, ∀ p, (alloc o, p) ∉ o

/-- `socket()`: a new descriptor or -1. -/
def sysSocket (k : Kernel) (a : Addr) (o : Fds) : Int × Fds :=
  if a.socketOk then ((k.alloc o : Int), (k.alloc o, none) :: o) else (-1, o)

/-- `connect(fd, …)`: connects the descriptor to the peer, or fails. -/
def sysConnect (a : Addr) (fd : Int) (o : Fds) : Int × Fds :=
  if a.connectOk then (0, o.map fun e => if (e.1 : Int) = fd then (e.1, some a.peer) else e)
  else (-1, o)

/-- `close(fd)`. -/
def sysClose (fd : Int) (o : Fds) : Fds := o.filter fun e => decide ((e.1 : Int) ≠ fd)

/-- UdpLogOutput.cpp:74-85: the loop over the addresses, `sock` is `m_socket`. -/
def openLoop (k : Kernel) : List Addr → Int → Fds → Int × Fds
  | [], sock, o => (sock, o)
  | a :: rest, sock, o =>
    if sock < 0 then
      let s := sysSocket k a o
      if s.1 ≥ 0 then
        let c := sysConnect a s.1 s.2
        if c.1 < 0 then openLoop k rest (-1) (sysClose s.1 c.2)
        else openLoop k rest s.1 c.2
      else openLoop k rest s.1 s.2
    else (sock, o)

/-- UdpLogOutput.h: the members `m_system_name` and `m_socket`. -/
structure Out where
  system : S
  sock : Int
  deriving DecidableEq, Repr

/-- The lines written to the error stream. -/
inductive ErrLine where
  /-- UdpLogOutput.cpp:54 -/
  | noHost
  /-- UdpLogOutput.cpp:62 -/
  | noSystemName
  /-- UdpLogOutput.cpp:116 `perror` -/
  | writeFailed
  deriving DecidableEq, Repr

/-- What the configuration holds for an output (`none`: no such key). -/
structure Cfg where
  host : Option S
  port : Option S
  systemName : Option S

/-- The name service: `getaddrinfo(host, port, …)`; `none` for an error. -/
abbrev Resolver := S → S → Option (List Addr)

/-- Everything outside the objects: descriptors, error stream, datagrams sent (in order). -/
structure World where
  fds : Fds
  err : List ErrLine
  wire : List (Nat × S)

/-- UdpLogOutput.cpp:45-90 constructor. -/
def create (k : Kernel) (dns : Resolver) (c : Cfg) (w : World) : Out × World :=
  let e1 := match c.host with | none => [ErrLine.noHost] | some _ => []
  let host := c.host.getD []
  let port := c.port.getD "60000".toList
  let e2 := match c.systemName with | none => [ErrLine.noSystemName] | some _ => []
  let r := match dns host port with
    | none => ((-1 : Int), w.fds)
    | some as => openLoop k as (-1) w.fds
  ({ system := c.systemName.getD [], sock := r.1 },
   { w with fds := r.2, err := w.err ++ e1 ++ e2 })

/-- UdpLogOutput.cpp:92-98 destructor. -/
def destroy (u : Out) (w : World) : World :=
  if u.sock ≥ 0 then { w with fds := sysClose u.sock w.fds } else w

/-- The peer a descriptor is connected to. -/
def peerOf (fd : Int) (o : Fds) : Option Nat :=
  (o.find? fun e => decide ((e.1 : Int) = fd)).bind Prod.snd

/-- UdpLogOutput.cpp:100-121 `pushImpl`; `writeOk` is the answer of `write`.  (A descriptor
without a peer cannot be written to.) -/
def push (u : Out) (m : Msg) (writeOk : Bool) (w : World) : World :=
  if u.sock ≥ 0 then
    match writeOk, peerOf u.sock w.fds with
    | true, some p => { w with wire := w.wire ++ [(p, record { m with system := u.system })] }
    | _, _ => { w with err := w.err ++ [.writeFailed] }
  else w

/-! ## Histories of the logging processes -/

/-- One event: an output is created or destroyed, or a message is pushed to it. -/
inductive Ev where
  | create (i : Nat) (dns : Resolver) (c : Cfg)
  | destroy (i : Nat)
  | push (i : Nat) (m : Msg) (writeOk : Bool)

/-- The process: its outputs (the live ones) and the world. -/
structure Proc where
  outs : List (Nat × Out)
  w : World

/-- UdpLogOutput.cpp:45-121: one event; events that make no sense (creating a live output, using a
dead one) do nothing. -/
def Proc.step (k : Kernel) (p : Proc) : Ev → Proc
  | .create i dns c =>
    match p.outs.lookup i with
    | some _ => p
    | none =>
      let r := Verif.Logging.Udp.create k dns c p.w
      { outs := (i, r.1) :: p.outs, w := r.2 }
  | .destroy i =>
    match p.outs.lookup i with
    | some u => { outs := p.outs.filter (fun e => e.1 != i), w := Verif.Logging.Udp.destroy u p.w }
    | none => p
  | .push i m ok =>
    match p.outs.lookup i with
    | some u => { p with w := Verif.Logging.Udp.push u m ok p.w }
    | none => p

/-- A whole history. -/
def Proc.run (k : Kernel) (p : Proc) (evs : List Ev) : Proc := evs.foldl (Proc.step k) p

/-- The process before anything was created: some descriptors are open already. -/
def Proc.start (base : Fds) : Proc := { outs := [], w := { fds := base, err := [], wire := [] } }

/-! ## The server -/

/-- uls: the table `log_entries` (if it exists), whether the server runs and whether it could
open the database. -/
structure Server where
  table : Option (List (List Val))
  up : Bool
  db : Bool

/-- What can happen to the server. -/
inductive SrvEv where
  /-- UdpLoggingServer.cpp:32-63 constructor; `dbOk`: the database could be opened -/
  | start (dbOk : Bool)
  | stop
  /-- a datagram arrives -/
  | arrive (datagram : S)

/-- UdpLoggingServer.cpp:32-82. -/
def Server.step (s : Server) : SrvEv → Server
  | .start dbOk =>
    { up := true, db := dbOk, table := if dbOk then (match s.table with | some t => some t | none => some []) else s.table }
  | .stop => { s with up := false }
  | .arrive d =>
    if s.up && s.db then { s with table := s.table.map (· ++ inserted d) } else s

/-- A whole history of the server. -/
def Server.run (s : Server) (evs : List SrvEv) : Server := evs.foldl Server.step s

end Verif.Logging.Udp
