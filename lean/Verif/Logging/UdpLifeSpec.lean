import Verif.Logging.UdpLife

/-!
# Specification for C120: outputs without sockets

A live output is just its system name and the peer it is connected to, if any.
-/
namespace Verif.Logging.Udp

/-- The first address for which both `socket` and `connect` succeed. -/
def firstWorking (as : List Addr) : Option Addr := as.find? fun a => a.socketOk && a.connectOk

/-- The peer an output with configuration `c` gets connected to. -/
def peerFor (dns : Resolver) (c : Cfg) : Option Nat :=
  match dns (c.host.getD []) (c.port.getD "60000".toList) with
  | none => none
  | some as => (firstWorking as).map Addr.peer

/-- Live outputs, lines on the error stream, messages sent (with the peer). -/
structure Spec where
  live : List (Nat × S × Option Nat)
  err : List ErrLine
  sent : List (Nat × Msg)

/-- One event. -/
def Spec.step (s : Spec) : Ev → Spec
  | .create i dns c =>
    if (s.live.lookup i).isSome then s
    else
      { s with
        live := (i, c.systemName.getD [], peerFor dns c) :: s.live
        err := s.err ++ (if c.host.isNone then [.noHost] else [])
          ++ (if c.systemName.isNone then [.noSystemName] else []) }
  | .destroy i => { s with live := s.live.filter fun e => e.1 != i }
  | .push i m ok =>
    match s.live.lookup i with
    | some (sys, some p) =>
      if ok then { s with sent := s.sent ++ [(p, { m with system := sys })] }
      else { s with err := s.err ++ [.writeFailed] }
    | _ => s

/-- A whole history from an empty start. -/
def Spec.run (evs : List Ev) : Spec := evs.foldl Spec.step { live := [], err := [], sent := [] }

end Verif.Logging.Udp
