import Verif.CoapMsg.Model

/-!
Model of receiving messages from a TCP connection: port/linux/tcpsession.c
(the loops of port/{windows,android,esp32} are the same) and api/oc_tcp.c.
-/

namespace Verif.TcpStream

open Verif.CoapMsg

/-- api/oc_tcp.c:99-166 `oc_tcp_is_valid_header` (built with `OC_SECURITY`).
`data` holds the `data_size` bytes received.  The record types are those of
mbedtls: change cipher spec 20, alert 21, handshake 22, application data 23,
CID 25. -/
def validHeader (data : List UInt8) (tls : Bool) : Bool :=
  if tls then
    match data with
    | t :: ma :: mi :: _ =>
      (t == 20 || t == 21 || t == 22 || t == 23 || t == 25) && ma == 3 &&
        (mi == 1 || mi == 2 || mi == 3 || mi == 4)
    | _ => false
  else
    match data with
    | b :: _ => decide (b.toNat &&& 0x0F ≤ 8)
    | [] => false

/-- api/oc_tcp.c:202-223 `oc_tcp_get_total_length_from_header`, `none` for -1. -/
def totalLength (data : List UInt8) (tls : Bool) : Out (Option Nat) :=
  if !validHeader data tls then .ok none
  else if tls then
    if data.length < 5 then .ok none
    else do
      let h ← Out.get data 3
      let l ← Out.get data 4
      .ok (some (5 + ((h.toNat <<< 8) ||| l.toNat)))
  else tcpPacketSize data data.length

/-- What one call of `recv` does: interrupted by a signal, failed, or data; the
network offers `c` bytes at this moment (`0`: the peer has closed). -/
inductive Ev where
  | intr
  | err
  | data (c : Nat)
  deriving Repr, DecidableEq

/-- Outcome of the receive loop: session closed; waiting for more bytes; a
message with the remaining stream and the unused events. -/
inductive Rx where
  | closed
  | blocked
  | done (msg rest : List UInt8) (evs : List Ev)
  deriving Repr, DecidableEq

/-- port/linux/tcpsession.c:434-486: the loop of
`tcp_session_receive_message_locked`.  `stream` are the bytes that the peer has
sent and that are not yet read; `total` is `total_length` (0: not yet known),
`want` is `want_read`.  A `continue` after EINTR goes to the loop condition. -/
def recvLoop (tls : Bool) (bufSize : Nat) :
    List Ev → List UInt8 → List UInt8 → Nat → Nat → Out Rx
  | [], _, _, _, _ => .ok .blocked
  | .intr :: es, stream, msg, total, want =>
    if total > msg.length then recvLoop tls bufSize es stream msg total want
    else .ok (.done msg stream es)
  | .err :: _, _, _, _, _ => .ok .closed
  | .data c :: es, stream, msg, total, want =>
    if c = 0 ∨ want = 0 then .ok .closed
    else if stream = [] then .ok .blocked
    else
      let k := min c (min want stream.length)
      let msg' := msg ++ stream.take k
      let stream' := stream.drop k
      if total = 0 then do
        let r ← totalLength msg' tls
        match r with
        | none => .ok .closed
        | some t =>
          if t > bufSize then .ok .closed
          else if t > msg'.length then recvLoop tls bufSize es stream' msg' t (t - k)
          else .ok (.done msg' stream' es)
      else if total > msg'.length then recvLoop tls bufSize es stream' msg' total (want - k)
      else .ok (.done msg' stream' es)

/-- port/linux/tcpsession.c:427-494 `tcp_session_receive_message_locked` with
api/oc_tcp.c:168-193 `oc_tcp_is_valid_message` (no OSCORE).  `slack` is what the
message buffer holds behind the received bytes.  6 is
`OC_TCP_DEFAULT_RECEIVE_SIZE` (api/oc_tcp_internal.h:35-36). -/
def receive (cfg : Cfg) (tls : Bool) (bufSize : Nat) (slack : List UInt8) (evs : List Ev)
    (stream : List UInt8) : Out Rx := do
  let r ← recvLoop tls bufSize evs stream [] 0 6
  match r with
  | .done msg rest es =>
    if tls then .ok (.done msg rest es)
    else do
      let v ← tcpParse cfg true (msg ++ slack) msg.length (zeroPacket ⟨0, 0⟩)
      if v.1 = noError then .ok (.done msg rest es) else .ok .closed
  | r => .ok r

/-- Repeated calls, one list of events for each call; the received messages and
what is left of the stream, `none` when a call did not deliver a message
(modelling of the caller port/linux/ipadapter.c, one call for each readiness of
the socket). -/
def receiveAll (cfg : Cfg) (tls : Bool) (bufSize : Nat) (slack : List UInt8) :
    List (List Ev) → List UInt8 → Out (Option (List (List UInt8) × List UInt8))
  | [], stream => .ok (some ([], stream))
  | evs :: t, stream => do
    let r ← receive cfg tls bufSize slack evs stream
    match r with
    | .done msg rest _ => do
      let q ← receiveAll cfg tls bufSize slack t rest
      .ok (q.map fun x => (msg :: x.1, x.2))
    | _ => .ok none

end Verif.TcpStream
