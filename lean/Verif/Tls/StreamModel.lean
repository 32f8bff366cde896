import Verif.CoapMsg.Model

/-!
Model of reading decrypted CoAP messages from a TLS connection over TCP:
security/oc_tls.c:2799-2875 (built with `OC_TCP` and `OC_SECURITY`).
-/

namespace Verif.Tls

open Verif.CoapMsg

/-- Bytes of a message (uint8_t arrays of security/oc_tls.c:2799-2875). -/
abbrev Bytes := List UInt8

/-- Build options: `pdu` is `OC_PDU_SIZE` (api/oc_buffer_settings, used at
security/oc_tls.c:2821), `dyn` is `OC_HAS_FEATURE_MESSAGE_DYNAMIC_BUFFER`
(security/oc_tls.c:2829). -/
structure StreamCfg where
  pdu : Nat
  dyn : Bool

/-- `peer->processed_recv_message` (security/oc_tls.c:2802-2809): the bytes
received so far (`data`, `length`) and the size of the buffer behind them. -/
structure Msg where
  data : Bytes
  cap : Nat
  deriving Repr, DecidableEq

/-- What `mbedtls_ssl_read` (security/oc_tls.c:2834) can take next: the rest of a
decrypted record of application data, or a record on which it fails (alert, bad
MAC). -/
inductive Rec where
  | data (b : Bytes)
  | bad
  deriving Repr, DecidableEq

/-- How one call of `tls_read_application_data_tcp` ends
(security/oc_tls.c:2799-2875): it waits for more with the message begun so far;
the peer was freed (2825, 2853); a message is complete (2857-2869). -/
inductive Rd where
  | wait (m : Msg) (recs : List Rec)
  | closed
  | done (f : Bytes) (recs : List Rec)
  deriving Repr, DecidableEq

/-- `total_length - length` in `size_t` (security/oc_tls.c:2828): wraps around
when the message is shorter than what was read already. -/
def subSize (total len : Nat) : Nat := (total + 2 ^ 64 - len) % 2 ^ 64

/-- api/oc_message.c:230-247 `oc_message_shrink_buffer`, called at
security/oc_tls.c:2830.  Simplification: `realloc` succeeds. -/
def shrink (c : StreamCfg) (m : Msg) (total : Nat) : Msg :=
  if c.dyn && total != m.cap then ⟨m.data.take total, total⟩ else m

/-- security/oc_tls.c:2812-2832: `total_length` (0 while the header is read),
`want_read` and the message with its buffer; `none` when the message would be too
long, also for the -1 of `coap_tcp_get_packet_size` converted to `size_t`. -/
def target (c : StreamCfg) (m : Msg) : Out (Option (Nat × Nat × Msg)) :=
  if m.data.length < 6 then .ok (some (0, 6 - m.data.length, m))
  else do
    let t ← tcpPacketSize m.data m.data.length
    match t with
    | none => .ok none
    | some total =>
      if total > c.pdu then .ok none
      else .ok (some (total, subSize total m.data.length, shrink c m total))

/-- security/oc_tls.c:2810-2874: the loop.  `mbedtls_ssl_read` hands out at most
the rest of one record; without a record it returns `WANT_READ`; with `want_read =
0` it returns 0.  Writing behind the buffer of the message is undefined behaviour.
The first argument bounds the number of turns; `readTcp` gives more than can be
used (every turn but the last reads a byte). -/
def readLoop (c : StreamCfg) : Nat → Msg → List Rec → Out Rd
  | 0, m, recs => .ok (.wait m recs)
  | n + 1, m, recs => do
    let t ← target c m
    match t with
    | none => .ok .closed
    | some (total, want, m) =>
      match recs with
      | [] => .ok (.wait m [])
      | .bad :: _ => .ok .closed
      | .data b :: rs =>
        let k := min want b.length
        if k = 0 then .ok (.wait m (.data b :: rs))
        else if m.data.length + k > m.cap then .ub
        else
          let d := m.data ++ b.take k
          let recs' := if k < b.length then .data (b.drop k) :: rs else rs
          if total ≠ 0 ∧ d.length = total then .ok (.done d recs')
          else readLoop c n ⟨d, m.cap⟩ recs'

/-- Number of bytes that can be read (bound of the loop
security/oc_tls.c:2810-2874, no counterpart in the code). -/
def recBytes : List Rec → Bytes
  | [] => []
  | .data b :: rs => b ++ recBytes rs
  | .bad :: _ => []

/-- The peer of a TLS connection over TCP as far as reading is concerned
(`oc_tls_peer_t`, security/oc_tls_internal.h): message in progress, records not
yet read, and a log of the complete messages with whether the engine got them
(history, no counterpart in the code). -/
structure Conn where
  cur : Option Msg
  recs : List Rec
  out : List (Bytes × Bool)
  closed : Bool
  deriving Repr, DecidableEq

/-- Events of a connection: a record of the peer arrives and is queued
(security/oc_tls.c:3083); the handler runs `tls_read_application_data_tcp` once for
it (3085, 3017).  `alloc`: a message buffer is available (2803).  `room`: the event
queue has room (2863). -/
inductive StreamEv where
  | arrive (r : Rec)
  | read (alloc room : Bool)
  deriving Repr, DecidableEq

/-- security/oc_tls.c:2799-2875 `tls_read_application_data_tcp`. -/
def readTcp (c : StreamCfg) (alloc room : Bool) (s : Conn) : Out Conn :=
  if s.closed then .ok s
  else
    match s.cur.or (if alloc then some ⟨[], c.pdu⟩ else none) with
    | none => .ok s
    | some m => do
      let r ← readLoop c ((recBytes s.recs).length + 1) m s.recs
      match r with
      | .wait m' recs' => .ok { s with cur := some m', recs := recs' }
      | .closed => .ok { s with cur := none, recs := [], closed := true }
      | .done f recs' => .ok { s with cur := none, recs := recs', out := s.out ++ [(f, room)] }

/-- One event (security/oc_tls.c:3024-3086 and 2799-2875). -/
def streamStep (c : StreamCfg) (s : Conn) : StreamEv → Out Conn
  | .arrive r => .ok (if s.closed then s else { s with recs := s.recs ++ [r] })
  | .read alloc room => readTcp c alloc room s

/-- A history of a connection. -/
def streamRun (c : StreamCfg) : Conn → List StreamEv → Out Conn
  | s, [] => .ok s
  | s, e :: es => do
    let s' ← streamStep c s e
    streamRun c s' es

/-- A connection whose handshake is just over (security/oc_tls.c:2040-2045). -/
def Conn.init : Conn := ⟨none, [], [], false⟩

end Verif.Tls
