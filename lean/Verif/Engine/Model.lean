import Verif.Common
import Verif.Dedup.Model

/-!
Model of the CoAP engine: `coap_process_inbound_message` and what it calls in
messaging/coap/engine.c, the part of messaging/coap/transactions.c that sends,
`coap_send_message` (messaging/coap/coap.c:1429-1446) and the handling of signal
messages (messaging/coap/signal.c).  Build with OC_SERVER, OC_CLIENT,
OC_BLOCK_WISE, OC_TCP, OC_SECURITY and OC_REQUEST_HISTORY.

What other modules decide is given with every message (`Env`): the result of
parsing (C05), of the checks of `oc_ri_parse_coap_request_header` and of the
handler (C57), what the buffers of block-wise transfers contain (C14), whether an
allocation succeeds.  Options and payloads of the answers are left out.  The
buffers of block-wise transfers that the static context still points to are left
out: the accesses through them at engine.c:1193-1198 are not accounted for.
Retransmissions are in C20.
-/

namespace Verif.Engine

abbrev Bytes := List Nat

/-- include/oc_endpoint.h:90-113: the peer, the local device, and the flags TCP,
SECURED and MULTICAST; `v1`: `version` is `OCF_VER_1_0_0`. -/
structure Ep where
  peer : Nat
  dev : Nat
  tcp : Bool
  secured : Bool
  mcast : Bool
  v1 : Bool
  deriving Repr, DecidableEq

/-- messaging/coap/coap_internal.h `coap_packet_t` as sent: the framing
(`transport_type`), type (0 CON, 1 NON, 2 ACK, 3 RST: constants.h:114-120), code,
message id, token and the custody option of signals. -/
structure Pkt where
  tcp : Bool
  typ : Nat
  code : Nat
  mid : Nat
  token : Bytes
  custody : Bool
  deriving Repr, DecidableEq

/-- A message given to the network (`oc_send_message`). -/
structure Sent where
  ep : Ep
  pkt : Pkt
  deriving Repr, DecidableEq

/-- coap.c:1245-1253 `coap_udp_init_message`. -/
def udpPkt (typ code mid : Nat) : Pkt := ⟨false, typ, code, mid, [], false⟩

/-- coap.c:1256-1264 `coap_tcp_init_message`. -/
def tcpPkt (code : Nat) : Pkt := ⟨true, 1, code, 0, [], false⟩

/-- A message received, after parsing.  `b1`: the more flag of a block1 option;
`b2`: the number of a block2 option; `paylen`: length of the payload; `res`: the
path is `oic/res` (engine.c:270-274). -/
structure Msg where
  ep : Ep
  typ : Nat
  code : Nat
  mid : Nat
  token : Bytes
  custody : Bool
  paylen : Nat
  b1 : Option Bool
  b2 : Option Nat
  res : Bool
  deriving Repr, DecidableEq

/-- coap.c:1552-1553: a message over TCP has neither type nor message id; the
parser sets NON and 0. -/
def parsed (m : Msg) : Msg := if m.ep.tcp then { m with typ := 1, mid := 0 } else m

/-- engine.c:407-466: what is found for a block2 option: no buffer; the block was
sent before (:412-420); the block cannot be produced (:425-429); a block that is
not the last; the last block, with the code stored with the response (:437-438). -/
inductive Buf where
  | none
  | dup
  | fail
  | more
  | last (code : Nat)
  deriving Repr, DecidableEq

/-- engine.c:884-1057: what is found for a response: nothing; a callback; a
transfer that goes on with the next request (:925-957, :1018-1044), whose method
is given. -/
inductive Cli where
  | none
  | cb
  | next (method : Nat)
  deriving Repr, DecidableEq

/-- What the other modules decide while one message is processed.
`err`: status of the parser if not `COAP_NO_ERROR` (engine.c:1124-1130);
`txAlloc`: `coap_new_transaction`; `msgAlloc`: `oc_message_allocate_outgoing`
for messages without a transaction; `ser`: the response can be serialized
(engine.c:648-655); `running`: `oc_main_initialized`; `resetting`:
`oc_reset_in_progress`; `hdr`: code with which `oc_ri_parse_coap_request_header`
refuses, and whether it set CLEAR_TRANSACTION; `fits`: engine.c:539-550; `store`:
the buffer for the payload was found or made and took it (:319-352, :552-571);
`buf`: see `Buf`; `again`: the repeated multicast request of :579-587; `ans`: code set
by the handler, and whether CLEAR_TRANSACTION was set; `cli`: see `Cli`; `obs`:
token made for the next request of a block-wise notification (:624-641); `rnd`:
token of a CSM (signal.c:107-112). -/
structure Env where
  err : Option Nat
  txAlloc : Bool
  msgAlloc : Bool
  ser : Bool
  running : Bool
  resetting : Bool
  hdr : Option (Nat × Bool)
  fits : Bool
  store : Bool
  buf : Buf
  again : Bool
  ans : Nat × Bool
  cli : Cli
  obs : Option Bytes
  rnd : Bytes
  deriving Repr, DecidableEq

/-- port/oc_connectivity.h:267-272 `tcp_csm_state_t` without CSM_ERROR. -/
inductive Csm where
  | none
  | sent
  | done
  deriving Repr, DecidableEq

/-- transactions_internal.h:74-85: identified by a number that is never used
again, where the C code uses an address. -/
structure Tx where
  id : Nat
  mid : Nat
  ep : Ep
  deriving Repr, DecidableEq

/-- The state: the history of requests (engine.c:98-100), `g_current_mid`
(coap.c:145, kept as the number of increments and reduced when used), the
transactions, the sessions over TCP (tcpsession.c) and `ctx.transaction` of the
static `ctx` (engine.c:1122): `none` before the first use, when all members are
NULL. -/
structure St where
  hist : Dedup.St
  cnt : Nat
  txs : List Tx
  nextId : Nat
  sess : List (Nat × Csm)
  ctx : Option (Option Nat)
  deriving Repr, DecidableEq

/-- coap.c:1238-1242 `coap_get_mid`: the value after `n` increments. -/
def wire (n : Nat) : Nat := n % 65536

/-- tcpsession.c:1073-1090 `oc_tcp_get_csm_state`. -/
def csm (s : St) (ep : Ep) : Csm :=
  if ep.tcp then ((s.sess.find? fun x => x.1 == ep.peer).map (·.2)).getD .none else .none

/-- tcpsession.c:1092-1109 `oc_tcp_update_csm_state`; sessions have different
peers. -/
def setCsm (s : St) (ep : Ep) (c : Csm) : St :=
  if ep.tcp then { s with sess := s.sess.map fun x => if x.1 == ep.peer then (x.1, c) else x } else s

/-- signal.c:114-144 `coap_send_csm_message` without the block-wise option, with
signal.c:37-52. -/
def sendCsm (e : Env) (ep : Ep) : List Sent :=
  if e.msgAlloc then [⟨ep, { tcpPkt 225 with token := e.rnd }⟩] else []

/-- coap.c:1429-1446 `coap_send_message`. -/
def post (s : St) (e : Env) (ep : Ep) (p : Pkt) : List Sent :=
  (if ep.tcp && ep.v1 && csm s ep == .none then sendCsm e ep else []) ++ [⟨ep, p⟩]

/-- engine.c:135-163 `coap_send_empty_response`. -/
def sendEmpty (s : St) (e : Env) (ep : Ep) (typ mid : Nat) (token : Bytes) (code : Nat) : List Sent :=
  if e.msgAlloc then post s e ep { udpPkt typ code mid with token := token } else []

/-- transactions.c:203-214 `coap_clear_transaction` (NULL: nothing). -/
def clear (s : St) : Option Nat → St
  | none => s
  | some t => { s with txs := s.txs.filter fun x => x.id != t }

/-- transactions.c:88-119 `coap_new_transaction`, successful. -/
def newTx (s : St) (mid : Nat) (ep : Ep) : St × Nat :=
  ({ s with txs := s.txs ++ [⟨s.nextId, mid, ep⟩], nextId := s.nextId + 1 }, s.nextId)

/-- transactions.c:127-129: the bits of the type in the first byte of the message.
Of a message with TCP framing they are the low bits of the length, which is 0
for the only such message sent with a transaction, the 5.00 of engine.c:1203. -/
def typeBits (p : Pkt) : Nat := if p.tcp then 0 else p.typ

/-- transactions.c:121-170 `coap_send_transaction`, first transmission: only
confirmable messages over UDP are kept. -/
def sendTx (s : St) (e : Env) (t : Tx) (p : Pkt) : St × List Sent :=
  if !e.running then (s, [])
  else if typeBits p == 0 && !t.ep.tcp then (s, post s e t.ep p)
  else (clear s (some t.id), post s e t.ep p)

/-- engine.c:611-645 of `coap_send_response`: the token of the response. -/
def withToken (m : Msg) (e : Env) (p : Pkt) : Pkt :=
  if p.typ == 3 || m.token.isEmpty then p
  else if 1 ≤ m.code && m.code ≤ 4 then { p with token := m.token }
  else { p with token := e.obs.getD m.token }

/-- engine.c:596-656 `coap_send_response`; `clr`: the global status code is
CLEAR_TRANSACTION.  A transaction that is gone is used after it was freed. -/
def sendResponse (s : St) (m : Msg) (e : Env) (clr : Bool) (tid : Option Nat) (p : Pkt) :
    Out (St × List Sent) :=
  if clr then
    match tid with
    | none => .ok (s, [])
    | some i => if s.txs.any fun t => t.id == i then .ok (clear s tid, []) else .ub
  else
    match tid with
    | none => .ok (s, [])
    | some i =>
      match s.txs.find? fun t => t.id == i with
      | none => .ub
      | some t =>
        if e.ser then .ok (sendTx s e t (withToken m e p)) else .ok (clear s tid, [])

/-- engine.c:246-279 `coap_receive_init_response`; `none`: a duplicate. -/
def initResponse (s : St) (m : Msg) : Option (St × Pkt) :=
  if m.ep.tcp then some (s, tcpPkt 69)
  else if m.typ == 0 then some (s, udpPkt 2 69 m.mid)
  else
    let d := Dedup.receive s.hist ⟨false, m.mid, m.ep.dev, m.ep.peer⟩
    if d.2 then
      some ({ s with hist := d.1, cnt := s.cnt + 1 }, udpPkt (if m.res then 0 else 1) 69 (wire (s.cnt + 1)))
    else none

/-- The members of `coap_receive_ctx_t` that change (engine_internal.h), with the
global status code, the messages sent so far and whether the handler was called. -/
structure W where
  st : St
  outs : List Sent
  resp : Pkt
  tid : Option Nat
  clr : Bool
  ran : Bool
  deriving Repr, DecidableEq

/-- engine_internal.h:74-81 `coap_receive_status_t`. -/
inductive Ret where
  | success
  | dup
  | reset
  | handle
  | error
  deriving Repr, DecidableEq

/-- engine.c:371-378 and 431-439: the acknowledgement is sent on its own and the
response becomes a confirmable message with an id of its own. -/
def separate (w : W) (m : Msg) (e : Env) (code : Nat) : W :=
  { w with
    outs := w.outs ++ (if m.typ == 0 then sendEmpty w.st e m.ep 2 m.mid [] 0 else [])
    resp := udpPkt 0 code (wire (w.st.cnt + 1))
    st := { w.st with
      cnt := w.st.cnt + 1
      txs := w.st.txs.map fun t => if some t.id == w.tid then { t with mid := wire (w.st.cnt + 1) } else t } }

/-- engine.c:311-385 `coap_receive_blockwise_block1`. -/
def block1 (w : W) (m : Msg) (e : Env) (more : Bool) : W × Ret :=
  if !e.store then (w, .error)
  else if more then ({ w with resp := { w.resp with code := 95 } }, .success)
  else (separate w m e 69, .handle)

/-- engine.c:387-493 `coap_receive_blockwise_block2`. -/
def block2 (w : W) (m : Msg) (e : Env) (num : Nat) : W × Ret :=
  if 0 < m.paylen then (w, .error)
  else
    match e.buf with
    | .dup => ({ w with st := clear w.st w.tid }, .dup)
    | .fail => (w, .error)
    | .more => (w, .success)
    | .last code => (separate w m e code, .success)
    | .none => if num ≠ 0 then (w, .error) else (w, .handle)

/-- engine.c:522-591: `coap_receive_method_payload` without block options. -/
def plain (w : W) (m : Msg) (e : Env) : W × Ret :=
  if !e.running then (w, .error)
  else if e.resetting && !m.ep.secured then (w, .error)
  else if !e.fits then (w, .error)
  else if 0 < m.paylen && !e.store then (w, .error)
  else if e.again && m.ep.mcast then ({ w with clr := true }, .success)
  else (w, .handle)

/-- engine.c:512-592 `coap_receive_method_payload` with
`coap_receive_blockwise` (:495-510). -/
def payload (w : W) (m : Msg) (e : Env) : W × Ret :=
  match m.b1 with
  | some more => if m.code == 2 || m.code == 3 then block1 w m e more else (w, .error)
  | none =>
    match m.b2 with
    | some num => block2 w m e num
    | none => plain w m e

/-- engine.c:658-742 `coap_receive_set_response_by_handler` as far as the code
goes, with :823-828. -/
def handler (w : W) (e : Env) : W × Ret :=
  let w := { w with resp := { w.resp with code := e.ans.1 }, clr := w.clr || e.ans.2, ran := true }
  if e.ans.1 ≠ 0 then (w, .success) else (w, .reset)

/-- engine.c:817-828: the handler is called if `coap_receive_method_payload` says
so. -/
def handled (x : W × Ret) (e : Env) : W × Ret :=
  match x.2 with
  | .handle => handler x.1 e
  | r => (x.1, r)

/-- engine.c:811-828: after the transaction was made. -/
def serve (w : W) (m : Msg) (e : Env) : W × Ret :=
  match e.hdr with
  | some (code, clr) =>
    if code ≠ 0 then ({ w with resp := { w.resp with code := code }, clr := clr }, .success)
    else handled (payload { w with clr := clr } m e) e
  | none => handled (payload w m e) e

/-- engine.c:774-828 `coap_receive_request_with_method`. -/
def withMethod (s : St) (m : Msg) (e : Env) : W × Ret :=
  match initResponse s m with
  | none => (⟨s, [], udpPkt 0 0 0, none, false, false⟩, .dup)
  | some (s1, p) =>
    if e.txAlloc then
      let n := newTx s1 p.mid m.ep
      serve ⟨n.1, [], p, some n.2, false, false⟩ m e
    else (⟨s1, [], p, none, false, false⟩, .error)

/-- engine.c:872-1058 `coap_receive_request_with_code` with
`coap_receive_invoke_client_cb` (:832-868): a message id is taken in any case
(:889).  The removal of an observer by a reset is in C16. -/
def withCode (s : St) (m : Msg) (e : Env) : W × Ret :=
  let outs := if m.typ == 0 then sendEmpty s e m.ep 2 m.mid [] 0 else []
  let s := { s with cnt := s.cnt + 1 }
  match e.cli with
  | .none => (⟨s, outs, udpPkt 0 0 0, none, false, false⟩, .reset)
  | .cb => (⟨s, outs, udpPkt 0 0 0, none, false, false⟩, .success)
  | .next method =>
    if e.txAlloc then
      let n := newTx s (wire s.cnt) m.ep
      (⟨n.1, outs, udpPkt 0 method (wire s.cnt), some n.2, false, false⟩, .success)
    else (⟨s, outs, udpPkt 0 0 0, none, false, false⟩, .success)

/-- constants.h:123-128: codes of requests. -/
def isRequest (code : Nat) : Bool := 1 ≤ code && code ≤ 4

/-- engine.c:1060-1074 `coap_receive`. -/
def receive (s : St) (m : Msg) (e : Env) : W × Ret :=
  if isRequest m.code then withMethod s m e else withCode s m e

/-- What processing a message did: the state, the messages sent, whether the
handler of a resource was called and whether the session was closed. -/
structure Res where
  st : St
  outs : List Sent
  ran : Bool
  closed : Bool
  deriving Repr, DecidableEq

/-- engine.c:1191-1209: the response is replaced after an error. -/
def final (w : W) (r : Ret) (m : Msg) : Pkt :=
  if r == .error || r == .reset then (if m.ep.tcp then tcpPkt 160 else udpPkt 3 0 m.mid) else w.resp

/-- engine.c:1188-1220: from the label `receive_result` on, with the context
`w`. -/
def result (w : W) (r : Ret) (m : Msg) (e : Env) : Out Res :=
  if r == .dup then .ok ⟨{ w.st with ctx := some w.tid }, w.outs, w.ran, false⟩
  else
    match sendResponse { w.st with ctx := some w.tid } m e w.clr w.tid (final w r m) with
    | .ok x => .ok ⟨x.1, w.outs ++ x.2, w.ran, false⟩
    | .ub => .ub

/-- transactions.c:215-227 with engine.c:1132-1141: the first transaction with the
message id is removed, whoever the message is from. -/
def settle (s : St) (m : Msg) : St :=
  if m.ep.tcp then s
  else
    match s.txs.find? fun t => t.mid == m.mid with
    | some t => clear s (some t.id)
    | none => s

/-- api/oc_client_api.c:961-980 `oc_close_session`: the sessions of the peer end
(the connections of TLS are in C29). -/
def closeSession (s : St) (ep : Ep) : St :=
  if ep.tcp then { s with sess := s.sess.filter fun x => x.1 != ep.peer } else s

/-- signal.c:30-35 `coap_check_signal_message`. -/
def isSignal (code : Nat) : Bool := 225 ≤ code && code ≤ 229

/-- signal.c:88-105 `coap_send_pong_message`. -/
def sendPong (e : Env) (ep : Ep) (m : Msg) : List Sent :=
  if e.msgAlloc then [⟨ep, { tcpPkt 227 with token := m.token, custody := m.custody }⟩] else []

/-- signal.c:194-236 `coap_signal_handle_message`; `none`: COAP_SIGNAL_CONTINUE. -/
def signal (s : St) (m : Msg) (e : Env) : Option Res :=
  if m.code == 225 then
    match csm s m.ep with
    | .done => some ⟨s, [], false, false⟩
    | .none => some ⟨setCsm s m.ep .done, sendCsm e m.ep, false, false⟩
    | .sent => some ⟨setCsm s m.ep .done, [], false, false⟩
  else if m.code == 226 then some ⟨s, sendPong e m.ep m, false, false⟩
  else if m.code == 227 then none
  else if m.code == 228 then some ⟨closeSession s m.ep, [], false, true⟩
  else some ⟨s, [], false, false⟩

/-- engine.c:1093-1110 `coap_process_invalid_inbound_message`. -/
def invalid (s : St) (m : Msg) (e : Env) (status : Nat) : Res :=
  if m.ep.tcp then ⟨closeSession s m.ep, [], false, true⟩
  else ⟨s, sendEmpty s e m.ep (if m.typ == 0 then 2 else 1) m.mid m.token status, false, false⟩

/-- engine.c:1160-1164 with :1188-1220: a message over TCP with a block option goes
straight to `receive_result`, with the context of the message before. -/
def stale (s : St) (m : Msg) (e : Env) : Out Res :=
  match s.ctx with
  | none => .ub
  | some tid =>
    match sendResponse s m e false tid (tcpPkt 160) with
    | .ok x => .ok ⟨x.1, x.2, false, false⟩
    | .ub => .ub

/-- engine.c:1112-1221 `coap_process_inbound_message` from the parsed message on. -/
def main (s : St) (m : Msg) (e : Env) : Out Res :=
  if m.ep.tcp && (m.b1.isSome || m.b2.isSome) then stale s m e
  else
    let x := receive s m e
    result x.1 x.2 m e

/-- engine.c:1112-1221 `coap_process_inbound_message`. -/
def inbound (s : St) (m : Msg) (e : Env) : Out Res :=
  match e.err with
  | some status => .ok (invalid s (parsed m) e status)
  | none =>
    let m := parsed m
    let s := settle s m
    if isSignal m.code then
      match signal s m e with
      | some r => .ok r
      | none => main s m e
    else main s m e

/-- Events: a message; a message of the application sent with a transaction
(client API, notifications); a session made by `accept` (tcpsession.c:313-314) or
by a connection of the device's own (tcpsession.c:574-578); the end of a session;
a transaction given up (transactions.c:171-200). -/
inductive Ev where
  | msg (m : Msg) (e : Env)
  | app (ep : Ep) (con : Bool) (code : Nat) (token : Bytes) (e : Env)
  | accept (peer : Nat)
  | connect (peer : Nat)
  | ended (peer : Nat)
  | expire (id : Nat)
  deriving Repr, DecidableEq

/-- api/oc_client_api.c `prepare_coap_request`/`dispatch_coap_request` and
observe.c `coap_notify_observers` reduced to the message id, the transaction and
the transmission; over TCP the packet has TCP framing. -/
def app (s : St) (ep : Ep) (con : Bool) (code : Nat) (token : Bytes) (e : Env) : St × List Sent :=
  let mid := wire (s.cnt + 1)
  let s := { s with cnt := s.cnt + 1 }
  if e.txAlloc then
    let n := newTx s mid ep
    let p : Pkt := if ep.tcp then { tcpPkt code with token := token }
      else { udpPkt (if con then 0 else 1) code mid with token := token }
    sendTx n.1 e ⟨n.2, mid, ep⟩ p
  else (s, [])

/-- One event: the state and the messages sent. -/
def step (s : St) : Ev → Out (St × List Sent)
  | .msg m e => match inbound s m e with | .ok r => .ok (r.st, r.outs) | .ub => .ub
  | .app ep con code token e => .ok (app s ep con code token e)
  | .accept p => .ok ({ s with sess := (p, .none) :: s.sess.filter fun x => x.1 != p }, [])
  | .connect p => .ok ({ s with sess := (p, .sent) :: s.sess.filter fun x => x.1 != p }, [])
  | .ended p => .ok ({ s with sess := s.sess.filter fun x => x.1 != p }, [])
  | .expire i => .ok (clear s (some i), [])

/-- A history of events. -/
def run : St → List Ev → Out (St × List Sent)
  | s, [] => .ok (s, [])
  | s, ev :: evs =>
    match step s ev with
    | .ub => .ub
    | .ok x => match run x.1 evs with | .ok y => .ok (y.1, x.2 ++ y.2) | .ub => .ub

/-- The state after `coap_init_connection` (coap.c:1231-1236). -/
def start (seed : Nat) : St := ⟨Dedup.init, seed, [], 0, [], none⟩

end Verif.Engine
