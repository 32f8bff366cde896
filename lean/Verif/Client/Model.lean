import Verif.Common
/-!
Model of the requests of a client: `api/client/oc_client_cb.c`, the requests of
`api/oc_client_api.c` and `api/oc_ping.c`, and the parts of
`messaging/coap/transactions.c` and `security/oc_tls.c` that end requests.

User code is an environment: the `n`-th handler that is called performs a list of
actions (`beh n`), among them new requests and closing sessions, which may call further
handlers.  Because calls nest, the model is a machine with a stack of what is still to be
done (`Frame`); `next` performs one step.  Callback structures and transactions are
identified by the number of their allocation; using one after it was freed is `ub`
(dynamic memory; an address that is given out again is not modelled).

Simplifications: endpoints, URIs, tokens and message ids are numbers and are compared for
equality; block-wise buffers are left out except where noted; a delayed callback is fired
by the environment (see C61); handlers do not poll the event loop; session event handlers
are left out.
-/
namespace Verif.Client

/-- The delayed callbacks of a request: `oc_client_cb_remove_async`,
`oc_client_cb_remove_with_notify_timeout_async`, `oc_remove_ping_handler_async`. -/
inductive Kind where
  | remove
  | timeout
  | ping
  deriving DecidableEq, Repr

/-- `oc_client_cb_t`, include/oc_client_state.h:117-142.  `obs`: `observe_seq`, none for
`OC_COAP_OPTION_OBSERVE_NOT_SET`; `ping`: the URI is `OC_PING_URI`; `get`: the method is
GET; `ref`: `ref_count` is 1. -/
structure Cb where
  id : Nat
  mid : Nat
  token : Nat
  ep : Nat
  uri : Nat
  get : Bool
  ping : Bool
  obs : Option Nat
  multicast : Bool
  discovery : Bool
  stop : Bool
  ref : Bool
  deriving DecidableEq, Repr

/-- `coap_transaction_t`, transactions_internal.h; `secured`: flag of its endpoint. -/
structure Tr where
  id : Nat
  mid : Nat
  ep : Nat
  secured : Bool
  deriving DecidableEq, Repr

/-- Why a handler is called. -/
inductive Code where
  | response (token ep : Nat)
  | requestTimeout
  | transactionTimeout
  | connectionClosed
  | cancelled
  | pingTimeout
  deriving DecidableEq, Repr

/-- What is recorded (not part of the code).  `many`: a request whose handler may be
called several times by intention; `observed`: a response with an Observe option. -/
inductive Ev where
  | alloc (id token ep : Nat)
  | many (id : Nat)
  | observed (id : Nat)
  | called (id : Nat) (code : Code)
  | freed (id : Nat)
  deriving DecidableEq, Repr

/-- The state: `cbs` is `g_client_cbs`, `out` are structures that were taken out of the
list and not yet freed, `timers` the delayed callbacks, `trans` the transactions, `peers`
the endpoints with a TLS session, `disp` is `g_dispatch` (oc_client_api.c:55-63: callback
and transaction of a prepared request). -/
structure St where
  cbs : List Cb
  out : List Cb
  timers : List (Nat × Kind)
  trans : List Tr
  peers : List Nat
  disp : Option (Nat × Nat)
  next : Nat
  nextT : Nat
  calls : Nat
  log : List Ev

/-- How sending goes: memory for the callback, for the transaction (or the block-wise
buffer), and the serialization. -/
inductive Sent where
  | noMem
  | noTrans
  | notSent
  | sent
  deriving DecidableEq, Repr

/-- What form of request. -/
inductive Form where
  | get
  | delete
  | observe
  | multicast
  | discovery
  deriving DecidableEq, Repr

/-- The parameters of a request; `con`: HIGH_QOS over UDP, `timed`: with a timeout. -/
structure Req where
  mid : Nat
  token : Nat
  ep : Nat
  uri : Nat
  con : Bool
  timed : Bool
  secured : Bool
  deriving DecidableEq, Repr

/-- Calls a user can make, at any time or from within a handler. -/
inductive Act where
  /-- `oc_do_get`, `oc_do_delete`, `oc_do_observe`, `oc_do_ip_multicast`, `oc_do_ip_discovery` -/
  | req (form : Form) (r : Req) (how : Sent)
  /-- `oc_init_put`, `oc_init_post` -/
  | initPost (r : Req) (how : Sent)
  /-- `oc_do_put`, `oc_do_post` -/
  | doPost (con timed : Bool) (how : Sent)
  /-- `oc_init_put` or `oc_init_post` and, if it succeeds, at once `oc_do_put` or `oc_do_post` -/
  | post (r : Req) (how : Sent)
  /-- `oc_send_ping` -/
  | ping (token ep : Nat) (ok : Bool)
  /-- `oc_stop_observe` -/
  | stopObserve (uri ep mid : Nat) (con secured : Bool) (how : Sent)
  /-- `oc_stop_multicast` with the response the handler was called with -/
  | stopMulticast
  /-- `oc_close_session` of a secured endpoint -/
  | close (ep : Nat)
  deriving DecidableEq, Repr

/-- Which requests a loop ends. -/
inductive Pick where
  | mid (m : Nat)
  | ep (e : Nat)
  deriving DecidableEq, Repr

/-- The condition of the loops, oc_client_cb.c:293-294, 317-318. -/
def Pick.hit : Pick → Cb → Bool
  | .mid m, c => !c.multicast && !c.discovery && !c.ref && c.mid == m
  | .ep e, c => !c.multicast && !c.discovery && !c.ref && c.ep == e

/-- What is still to be done. -/
inductive Frame where
  /-- the remaining calls of the user code in the handler of request `cur` -/
  | acts (cur : Nat) (l : List Act)
  /-- a handler is called -/
  | handler (id : Nat) (code : Code)
  /-- the end of `client_cb_notify_with_code`, oc_client_cb.c:270-276 -/
  | afterNotify (id : Nat)
  /-- after the discovery handler, oc_client_cb.c:478-486; `stop`: `OC_STOP_DISCOVERY` -/
  | afterDiscovery (id : Nat) (stop : Bool) (obs : Option Nat) (ep : Nat)
  /-- the end of `oc_client_cb_invoke`, oc_client_cb.c:525-553 -/
  | afterInvoke (id : Nat) (obs : Option Nat) (sep pong : Bool) (ep : Nat)
  /-- the end of `oc_remove_ping_handler_async`, oc_ping.c:41 -/
  | afterPing (id : Nat)
  /-- `oc_ri_free_client_cbs_by_mid_v1`, `oc_ri_free_client_cbs_by_endpoint_v1` -/
  | loop (p : Pick) (code : Code)
  /-- `coap_free_transactions_by_endpoint` at transaction `t` -/
  | transLoop (ep : Nat) (t : Option Nat)
  /-- the same after the callbacks were ended, transactions.c:297-303 -/
  | transAfter (ep t : Nat) (nxt : Option Nat) (len : Nat)
  /-- the timed out branch of `coap_send_transaction`, transactions.c:172-199 -/
  | exhaust (t : Nat)
  /-- the same after the callbacks were ended, transactions.c:193-199 -/
  | exhaustAfter (t : Nat)
  /-- `coap_check_transactions` at transaction `t`; `exh`: the timer of the last
  retransmission has expired -/
  | checkLoop (exh : Nat → Bool) (t : Option Nat)
  /-- the same after a transaction, transactions.c:254-259 -/
  | checkAfter (exh : Nat → Bool) (nxt : Option Nat) (len : Nat)

/-- A configuration of the machine. -/
structure Conf where
  stack : List Frame
  st : St

/-- Change of a structure in a list (modelling convention). -/
def upd (id : Nat) (f : Cb → Cb) (l : List Cb) : List Cb := l.map fun c => if c.id = id then f c else c

/-- The structures that are allocated. -/
def St.mem (s : St) : List Cb := s.cbs ++ s.out

/-- Access to a structure. -/
def St.look (s : St) (id : Nat) : Option Cb := s.mem.find? (fun c => c.id == id)

/-- `client_cb_remove_from_lists`, oc_client_cb.c:187-197, without the list itself:
the three calls remove the first delayed callback of each kind. -/
def dropTimers (id : Nat) (l : List (Nat × Kind)) : List (Nat × Kind) :=
  ((l.erase (id, .remove)).erase (id, .timeout)).erase (id, .ping)

/-- `client_cb_remove_from_lists` for a structure in the list. -/
def detach (c : Cb) (s : St) : St :=
  { s with cbs := s.cbs.filter (fun x => x.id != c.id), out := c :: s.out, timers := dropTimers c.id s.timers }

/-- `oc_client_cb_free`, oc_client_cb.c:234-239. -/
def freeCb (id : Nat) (s : St) : Out St :=
  if s.mem.any (fun c => c.id == id) then
    .ok { s with
      cbs := s.cbs.filter (fun x => x.id != id), out := s.out.filter (fun x => x.id != id),
      timers := dropTimers id s.timers, log := s.log ++ [.freed id] }
  else .ub

/-- `oc_ri_alloc_client_cb`, oc_client_cb.c:66-98. -/
def alloc (c : Cb) (many : Bool) (s : St) : St :=
  { s with
    cbs := s.cbs ++ [{ c with id := s.next, stop := false, ref := false }], next := s.next + 1,
    log := s.log ++ (.alloc s.next c.token c.ep :: if many then [.many s.next] else []) }

/-- `coap_new_transaction`, transactions.c:88-119. -/
def newTrans (mid ep : Nat) (secured : Bool) (s : St) : St :=
  { s with trans := s.trans ++ [⟨s.nextT, mid, ep, secured⟩], nextT := s.nextT + 1 }

/-- `coap_clear_transaction`, transactions.c:203-214. -/
def clearTrans (t : Nat) (s : St) : St := { s with trans := s.trans.filter (fun x => x.id != t) }

/-- The callback of a request. -/
def Req.cb (r : Req) (get : Bool) (obs : Option Nat) (mc disc : Bool) : Cb :=
  ⟨0, r.mid, r.token, r.ep, r.uri, get, false, obs, mc, disc, false, false⟩

/-- After the message was handed to `coap_send_transaction` (transactions.c:138-171: an
unconfirmable one is forgotten): the delayed callbacks of the request,
oc_client_api.c:158-166, 464-467, 549-552. -/
def sentCb (id t : Nat) (con untilDone timed : Bool) (s : St) : St :=
  let s := if con then s else clearTrans t s
  { s with
    timers := s.timers ++ (if untilDone then [(id, Kind.remove)] else []) ++ (if timed then [(id, Kind.timeout)] else []) }

/-- What `oc_do_request`, `oc_do_observe`, the multicast and discovery functions have in
common: oc_client_api.c:451-468, 606-619, 680-695, 725-740, 783-798.  `prepare` sets
`g_dispatch`, `dispatch` resets it (:178-179, :287-288). -/
def doReq (c : Cb) (many con timed secured : Bool) (how : Sent) (s : St) : Out St :=
  match how with
  | .noMem => .ok s
  | .noTrans => freeCb s.next (alloc c many s)
  | .notSent =>
    (freeCb s.next (clearTrans s.nextT (newTrans c.mid c.ep secured (alloc c many s)))).bind fun s' =>
      .ok { s' with disp := none }
  | .sent =>
    .ok { sentCb s.next s.nextT con (c.obs == none) timed (newTrans c.mid c.ep secured (alloc c many s)) with disp := none }

/-- `oc_do_get` and the others: the parameters they use. -/
def req (form : Form) (r : Req) (how : Sent) (s : St) : Out St :=
  match form with
  | .get => doReq (r.cb true none false false) false r.con r.timed r.secured how s
  | .delete => doReq (r.cb false none false false) false r.con r.timed r.secured how s
  | .observe => doReq (r.cb true (some 0) false false) true r.con false r.secured how s
  | .multicast => doReq (r.cb true none true false) true false false r.secured how s
  | .discovery => doReq (r.cb true none false true) true false false r.secured how s

/-- `oc_init_async_request`, oc_client_api.c:507-534. -/
def initPost (r : Req) (how : Sent) (s : St) : Out St :=
  match how with
  | .noMem => .ok s
  | .noTrans => freeCb s.next (alloc (r.cb false none false false) false s)
  | _ =>
    .ok { newTrans r.mid r.ep r.secured (alloc (r.cb false none false false) false s) with disp := some (s.next, s.nextT) }

/-- `oc_do_put`, `oc_do_post`: `dispatch_coap_request`, oc_client_api.c:137-182, of what
was prepared; if that was freed this is undefined, and if nothing was prepared as well
except in the variants with a timeout (:540-543; their comparison of the method is left
out).  If the message cannot
be built the callback is freed and with it the request buffer
(`oc_blockwise_scrub_buffers_for_client_cb`, oc_blockwise.c:264-274), which is used
afterwards (:172): undefined as well. -/
def doPost (con timed : Bool) (how : Sent) (s : St) : Out St :=
  match s.disp with
  | none => if timed then .ok s else .ub
  | some (id, t) =>
    if s.mem.all (fun c => c.id != id) ∨ s.trans.all (fun x => x.id != t) then .ub
    else
      match how with
      | .sent => .ok { sentCb id t con true timed s with disp := none }
      | _ => .ub

/-- `oc_send_ping`, oc_ping.c:44-76. -/
def ping (token ep : Nat) (ok : Bool) (s : St) : Out St :=
  if ok then
    .ok { alloc ⟨0, 0, token, ep, 0, false, true, none, false, false, false, false⟩ true s with
      timers := s.timers ++ [(s.next, Kind.ping)] }
  else freeCb s.next (alloc ⟨0, 0, token, ep, 0, false, true, none, false, false, false, false⟩ true s)

/-- `oc_stop_observe`, oc_client_api.c:622-642, with `oc_ri_get_client_cb`,
oc_client_cb.c:162-185: the first GET request with this URI and endpoint. -/
def stopObserve (uri ep mid : Nat) (con secured : Bool) (how : Sent) (s : St) : Out St :=
  match s.cbs.find? (fun c => c.uri == uri && c.ep == ep && c.get && !c.ping) with
  | none => .ok s
  | some c =>
    let s := { s with cbs := upd c.id (fun x => { x with mid := mid, obs := some 1 }) s.cbs }
    match how with
    | .noMem => .ok s
    | .noTrans => .ok s
    | .notSent =>
      (freeCb c.id (clearTrans s.nextT (newTrans mid ep secured s))).bind fun s' => .ok { s' with disp := none }
    | .sent => .ok { sentCb c.id s.nextT con false false (newTrans mid ep secured s) with disp := none }

/-- `oc_stop_multicast`, oc_client_api.c:699-704, with the response of request `cur`
(outside of handlers there is no response). -/
def stopMulticast (cur : Option Nat) (s : St) : Out St :=
  match cur with
  | none => .ok s
  | some id =>
    if s.mem.any (fun c => c.id == id) then
      .ok { s with cbs := upd id (fun x => { x with stop := true }) s.cbs, out := upd id (fun x => { x with stop := true }) s.out }
    else .ub

/-- `oc_init_post`, `oc_do_post` in a row. -/
def post (r : Req) (how : Sent) (s : St) : Out St :=
  match how with
  | .noMem => initPost r how s
  | .noTrans => initPost r how s
  | _ => (initPost r how s).bind (doPost r.con r.timed how)

/-- The transactions after `t` (modelling convention). -/
def headT (s : St) : Option Nat := s.trans.head?.map (·.id)
/-- `t->next`. -/
def nextOf (t : Nat) : List Tr → Option Nat
  | [] => none
  | x :: l => if x.id = t then l.head?.map (·.id) else nextOf t l

/-- `oc_tls_close_connection`, oc_tls.c:2315-2330, and `oc_tls_free_peer`, :488, 538-545:
the TLS session is removed, the transactions and the requests of the endpoint are ended. -/
def close (ep : Nat) (s : St) : List Frame × St :=
  if ep ∈ s.peers then
    ([.transLoop ep (headT s), .loop (.ep ep) .connectionClosed], { s with peers := s.peers.filter (· != ep) })
  else ([], s)

/-- One call of the user code; `cur`: in the handler of this request. -/
def act (cur : Option Nat) (a : Act) (s : St) : Out (List Frame × St) :=
  match a with
  | .req form r how => (req form r how s).bind fun s => .ok ([], s)
  | .initPost r how => (initPost r how s).bind fun s => .ok ([], s)
  | .doPost con timed how => (doPost con timed how s).bind fun s => .ok ([], s)
  | .ping token ep ok => (ping token ep ok s).bind fun s => .ok ([], s)
  | .stopObserve uri ep mid con sec how => (stopObserve uri ep mid con sec how s).bind fun s => .ok ([], s)
  | .post r how => (post r how s).bind fun s => .ok ([], s)
  | .stopMulticast => (stopMulticast cur s).bind fun s => .ok ([], s)
  | .close ep => .ok (close ep s)

/-- `ri_client_cb_set_observe_seq`, oc_client_cb.c:397-421; `ep`: where the response came
from. -/
def setObserve (c : Cb) (obs : Option Nat) (ep : Nat) (s : St) : Out St :=
  let s := { s with cbs := upd c.id (fun x => { x with obs := obs }) s.cbs }
  if obs = some 0 then
    match s.cbs.find? (fun d => d.id != c.id && d.obs != none && d.token == c.token && d.uri == c.uri && d.ep == ep) with
    | none => .ok s
    | some d => freeCb d.id s
  else .ok s

/-- `cb->ref_count = 0`. -/
def unref (id : Nat) (s : St) : St := { s with cbs := upd id (fun x => { x with ref := false }) s.cbs }

/-- The ping timer is removed if the request is a ping, oc_client_cb.c:271-273, 526-528. -/
def dropPing (pong : Bool) (c : Cb) (s : St) : St :=
  if pong ∨ c.ping then { s with timers := s.timers.erase (c.id, .ping) } else s

/-- The end of `oc_client_cb_invoke`, oc_client_cb.c:525-553 (with `OC_TCP`). -/
def afterInvoke (id : Nat) (obs : Option Nat) (sep pong : Bool) (ep : Nat) (s : St) : Out (List Frame × St) :=
  match s.look id with
  | none => if pong then .ok ([], { s with timers := s.timers.erase (id, .ping) }) else .ub
  | some c =>
    let s := dropPing pong c s
    if s.cbs.all (fun x => x.id != id) then .ok ([], s)
    else if obs = none ∧ ¬ sep ∧ ¬ c.discovery then
      if c.multicast then
        if c.stop then .ok ([.loop (.mid c.mid) .cancelled], unref id s) else .ok ([], unref id s)
      else (freeCb id s).bind fun s => .ok ([], s)
    else (setObserve c obs ep (unref id s)).bind fun s => .ok ([], s)

/-- The end of `client_cb_notify_with_code`, oc_client_cb.c:270-276. -/
def afterNotify (id : Nat) (s : St) : Out (List Frame × St) :=
  match s.out.find? (fun c => c.id == id) with
  | none => .ub
  | some c =>
    .ok ([], { dropPing false c s with out := s.out.filter (fun x => x.id != id), log := s.log ++ [.freed id] })

/-- One step of the machine. -/
def next (beh : Nat → List Act) (c : Conf) : Out Conf :=
  match c.stack with
  | [] => .ok c
  | .acts _ [] :: k => .ok ⟨k, c.st⟩
  | .acts cur (a :: l) :: k => (act (some cur) a c.st).bind fun r => .ok ⟨r.1 ++ .acts cur l :: k, r.2⟩
  | .handler id code :: k =>
    if c.st.mem.any (fun x => x.id == id) then
      .ok ⟨.acts id (beh c.st.calls) :: k, { c.st with calls := c.st.calls + 1, log := c.st.log ++ [.called id code] }⟩
    else .ub
  | .afterNotify id :: k => (afterNotify id c.st).bind fun r => .ok ⟨r.1 ++ k, r.2⟩
  | .afterDiscovery id stop obs ep :: k =>
    match c.st.look id with
    | none => if stop then .ub else .ok ⟨.afterInvoke id obs false false ep :: k, c.st⟩
    | some d =>
      if stop then .ok ⟨.loop (.mid d.mid) .cancelled :: k, unref id c.st⟩
      else .ok ⟨.afterInvoke id obs false false ep :: k, c.st⟩
  | .afterInvoke id obs sep pong ep :: k => (afterInvoke id obs sep pong ep c.st).bind fun r => .ok ⟨r.1 ++ k, r.2⟩
  | .afterPing id :: k => (freeCb id c.st).bind fun s => .ok ⟨k, s⟩
  | .loop p code :: k =>
    match c.st.cbs.find? p.hit with
    | none => .ok ⟨k, c.st⟩
    | some d => .ok ⟨.handler d.id code :: .afterNotify d.id :: .loop p code :: k, detach { d with ref := true } c.st⟩
  | .transLoop _ none :: k => .ok ⟨k, c.st⟩
  | .transLoop ep (some t) :: k =>
    match c.st.trans.find? (fun x => x.id == t) with
    | none => .ub
    | some x =>
      if x.ep = ep then
        .ok ⟨.loop (.mid x.mid) .connectionClosed :: .transAfter ep t (nextOf t c.st.trans) c.st.trans.length :: k, c.st⟩
      else .ok ⟨.transLoop ep (nextOf t c.st.trans) :: k, c.st⟩
  | .transAfter ep t nxt len :: k =>
    if c.st.trans.length < len then .ok ⟨.transLoop ep (headT c.st) :: k, c.st⟩
    else if c.st.trans.all (fun x => x.id != t) then .ub
    else .ok ⟨.transLoop ep nxt :: k, clearTrans t c.st⟩
  | .exhaust t :: k =>
    match c.st.trans.find? (fun x => x.id == t) with
    | none => .ub
    | some x => .ok ⟨.loop (.mid x.mid) .transactionTimeout :: .exhaustAfter t :: k, c.st⟩
  | .exhaustAfter t :: k =>
    match c.st.trans.find? (fun x => x.id == t) with
    | none => .ub
    | some x =>
      if x.secured then .ok ⟨(close x.ep c.st).1 ++ k, (close x.ep c.st).2⟩ else .ok ⟨k, clearTrans t c.st⟩
  | .checkLoop _ none :: k => .ok ⟨k, c.st⟩
  | .checkLoop exh (some t) :: k =>
    match c.st.trans.find? (fun x => x.id == t) with
    | none => .ub
    | some _ =>
      if exh t then .ok ⟨.exhaust t :: .checkAfter exh (nextOf t c.st.trans) c.st.trans.length :: k, c.st⟩
      else .ok ⟨.checkLoop exh (nextOf t c.st.trans) :: k, c.st⟩
  | .checkAfter exh nxt len :: k =>
    if c.st.trans.length + 1 < len then .ok ⟨.checkLoop exh (headT c.st) :: k, c.st⟩
    else .ok ⟨.checkLoop exh nxt :: k, c.st⟩

/-- What a response carries: a payload that can be parsed, one that cannot, none; the
message is an empty acknowledgement. -/
inductive Body where
  | good
  | bad
  | empty
  | emptyAck
  deriving DecidableEq, Repr

/-- What happens to the library. -/
inductive Op where
  /-- the user makes a call -/
  | act (a : Act)
  /-- a response arrives from `ep` over UDP; `old`: its OSCORE partial IV is older than that of the
  last notification; `stop`: a discovery handler returns `OC_STOP_DISCOVERY` -/
  | resp (mid token ep : Nat) (obs : Option Nat) (body : Body) (pong old stop : Bool)
  /-- a delayed callback of a request is run -/
  | fire (id : Nat) (kind : Kind)
  /-- `coap_check_transactions` -/
  | check (exh : Nat → Bool)
  /-- a TLS session is established -/
  | connect (ep : Nat)

/-- oc_client_cb.c:449-455: a notification (sequence numbers start at 2) that is older. -/
def stale (old : Bool) (obs : Option Nat) : Bool :=
  match obs with
  | some n => old && decide (2 ≤ n)
  | none => false

/-- The beginning of `oc_client_cb_invoke`, oc_client_cb.c:434-523, for the first request
with this token (engine.c:900-901; the endpoint is not compared). -/
def respond (c : Cb) (ep : Nat) (obs : Option Nat) (body : Body) (pong old stop : Bool) (s : St) : Conf :=
  let s := { s with
    cbs := upd c.id (fun x => { x with ref := true }) s.cbs,
    log := s.log ++ (if obs = none then [] else [.observed c.id]) }
  if stale old obs then ⟨[], s⟩
  else
    match body with
    | .good =>
      if c.discovery then ⟨[.handler c.id (.response c.token ep), .afterDiscovery c.id stop obs ep], s⟩
      else ⟨[.handler c.id (.response c.token ep), .afterInvoke c.id obs false pong ep], s⟩
    | .bad =>
      if c.discovery then ⟨[.afterDiscovery c.id false obs ep], s⟩ else ⟨[.afterInvoke c.id obs false pong ep], s⟩
    | .empty =>
      if c.discovery then ⟨[.afterInvoke c.id obs false pong ep], s⟩
      else ⟨[.handler c.id (.response c.token ep), .afterInvoke c.id obs false pong ep], s⟩
    | .emptyAck => ⟨[.afterInvoke c.id obs true pong ep], s⟩

/-- A delayed callback runs: oc_client_cb.c:199-205, 279-285, oc_ping.c:30-42. -/
def fire (c : Cb) (kind : Kind) (s : St) : Out Conf :=
  match kind with
  | .remove => (freeCb c.id s).bind fun s => .ok ⟨[], s⟩
  | .timeout => .ok ⟨[.handler c.id .requestTimeout, .afterNotify c.id], detach c s⟩
  | .ping => .ok ⟨[.handler c.id .pingTimeout, .afterPing c.id], s⟩

/-- A message with the message id of a transaction ends the transaction, engine.c:1136-1139. -/
def clearMid (mid : Nat) (s : St) : St :=
  match s.trans.find? (fun t => t.mid == mid) with
  | none => s
  | some t => clearTrans t.id s

/-- The start of an operation. -/
def start (o : Op) (s : St) : Out Conf :=
  match o with
  | .act a => (act none a s).bind fun r => .ok ⟨r.1, r.2⟩
  | .resp mid token ep obs body pong old stop =>
    match s.cbs.find? (fun c => c.token == token) with
    | none => .ok ⟨[], clearMid mid s⟩
    | some c => .ok (respond c ep obs body pong old stop (clearMid mid s))
  | .fire id kind =>
    if (id, kind) ∈ s.timers then
      match s.cbs.find? (fun c => c.id == id) with
      | none => .ub
      | some c => fire c kind { s with timers := s.timers.erase (id, kind) }
    else .ok ⟨[], s⟩
  | .check exh => .ok ⟨[.checkLoop exh (headT s)], s⟩
  | .connect ep => .ok ⟨[], { s with peers := if ep ∈ s.peers then s.peers else ep :: s.peers }⟩

/-- The start of the library. -/
def init : St := ⟨[], [], [], [], [], none, 0, 0, 0, []⟩

/-- The configurations that can be reached: operations begin when nothing is left to do. -/
inductive Reach (beh : Nat → List Act) : Conf → Prop where
  | init : Reach beh ⟨[], init⟩
  | op {s o c} : Reach beh ⟨[], s⟩ → start o s = .ok c → Reach beh c
  | step {c c'} : Reach beh c → next beh c = .ok c' → Reach beh c'

/-- Undefined behaviour can be reached. -/
def ReachUb (beh : Nat → List Act) : Prop :=
  (∃ c, Reach beh c ∧ next beh c = .ub) ∨ ∃ s o, Reach beh ⟨[], s⟩ ∧ start o s = .ub

/-- Execution, for examples: at most `k` steps per operation. -/
def settle (beh : Nat → List Act) : Nat → Conf → Out Conf
  | 0, c => .ok c
  | k + 1, c =>
    match c.stack with
    | [] => .ok c
    | _ :: _ => (next beh c).bind (settle beh k)

/-- Execution of operations, for examples. -/
def script (beh : Nat → List Act) (k : Nat) : List Op → St → Out Conf
  | [], s => .ok ⟨[], s⟩
  | o :: os, s =>
    ((start o s).bind (settle beh k)).bind fun c =>
      match c.stack with
      | [] => script beh k os c.st
      | _ :: _ => .ok c

end Verif.Client
