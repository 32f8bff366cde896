/-
Model of the (D)TLS sessions with other devices ("peers") and of the process that
serves them: security/oc_tls.c:329-690, 743-772, 2012-2046, 2115-2132, 2163-2257,
2316-2336, 2561-2766, 2879-3153, built with `OC_CLIENT`, `OC_SERVER`, `OC_PKI`,
`OC_TCP`, `OC_HAS_FEATURE_TCP_ASYNC_CONNECT` and `OC_DYNAMIC_ALLOCATION`.

Simplifications: mbedtls is an oracle that says how each call ends and how many
messages it took from the queue of received ones; the contents of messages and the
reassembly of messages over TCP are left out (area Tls, Stream); an endpoint is a
device, a number for flags, address and port, and a session; the session of a TCP
peer does not change after it was added; the removal of observers, transactions and
client callbacks of an endpoint is left out, apart from the callback of the
assertion of roles (areas Observe, Trans, Client); ending a TCP session in the
network layer is left out (area TcpConn); `oc_process_post` does not fail; posting
the callback for inactivity does not fail.
-/
import Verif.Common

namespace Verif.TlsPeers

/-- include/oc_endpoint.h `oc_endpoint_t`; `key` stands for the address, the port and
the flags other than `TCP`, `ACCEPTED` and `MULTICAST`. -/
structure Ep where
  dev : Nat
  key : Nat
  tcp : Bool
  acc : Bool
  sess : Nat
deriving DecidableEq, Repr

/-- api/oc_endpoint.c:685-734 `oc_endpoint_compare`; 0 as a session stands for any. -/
def eqEp (a b : Ep) : Bool :=
  a.dev == b.dev && a.key == b.key && a.tcp == b.tcp && (a.sess == 0 || b.sess == 0 || a.sess == b.sess)

/-- port/oc_connectivity.h `oc_message_t`: which one it is (its address) and its
endpoint. -/
structure Msg where
  id : Nat
  ep : Ep
deriving DecidableEq, Repr

/-- security/oc_tls_internal.h:50-79 `oc_tls_peer_t`; `addr` is the address of the
structure, `over` says that the handshake is over. -/
structure Peer where
  addr : Nat
  ep : Ep
  client : Bool
  doc : Bool
  over : Bool
  sendq : List Msg
  recvq : List Msg
  ts : Nat
deriving DecidableEq, Repr

/-- api/oc_events_internal.h: the events of `oc_tls_handler` (oc_tls.c:3116-3153). -/
inductive Ev where
  | recv (m : Msg)
  | send (m : Msg)
  | timer
  | read (a : Nat)
  | write (a : Nat)
  | closeAll (d : Nat)
deriving DecidableEq, Repr

/-- security/oc_pstat_internal.h `oc_dostype_t`, as far as it matters here. -/
inductive Dos where
  | rfotm
  | rfnop
  | other
deriving DecidableEq, Repr

/-- The list of peers, the events of the handler, the endpoints of the decrypted
messages that wait for the CoAP engine, the requests that assert roles and did not
get a response (peer and endpoint), the callbacks for inactivity (peer and time),
the state of the devices, whether their `oxmsel` is set, the resets scheduled, the
clock, the next session number; and, for the statements: the message references
handed in, those released, the messages encrypted. -/
structure St where
  peers : List Peer
  q : List Ev
  ups : List Ep
  asserts : List (Nat × Ep)
  inact : List (Nat × Nat)
  dos : Nat → Dos
  oxm : Nat → Bool
  resets : List Nat
  clock : Nat
  next : Nat
  inp : List Msg
  rel : List Msg
  out : List Msg

/-- How a call of `mbedtls_ssl_handshake` or a series of handshake steps ends. -/
inductive Hs where
  | over
  | want
  | fail
deriving DecidableEq, Repr

/-- How a call of `mbedtls_ssl_read` or `mbedtls_ssl_write` ends. -/
inductive Io where
  | done
  | want
  | fail
deriving DecidableEq, Repr

/-- How `oc_tcp_connect_to_endpoint` ends. -/
inductive Conn where
  | connected
  | connecting
  | fail
deriving DecidableEq, Repr

/-- What the environment decides while an event is processed: the memory of a new
peer, whether mbedtls could be set up for it, how handshakes, reading and each of
the writes end, how many received messages were taken, whether there are roles to
assert (and whether the request could be sent), how connecting ends, and for the
retry timer of a peer whether it is expired and how its handshake goes on. -/
structure Or where
  mem : Option Nat := none
  ssl : Bool := true
  hs : Hs := .want
  io : Nat → Io := fun _ => .done
  taken : Nat := 0
  roles : Option Bool := none
  conn : Conn := .connected
  retry : Nat → Option Hs := fun _ => none

/-- The timeout (oc_tls.c:128-149) and what the application does when it is told
that a session ended, or that it started: it may close a session. -/
structure Cfg where
  timeout : Nat
  onEnd : Ep → Option Ep
  onStart : Ep → Option Ep

/-- oc_tls.c:557-569 `oc_tls_get_peer`. -/
def getPeer (s : St) (ep : Ep) : Option Peer := s.peers.find? fun p => eqEp p.ep ep

/-- oc_tls.c:329-340 `is_peer_active`. -/
def live (s : St) (a : Nat) : Bool := s.peers.any fun p => p.addr == a

/-- A peer of the list by its address. -/
def at? (s : St) (a : Nat) : Option Peer := s.peers.find? fun p => p.addr == a

/-- The member `next` of a peer (util/oc_list.c). -/
def after (a : Nat) : List Peer → Option Nat
  | [] => none
  | p :: l => if p.addr == a then l.head?.map (·.addr) else after a l

/-- An update of one peer. -/
def set (s : St) (a : Nat) (f : Peer → Peer) : St :=
  { s with peers := s.peers.map fun p => if p.addr == a then f p else p }

/-- oc_tls.c:399-448 `tls_process_drop_event_for_removed_endpoint` with
`oc_process_drop` (util/oc_process.c:400-439): the events left and the messages
released.  `mem` reads the endpoint of a peer; reading memory that was freed is
undefined. -/
def drop (mem : Nat → Option Ep) (ep : Ep) : List Ev → Out (List Ev × List Msg)
  | [] => .ok ([], [])
  | .read a :: l =>
    match mem a with
    | none => .ub
    | some e => (drop mem ep l).bind fun r => .ok (if eqEp e ep then r else (.read a :: r.1, r.2))
  | .write a :: l =>
    match mem a with
    | none => .ub
    | some e => (drop mem ep l).bind fun r => .ok (if eqEp e ep then r else (.write a :: r.1, r.2))
  | .recv m :: l =>
    (drop mem ep l).bind fun r => .ok (if eqEp m.ep ep then (r.1, m :: r.2) else (.recv m :: r.1, r.2))
  | .send m :: l =>
    (drop mem ep l).bind fun r => .ok (if eqEp m.ep ep then (r.1, m :: r.2) else (.send m :: r.1, r.2))
  | .timer :: l => (drop mem ep l).bind fun r => .ok (.timer :: r.1, r.2)
  | .closeAll d :: l => (drop mem ep l).bind fun r => .ok (.closeAll d :: r.1, r.2)

/-- The endpoint of a peer that was not freed. -/
def memOf (s : St) (a : Nat) : Option Ep := (at? s a).map (·.ep)

/-- oc_tls.c:450-466 `tls_drop_endpoint_events`. -/
def dropEvents (mem : Nat → Option Ep) (ep : Ep) (s : St) : Out St :=
  (drop mem ep s.q).bind fun r =>
    .ok { s with q := r.1, rel := s.rel ++ r.2, ups := s.ups.filter fun e => !eqEp e ep }

/-- oc_tls.c:540-545 and 2790-2794: the callbacks of assertions of roles on this
endpoint are told that the connection is closed, and ask for writing to the peer. -/
def endAsserts (ep : Ep) (s : St) : St :=
  { s with
    asserts := s.asserts.filter fun x => !eqEp x.2 ep,
    q := s.q ++ ((s.asserts.filter fun x => eqEp x.2 ep).map fun x => Ev.write x.1) }

/-- oc_tls.c:468-546: `oc_tls_free_peer` up to the notification. -/
def freeCore (p : Peer) (inactCb fromReset : Bool) (s : St) : Out St :=
  let s1 :=
    { s with
      peers := s.peers.filter fun x => x.addr != p.addr,
      resets := if p.doc && s.dos p.ep.dev == .rfotm && !fromReset then s.resets ++ [p.ep.dev] else s.resets,
      inact := if inactCb then s.inact else s.inact.filter fun x => x.1 != p.addr,
      rel := s.rel ++ p.sendq ++ p.recvq }
  (dropEvents (fun a => if a = p.addr then some p.ep else memOf s1 a) p.ep s1).bind fun s2 =>
    .ok (endAsserts p.ep s2)

/-- What is still to be done in the functions that close sessions: close those of an
endpoint (2316-2330), remove them (579-602), go on with the loop over the peers at
this peer (3089-3114; with a device: for its reset), go on with the retry timers
(743-772), with `oc_tls_shutdown` (2253-2257). -/
inductive Task where
  | conn (ep : Ep) (fromReset : Bool)
  | rm (ep : Ep) (notify : Bool)
  | scan (next : Option Nat) (d : Option Nat)
  | retry (next : Option Nat)
  | pop
deriving DecidableEq, Repr

/-- oc_tls.c:552-554 and api/oc_session_events.c:338-364: the notification of the
end of a session; the peers of a TCP session are removed and the application is
called. -/
def notified (c : Cfg) (ep : Ep) (notify : Bool) : List Task :=
  if notify then
    (if ep.tcp then [Task.rm ep false] else []) ++ ((c.onEnd ep).toList.map fun e => Task.conn e false)
  else []

/-- One step of what is to be done: the new state and what comes next. -/
def stepTask (c : Cfg) (o : Or) (s : St) : Task → Out (St × List Task)
  | .conn ep fr =>
    match getPeer s ep with
    | none => .ok (s, [])
    | some p =>
      (freeCore p false fr s).bind fun s' =>
        .ok (s', notified c p.ep true ++ if ep.tcp || ep.sess != 0 then [] else [.conn ep fr])
  | .rm ep notify =>
    match getPeer s ep with
    | none => (dropEvents (memOf s) ep s).bind fun s' => .ok (s', [])
    | some p =>
      (freeCore p false false s).bind fun s' =>
        .ok (s', notified c p.ep notify ++ if ep.tcp || ep.sess != 0 then [] else [.rm ep notify])
  | .scan none _ => .ok (s, [])
  | .scan (some a) d =>
    match at? s a with
    | none => .ub
    | some p =>
      if d.all (· == p.ep.dev) then
        .ok (s, [.conn p.ep d.isSome, .scan (after a s.peers) d])
      else .ok (s, [.scan (after a s.peers) d])
  | .retry none => .ok (s, [])
  | .retry (some a) =>
    match at? s a with
    | none => .ub
    | some p =>
      if p.over then .ok (s, [.retry (after a s.peers)])
      else
        match o.retry a with
        | none => .ok (s, [.retry (after a s.peers)])
        | some .want => .ok (s, [.retry (after a s.peers)])
        | some .over => .ok (set s a fun p => { p with over := true }, [.retry (after a s.peers)])
        | some .fail =>
          (freeCore p false false s).bind fun s' => .ok (s', notified c p.ep true ++ [.retry (after a s.peers)])
  | .pop =>
    match s.peers with
    | [] => .ok (s, [])
    | p :: _ =>
      (freeCore p false true s).bind fun s' => .ok (s', notified c p.ep true ++ [.pop])

/-- Doing all of it; `n` bounds the number of steps, not coming to an end counts as
undefined. -/
def work (c : Cfg) (o : Or) : Nat → List Task → St → Out St
  | _, [], s => .ok s
  | 0, _ :: _, _ => .ub
  | n + 1, t :: ts, s => (stepTask c o s t).bind fun r => work c o n (r.2 ++ ts) r.1

/-- Steps that are enough. -/
def fuel (s : St) : Nat := 5 * s.peers.length + 5

/-- Doing what is to be done. -/
def perform (c : Cfg) (o : Or) (ts : List Task) (s : St) : Out St := work c o (fuel s) ts s

/-- oc_tls.c:469-555 `oc_tls_free_peer`. -/
def freePeer (c : Cfg) (o : Or) (p : Peer) (inactCb fromReset notify : Bool) (s : St) : Out St :=
  (freeCore p inactCb fromReset s).bind fun s' => perform c o (notified c p.ep notify) s'

/-- oc_tls.c:347-377 `oc_tls_free_invalid_peer`: the events of the peer stay. -/
def freeInvalid (p : Peer) (s : St) : St :=
  { s with
    peers := s.peers.filter fun x => x.addr != p.addr,
    inact := s.inact.filter fun x => x.1 != p.addr,
    rel := s.rel ++ p.sendq ++ p.recvq }

/-- oc_tls.c:2012-2023 `oc_tls_num_peers`. -/
def numPeers (s : St) (d : Nat) : Nat := (s.peers.filter fun p => p.ep.dev == d).length

/-- oc_tls.c:2165-2189: the session number of a new TCP peer is a new one. -/
def newEp (s : St) (ep : Ep) : Ep := if ep.tcp && ep.sess == 0 then { ep with sess := s.next } else ep

/-- oc_tls.c:2025-2046: the new peer. -/
def newPeer (s : St) (a : Nat) (ep : Ep) (client : Bool) : Peer :=
  ⟨a, ep, client, s.dos ep.dev == .rfotm, false, [], [], 0⟩

/-- oc_tls.c:2185-2202: a peer that could be set up is added. -/
def addPeer (c : Cfg) (s : St) (p : Peer) : St :=
  { s with
    peers := s.peers ++ [{ p with ep := newEp s p.ep }],
    next := if p.ep.tcp && p.ep.sess == 0 then s.next + 1 else s.next,
    inact := if p.ep.tcp then s.inact else s.inact ++ [(p.addr, s.clock + c.timeout)] }

/-- oc_tls.c:2114-2132, 2162-2216 `oc_tls_add_new_peer`; memory in use is not given
out again. -/
def addNew (c : Cfg) (o : Or) (ep : Ep) (client : Bool) (s : St) : Out (St × Option Nat) :=
  if s.dos ep.dev == .rfotm && (!s.oxm ep.dev || numPeers s ep.dev != 0) then .ok (s, none)
  else
    match o.mem with
    | none => .ok (s, none)
    | some a =>
      if live s a then .ok (s, none)
      else if !o.ssl then
        (freePeer c o (newPeer s a ep client) false false true s).bind fun s' => .ok (s', none)
      else .ok (addPeer c s (newPeer s a ep client), some a)

/-- oc_tls.c:2218-2248 `oc_tls_add_or_get_peer`. -/
def addOrGet (c : Cfg) (o : Or) (ep : Ep) (client : Bool) (s : St) : Out (St × Option Nat) :=
  match getPeer s ep with
  | some p => .ok (s, some p.addr)
  | none => addNew c o ep client s

/-- A message that is not wanted: `oc_message_unref`. -/
def unref (s : St) (m : Msg) : St := { s with rel := s.rel ++ [m] }

/-- oc_tls.c:3079-3085: a message for a peer. -/
def gotten (s : St) (a : Nat) (m : Msg) : St :=
  { set s a fun p => { p with recvq := p.recvq ++ [m], ts := s.clock } with q := s.q ++ [.read a] }

/-- oc_tls.c:3025-3060: the peer of a message that was received. -/
def recvPeer (c : Cfg) (o : Or) (ep : Ep) (s : St) : Out (St × Option Nat) :=
  if ep.tcp && !ep.acc then
    .ok (s, match getPeer s ep with
      | none => none
      | some p => if p.client then some p.addr else none)
  else addOrGet c o ep false s

/-- oc_tls.c:3024-3086 `oc_tls_recv_message`. -/
def recvMsg (c : Cfg) (o : Or) (m : Msg) (s : St) : Out St :=
  (recvPeer c o m.ep s).bind fun r =>
    .ok (match r.2 with
      | none => unref r.1 m
      | some a => gotten r.1 a m)

/-- mbedtls takes messages from the queue of received ones (oc_tls.c:692-720). -/
def take (s : St) (a : Nat) (n : Nat) : St :=
  match at? s a with
  | none => s
  | some p => { set s a fun p => { p with recvq := p.recvq.drop n } with rel := s.rel ++ p.recvq.take n }

/-- oc_tls.c:2643-2657 `oc_tls_handshake`. -/
def handshake (c : Cfg) (o : Or) (a : Nat) (s : St) : Out St :=
  match at? s a with
  | none => .ub
  | some p =>
    match o.hs with
    | .fail => freePeer c o p false false true s
    | .want => .ok (take s a o.taken)
    | .over =>
      let s := take s a o.taken
      .ok { set s a fun p => { p with over := true } with q := s.q ++ [.write a] }

/-- oc_tls.c:2705-2753: a message waits for the handshake; the first one starts it. -/
def queueSend (c : Cfg) (o : Or) (a : Nat) (m : Msg) (s : St) : Out St :=
  match at? s a with
  | none => .ub
  | some p =>
    if !p.client then .ok (unref s m)
    else
      let s' := if p.sendq.contains m then unref s m else set s a fun p => { p with sendq := p.sendq ++ [m] }
      if p.sendq != [] then .ok s'
      else if p.ep.tcp then
        match o.conn with
        | .connected => handshake c o a s'
        | .connecting => .ok s'
        | .fail =>
          match at? s' a with
          | none => .ub
          | some p' => freePeer c o p' false false true s'
      else handshake c o a s'

/-- oc_tls.c:2689-2698: the peer of a message to be sent; one in the role of a server
is thrown away. -/
def sendPeer (c : Cfg) (o : Or) (ep : Ep) (s : St) : Out (St × Option Nat) :=
  match getPeer s ep with
  | some p => if p.client then .ok (s, some p.addr) else addOrGet c o ep true (freeInvalid p s)
  | none => addOrGet c o ep true s

/-- oc_tls.c:2679-2754 `oc_tls_init_connection`. -/
def initConn (c : Cfg) (o : Or) (m : Msg) (s : St) : Out St :=
  if s.dos m.ep.dev != .rfnop then .ok (unref s m)
  else
    (sendPeer c o m.ep s).bind fun r =>
      match r.2 with
      | none => .ok (unref r.1 m)
      | some a => queueSend c o a m r.1

/-- oc_tls.c:723-740 `ssl_send` of a message that could be encrypted. -/
def wrote (s : St) (a : Nat) (m : Msg) : St :=
  { set s a fun p => { p with ts := s.clock } with out := s.out ++ [m] }

/-- oc_tls.c:2561-2590 and 2757-2766 `oc_tls_send_message`. -/
def sendMsg (c : Cfg) (o : Or) (m : Msg) (s : St) : Out St :=
  match getPeer s m.ep with
  | none => initConn c o m s
  | some p =>
    if !p.over then initConn c o m s
    else
      match o.io 0 with
      | .done => .ok (unref (wrote s p.addr m) m)
      | .want => .ok (unref s m)
      | .fail => freePeer c o p false false true (unref s m)

/-- oc_tls.c:2616-2640: the loop of `write_application_data`; `i` counts the writes. -/
def writeLoop (c : Cfg) (o : Or) (a : Nat) : Nat → List Msg → St → Out St
  | _, [], s => .ok s
  | i, m :: l, s =>
    let s := unref (set s a fun p => { p with sendq := l }) m
    match o.io i with
    | .done => writeLoop c o a (i + 1) l (wrote s a m)
    | .want => writeLoop c o a (i + 1) l s
    | .fail =>
      match at? s a with
      | none => .ub
      | some p => freePeer c o p false false true s

/-- oc_tls.c:2609-2641 `write_application_data`. -/
def writeEv (c : Cfg) (o : Or) (a : Nat) (s : St) : Out St :=
  match at? s a with
  | none => .ok s
  | some p => writeLoop c o a 0 p.sendq s

/-- oc_tls.c:2915-2924: after the application was told. -/
def begun (o : Or) (a : Nat) (ep : Ep) (s : St) : Out St :=
  match o.roles with
  | none => .ok { s with q := s.q ++ [.write a] }
  | some posted =>
    if !live s a then .ub
    else .ok (if posted then { s with asserts := s.asserts ++ [(a, ep)] } else s)

/-- oc_tls.c:2878-2925 `tls_handshake_step`. -/
def hsStep (c : Cfg) (o : Or) (p : Peer) (s : St) : Out St :=
  match o.hs with
  | .fail => freePeer c o p false false true s
  | .want => .ok (take s p.addr o.taken)
  | .over =>
    let s := set (take s p.addr o.taken) p.addr fun p => { p with over := true }
    (perform c o ((c.onStart p.ep).toList.map fun e => Task.conn e false) s).bind fun s' =>
      begun o p.addr p.ep s'

/-- oc_tls.c:3003-3022 `tls_read_application_data`, 2927-3001 and 2799-2875. -/
def readEv (c : Cfg) (o : Or) (a : Nat) (s : St) : Out St :=
  match at? s a with
  | none => .ok s
  | some p =>
    if !p.over then hsStep c o p s
    else
      match o.io 0 with
      | .done => .ok { take s a o.taken with ups := s.ups ++ [p.ep] }
      | .want => .ok (take s a o.taken)
      | .fail => freePeer c o p false false true s

/-- The first peer of the list. -/
def first (s : St) : Option Nat := s.peers.head?.map (·.addr)

/-- oc_tls.c:3116-3153: the handler for one event. -/
def handle (c : Cfg) (o : Or) (e : Ev) (s : St) : Out St :=
  match e with
  | .recv m => recvMsg c o m s
  | .send m => sendMsg c o m s
  | .timer => perform c o [.retry (first s)] s
  | .read a => readEv c o a s
  | .write a => writeEv c o a s
  | .closeAll d => perform c o [.scan (first s) (some d)] s

/-- oc_tls.c:668-690 `oc_dtls_inactive` for each callback whose time has come; one
that is due again waits for the whole timeout. -/
def inactLoop (c : Cfg) (o : Or) : List (Nat × Nat) → St → Out St
  | [], s => .ok s
  | x :: l, s =>
    if !s.inact.contains x then inactLoop c o l s
    else
      match at? s x.1 with
      | none => inactLoop c o l { s with inact := s.inact.filter fun y => y.1 != x.1 }
      | some p =>
        if s.clock - p.ts < c.timeout then
          inactLoop c o l { s with inact := s.inact.map fun y => if y.1 == x.1 then (x.1, s.clock + c.timeout) else y }
        else
          (freePeer c o p true false true s).bind fun s' =>
            inactLoop c o l { s' with inact := s'.inact.filter fun y => y.1 != x.1 }

/-- What happens: a message comes from the network or from the CoAP engine, the retry
timer, a reset of a device, the handler takes its next event, time passes, a client
peer is added (api/cloud/oc_cloud_access.c:70-88), sessions of an endpoint are
closed, removed, all are closed (the poll handler), the stack is shut down, the
response to an assertion of roles, a change of the state of a device. -/
inductive Op where
  | net (m : Msg)
  | req (m : Msg)
  | timer
  | reset (d : Nat)
  | run (o : Or)
  | tick (now : Nat) (o : Or)
  | add (ep : Ep) (o : Or)
  | close (ep : Ep)
  | remove (ep : Ep) (notify : Bool)
  | closeAll
  | shutdown
  | asserted (a : Nat)
  | state (d : Nat) (x : Dos) (oxm : Bool)

/-- A step. -/
def step (c : Cfg) (s : St) : Op → Out St
  | .net m => .ok { s with q := s.q ++ [.recv m], inp := s.inp ++ [m] }
  | .req m => .ok { s with q := s.q ++ [.send m], inp := s.inp ++ [m] }
  | .timer => .ok { s with q := s.q ++ [.timer] }
  | .reset d => .ok { s with q := s.q ++ [.closeAll d] }
  | .run o =>
    match s.q with
    | [] => .ok s
    | e :: l => handle c o e { s with q := l }
  | .tick now o =>
    let s := { s with clock := max s.clock now }
    inactLoop c o (s.inact.filter fun x => x.2 ≤ s.clock) s
  | .add ep o => (addOrGet c o ep true s).bind fun r => .ok r.1
  | .close ep => perform c {} [.conn ep false] s
  | .remove ep notify => perform c {} [.rm ep notify] s
  | .closeAll => perform c {} [.scan (first s) none] s
  | .shutdown => perform c {} [.pop] s
  | .asserted a =>
    if s.asserts.any (fun x => x.1 == a) then
      .ok { s with asserts := s.asserts.filter fun x => x.1 != a, q := s.q ++ [.write a] }
    else .ok s
  | .state d x y => .ok { s with dos := fun e => if e = d then x else s.dos e, oxm := fun e => if e = d then y else s.oxm e }

/-- Some steps. -/
def run (c : Cfg) (s : St) : List Op → Out St
  | [] => .ok s
  | op :: ops => (step c s op).bind fun s' => run c s' ops

/-- After `oc_tls_init_context`: no sessions; session numbers start at 1. -/
def init (dos : Nat → Dos) (oxm : Nat → Bool) : St := ⟨[], [], [], [], [], dos, oxm, [], 0, 1, [], [], []⟩

end Verif.TlsPeers
