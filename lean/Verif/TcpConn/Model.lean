import Verif.Common

/-!
Model of TCP connections on Linux (built with `OC_HAS_FEATURE_TCP_ASYNC_CONNECT`):
port/linux/tcpsession.c, with port/common/posix/oc_tcp_socket.c and the calls in
port/linux/ipadapter.c.

Every function holds the mutex `g_mutex`, so one call is one step of a history; calls of
different threads interleave between them.

Simplifications: an endpoint is an address (standing for its flags, address and port), a
device and a session id; memory for the event that calls the application back can be
allocated (otherwise the code aborts the program, 833); the byte stream of a message
received is in the area TcpStream: here a session is told that it must be closed; the
pipe that wakes the network thread has room; the set of ready descriptors of a call is a
list of descriptors; descriptors of other parts of the program do not occur.
-/

namespace Verif.TcpConn

/-- A text of bytes. -/
abbrev Bytes := List UInt8

/-- `oc_endpoint_t` as far as it is used: `addr` stands for the flags without `ACCEPTED`,
address and port. -/
structure Ep where
  dev : Nat
  addr : Nat
  secured : Bool
  accepted : Bool
  sid : Nat
  deriving DecidableEq, Repr

/-- `oc_endpoint_compare`, api/oc_endpoint.c:684-734; `true` is the result 0. -/
def same (a b : Ep) : Bool :=
  a.dev == b.dev && a.addr == b.addr && a.secured == b.secured && (a.sid == 0 || b.sid == 0 || a.sid == b.sid)

/-- `tcp_session_t`, port/linux/tcpsession.c:57-65. `n` names the connection (ghost),
`blocking` is the mode of the socket. -/
structure Sess where
  n : Nat
  ep : Ep
  sock : Nat
  notify : Bool
  blocking : Bool
  deriving DecidableEq, Repr

/-- `tcp_waiting_session_t`, port/linux/tcpsession.c:84-101; `sock` is `none` for -1. -/
structure Wait where
  n : Nat
  ep : Ep
  sock : Option Nat
  start : Nat
  count : Nat
  force : Bool
  error : Bool
  msgs : List Bytes
  cb : Option Nat
  deriving DecidableEq, Repr

/-- What the callback of `oc_tcp_connect` is told: `OC_TCP_SOCKET_STATE_CONNECTED`,
`OC_TCP_SOCKET_ERROR`, `OC_TCP_SOCKET_ERROR_TIMEOUT`. -/
inductive Told where
  | connected
  | error
  | timeout
  deriving DecidableEq, Repr

/-- What can be seen of a connection `n` (ghost): it is recorded, with the callback;
`connect` is called; the callback is called; the session events; a message is given to it;
bytes are written to its socket; a reference to a message is taken and given back. -/
inductive Ev where
  | made (n : Nat) (cb : Option Nat)
  | tried (n : Nat)
  | told (n : Nat) (cb : Nat) (t : Told)
  | began (n : Nat)
  | ended (n : Nat)
  | took (n : Nat) (m : Bytes)
  | wrote (n : Nat) (d : Bytes) (whole : Bool)
  | ref (n : Nat) (m : Bytes)
  | unref (n : Nat) (m : Bytes)
  deriving DecidableEq, Repr

/-- The state: `sess` is `g_session_list`, `free` `g_free_session_list_async`, `waiting`
`g_waiting_session_list`, `freeW` `g_free_waiting_session_list_async`, `rfds` and `cfds`
the monitored descriptors, `ids` the counter of session ids, `maxCount` and `timeout`
`g_connect_retry` (the timeout in ticks); ghosts: `socks` the sockets that are open, `next`
the next name, `log`. -/
structure World where
  sess : List Sess
  free : List Sess
  waiting : List Wait
  freeW : List Wait
  rfds : List Nat
  cfds : List Nat
  ids : Nat
  maxCount : Nat
  timeout : Nat
  socks : List Nat
  next : Nat
  log : List Ev

/-- An event is noted. -/
def World.emit (w : World) (e : Ev) : World := { w with log := w.log ++ [e] }

/-- `oc_tcp_get_new_session_id`, api/oc_tcp.c:90-95. -/
def newId (ids : Nat) : Nat :=
  let v := (ids + 1) % 4294967296
  if v = 0 then 1 else v

/-- The session id of a new record, port/linux/tcpsession.c:254-256, 629-631. -/
def idOf (w : World) (ep : Ep) : Ep × World :=
  if ep.sid = 0 then ({ ep with sid := newId w.ids }, { w with ids := newId w.ids }) else (ep, w)

/-- `FD_SETSIZE` of Linux. -/
def fdSetSize : Nat := 1024

/-- `FD_SET`; a descriptor that is not below `FD_SETSIZE` is outside the array. -/
def fdSet (s : List Nat) (fd : Nat) : Out (List Nat) :=
  if fd < fdSetSize then .ok (if s.contains fd then s else s ++ [fd]) else .ub

/-- `FD_CLR`, of a descriptor that was set. -/
def fdClr (s : List Nat) (fd : Nat) : List Nat := s.filter fun x => x != fd

/-- `close`; closing what is not open is a fault of the program (it may close what another
thread has just opened). -/
def close (w : World) (fd : Nat) : Out World :=
  if w.socks.contains fd then .ok { w with socks := w.socks.filter fun x => x != fd } else .ub

/-- The descriptor of a new socket that the system gives, for the sockets that are open:
one that is not in use, or none. -/
structure Pick where
  fd : List Nat → Option Nat
  unused : ∀ l x, fd l = some x → x ∉ l

/-- A socket is opened by the system. -/
def opened (w : World) (fd : Nat) : World := { w with socks := w.socks ++ [fd] }

/-! ### Writing -/

/-- `tcp_send_message`, port/linux/tcpsession.c:938-965, with the results of `send`: `none`
for an error (`EINTR`, after which it is called again, is left out). The bytes written,
and whether the message was written whole. The end of the list counts as an error. -/
def sendLoop : Bytes → List (Option Nat) → Bytes × Bool
  | _, [] => ([], false)
  | _, none :: _ => ([], false)
  | d, some k :: r =>
    let k := min k d.length
    if k = d.length then (d, true)
    else
      let x := sendLoop (d.drop k) r
      (d.take k ++ x.1, x.2)

/-- A message is written to the socket of a session. -/
def write (w : World) (n : Nat) (m : Bytes) (os : List (Option Nat)) : World :=
  w.emit (.wrote n (sendLoop m os).1 (sendLoop m os).2)

/-! ### Sessions -/

/-- `add_new_session_locked` and `ip_context_rfds_fd_set`, port/linux/tcpsession.c:239-279,
320, 574-590, when the interface of the socket is known and there is memory. -/
def addSess (w : World) (n : Nat) (ep : Ep) (fd : Nat) (blocking : Bool) : Out World :=
  let x := idOf w ep
  let w := { x.2 with sess := x.2.sess ++ [(⟨n, x.1, fd, true, blocking⟩ : Sess)] }
  let w := if ep.secured then w else w.emit (.began n)
  (fdSet w.rfds fd).bind fun s => .ok { w with rfds := s }

/-- `free_session_locked`, port/linux/tcpsession.c:324-345. `quiet`:
`oc_session_events_disconnect_is_ongoing`. -/
def freeSess (quiet : Bool) (w : World) (s : Sess) : Out World :=
  let w := { w with sess := w.sess.filter fun x => x.n != s.n, free := w.free.filter fun x => x.n != s.n }
  let w := if !quiet && s.notify then w.emit (.ended s.n) else w
  close { w with rfds := fdClr w.rfds s.sock } s.sock

/-- `find_session_by_endpoint_locked`, port/linux/tcpsession.c:547-559. -/
def findSess (w : World) (ep : Ep) : Option Sess := w.sess.find? fun s => same s.ep ep

/-- `find_waiting_session_by_endpoint_locked`, port/linux/tcpsession.c:592-604. -/
def findWait (w : World) (ep : Ep) : Option Wait := w.waiting.find? fun s => same s.ep ep

/-- `tcp_waiting_session_set_socked_locked`, port/linux/tcpsession.c:655-666: descriptor 0
is not monitored. -/
def watch (w : World) (fd : Nat) : Out World :=
  if fd > 0 then (fdSet w.cfds fd).bind fun s => .ok { w with cfds := s } else .ok w

/-- `add_new_waiting_session_locked` and the above, port/linux/tcpsession.c:617-653,
668-684; `now` is the clock at that time. -/
def addWait (w : World) (n : Nat) (ep : Ep) (fd : Nat) (cb : Option Nat) (now : Nat) : Out World :=
  let x := idOf w ep
  watch { x.2 with waiting := x.2.waiting ++ [⟨n, x.1, some fd, now, 0, false, false, [], cb⟩] } fd

/-- The references of queued messages are given back (823-829, 1128-1139). -/
def unrefs (w : World) (n : Nat) : List Bytes → World
  | [] => w
  | m :: r => unrefs (w.emit (.unref n m)) n r

/-- Clearing and closing the socket of a waiting session (834-837, 1251-1256, 1335-1339). -/
def dropSock (w : World) : Option Nat → Out World
  | none => .ok w
  | some fd => close { w with cfds := fdClr w.cfds fd } fd

/-- The callback of a connection attempt is called by an event (839-848, 1146-1154). -/
def tell (w : World) (n : Nat) (cb : Option Nat) (t : Told) : World :=
  match cb with
  | none => w
  | some f => w.emit (.told n f t)

/-- `free_waiting_session_locked`, port/linux/tcpsession.c:809-846. -/
def freeWait (w : World) (ws : Wait) (t : Told) : Out World :=
  let w := { w with waiting := w.waiting.filter fun x => x.n != ws.n, freeW := w.freeW.filter fun x => x.n != ws.n }
  let w := unrefs w ws.n ws.msgs
  (dropSock w ws.sock).bind fun w => .ok (tell w ws.n ws.cb t)

/-- `tcp_send_waiting_messages_locked`, port/linux/tcpsession.c:1123-1140; `os` are the
results of `send` for each message. -/
def sendAll (w : World) (n : Nat) : List Bytes → List (List (Option Nat)) → World
  | [], _ => w
  | m :: r, os => sendAll ((write w n m (os.headD [])).emit (.unref n m)) n r os.tail

/-- A waiting session becomes a session: `tcp_create_session_locked`, then
`tcp_cleanup_connected_waiting_session_locked`, port/linux/tcpsession.c:1142-1161. The
descriptor is taken out of `cfds` (1189; when a connection is tried again and made at once
it is not in there). -/
def promote (w : World) (ws : Wait) (fd : Nat) (blocking : Bool) (os : List (List (Option Nat))) : Out World :=
  (addSess w ws.n ws.ep fd blocking).bind fun w =>
    let w := { w with cfds := fdClr w.cfds fd }
    let w := tell w ws.n ws.cb .connected
    let w := { w with waiting := w.waiting.filter fun x => x.n != ws.n }
    .ok (sendAll w ws.n ws.msgs os)

/-- What `connect` says for a new socket: connected at once, in progress, or failed. -/
inductive Conn where
  | connected
  | connecting
  | failed
  deriving DecidableEq, Repr

/-- What the system decides in a call: new descriptors; the result of `connect`; whether a session, a
waiting session and an entry of the queue can be allocated; the results of `send`; whether
`getsockopt` and `fcntl` succeed and the pending error of a socket (`SO_ERROR`); the
clock. -/
structure Os where
  pick : Pick
  conn : Conn
  okS : Bool
  okW : Bool
  okQ : Bool
  sends : List (List (Option Nat))
  opt : Bool
  soError : Bool
  fcntl : Bool
  now : Nat

/-- The result of `tcp_connect_locked`. -/
inductive Found where
  | session (s : Sess) (created : Bool)
  | waits (ws : Wait) (created : Bool)
  | nothing

/-- `oc_tcp_socket_connect`, port/common/posix/oc_tcp_socket.c:134-161: the socket, if it
is connected or connecting; it is closed otherwise. The socket is non-blocking. -/
def socket (w : World) (os : Os) : Option (Nat × Bool) :=
  match os.conn with
  | .connected => (os.pick.fd w.socks).map fun fd => (fd, true)
  | .connecting => (os.pick.fd w.socks).map fun fd => (fd, false)
  | .failed => none

/-- The part of `tcp_connect_locked` that opens a connection, port/linux/tcpsession.c:716-743. -/
def openNew (w : World) (ep : Ep) (cb : Option Nat) (os : Os) : Out (Found × World) :=
  let n := w.next
  let w := { w.emit (.tried n) with next := n + 1 }
  match socket w os with
  | none => .ok (.nothing, w)
  | some (fd, true) =>
    let w := opened w fd
    if os.okS then
      (addSess (w.emit (.made n none)) n ep fd false).bind fun w' =>
        .ok (.session ⟨n, (idOf w ep).1, fd, true, false⟩ true, w')
    else (close w fd).bind fun w => .ok (.nothing, w)
  | some (fd, false) =>
    let w := opened w fd
    if os.okW then
      (addWait (w.emit (.made n cb)) n ep fd cb os.now).bind fun w' =>
        .ok (.waits ⟨n, (idOf w ep).1, some fd, os.now, 0, false, false, [], cb⟩ true, w')
    else (close w fd).bind fun w => .ok (.nothing, w)

/-- `tcp_connect_locked`, port/linux/tcpsession.c:692-743. -/
def connectLocked (w : World) (ep : Ep) (cb : Option Nat) (os : Os) : Out (Found × World) :=
  match findSess w ep with
  | some s => .ok (.session s false, w)
  | none =>
    if ep.accepted then .ok (.nothing, w)
    else
      match findWait w ep with
      | some ws => .ok (.waits ws false, w)
      | none => openNew w ep cb os

/-- `add_message_to_waiting_session_locked`, port/linux/tcpsession.c:968-985. -/
def enqueue (w : World) (ws : Wait) (m : Bytes) : World :=
  let w := { w with waiting := w.waiting.map fun (x : Wait) => if x.n == ws.n then { x with msgs := x.msgs ++ [m] } else x }
  (w.emit (.took ws.n m)).emit (.ref ws.n m)

/-- The results of sending: the number of bytes written, queued, or an error. -/
inductive Sent where
  | bytes (k : Nat)
  | queued
  | error
  | notConnected
  deriving DecidableEq, Repr

/-- Writing to an open session: the result of `tcp_send_message`; -1 if nothing was
written. -/
def sendOpen (w : World) (s : Sess) (m : Bytes) (os : Os) : Sent × World :=
  let x := sendLoop m (os.sends.headD [])
  let w := write (w.emit (.took s.n m)) s.n m (os.sends.headD [])
  if x.2 = false ∧ x.1 = [] then (.error, w) else (.bytes x.1.length, w)

/-- `oc_tcp_send_buffer`, port/linux/tcpsession.c:987-1029 (messages are shorter than
`OC_SEND_MESSAGE_QUEUED`, the largest `int`). -/
def send (w : World) (ep : Ep) (m : Bytes) (os : Os) : Out (Sent × World) :=
  (connectLocked w ep none os).bind fun x =>
    match x.1 with
    | .session s _ => .ok (sendOpen x.2 s m os)
    | .waits ws _ => if os.okQ then .ok (.queued, enqueue x.2 ws m) else .ok (.error, x.2)
    | .nothing => .ok (.error, x.2)

/-- `oc_tcp_send_buffer2`, port/linux/tcpsession.c:1030-1063: without opening a connection. -/
def send2 (w : World) (ep : Ep) (m : Bytes) (queue : Bool) (os : Os) : Sent × World :=
  match findSess w ep with
  | some s => sendOpen w s m os
  | none =>
    if ep.accepted then (.error, w)
    else if queue then
      match findWait w ep with
      | some ws => if os.okQ then (.queued, enqueue w ws m) else (.notConnected, w)
      | none => (.notConnected, w)
    else (.notConnected, w)

/-- The results of `oc_tcp_connect`. -/
inductive Connected where
  | connected (sid : Nat)
  | connecting (sid : Nat)
  | existsConnected (sid : Nat)
  | existsConnecting (sid : Nat)
  | error
  deriving DecidableEq, Repr

/-- The result of `tcp_connect_to_endpoint`, port/linux/tcpsession.c:1381-1411. -/
def resultOf : Found → Connected
  | .session s c => if s.ep.sid = 0 then .error else if c then .connected s.ep.sid else .existsConnected s.ep.sid
  | .waits ws c => if ws.ep.sid = 0 then .error else if c then .connecting ws.ep.sid else .existsConnecting ws.ep.sid
  | .nothing => .error

/-- `oc_tcp_connect`, port/linux/tcpsession.c:1373-1441. -/
def connect (w : World) (ep : Ep) (cb : Option Nat) (os : Os) : Out (Connected × World) :=
  (connectLocked w ep cb os).bind fun x => .ok (resultOf x.1, x.2)

/-- `tcp_end_session`, port/linux/tcpsession.c:746-806. -/
def endSess (w : World) (ep : Ep) (notify : Bool) : Bool × World :=
  match findSess w ep with
  | some s =>
    (true, { w with sess := w.sess.filter fun x => x.n != s.n, free := w.free ++ [({ s with notify := notify } : Sess)] })
  | none =>
    match findWait w ep with
    | some ws => (true, { w with waiting := w.waiting.filter fun x => x.n != ws.n, freeW := w.freeW ++ [ws] })
    | none => (false, w)

/-! ### The network thread -/

/-- `accept_new_session_locked`, port/linux/tcpsession.c:281-322: the endpoint has the
flag `ACCEPTED` and no session id; `scope` is the scope of an IPv6 address. -/
def accept (w : World) (ep : Ep) (scope : Nat) (pick : Pick) (ok : Bool) : Out World :=
  match pick.fd w.socks with
  | none => .ok w
  | some fd =>
    let n := w.next
    let w := { opened w fd with next := n + 1 }
    if scope < 255 then
      if ok then addSess (w.emit (.made n none)) n { ep with accepted := true, sid := 0 } fd true
      else close w fd
    else .ub

/-- The peer has closed the connection, an error occurred or what was received is not a
message (433-495), for the first session in the list with a ready socket (417-425). -/
def lost (quiet : Bool) (w : World) (ready : List Nat) : Out World :=
  match w.sess.find? fun s => ready.contains s.sock with
  | some s => freeSess quiet w s
  | none => .ok w

/-- Going through a list that only shrinks, as lists that are popped. -/
def each (f : World → α → Out World) : World → List α → Out World
  | w, [] => .ok w
  | w, a :: r => (f w a).bind fun w => each f w r

/-- `tcp_process_async_sessions_locked`, port/linux/tcpsession.c:863-884. -/
def signal (quiet : Bool) (w : World) : Out World :=
  (each (freeSess quiet) w w.free).bind fun w => each (fun w ws => freeWait w ws .error) w w.freeW

/-- `tcp_session_shutdown`, port/linux/tcpsession.c:347-358, 848-860, 887-896. -/
def shutdown (quiet : Bool) (w : World) (dev : Nat) : Out World :=
  (each (freeSess quiet) w (w.sess.filter fun s => s.ep.dev == dev)).bind fun w =>
    (each (fun w ws => freeWait w ws .error) w (w.waiting.filter fun s => s.ep.dev == dev)).bind (signal quiet)

/-- A waiting session is changed. -/
def setWait (w : World) (ws : Wait) : World :=
  { w with waiting := w.waiting.map fun x => if x.n == ws.n then ws else x }

/-- `tcp_process_waiting_session_locked` with `tcp_try_connect_waiting_session_locked`,
port/linux/tcpsession.c:1163-1198, 1327-1347. -/
def processWait (w : World) (ws : Wait) (fd : Nat) (os : Os) : Out World :=
  if os.opt && !os.soError && os.fcntl && os.okS then promote w ws fd true os.sends
  else
    (dropSock w (some fd)).bind fun w =>
      if os.opt && os.soError then .ok (setWait w { ws with sock := none, error := true })
      else .ok (setWait w { ws with sock := none, force := true, error := false })

/-- `tcp_process_waiting_sessions`, port/linux/tcpsession.c:1349-1371: the first waiting
session with a ready socket. -/
def ready (w : World) (fds : List Nat) (os : Os) : Out World :=
  match w.waiting.find? fun x => x.sock.any fds.contains with
  | some ws =>
    match ws.sock with
    | some fd => processWait w ws fd os
    | none => .ok w
  | none => .ok w

/-- The states of `tcp_waiting_session_check`. -/
inductive Check where
  | valid (expires : Nat)
  | retry
  | expired
  | error
  deriving DecidableEq, Repr

/-- Subtraction of `uint64_t`. -/
def sub64 (a b : Nat) : Nat := (a + 18446744073709551616 - b) % 18446744073709551616

/-- `tcp_waiting_session_check`, port/linux/tcpsession.c:1213-1241. -/
def check (ws : Wait) (now timeout maxCount : Nat) : Check :=
  if ws.error then .error
  else
    let elapsed := sub64 now ws.start
    if !ws.force && decide (elapsed < timeout) then .valid (timeout - elapsed)
    else if ws.count ≥ maxCount then .expired
    else .retry

/-- `tcp_retry_waiting_session_locked` and what follows, port/linux/tcpsession.c:1243-1282,
1299-1309. The result says whether the connection is in progress. When the connection is
made at once but there is no memory for a session, the new socket is not closed (1264). -/
def retryWait (w : World) (ws : Wait) (now : Nat) (os : Os) : Out (Bool × World) :=
  (dropSock w ws.sock).bind fun w =>
    let w := w.emit (.tried ws.n)
    match socket w os with
    | some (fd, true) =>
      let w := opened w fd
      if os.okS then (promote w ws fd false os.sends).bind fun w => .ok (false, w)
      else (freeWait w { ws with sock := none } .timeout).bind fun w => .ok (false, w)
    | some (fd, false) =>
      (watch (setWait (opened w fd) { ws with count := ws.count + 1, start := now, force := false, sock := some fd }) fd).bind
        fun w => .ok (true, w)
    | none => (freeWait w { ws with sock := none } .timeout).bind fun w => .ok (false, w)

/-- The smaller of two times until the next call, port/linux/tcpsession.c:1311-1313. -/
def smaller (expires x : Nat) : Nat := if expires = 0 ∨ x < expires then x else expires

/-- The loop of `tcp_check_expiring_sessions`, port/linux/tcpsession.c:1284-1325, with the
time after which it must be called again (0: not at all). -/
def tickLoop (now : Nat) (os : Nat → Os) : World → List Wait → Nat → Out (Nat × World)
  | w, [], e => .ok (e, w)
  | w, ws :: r, e =>
    match check ws now w.timeout w.maxCount with
    | .retry =>
      (retryWait w ws now (os ws.n)).bind fun x => tickLoop now os x.2 r (if x.1 then w.timeout else e)
    | .valid x => tickLoop now os w r (smaller e x)
    | .error => (freeWait w ws .error).bind fun w => tickLoop now os w r e
    | .expired => (freeWait w ws .timeout).bind fun w => tickLoop now os w r e

/-- `tcp_check_expiring_sessions`. -/
def tick (now : Nat) (os : Nat → Os) (w : World) : Out (Nat × World) := tickLoop now os w w.waiting 0

/-! ### Histories -/

/-- One call. -/
inductive Op where
  | send (ep : Ep) (m : Bytes) (os : Os)
  | send2 (ep : Ep) (m : Bytes) (queue : Bool) (os : Os)
  | connect (ep : Ep) (cb : Option Nat) (os : Os)
  | endSess (ep : Ep) (notify : Bool)
  | accept (ep : Ep) (scope : Nat) (pick : Pick) (ok : Bool)
  | lost (quiet : Bool) (ready : List Nat)
  | signal (quiet : Bool)
  | ready (fds : List Nat) (os : Os)
  | tick (now : Nat) (os : Nat → Os)
  | shutdown (quiet : Bool) (dev : Nat)
  | setRetry (maxCount timeout : Nat)

/-- The effect of a call. -/
def step (w : World) : Op → Out World
  | .send ep m os => (send w ep m os).bind fun x => .ok x.2
  | .send2 ep m q os => .ok (send2 w ep m q os).2
  | .connect ep cb os => (connect w ep cb os).bind fun x => .ok x.2
  | .endSess ep notify => .ok (endSess w ep notify).2
  | .accept ep scope pick ok => accept w ep scope pick ok
  | .lost quiet fds => lost quiet w fds
  | .signal quiet => signal quiet w
  | .ready fds os => ready w fds os
  | .tick now os => (tick now os w).bind fun x => .ok x.2
  | .shutdown quiet dev => shutdown quiet w dev
  | .setRetry c t => .ok { w with maxCount := c, timeout := t }

/-- A history. -/
def run (w : World) : List Op → Out World
  | [] => .ok w
  | o :: r => (step w o).bind fun w => run w r

/-- The start: no connections; port/oc_connectivity_internal.h:122-123, the timeout in
ticks of a microsecond. -/
def empty : World := ⟨[], [], [], [], [], [], 0, 5, 5000000, [], 0, []⟩

end Verif.TcpConn
