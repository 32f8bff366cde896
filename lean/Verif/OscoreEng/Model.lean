import Verif.Oscore.Model

/-!
Model of the OSCORE engine: protecting outgoing messages and checking incoming
ones (security/oc_oscore_engine.c, security/oc_oscore_context.c,
security/oc_oscore_crypto.c: the AAD), and the check of the numbers of
notifications (api/client/oc_client_cb.c).  Partial IVs, nonces and the replay
window are those of `Verif.Oscore`.

The AEAD is ideal: a ciphertext is the record of the key, nonce, AAD and
plaintext it was made with; decrypting gives the plaintext if key, nonce and AAD
are those, and fails otherwise and on every other payload (also one shorter than
the tag, which mbedtls refuses).  Keys are numbers; that different contexts have
different keys (HKDF) is a hypothesis of the theorems that need it.  A plaintext
is the inner code, the value of the inner Observe option and the rest (other
inner options, payload), so that parsing it cannot fail.  Of the outer message
the fields that the engine reads are kept; parsing and serializing messages is
in `Verif.CoapMsg` and `Verif.Oscore`.  The build has OC_CLIENT, OC_SERVER and OC_TCP.
-/

namespace Verif.OscoreEng

abbrev Bytes := List UInt8

/-- include/oc_cred.h:45-47: the types of credentials that carry an OSCORE context
(`OC_CREDTYPE_OSCORE`, `OC_CREDTYPE_OSCORE_MCAST_CLIENT`,
`OC_CREDTYPE_OSCORE_MCAST_SERVER`). -/
inductive Kind where
  | pair
  | groupClient
  | groupServer
  deriving Repr, DecidableEq

/-- security/oc_oscore_context_internal.h:33-56 `oc_oscore_context_t`: what is set when the
context is added; `uuid` is the subject of its credential. -/
structure Mat where
  device : Nat := 0
  uuid : Nat
  kind : Kind := .pair
  sendid : Bytes
  recvid : Bytes
  civ : Bytes
  sendkey : Nat
  recvkey : Nat
  deriving Repr, DecidableEq

/-- security/oc_oscore_context_internal.h:33-56 `oc_oscore_context_t`: with the sender
sequence number and the replay window. -/
structure Ctx where
  mat : Mat
  ssn : BitVec 64 := 0
  win : Oscore.Win := Oscore.Win.init
  deriving Repr, DecidableEq

/-- include/oc_client_state.h:117-142 `oc_client_cb_t`: the token, the partial IV of the
request, the id in the endpoint and the number of the newest notification. -/
structure Cb where
  token : Bytes
  piv : Bytes := []
  uuid : Nat
  notif : Nat := 0
  deriving Repr, DecidableEq

/-- messaging/coap/transactions_internal.h:74-85 `coap_transaction_t`: token, message id, and
partial IV and id in the endpoint of its message. -/
structure Tr where
  token : Bytes
  mid : Nat
  piv : Bytes
  uuid : Nat
  deriving Repr, DecidableEq

/-- A device (or client) with its OSCORE contexts, waiting requests and
transactions; `rfnop` has the logical devices in normal operation. -/
structure Node where
  ctxs : List Ctx
  cbs : List Cb := []
  trs : List Tr := []
  rfnop : List Nat := [0]
  deriving Repr, DecidableEq

/-- What is encrypted (messaging/coap/oscore.c:391-397 `oscore_serialize_plaintext`):
code, value of the Observe option, other options and payload. -/
structure Inner where
  code : Nat
  obs : Option Nat := none
  body : Bytes := []
  deriving Repr, DecidableEq

/-- security/oc_oscore_crypto.c:277-297 `oc_oscore_encrypt`, ideal. -/
structure Cipher where
  key : Nat
  nonce : Bytes
  aad : Bytes
  plain : Inner
  deriving Repr, DecidableEq

/-- The payload of an OSCORE message: a ciphertext made by somebody with the key, or
anything else. -/
inductive Payload where
  | sealed (c : Cipher)
  | junk (n : Nat)
  deriving Repr, DecidableEq

/-- The outer message as `oscore_parse_outer_message` (messaging/coap/oscore.c:511-583)
gives it: `obs` is 0 without an outer Observe option (the packet is zeroed, line 515). -/
structure Pkt where
  con : Bool := false
  code : Nat
  mid : Nat := 0
  token : Bytes := []
  obs : Nat := 0
  piv : Bytes := []
  kid : Bytes := []
  payload : Payload
  deriving Repr, DecidableEq

/-- include/oc_endpoint.h:90-113 `oc_endpoint_t` of an incoming message: the logical
device, whether it came over TCP and whether it was sent to a multicast address. -/
structure Ep where
  device : Nat := 0
  tcp : Bool := false
  mcast : Bool := false
  deriving Repr, DecidableEq

/-- An incoming message as it is given to the CoAP layer: subject and partial IV in
its endpoint, and the message. -/
structure In where
  uuid : Nat
  piv : Bytes
  con : Bool
  code : Nat
  mid : Nat
  token : Bytes
  obs : Option Nat
  body : Bytes
  deriving Repr, DecidableEq

/-- What becomes of a protected message: dropped, answered with an error code, or
passed on. -/
inductive Res where
  | drop
  | refuse (code : Nat)
  | pass (m : In)
  deriving Repr, DecidableEq

/-- tinycbor: a byte string of less than 24 bytes. -/
def bstr (l : Bytes) : Bytes := UInt8.ofNat (0x40 + l.length) :: l

/-- security/oc_oscore_crypto.c:226-245: `aad_array`. -/
def aadArray (kid piv : Bytes) : Bytes :=
  [0x85, 0x01, 0x81, 0x0a] ++ bstr kid ++ bstr piv ++ bstr []

/-- security/oc_oscore_crypto.c:210-275 `oc_oscore_compose_AAD`: the array
["Encrypt0", h'', aad_array], written out for ids and partial IVs that leave every
string below 24 bytes; ids have at most 7 bytes and partial IVs at most 5. -/
def aad (kid piv : Bytes) : Bytes :=
  [0x83, 0x68, 0x45, 0x6e, 0x63, 0x72, 0x79, 0x70, 0x74, 0x30] ++ bstr []
    ++ bstr (aadArray kid piv)

/-- security/oc_oscore_context.c:49-64 `oc_oscore_find_context_by_kid` from the head of
the list; contexts are named by their place in the list. -/
def byKid (ctxs : List Ctx) (device : Nat) (kid : Bytes) : Option Nat :=
  ctxs.findIdx? (fun c => c.mat.device == device && c.mat.recvid == kid)

/-- security/oc_oscore_context.c:113-126 `oc_oscore_find_context_by_UUID`, and the same
search at lines 101-109. -/
def byUuid (ctxs : List Ctx) (device uuid : Nat) : Option Nat :=
  ctxs.findIdx? (fun c => c.mat.uuid == uuid && c.mat.device == device)

/-- security/oc_oscore_context.c:32-47 `oc_oscore_find_group_context`: of any device. -/
def group (ctxs : List Ctx) : Option Nat :=
  ctxs.findIdx? (fun c => c.mat.kind == .groupClient)

/-- security/oc_oscore_context.c:73-99: the request that an incoming response belongs
to: partial IV and id of the peer, from the waiting request with the token or else
from a transaction with the token or (not over TCP) the message id. -/
def request (n : Node) (tcp : Bool) (token : Bytes) (mid : Nat) : Option (Bytes × Nat) :=
  match n.cbs.find? (fun c => c.token == token) with
  | some cb => some (cb.piv, cb.uuid)
  | none =>
    match n.trs.find? (fun t => t.token == token) with
    | some t => some (t.piv, t.uuid)
    | none =>
      if tcp then none
      else (n.trs.find? (fun t => t.mid == mid)).map (fun t => (t.piv, t.uuid))

/-- security/oc_oscore_context.c:66-111 `oc_oscore_find_context_by_token_mid`: the context
and `request_piv`. -/
def byToken (n : Node) (device : Nat) (tcp : Bool) (token : Bytes) (mid : Nat) :
    Option (Nat × Bytes) :=
  match request n tcp token mid with
  | none => none
  | some (piv, uuid) => (byUuid n.ctxs device uuid).map (fun i => (i, piv))

/-- security/oc_oscore_engine.c:129, 147, 223 `code <= OC_FETCH` (5). -/
def isReq (code : Nat) : Bool := decide (code ≤ 5)

/-- security/oc_oscore_engine.c:135-161: the search for the context and `request_piv`;
the outer `none` is the request without kid. -/
def lookup (n : Node) (e : Ep) (p : Pkt) : Option (Option (Nat × Bytes)) :=
  if p.kid ≠ [] then some ((byKid n.ctxs e.device p.kid).map (fun i => (i, [])))
  else if isReq p.code then none
  else some (byToken n e.device e.tcp p.token p.mid)

/-- security/oc_oscore_engine.c:188-197: the replay check of a request with a partial
IV: `none` if it is refused, else the replay window. -/
def replay (c : Ctx) (p : Pkt) : Out (Option Oscore.Win) :=
  if p.piv ≠ [] ∧ 1 ≤ p.code ∧ p.code ≤ 5 then
    match Oscore.readPiv p.piv with
    | .ub => .ub
    | .ok v => .ok (if (Oscore.check c.win v.toNat).1 then none else some (Oscore.check c.win v.toNat).2)
  else .ok (some c.win)

/-- security/oc_oscore_engine.c:186, 207-242: the nonce.  The partial IV is copied into
an array of five bytes (include/oc_endpoint.h:106). -/
def recvNonce (m : Mat) (p : Pkt) (rpiv : Bytes) : Out Bytes :=
  if p.piv ≠ [] then
    if p.piv.length > 5 then .ub else Oscore.nonce m.recvid p.piv m.civ
  else if isReq p.code then .ok (List.replicate Oscore.nonceLen 0)
  else Oscore.nonce m.sendid rpiv m.civ

/-- security/oc_oscore_engine.c:185, 199-201, 244-246: the AAD; empty for a request
without partial IV (or with the code 0). -/
def recvAad (m : Mat) (p : Pkt) (rpiv : Bytes) : Bytes :=
  if isReq p.code then
    if p.piv ≠ [] ∧ 1 ≤ p.code then aad m.recvid p.piv else []
  else aad m.sendid rpiv

/-- security/oc_oscore_engine.c:206-208, 227-233: the partial IV left in the endpoint. -/
def epPiv (p : Pkt) (rpiv : Bytes) : Bytes :=
  if p.piv ≠ [] then p.piv else if isReq p.code then [] else rpiv

/-- security/oc_oscore_crypto.c:299-318 `oc_oscore_decrypt`, ideal. -/
def decrypt (key : Nat) (nonce aad : Bytes) : Payload → Option Inner
  | .junk _ => none
  | .sealed c => if c.key = key ∧ c.nonce = nonce ∧ c.aad = aad then some c.plain else none

/-- security/oc_oscore_engine.c:96-104: the message for the CoAP layer: type, message
id, token and the value of Observe of the outer message; whether there is an Observe
option is decided by the inner one. -/
def mkIn (m : Mat) (p : Pkt) (rpiv : Bytes) (i : Inner) : In :=
  { uuid := m.uuid, piv := epPiv p rpiv, con := p.con, code := i.code, mid := p.mid
    token := p.token, obs := i.obs.map (fun _ => p.obs), body := i.body }

/-- security/oc_oscore_engine.c:252-278 with 70-107: decryption and the inner message.
Errors: 4.00 is 128.  2 is POST. -/
def inner (m : Mat) (p : Pkt) (rpiv nonce : Bytes) : Res :=
  match decrypt m.recvkey nonce (recvAad m p rpiv) p.payload with
  | none => .refuse 128
  | some i => if m.kind = .groupServer ∧ i.code ≠ 2 then .drop else .pass (mkIn m p rpiv i)

/-- security/oc_oscore_engine.c:182-287: a message for which a context was found. -/
def withCtx (n : Node) (i : Nat) (c : Ctx) (p : Pkt) (rpiv : Bytes) : Out (Node × Res) :=
  match replay c p with
  | .ub => .ub
  | .ok none => .ok (n, .refuse 129)
  | .ok (some w) =>
    match recvNonce c.mat p rpiv with
    | .ub => .ub
    | .ok nonce =>
      .ok ({ n with ctxs := n.ctxs.set i { c with win := w } }, inner c.mat p rpiv nonce)

/-- security/oc_oscore_engine.c:109-288 `oscore_parse_message` after the outer message
was parsed; `dup` is the answer of `oc_coap_check_if_duplicate` (see `Verif.Dedup`).
4.01 is 129, 4.02 is 130.  A partial IV found for a response is at most five bytes long,
the size of the arrays in include/oc_client_state.h:138 and include/oc_endpoint.h:106. -/
def recv (n : Node) (e : Ep) (p : Pkt) (dup : Bool) : Out (Node × Res) :=
  if e.tcp = false ∧ isReq p.code ∧ dup then .ok (n, .drop)
  else
    match lookup n e p with
    | none => .ok (n, .refuse 130)
    | some none => .ok (n, .refuse 129)
    | some (some (i, rpiv)) =>
      match n.ctxs[i]? with
      | none => .ub
      | some c =>
        if e.mcast = false ∧ c.mat.kind ≠ .pair then .ok (n, .drop)
        else withCtx n i c p rpiv

/-- A message from the lower layer: with or without the OSCORE option
(messaging/coap/oscore.c:433-509 `oscore_is_oscore_message`, see `Verif.Oscore`). -/
inductive Frame where
  | plain (m : In)
  | prot (p : Pkt)
  deriving Repr, DecidableEq

/-- security/oc_oscore_engine.c:290-351 `oc_oscore_recv_message`: a message without the
option is passed on as it is; the event queue is not full. -/
def recvMessage (n : Node) (e : Ep) (f : Frame) (dup : Bool) : Out (Node × Res) :=
  match f with
  | .plain m => .ok (n, .pass m)
  | .prot p => recv n e p dup

/-- messaging/coap/oscore.c:32-71 `oscore_send_error`: the error code sent, if any. -/
def answer (e : Ep) : Res → Option Nat
  | .refuse c => if e.mcast then none else some c
  | _ => none

/-- An outgoing message: logical device, id and partial IV of its endpoint, whether
somebody else (a transaction) holds it too, and the message. -/
structure OutM where
  device : Nat := 0
  uuid : Nat
  mcast : Bool := false
  piv : Bytes := []
  shared : Bool := false
  con : Bool := false
  code : Nat
  mid : Nat := 0
  token : Bytes := []
  obs : Option Nat := none
  body : Bytes := []
  deriving Repr, DecidableEq

/-- What is sent: nothing, the message as it is, or a protected one. -/
inductive Sent where
  | none
  | plain
  | prot (p : Pkt)
  deriving Repr, DecidableEq

/-- security/oc_oscore_engine.c:610-616: a request (GET to DELETE, and the signals CSM,
Ping and Abort). -/
def asReq (code : Nat) : Bool :=
  decide (1 ≤ code ∧ code ≤ 4) || code == 226 || code == 229 || code == 225

/-- security/oc_oscore_engine.c:732-741, 749-751: the plaintext; the Observe value of a
notification is emptied. -/
def innerOf (m : OutM) : Inner :=
  { code := m.code, obs := m.obs.map (fun v => if v ≥ 2 then 0 else v), body := m.body }

/-- messaging/coap/oscore.c:130-158 `oscore_get_outer_code`: POST, FETCH, 2.04 (68) or
2.05 (69). -/
def outerCode (m : OutM) : Nat :=
  if asReq m.code then (if m.obs.isSome then 5 else 2) else if m.obs.isSome then 69 else 68

/-- security/oc_oscore_engine.c:757-804: the protected message.  The Observe value is
reflected in the outer message. -/
def mkPkt (m : OutM) (piv kid : Bytes) (c : Cipher) : Pkt :=
  { con := m.con, code := outerCode m, mid := m.mid, token := m.token, obs := m.obs.getD 0
    piv := piv, kid := kid, payload := .sealed c }

/-- security/oc_oscore_engine.c:667-671, 707-711: the partial IV of the message kept by
somebody else. -/
def kept (m : OutM) (piv : Bytes) : Bytes := if m.shared then piv else m.piv

/-- security/oc_oscore_engine.c:643-645: the partial IV of the request is noted in the
first waiting request with the token. -/
def note (cbs : List Cb) (token piv : Bytes) : List Cb :=
  match cbs with
  | [] => []
  | c :: rest => if c.token = token then { c with piv := piv } :: rest else c :: note rest token piv

/-- security/oc_oscore_engine.c:632-647: the waiting requests, `none` if a request (not
a signal) has none. -/
def noted (cbs : List Cb) (m : OutM) (piv : Bytes) : Option (List Cb) :=
  if 1 ≤ m.code ∧ m.code ≤ 4 then
    if cbs.any (fun c => c.token == m.token) then some (note cbs m.token piv) else none
  else some cbs

/-- security/oc_oscore_engine.c:623-671 and 714-814: a request; the sender sequence
number is used up also if there is no waiting request. -/
def sendReq (n : Node) (i : Nat) (c : Ctx) (m : OutM) : Out (Node × Sent × Bytes) :=
  let n1 : Node := { n with ctxs := n.ctxs.set i { c with ssn := c.ssn + 1 } }
  match noted n.cbs m (Oscore.storePiv c.ssn) with
  | none => .ok (n1, .none, m.piv)
  | some cbs =>
    match Oscore.nonce c.mat.sendid (Oscore.storePiv c.ssn) c.mat.civ with
    | .ub => .ub
    | .ok nonce =>
      .ok ({ n1 with cbs := cbs },
           .prot (mkPkt m (Oscore.storePiv c.ssn) c.mat.sendid
             ⟨c.mat.sendkey, nonce, aad c.mat.sendid (Oscore.storePiv c.ssn), innerOf m⟩),
           kept m (Oscore.storePiv c.ssn))

/-- security/oc_oscore_engine.c:678-814: a response (or acknowledgement) to a protected
message. -/
def sendRsp (n : Node) (i : Nat) (c : Ctx) (m : OutM) : Out (Node × Sent × Bytes) :=
  match Oscore.nonce c.mat.sendid (Oscore.storePiv c.ssn) c.mat.civ with
  | .ub => .ub
  | .ok nonce =>
    .ok ({ n with ctxs := n.ctxs.set i { c with ssn := c.ssn + 1 } },
         .prot (mkPkt m (Oscore.storePiv c.ssn) []
           ⟨c.mat.sendkey, nonce, aad c.mat.recvid m.piv, innerOf m⟩),
         kept m (Oscore.storePiv c.ssn))

/-- security/oc_oscore_engine.c:509-820 `oc_oscore_send_message`: the node, what is sent
and the partial IV in the endpoint of the message if somebody else holds it.  `mem` is
whether the clone can be allocated (line 570); the result is used unchecked.  The
partial IV of the endpoint is an array of five bytes, so a longer one does not exist. -/
def send (mem : Bool) (n : Node) (m : OutM) : Out (Node × Sent × Bytes) :=
  match byUuid n.ctxs m.device m.uuid with
  | none => .ok (n, .plain, m.piv)
  | some i =>
    match n.ctxs[i]? with
    | none => .ub
    | some c =>
      if m.mcast then .ok (n, .none, m.piv)
      else if mem = false then .ub
      else if asReq m.code then
        if n.rfnop.contains m.device then sendReq n i c m else .ok (n, .none, m.piv)
      else if m.piv = [] then .ok (n, .plain, m.piv)
      else if m.piv.length > 5 then .ub
      else sendRsp n i c m

/-- security/oc_oscore_engine.c:378-499 for a group context that was found. -/
def groupWith (n : Node) (i : Nat) (c : Ctx) (m : OutM) : Out (Node × Sent) :=
  match Oscore.nonce c.mat.sendid (Oscore.storePiv c.ssn) c.mat.civ with
  | .ub => .ub
  | .ok nonce =>
    .ok ({ n with ctxs := n.ctxs.set i { c with ssn := c.ssn + 1 } },
         .prot { con := m.con, code := 2, mid := m.mid, token := m.token, obs := m.obs.getD 0
                 piv := Oscore.storePiv c.ssn, kid := c.mat.sendid
                 payload := .sealed ⟨c.mat.sendkey, nonce, aad c.mat.sendid (Oscore.storePiv c.ssn),
                   { code := m.code, obs := m.obs, body := m.body }⟩ })

/-- security/oc_oscore_engine.c:354-506 `oc_oscore_send_multicast_message`. -/
def sendGroup (n : Node) (m : OutM) : Out (Node × Sent) :=
  match group n.ctxs with
  | none => .ok (n, .none)
  | some i =>
    match n.ctxs[i]? with
    | none => .ub
    | some c => groupWith n i c m

/-- api/client/oc_client_cb.c:448-458: whether a response is given to the handler of the
waiting request, and the number noted.  `piv` is the partial IV in the endpoint, `obs`
the Observe value. -/
def notifNum (cb : Cb) (piv : Bytes) (obs : Option Nat) : Out (Bool × Cb) :=
  match obs with
  | some v =>
    if v ≥ 2 then
      match Oscore.readPiv piv with
      | .ub => .ub
      | .ok k => .ok (if k.toNat < cb.notif then (false, cb) else (true, { cb with notif := k.toNat }))
    else .ok (true, cb)
  | none => .ok (true, cb)

/-- messaging/coap/engine.c:893-901: the waiting request to which the CoAP layer gives a
response, protected or not: the one with the token. -/
def taker (n : Node) (token : Bytes) : Option Cb := n.cbs.find? (fun c => c.token == token)

/-! ### Several nodes and the network -/

/-- A message protected by a node, for the theorems only: the key material used, the
number used, whether as a request, the partial IV of the request answered otherwise, and
what was said. -/
structure Ev where
  mat : Mat
  num : BitVec 64
  req : Bool
  rpiv : Bytes
  inner : Inner
  deriving Repr, DecidableEq

/-- Nodes, the ciphertexts that were ever sent, and the record of them. -/
structure Sys where
  nodes : List Node
  wire : List Cipher := []
  log : List Ev := []
  deriving Repr, DecidableEq

/-- Steps: a node sends (also to a group), a node receives any message, the CoAP layer
of a node changes its waiting requests, transactions and device states. -/
inductive Op where
  | send (k : Nat) (mem : Bool) (m : OutM)
  | cast (k : Nat) (m : OutM)
  | recv (k : Nat) (e : Ep) (p : Pkt) (dup : Bool)
  | upper (k : Nat) (cbs : List Cb) (trs : List Tr) (rfnop : List Nat)
  deriving Repr, DecidableEq

/-- The network carries what was sent and whatever can be made without the keys: every
outer message, with a payload that was sent before or is no ciphertext. -/
def Sys.knows (s : Sys) : Payload → Bool
  | .junk _ => true
  | .sealed c => s.wire.contains c

/-- The ciphertext of a message. -/
def cipherOf : Sent → Option Cipher
  | .prot p => match p.payload with | .sealed c => some c | .junk _ => none
  | _ => none

/-- The node after sending, and its message on the network. -/
def Sys.put (s : Sys) (k : Nat) (n : Node) (r : Sent) (ev : Ev) : Sys :=
  match cipherOf r with
  | none => { s with nodes := s.nodes.set k n }
  | some c => { nodes := s.nodes.set k n, wire := c :: s.wire, log := ev :: s.log }

/-- The record of a message to a peer. -/
def evOf (n : Node) (m : OutM) : Ev :=
  let c := ((byUuid n.ctxs m.device m.uuid).bind (fun i => n.ctxs[i]?)).getD
    { mat := ⟨0, 0, .pair, [], [], [], 0, 0⟩ }
  { mat := c.mat, num := c.ssn, req := asReq m.code, rpiv := m.piv, inner := innerOf m }

/-- The record of a message to a group. -/
def evGroup (n : Node) (m : OutM) : Ev :=
  let c := ((group n.ctxs).bind (fun i => n.ctxs[i]?)).getD { mat := ⟨0, 0, .pair, [], [], [], 0, 0⟩ }
  { mat := c.mat, num := c.ssn, req := true, rpiv := [], inner := ⟨m.code, m.obs, m.body⟩ }

/-- One step.  The arrays of waiting requests and transactions hold partial IVs of at
most five bytes. -/
def step (s : Sys) : Op → Out Sys
  | .send k mem m =>
    match s.nodes[k]? with
    | none => .ok s
    | some n =>
      match send mem n m with
      | .ub => .ub
      | .ok (n', r, _) => .ok (s.put k n' r (evOf n m))
  | .cast k m =>
    match s.nodes[k]? with
    | none => .ok s
    | some n =>
      match sendGroup n m with
      | .ub => .ub
      | .ok (n', r) => .ok (s.put k n' r (evGroup n m))
  | .recv k e p dup =>
    match s.nodes[k]? with
    | none => .ok s
    | some n =>
      if s.knows p.payload then
        match recv n e p dup with
        | .ub => .ub
        | .ok (n', _) => .ok { s with nodes := s.nodes.set k n' }
      else .ok s
  | .upper k cbs trs rfnop =>
    match s.nodes[k]? with
    | none => .ok s
    | some n =>
      if cbs.all (fun c => c.piv.length ≤ 5) && trs.all (fun t => t.piv.length ≤ 5) then
        .ok { s with nodes := s.nodes.set k { n with cbs := cbs, trs := trs, rfnop := rfnop } }
      else .ok s

/-- A history. -/
def run (s : Sys) : List Op → Out Sys
  | [] => .ok s
  | op :: rest => match step s op with | .ub => .ub | .ok s' => run s' rest

end Verif.OscoreEng
