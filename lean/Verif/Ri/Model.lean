import Verif.Common
import Verif.Rep.Model
import Verif.Query.Model

/-!
Model of how a server dispatches a request: the list of resources and the lookup
by path (api/oc_ri.c, api/oc_resource.c, api/oc_core_res.c, api/oc_collection.c),
the checks made before the handler of a resource runs, the handler, the
observation, and the answer (api/oc_ri.c, messaging/coap/engine.c,
api/oc_server_api.c).

Not modelled here: the block-wise transfer of the payload (it is an input, see
`Stage`), the content of payloads, access control (`Env.acl`; modelled in
`Verif.Acl`), the list of observers (modelled in `Verif.Observe`), duplicates of
messages (modelled in `Verif.Dedup`), and the logging of refused requests.
Stored URIs are C strings, so they contain no NUL and comparing them with
`strncmp` up to their length is equality.  The features ETag, collections, WKCORE,
introspection, JSON encoder, PKI and security are taken to be compiled in.
-/

namespace Verif.Ri

open Verif.Rep (Bytes b)

/-- The slash. -/
def slash : UInt8 := 47

/-- include/oc_ri.h:60-66 `oc_method_t`. Other codes do not reach this code
(engine.c:1074). -/
inductive Method where
  | get | post | put | delete
  deriving DecidableEq, Repr

/-- include/oc_ri.h:169-185 `oc_interface_mask_t`: one interface. -/
inductive Iface where
  | baseline | ll | b | r | rw | a | s | create | w | startup | revert | etag
  deriving DecidableEq, Repr

/-- include/oc_ri.h:170-184: the bit of an interface. -/
def Iface.bit : Iface → BitVec 32
  | .baseline => 1 <<< 1
  | .ll => 1 <<< 2
  | .b => 1 <<< 3
  | .r => 1 <<< 4
  | .rw => 1 <<< 5
  | .a => 1 <<< 6
  | .s => 1 <<< 7
  | .create => 1 <<< 8
  | .w => 1 <<< 9
  | .startup => 1 <<< 10
  | .revert => 1 <<< 11
  | .etag => 1 <<< 12

/-- oc_ri_internal.h:37-49: the name of an interface. -/
def Iface.name : Iface → Bytes
  | .baseline => Rep.b "oic.if.baseline"
  | .ll => Rep.b "oic.if.ll"
  | .b => Rep.b "oic.if.b"
  | .r => Rep.b "oic.if.r"
  | .rw => Rep.b "oic.if.rw"
  | .a => Rep.b "oic.if.a"
  | .s => Rep.b "oic.if.s"
  | .create => Rep.b "oic.if.create"
  | .w => Rep.b "oic.if.w"
  | .startup => Rep.b "oic.if.startup"
  | .revert => Rep.b "oic.if.startup.revert"
  | .etag => Rep.b "x.plgd.if.etag"

/-- oc_ri.c:710-725: the order of the table. -/
def ifaceTable : List Iface :=
  [.baseline, .ll, .b, .r, .rw, .a, .s, .create, .w, .startup, .revert, .etag]

/-- oc_ri.c:703-734 `oc_ri_get_interface_mask`; an unknown name gives 0. -/
def ifaceMask (name : Bytes) : BitVec 32 :=
  match ifaceTable.find? fun i => i.name == name with
  | some i => i.bit
  | none => 0

/-- oc_ri.c:736-765 `oc_ri_interface_supports_method`. -/
def maskAllows (mask : BitVec 32) (m : Method) : Bool :=
  if mask = Iface.ll.bit || mask = Iface.s.bit || mask = Iface.r.bit || mask = Iface.etag.bit then
    m == .get
  else if mask = Iface.w.bit then m == .put || m == .post || m == .delete
  else if mask = Iface.create.bit then m == .get || m == .put || m == .post
  else mask = Iface.rw.bit || mask = Iface.b.bit || mask = Iface.baseline.bit ||
    mask = Iface.a.bit || mask = Iface.startup.bit || mask = Iface.revert.bit

/-- include/oc_ri.h:317-360 `oc_resource_t`: the fields used here. `id` stands
for the address. `has m`: there is a handler for `m`. The links of a collection
are part of the surroundings (`Env.linksOk`). -/
structure Res where
  id : Nat
  dev : Nat
  uri : Bytes
  has : Method → Bool
  ifaces : BitVec 32
  dflt : BitVec 32
  observable : Bool
  periodic : Bool
  period : Nat
  coll : Bool

/-! ### The list of resources -/

/-- A path without one leading slash (core_is_resource_uri oc_core_res.c:676-679;
oc_resource_match_uri oc_resource.c:92-95 decides the same for canonical URIs). -/
def strip1 : Bytes → Bytes
  | c :: r => if c = slash then r else c :: r
  | [] => []

/-- oc_core_res.c:692-780 `oc_core_get_resource_type_by_uri`: the URIs of the
resources of the framework in the order they are compared; the second component
tells whether the resource is shared by all devices (`type < OCF_CON`, :790).
`con`: /oc/con is announced (:703). Maintenance, software update, cloud and plgd
time are taken to be compiled in. -/
def coreTable (con : Bool) : List (Bytes × Bool) :=
  [(b "/oic/p", true), (b "/oic/d", false), (b "/oic/res", false)] ++
  (if con then [(b "/oc/con", false)] else []) ++
  [(b "/oc/wk/introspection", false), (b "/oc/introspection", false), (b "/x.plgd.dev/time", true),
   (b "/.well-known/core", false), (b "/oic/mnt", false), (b "/CoapCloudConfResURI", false),
   (b "/oic/sec/pstat", false), (b "/oic/sec/doxm", false), (b "/oic/sec/acl2", false),
   (b "/oic/sec/cred", false), (b "/oic/sec/ael", false), (b "/oic/sec/sp", false),
   (b "/oic/sec/csr", false), (b "/oic/sec/roles", false), (b "/oic/sec/sdi", false),
   (b "/oc/swu", false)]

/-- The fixed part of a server: whether /oc/con is announced, the number of
devices, and the resources of the framework by URI and device. -/
structure Core where
  con : Bool
  ndev : Nat
  res : Bytes → Nat → Res

/-- oc_core_res.c:783-798 `oc_core_get_resource_by_uri_v1`. -/
def Core.find (c : Core) (uri : Bytes) (dev : Nat) : Option Res :=
  match (coreTable c.con).find? fun e => strip1 e.1 == strip1 uri with
  | none => none
  | some (u, shared) =>
    if shared then some (c.res u 0) else if dev < c.ndev then some (c.res u dev) else none

/-- `g_app_resources`, `g_app_resources_to_be_deleted` (oc_ri.c) and
`g_collections` (oc_collection.c:58). -/
structure Reg where
  app : List Res
  del : List Res
  cols : List Res

/-- oc_ri.c:242-245 and oc_collection.c:260-263: all leading slashes are skipped.
`after` is what follows the path in memory (a NUL for a stored URI; the rest of
the message for a received one). If the path consists of slashes only the loop
goes on behind its end, the length becoming a huge number (`none`); running off
the memory is undefined. -/
def skipAll : Bytes → Bytes → Out (Option Bytes)
  | c :: r, after => if c = slash then skipAll r after else .ok (some (c :: r))
  | [], [] => .ub
  | [], c :: r => if c = slash then go r else .ok (some [])
where
  /-- Behind the end of the path. -/
  go : Bytes → Out (Option Bytes)
    | [] => .ub
    | c :: r => if c = slash then go r else .ok none

/-- oc_ri.c:247-254, oc_collection.c:264-273: the comparison of a stored URI
without its first byte; the length of a wrapped number matches no URI. -/
def sameTail (p : Option Bytes) (dev : Nat) (r : Res) : Bool :=
  r.dev == dev && match p with
    | none => false
    | some u => r.uri.length == u.length + 1 && r.uri.drop 1 == u

/-- oc_ri.c:238-255 `ri_uri_is_in_list`. -/
def inList (l : List Res) (uri after : Bytes) (dev : Nat) : Out Bool :=
  (skipAll uri after).bind fun p => .ok (l.any (sameTail p dev))

/-- oc_collection.c:255-274 `oc_get_collection_by_uri`. -/
def colFind (cols : List Res) (uri after : Bytes) (dev : Nat) : Out (Option Res) :=
  (skipAll uri after).bind fun p => .ok (cols.find? (sameTail p dev))

/-- oc_ri.c:257-277 `oc_ri_URI_is_in_use` for a stored URI, which ends with a
NUL. -/
def inUse (c : Core) (s : Reg) (uri : Bytes) (dev : Nat) : Out Bool :=
  if (c.find uri dev).isSome then .ok true
  else
    (inList s.app uri [0] dev).bind fun x =>
    if x then .ok true
    else (inList s.del uri [0] dev).bind fun y =>
    if y then .ok true
    else (colFind s.cols uri [0] dev).bind fun z => .ok z.isSome

/-- oc_core_res.c:462-484 `oc_store_uri`: the URI kept for a new resource. Texts of
`OC_MAX_STRING_LENGTH` bytes or more leave the URI unset; they are not modelled. -/
def storeUri (u : Bytes) : Bytes :=
  match u with
  | c :: _ => if c = slash then u else slash :: u
  | [] => [slash]

/-- oc_ri.c:636-673 `oc_ri_add_resource`. -/
def addRes (c : Core) (s : Reg) (r : Res) : Out (Bool × Reg) :=
  if !(r.has .get) && !(r.has .put) && !(r.has .post) && !(r.has .delete) then .ok (false, s)
  else if r.periodic && r.period == 0 then .ok (false, s)
  else if s.app.any (·.id == r.id) then .ok (false, s)
  else if s.del.any (·.id == r.id) then .ok (false, s)
  else (inUse c s r.uri r.dev).bind fun u =>
    if u then .ok (false, s) else .ok (true, { s with app := s.app ++ [r] })

/-- oc_collection.c:323-338 `oc_collection_add`. -/
def addCol (c : Core) (s : Reg) (r : Res) : Out (Bool × Reg) :=
  if s.cols.any (·.id == r.id) then .ok (false, s)
  else (inUse c s r.uri r.dev).bind fun u =>
    if u then .ok (false, s) else .ok (true, { s with cols := s.cols ++ [r] })

/-- oc_ri.c:279-307 `oc_delayed_delete_resource`: the resource leaves the list and
waits for its deletion. -/
def delayedDelete (s : Reg) (r : Res) : Reg :=
  { s with
    app := s.app.filter fun x => x.id != r.id
    del := if s.del.any (·.id == r.id) then s.del else s.del ++ [r] }

/-- oc_ri.c:590-592 and oc_collection.c:121: a deleted resource or collection is
in no list. -/
def deleteRes (s : Reg) (i : Nat) : Reg :=
  { app := s.app.filter fun x => x.id != i
    del := s.del.filter fun x => x.id != i
    cols := s.cols }

/-- oc_collection.c:118-141 `collection_free`. -/
def deleteCol (s : Reg) (i : Nat) : Reg := { s with cols := s.cols.filter fun x => x.id != i }

/-- What the application does with resources. -/
inductive Op where
  | add (r : Res)
  | addCol (r : Res)
  | later (r : Res)
  | delete (i : Nat)
  | deleteCol (i : Nat)

/-- One operation. -/
def exec (c : Core) (s : Reg) : Op → Out Reg
  | .add r => (addRes c s r).bind fun x => .ok x.2
  | .addCol r => (addCol c s r).bind fun x => .ok x.2
  | .later r => .ok (delayedDelete s r)
  | .delete i => .ok (deleteRes s i)
  | .deleteCol i => .ok (deleteCol s i)

/-- A history. -/
def run (c : Core) : Reg → List Op → Out Reg
  | s, [] => .ok s
  | s, o :: l => (exec c s o).bind fun s => run c s l

/-- Nothing registered. -/
def empty : Reg := ⟨[], [], []⟩

/-- oc_ri.c:460-468: the comparison of an application resource. -/
def appSame (uri : Bytes) (dev : Nat) (r : Res) : Bool :=
  let skip := match uri with
    | c :: _ => if c = slash then 0 else 1
    | [] => 1
  r.uri.length == uri.length + skip && uri == r.uri.drop skip && r.dev == dev

/-- oc_ri.c:449-477 `oc_ri_get_app_resource_by_uri`. -/
def appFind (s : Reg) (uri after : Bytes) (dev : Nat) : Out (Option Res) :=
  if uri.length = 0 then .ok none
  else match s.app.find? (appSame uri dev) with
    | some r => .ok (some r)
    | none => colFind s.cols uri after dev

/-- oc_resource.c:370-387 `oc_resource_get_by_uri`. -/
def lookup (c : Core) (s : Reg) (uri after : Bytes) (dev : Nat) : Out (Option Res) :=
  match c.find uri dev with
  | some r => .ok (some r)
  | none => appFind s uri after dev

/-! ### The checks -/

/-- CoAP codes (messaging/coap/constants.h): the ones used here. -/
def c205 : Nat := 69
/-- 2.03 Valid. -/
def c203 : Nat := 67
/-- 4.00 Bad Request. -/
def c400 : Nat := 128
/-- 4.01 Unauthorized. -/
def c401 : Nat := 129
/-- 4.03 Forbidden. -/
def c403 : Nat := 131
/-- 4.04 Not Found. -/
def c404 : Nat := 132
/-- 4.05 Method Not Allowed. -/
def c405 : Nat := 133
/-- 4.13 Request Entity Too Large. -/
def c413 : Nat := 141
/-- `CLEAR_TRANSACTION`: nothing is sent. -/
def clearTx : Nat := 194

/-- Content formats (include/oc_ri.h:115-150); `undef` is
`APPLICATION_NOT_DEFINED`. -/
def undef : Nat := 65535
/-- application/cbor. -/
def cbor : Nat := 60
/-- application/vnd.ocf+cbor. -/
def ocfCbor : Nat := 10000
/-- application/json. -/
def json : Nat := 50
/-- application/td+json. -/
def tdJson : Nat := 432
/-- application/link-format. -/
def linkFormat : Nat := 40

/-- oc_rep_decode.c:574-596 `oc_rep_decoder_is_supported_content_format`. -/
def cfSupported (cf : Nat) : Bool := cf == undef || cf == cbor || cf == ocfCbor || cf == json || cf == tdJson

/-- A request as it reaches `oc_ri_prepare_request` (oc_ri.c:1692-1740). `after`:
the bytes of the message behind the path. `cf`, `accept` are `undef` if absent. -/
structure Req where
  method : Method
  path : Bytes
  after : Bytes
  query : Bytes
  cf : Nat
  accept : Nat
  observe : Option Nat
  etag : Bytes
  dev : Nat
  mcast : Bool

/-- What the handler of a resource does with a request: `ok` is the result of
`oc_handle_collection_request` (true for other resources), `code` the code set by
`oc_send_response` (0: none was set), `len` the length of the payload, `cf` its
content format, `sep`: `oc_indicate_separate_response` was called, `etag`: the one
set with `oc_set_send_response_etag`. -/
structure Act where
  ok : Bool
  code : Nat
  len : Nat
  cf : Nat
  sep : Bool
  etag : Option Bytes

/-- The result of decoding a payload: fine, cut short (`CborErrorUnexpectedEOF`),
any other error. -/
inductive Dec where
  | ok | eof | err
  deriving DecidableEq

/-- The stage between the checks and the handler (engine.c:513-593
`coap_receive_method_payload`): the payload is complete; an answer was made there
(e.g. 2.31 Continue); or the request is answered with a RST message. -/
inductive Stage where
  | complete (payload : Bytes)
  | answered (code : Nat)
  | reset

/-- The surroundings of one request: access control, the text of the identifier of
a device, the decoder, whether the buffer of the answer can be allocated, the
handlers, the ETag of a resource (batch or not; 0: none), whether the resource is
/oic/res and batch answers to this peer are unsupported (oc_ri.c:1657-1665),
whether the observer and the periodic callback can be allocated, whether a
collection's links may be observed by this peer (oc_ri.c:859-891), and whether the
peer is an observer with the token of the request. -/
structure Env where
  core : Core
  acl : Res → Method → Bool
  di : Nat → Bytes
  decode : Bytes → Dec
  alloc : Bool
  handle : Res → Method → BitVec 32 → Act
  etag : Res → Bool → Nat
  noBatch : Res → Bool
  obsAlloc : Bool
  pollAlloc : Bool
  linksOk : Res → Bool
  observing : Bool

/-- oc_ri.c:382-395: the loop over the `di` keys of a query. `fuel` bounds the
number of iterations; the position increases. A key without value leaves a null
pointer, with which pointers are subtracted (:393). -/
def diLoop (di q : Bytes) : Nat → Nat → Out Bool
  | 0, _ => .ok false
  | fuel + 1, pos =>
    if pos < q.length then
      match Query.getValue (q.drop pos) (b "di") with
      | none => .ok (pos == 0)
      | some (none, _) => .ub
      | some (some v, len) =>
        if len + 1 = 37 ∧ ((q.drop pos).drop v).take len = di then .ok true
        else diLoop di q fuel (pos + v + len)
    else .ok false

/-- oc_ri.c:371-396 `oc_ri_filter_request_by_device_id`. The device exists. -/
def diFilter (di q : Bytes) : Out Bool :=
  if q.length = 0 then .ok true else diLoop di q (q.length + 1) 0

/-- oc_ri.c:1493-1504 `get_iface_query` with :1721-1724. -/
def ifaceQuery (q : Bytes) : BitVec 32 :=
  if q.length = 0 then 0
  else match Query.getValue q (b "if") with
    | some (some v, len) => ifaceMask ((q.drop v).take len)
    | _ => 0

/-- oc_ri.c:1540-1548 `get_iface_mask`. -/
def ifaceOf (q : Req) (r : Res) : BitVec 32 :=
  if ifaceQuery q.query = 0 then r.dflt else ifaceQuery q.query

/-- oc_ri.c:1264-1273 `bitmask_code_t`. -/
structure Mask where
  notModified : Bool := false
  bad : Bool := false
  tooLarge : Bool := false
  forbidden : Bool := false
  unauth : Bool := false
  notFound : Bool := false
  noMethod : Bool := false
  deriving DecidableEq

/-- No bit is set. -/
def Mask.zero (m : Mask) : Bool :=
  !m.notModified && !m.bad && !m.tooLarge && !m.forbidden && !m.unauth && !m.notFound && !m.noMethod

/-- oc_ri.c:1506-1511 `bitmask_code_to_success`. -/
def Mask.success (m : Mask) : Bool :=
  !m.bad && !m.tooLarge && !m.forbidden && !m.unauth && !m.notFound && !m.noMethod

/-- oc_ri.c:1438-1491 `bitmask_code_to_status`. -/
def Mask.status (m : Mask) : Nat :=
  if m.forbidden then c403
  else if m.unauth then c401
  else if m.tooLarge then c413
  else if m.bad then c400
  else if m.notFound then c404
  else if m.noMethod then c405
  else if m.notModified then c203
  else c205

/-- The outcome of the checks: nothing is sent, an answer with a code, or the
request goes on. -/
inductive Verdict where
  | drop
  | refuse (code : Nat)
  | go
  deriving DecidableEq

/-- oc_ri.c:1577-1621: the bits of the checks. -/
def headerMask (e : Env) (q : Req) (res : Option Res) : Mask :=
  match res with
  | none => { notFound := true }
  | some r =>
    let i := ifaceOf q r
    let bad := decide (i &&& ~~~ r.ifaces ≠ 0) || !maskAllows i q.method
    let cf := !bad && !cfSupported q.cf
    let nom := !bad && !cf && !r.coll && !(r.has q.method)
    { bad := bad || cf, forbidden := bad, noMethod := nom, unauth := !e.acl r q.method }

/-- oc_ri.c:1550-1626 `ri_parse_coap_request_header` with
`ri_validate_coap_set_response` (:1513-1538), after the lookup. -/
def header (e : Env) (q : Req) (res : Option Res) : Out Verdict :=
  (if q.query.length ≠ 0 && q.mcast then diFilter (e.di q.dev) q.query else .ok true).bind fun ok =>
  if !ok then .ok .drop
  else
    let m := headerMask e q res
    if q.mcast && decide (m.status ≥ c400) then .ok .drop
    else if m.success then .ok .go
    else .ok (.refuse m.status)

/-! ### The handler and the answer -/

/-- What the request changes: an observer is added (with the interface of the
query), the observer with this token is removed, the periodic callback of the
resource is added or removed, observers are notified of a change, or of a change
of the defaults. -/
inductive Eff where
  | addObs (res : Nat) (iface : BitVec 32)
  | rmObs
  | poll (res : Nat)
  | unpoll (res : Nat)
  | changed (res : Nat)
  | defaults (res : Nat) (iface : BitVec 32)
  deriving DecidableEq

/-- What goes back to the client: nothing, an answer (code, length of the payload,
content format if given, Observe option, ETag), a RST message (5.00 over TCP), or
the answer comes later. -/
inductive Reply where
  | nothing
  | msg (code len : Nat) (cf : Option Nat) (observe : Option Nat) (etag : Bytes)
  | reset
  | later (observe : Option Nat)

/-- The result of a request: the handler that ran, if any, the effects, the
reply. -/
structure Result where
  ran : Option (Res × Method × BitVec 32)
  eff : List Eff
  reply : Reply

/-- oc_ri.c:1638-1689 `ri_invoke_coap_set_etag`: refused, the ETag stored for the
answer, and whether the client's one is current. -/
def setEtag (e : Env) (q : Req) (r : Res) (i : BitVec 32) : Mask × Bytes :=
  if !(q.method == .get && (r.coll || r.has .get)) then ({}, [])
  else
    let batch := i == Iface.b.bit
    if batch && e.noBatch r then ({ bad := true }, [])
    else
      let t := e.etag r batch
      if t = 0 then ({}, [])
      else
        let bytes := (List.range 8).map fun k => UInt8.ofNat (t / 256 ^ k % 256)
        ({ notModified := q.etag == bytes }, bytes)

/-- oc_ri.c:1228-1262 `ri_invoke_coap_entity_get_payload_rep`: the bits of the
payload. -/
def payloadMask (e : Env) (q : Req) (payload : Bytes) : Mask :=
  if payload.length = 0 then {}
  else if !cfSupported q.cf then { bad := true }
  else match e.decode payload with
    | .ok => {}
    | .eof => { bad := true, tooLarge := true }
    | .err => { bad := true }

/-- oc_ri.c:1298-1436 `ri_invoke_handler` with `ri_invoke_request_handler`
(:808-838): the bits, and what the handler did if it ran. -/
def invoke (e : Env) (q : Req) (r : Res) (i : BitVec 32) (payload : Bytes) : Mask × Option Act :=
  if !e.alloc then ({ bad := true }, none)
  else
    let m := payloadMask e q payload
    if !m.zero then (m, none)
    else if r.coll then
      let a := e.handle r q.method i
      ({ bad := !a.ok }, some a)
    else if r.has q.method then (({} : Mask), some (e.handle r q.method i))
    else ({ bad := true }, none)

/-- oc_ri.c:925-956 `ri_add_observation` with `ri_observe_handler` (:895-923): the
result and the effects. The code of the answer packet is still 2.05 there
(engine.c:254, 260, 275), the request is a GET with an Observe option. -/
def addObservation (e : Env) (r : Res) (iq : BitVec 32) : Bool × List Eff :=
  let added : List Eff := if e.obsAlloc then [.addObs r.id iq] else []
  let poll := e.obsAlloc && r.periodic
  if poll && !e.pollAlloc then (false, added)
  else
    let eff := added ++ (if poll then [.poll r.id] else [])
    if r.coll && !e.linksOk r then (false, eff) else (true, eff)

/-- oc_ri.c:988-1030 `ri_handle_observation` with `ri_remove_observation`
(:958-986): the value kept for a separate response, the Observe option of the
answer, the effects. The periodic callbacks of the links of a collection are not
modelled. -/
def observation (e : Env) (q : Req) (r : Res) (iq : BitVec 32) : Option Nat × Option Nat × List Eff :=
  match (if r.observable then q.observe else none) with
  | none => (none, none, [])
  | some 0 =>
    let x := addObservation e r iq
    if x.1 then (some 0, some 0, x.2) else (none, none, x.2 ++ [.rmObs])
  | some 1 =>
    (some 1, none, if e.observing then .rmObs :: (if r.periodic then [.unpoll r.id] else []) else [])
  | some n => (some n, none, [])

/-- oc_ri.c:1122-1226 `ri_invoke_coap_entity_set_response` and the rest of
engine.c:658-744, 832-837: the reply and the notifications. `sep`: a separate
response was announced. `obs` are the values of `observation`. Registering the
client for the separate response is taken to succeed. -/
def respond (q : Req) (r : Res) (i : BitVec 32) (code len cf : Nat) (sep : Bool) (etag : Bytes)
    (obs : Option Nat × Option Nat) : List Eff × Reply :=
  if sep then ([], .later obs.1)
  else if code = clearTx then ([], .nothing)
  else
    let eff : List Eff :=
      if !r.coll && (q.method == .put || q.method == .post) && decide (code < c400) then
        if i = Iface.startup.bit || i = Iface.revert.bit then [.defaults r.id i] else [.changed r.id]
      else []
    let tag := if q.method == .get && (code == c205 || code == c203) then etag else []
    if code = 0 then (eff, .reset)
    else (eff, .msg code len (if len > 0 && decide (cf > 0) then some cf else none) obs.2 tag)

/-- oc_ri.c:1829-1896, the part of `ri_invoke_coap_entity_handler` behind the
handler: the observation, silencing of errors of multicast requests, the answer.
`ok` tells that no error bit is set. -/
def finish (e : Env) (q : Req) (r : Res) (i : BitVec 32) (ok : Bool) (code len cf : Nat) (sep : Bool)
    (etag : Bytes) : List Eff × Reply :=
  let o := if ok && q.method == .get && decide (code < c400)
    then observation e q r (ifaceQuery q.query) else (none, none, [])
  let code := if q.mcast && decide (code ≥ c400) then clearTx else code
  let y := respond q r i code len cf sep etag (o.1, o.2.1)
  (o.2.2 ++ y.1, y.2)

/-- The code in the buffer of the answer (oc_ri.c:1753: 0 at first; :1848-1852). -/
def codeOf (m : Mask) : Option Act → Nat
  | some a => if m.zero then a.code else m.status
  | none => if m.zero then 0 else m.status

/-- A separate response was announced. -/
def sepOf : Option Act → Bool
  | some a => a.sep
  | none => false

/-- oc_ri.c:1742-1900 `ri_invoke_coap_entity_handler` for a resource that was
found. -/
def entity (e : Env) (q : Req) (r : Res) (payload : Bytes) : Result :=
  let i := ifaceOf q r
  let t := setEtag e q r i
  let x : Mask × Option Act := if t.1.zero then invoke e q r i payload else (t.1, none)
  let m := x.1
  let len := if m.zero then (match x.2 with | some a => a.len | none => 0) else 0
  let cf := match x.2 with | some a => a.cf | none => undef
  let etag := match x.2 with | some a => a.etag.getD t.2 | none => t.2
  let y := finish e q r i m.success (codeOf m x.2) len cf (sepOf x.2) etag
  ⟨x.2.map fun _ => (r, q.method, i), y.1, y.2⟩

/-- The answer of `ri_parse_coap_request_header` or of the stage before the
handler. -/
def plain (code : Nat) : Result := ⟨none, [], .msg code 0 none none []⟩

/-- engine.c:778-838 `coap_receive_request_with_method` with :1187-1215. -/
def serve (e : Env) (s : Reg) (q : Req) (st : Stage) : Out Result :=
  (lookup e.core s q.path q.after q.dev).bind fun res =>
  (header e q res).bind fun v =>
  match v with
  | .drop => .ok ⟨none, [], .nothing⟩
  | .refuse c => .ok (plain c)
  | .go =>
    match st, res with
    | .answered c, _ => .ok (plain c)
    | .reset, _ => .ok ⟨none, [], .reset⟩
    | .complete p, some r => .ok (entity e q r p)
    | .complete _, none => .ok ⟨none, [], .reset⟩

/-! ### Answering -/

/-- The encoder in use (`g_rep_encoder.type`). -/
inductive Enc where
  | cbor | json
  deriving DecidableEq

/-- oc_rep_encode.c:202-217 `oc_rep_encoder_set_type_by_accept`: the encoder
afterwards; an unknown format leaves the one in use. -/
def encByAccept (old : Enc) (accept : Nat) : Enc :=
  if accept = cbor ∨ accept = ocfCbor ∨ accept = undef then .cbor
  else if accept = json ∨ accept = tdJson then .json
  else old

/-- coap.c:697-705 `coap_parse_is_valid_accept_option`: the values of the Accept
option that are let through. -/
def acceptOk (a : Nat) : Bool := a == ocfCbor || a == cbor || a == json || a == tdJson || a == linkFormat

/-- oc_server_api.c:170-196 `oc_send_response_with_callback` for a request whose
answer has no content format yet: code, content format and length of the payload.
`size` is `oc_rep_get_encoded_payload_size`. `status` is the code of the given
status (`none`: not a status, :141-145). -/
def sendResponse (q : Req) (status : Option Nat) (size : Nat) : Act :=
  match status with
  | none => ⟨true, clearTx, 0, undef, false, none⟩
  | some c =>
    let trunc := q.method ≠ .get ∨ c ≠ c205
    ⟨true, c, if trunc ∧ size ≤ 2 then 0 else size,
      if q.accept ≠ undef then q.accept else ocfCbor, false, none⟩

end Verif.Ri
