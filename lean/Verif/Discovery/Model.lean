import Verif.Rep.Model
import Verif.Ri.Model
import Verif.Uuid.Model
import Verif.Endpoint.Model
import Verif.Etag.Model
import Verif.Collection.Model

/-!
Model of api/oc_discovery.c: the links that `/oic/res` publishes, the batch of
representations with incremental changes, and the processing of a discovery
payload by a client; with the iteration of api/oc_resource.c.

Simplifications: the build has `OC_SECURITY`, `OC_PKI`, `OC_SERVER`, `OC_CLIENT`,
`OC_COLLECTIONS`, `OC_CLOUD`, `OC_INTROSPECTION`, `OC_MNT`, `OC_SOFTWARE_UPDATE`,
`OC_WKCORE`, ETags and the batch interface; not `OC_SPEC_VER_OIC` and not
`OC_OSCORE` (the two multicast endpoints of :181-196).
-/

namespace Verif.Discovery

open Verif.Rep (Bytes Rep Val b)
open Verif.Endpoint (Ep Flags)

/-- include/oc_ri.h:186-229 `oc_core_resource_t`. -/
inductive Kind where
  | p | time | con | introWk | introData | wkcore | res | mnt | cloudconf | swupdate
  | doxm | pstat | acl | ael | cred | sdi | sp | csr | roles | d
  deriving DecidableEq, Repr

/-- The optional properties of a resource written by
`oc_resource_encode_tag_properties`, api/oc_resource.c:262-293 and 363-368; the
names are api/oc_resource_internal.h's. -/
inductive Tag where
  | locn (s : Bytes)
  | posRel (x y z : BitVec 64)
  | posDesc (s : Bytes)
  | funcDesc (s : Bytes)
  deriving DecidableEq, Repr

/-- One property, api/oc_resource.c:262-293. -/
def Tag.val : Tag → Bytes × Val
  | .locn s => (b "tag-locn", .str s)
  | .posRel x y z => (b "tag-pos-rel", .dbls [x, y, z])
  | .posDesc s => (b "tag-pos-desc", .str s)
  | .funcDesc s => (b "tag-func-desc", .str s)

/-- The fields of `oc_resource_t` used here. `addr` is the address of the object;
`disc`, `secure`, `rfotm` are the bits `OC_DISCOVERABLE`, `OC_SECURE`,
`OC_ACCESS_IN_RFOTM` of `properties` (include/oc_ri.h:56-69), `policy` is
`properties & OCF_RES_POLICY_PROPERTIES`; `content` is what its GET handler writes. -/
structure Res where
  addr : Nat
  device : Nat
  uri : Bytes
  types : List Bytes
  ifaces : BitVec 32
  disc : Bool
  secure : Bool
  rfotm : Bool
  policy : BitVec 8
  tags : List Tag
  etag : Nat
  content : Bytes
  deriving DecidableEq, Repr

/-- An endpoint the device listens on: `oc_endpoint_t` with its `interface_index`. -/
structure SEp where
  ep : Ep
  index : Nat
  deriving DecidableEq, Repr

/-- The state of the stack used here. `core k i` is `oc_core_get_resource_by_index`
(api/oc_core_res.c:507-518; platform resources are those of device 0), `announced`
is `oc_get_con_res_announced`, `eps` is `oc_connectivity_get_endpoints`, `inRfotm` is
`oc_sec_get_pstat(i)->s == OC_DOS_RFOTM`, `peers` is `oc_tls_num_peers`, `rfotmFeature`
is `OC_HAS_FEATURE_RESOURCE_ACCESS_IN_RFOTM`. -/
structure World where
  core : Kind → Nat → Option Res
  apps : List Res
  cols : List Res
  announced : Bool
  eps : Nat → List SEp
  inRfotm : Nat → Bool
  peers : Nat → Nat
  rfotmFeature : Bool
  di : Nat → Bytes
  sdiPriv : Nat → Bool
  sdiUuid : Nat → Bytes
  latency : Nat

/-- A GET request for `/oic/res`: the device of the resource, the endpoint it came
from (`request->origin`, not NULL), the resource types asked for, and the value of the
query `sduuid` if there is one that is not empty. -/
structure Req where
  device : Nat
  origin : SEp
  rts : List Bytes
  sduuid : Option Bytes
  deriving DecidableEq, Repr

/-- api/oc_core_res.c:576-595 `oc_core_is_SVR`: the kinds from `OCF_SEC_DOXM` to
`OCF_D - 1`. -/
def svrKinds : List Kind := [.doxm, .pstat, .acl, .ael, .cred, .sdi, .sp, .csr, .roles]

/-- The resource is the object at `core k dev` (comparison of pointers). -/
def isKind (w : World) (k : Kind) (dev : Nat) (r : Res) : Bool :=
  match w.core k dev with
  | some c => c.addr == r.addr
  | none => false

/-- api/oc_core_res.c:576-595 `oc_core_is_SVR`. -/
def isSvr (w : World) (dev : Nat) (r : Res) : Bool := svrKinds.any fun k => isKind w k dev r

/-! ### Links -/

/-- oc_discovery.c:86-99 `ep_origin_flags_and_interface_match`. -/
def originMatch (o e : SEp) : Bool :=
  if o.index ≠ 0 ∧ o.index ≠ e.index then false
  else if (o.ep.flags.ipv4 && e.ep.flags.ipv6) || (o.ep.flags.ipv6 && e.ep.flags.ipv4) then false
  else true

/-- oc_discovery.c:101-136 `oc_filter_out_ep_for_resource`. -/
def filterOut (w : World) (e : SEp) (r : Res) (o : SEp) (dev : Nat) (owned : Bool) : Bool :=
  if !originMatch o e then true
  else if w.rfotmFeature && w.inRfotm dev && r.rfotm then false
  else (r.secure || owned) && !e.ep.flags.secured

/-- oc_discovery.c:166-169 `owned_for_SVRs`. -/
def ownedForSvrs (w : World) (r : Res) (dev : Nat) : Bool :=
  isSvr w dev r && (!w.inRfotm dev || w.peers dev != 0)

/-- oc_discovery.c:157-180 `discovery_encode_endpoints`: the endpoints written. -/
def endpoints (w : World) (q : Req) (r : Res) : List SEp :=
  (w.eps q.device).filter fun e => !filterOut w e r q.origin q.device (ownedForSvrs w r q.device)

/-- oc_discovery.c:221-224, the test of `encode_resource`. -/
def written (q : Req) (r : Res) : Bool := Collection.rtOk q.rts r.types && r.disc

/-- oc_discovery.c:271-276. -/
def platformKinds : List Kind := [.p, .time]

/-- oc_discovery.c:292-320. -/
def deviceKinds : List Kind :=
  [.res, .d, .introWk, .mnt, .swupdate, .doxm, .pstat, .acl, .ael, .cred, .sp, .csr, .roles, .sdi,
    .cloudconf]

/-- oc_discovery.c:266-329 `encode_device_core_resources`. -/
def coreListed (w : World) (q : Req) : List Res :=
  ((platformKinds.filterMap fun k => w.core k 0) ++
    (if w.announced then [Kind.con].filterMap fun k => w.core k q.device else []) ++
    deviceKinds.filterMap fun k => w.core k q.device).filter (written q)

/-- oc_discovery.c:347-372: the resources of the application or the collections. -/
def dynListed (q : Req) (l : List Res) : List Res :=
  l.filter fun r => !(r.device != q.device || !r.disc) && written q r

/-- oc_discovery.c:331-376 `encode_device_resources`: the resources with a link, in
order; `matches` is their number. -/
def listed (w : World) (q : Req) : List Res :=
  coreListed w q ++ dynListed q w.apps ++ dynListed q w.cols

/-- `oc_uuid_to_str` into a buffer of `OC_UUID_LEN` (37) bytes, api/oc_uuid.c:127-176. -/
def uuidText (u : Bytes) : Bytes := (Uuid.toStr u 37).getD []

/-- oc_discovery.c:336-342: the anchor of the links. -/
def anchor (w : World) (dev : Nat) : Bytes := b "ocf://" ++ uuidText (w.di dev)

/-- api/oc_core_res.c:162-208 `oc_core_encode_interfaces_mask` without private
interfaces: the order of the names. -/
def ifaceOrder : List Ri.Iface :=
  [.r, .rw, .a, .s, .ll, .create, .b, .baseline, .w, .startup, .revert]

/-- api/oc_core_res.c:162-208 `oc_core_encode_interfaces_mask`. -/
def ifaceNames (m : BitVec 32) : List Bytes :=
  (ifaceOrder.filter fun i => m &&& i.bit != 0).map fun i => i.name

/-- An array of strings as the decoder hands it out: one without elements has no type
(api/oc_rep_decode.c:248-276). -/
def strsVal (l : List Bytes) : Val := if l.isEmpty then .arr else .strs l

/-- The same for an array of objects. -/
def objsVal (l : List Rep) : Val := if l.isEmpty then .arr else .objs l

/-- oc_discovery.c:138-155 `discovery_encode_endpoint`. -/
def epObj (ntop : Bytes → Bytes) (latency : Nat) (e : SEp) : Out Rep :=
  (Endpoint.toString64 ntop e.ep).bind fun t =>
  .ok ((match t with
        | some s => [(b "ep", Val.str s)]
        | none => []) ++
       (if latency > 0 then [(b "lat", Val.int latency)] else []))

/-- `f` for every element, in order (modelling convention). -/
def outMap {α β : Type} (f : α → Out β) : List α → Out (List β)
  | [] => .ok []
  | a :: l => (f a).bind fun x => (outMap f l).bind fun r => .ok (x :: r)

/-- oc_discovery.c:226-262: the link of a resource with the objects of its endpoints
(`none`: without endpoints). `rel` is for `/oic/res` of the resource's device. -/
def linkRep (w : World) (q : Req) (r : Res) (eps : Option (List Rep)) : Rep :=
  (if isKind w .res r.device r then [(b "rel", Val.strs [b "self"])] else []) ++
  [(b "anchor", .str (anchor w q.device)), (b "href", .str r.uri),
    (b "rt", strsVal (r.types.filter fun t => !t.isEmpty)), (b "if", strsVal (ifaceNames r.ifaces)),
    (b "p", .obj [(b "bm", .int r.policy.toNat)])] ++
  (match eps with
   | some l => [(b "eps", objsVal l)]
   | none => []) ++
  r.tags.map Tag.val

/-- oc_discovery.c:216-264 `encode_resource`: the link. -/
def link (ntop : Bytes → Bytes) (w : World) (q : Req) (withEps : Bool) (r : Res) : Out Rep :=
  if withEps then
    (outMap (epObj ntop w.latency) (endpoints w q r)).bind fun l => .ok (linkRep w q r (some l))
  else .ok (linkRep w q r none)

/-! ### The answer -/

/-- `oc_status_t` as used here: `OC_STATUS_OK`, `OC_STATUS_NOT_MODIFIED`, `OC_IGNORE`,
and `-1`. -/
inductive Code where
  | ok | notModified | ignore | err
  deriving DecidableEq, Repr

/-- What is sent to the client: 2.05 with the payload encoded, another code without
payload, or nothing. -/
inductive Answer where
  | content
  | valid
  | badRequest
  | silent
  deriving DecidableEq, Repr

/-- oc_discovery.c:378-400 `send_response` as called at :1186-1188 (`is_empty` is "the
code is not OK"); `len` is the number of bytes of the payload. -/
def send (unicast : Bool) (code : Code) (len : Nat) : Answer :=
  if code = .ok ∧ len > 0 then .content
  else if code = .notModified then .valid
  else if unicast then .badRequest
  else .silent

/-- The interfaces of `/oic/res`, oc_discovery.c:1106-1156: links, batch, baseline, the
private ETag interface, or another one. -/
inductive View where
  | ll | batch | baseline | etag | other
  deriving DecidableEq, Repr

/-- oc_discovery.c:1106-1156 `discovery_encode`; `batchCode` is the result of
`discovery_process_batch_request`. -/
def encode (w : World) (q : Req) (v : View) (batchCode : Code) : Code :=
  match v with
  | .ll => if (listed w q).length > 0 then .ok else .ignore
  | .batch => if !q.origin.ep.flags.secured then .err else batchCode
  | .baseline => if (listed w q).length > 0 then .ok else .notModified
  | .etag => if (listed w q).length > 0 then .ok else .notModified
  | .other => .err

/-- Lower case of an ASCII letter (`strncasecmp`). -/
def lower (c : UInt8) : UInt8 := if 65 ≤ c ∧ c ≤ 90 then c + 32 else c

/-- oc_discovery.c:1048-1071 `discovery_check_sduuid`; the text of a UUID has 36 bytes
and no NUL, so `strncasecmp` compares all of them. Simplification: the UUID of the
domain is not the wildcard, whose text is "*". -/
def checkSduuid (w : World) (dev : Nat) (s : Bytes) : Bool :=
  if w.sdiPriv dev then false
  else if s.length ≠ 36 then false
  else s.map lower == (uuidText (w.sdiUuid dev)).map lower

/-- oc_discovery.c:1158-1189 `discovery_resource_get`; `len` is the size of the encoded
payload, 0 if it did not fit. -/
def answer (w : World) (q : Req) (v : View) (batchCode : Code) (len : Nat) : Answer :=
  match q.sduuid with
  | some s =>
    if !checkSduuid w q.device s then .silent
    else send (!q.origin.ep.flags.multicast) (encode w q v batchCode) len
  | none => send (!q.origin.ep.flags.multicast) (encode w q v batchCode) len

/-! ### Batches -/

/-- api/oc_resource.c:110-123: from `OCF_CON` to `OCF_D`. -/
def iterKinds : List Kind :=
  [.con, .introWk, .introData, .wkcore, .res, .mnt, .cloudconf, .swupdate, .doxm, .pstat, .acl, .ael,
    .cred, .sdi, .sp, .csr, .roles, .d]

/-- api/oc_resource.c:99-194 `oc_resources_iterate` with all flags set: the resources
visited. -/
def iterate (w : World) (dev : Nat) : List Res :=
  (platformKinds.filterMap fun k => w.core k 0) ++
  (iterKinds.filterMap fun k => if k = .con ∧ w.announced = false then none else w.core k dev) ++
  w.apps.filter (fun r => r.device == dev) ++ w.cols.filter (fun r => r.device == dev)

/-- oc_discovery.c:646-680 `oc_discovery_resource_is_in_batch_response`; `acl` is
`oc_sec_check_acl(OC_GET, resource, endpoint)` for the client. -/
def inBatch (w : World) (acl : Res → Bool) (skip : Bool) (r : Res) : Bool :=
  r.disc && !(skip && isKind w .res r.device r) && !isKind w .wkcore r.device r &&
  !(isSvr w r.device r || !acl r)

/-- oc_discovery.c:887-897 `oc_discovery_get_batch_etag`. -/
def batchEtag (w : World) (acl : Res → Bool) (dev : Nat) : Nat :=
  (iterate w dev).foldl (fun m r => if !inBatch w acl false r then m else if r.etag > m then r.etag else m) 0

/-- oc_discovery.c:927-941 `discovery_batch_has_resource_with_etag`. -/
def hasEtag (w : World) (acl : Res → Bool) (dev : Nat) (e : Nat) : Bool :=
  (iterate w dev).any fun r => inBatch w acl false r && r.etag == e

/-- oc_discovery.c:950-968 `discovery_iterate_incremental_updates`. -/
def candidate (w : World) (acl : Res → Bool) (dev : Nat) (c e : Nat) : Nat :=
  if e < c then c else if !hasEtag w acl dev e then c else e

/-- A batch request: the ETag option if it has 8 bytes, and the ETags of the query
`incChanges` (`none` if the query has no such key). -/
structure BReq where
  etag0 : Option Nat
  inc : Option (List Nat)
  deriving DecidableEq, Repr

/-- oc_discovery.c:970-999 `discovery_find_incremental_updates_etag`; 0 is
`OC_ETAG_UNINITIALIZED`. -/
def incEtag (w : World) (acl : Res → Bool) (dev : Nat) (q : BReq) : Nat :=
  match q.inc with
  | none => 0
  | some l =>
    l.foldl (candidate w acl dev)
      (match q.etag0 with
       | some e => if hasEtag w acl dev e then e else 0
       | none => 0)

/-- One element of the answer: href after `ocf://<device id>`, ETag, representation. -/
structure Item where
  href : Bytes
  etag : Nat
  content : Bytes
  deriving DecidableEq, Repr

/-- oc_discovery.c:682-701 `discovery_process_batch_response_write_href`: what follows
`ocf://<device id>`; the buffer has room for 256 bytes of the path
(oc_server_api_internal.h:65). The paths of resources are not empty (:698). -/
def hrefOf (uri : Bytes) : Bytes := uri.take 256

/-- The element for a resource. -/
def itemOf (r : Res) : Item := ⟨hrefOf r.uri, r.etag, r.content⟩

/-- oc_discovery.c:738-828 `discovery_process_batch_response`: the resource is part of
the answer; `clears` is a handler that answers with `CLEAR_TRANSACTION`
(`oc_ignore_request`), `e = 0` is no filter (:1001-1006, 1024-1030). -/
def inAnswer (w : World) (acl clears : Res → Bool) (e : Nat) (r : Res) : Bool :=
  inBatch w acl true r && (e == 0 || decide (r.etag > e)) && !clears r

/-- oc_discovery.c:1012-1043 `discovery_process_batch_request`. -/
def batch (w : World) (acl clears : Res → Bool) (dev : Nat) (q : BReq) : Code × List Item :=
  let e := incEtag w acl dev q
  let l := ((iterate w dev).filter (inAnswer w acl clears e)).map itemOf
  if e ≠ 0 ∧ l.length = 0 then (.notModified, l) else (.ok, l)

/-- api/oc_ri.c:1655-1688: a batch request over a secured endpoint; 2.03 without calling
the handler if the ETag option is the ETag of the batch. The last component is the ETag
option of the answer, absent for `OC_ETAG_UNINITIALIZED`. -/
def serveBatch (w : World) (acl clears : Res → Bool) (dev : Nat) (q : BReq) :
    Code × List Item × Option Nat :=
  let e := batchEtag w acl dev
  if e = 0 then ((batch w acl clears dev q).1, (batch w acl clears dev q).2, none)
  else if q.etag0 = some e then (.notModified, [], some e)
  else ((batch w acl clears dev q).1, (batch w acl clears dev q).2, some e)

/-! ### The server and a client over time

The client keeps what it was sent: it replaces what it had for an href, and keeps
everything on 2.03. -/

/-- `f` applied to every resource of the stack (modelling convention). -/
def World.mapRes (f : Res → Res) (w : World) : World :=
  { w with core := fun k d => (w.core k d).map f, apps := w.apps.map f, cols := w.cols.map f }

/-- The server with its generator of ETags, the resources the client may read, and the
client: its copy of the representations and the ETags it was ever sent. -/
structure Sys where
  w : World
  g : Nat
  allowed : Nat → Bool
  copy : Bytes → Option (Nat × Bytes)
  known : List Nat

/-- What happens: a resource changes and its observers are notified
(`oc_resource_update_etag`, api/oc_etag.c:592-602), a resource is added, deleted, the access
of the client changes, or the client sends a batch request. -/
inductive Op where
  | change (addr : Nat) (content : Bytes) (t : Etag.Tick)
  | create (r : Res) (t : Etag.Tick)
  | delete (addr : Nat)
  | access (allowed : Nat → Bool)
  | sync (q : BReq)

/-- The client's copy after an element of an answer. -/
def put (c : Bytes → Option (Nat × Bytes)) (i : Item) : Bytes → Option (Nat × Bytes) :=
  fun h => if h = i.href then some (i.etag, i.content) else c h

/-- The access of the client to a resource. -/
def Sys.acl (s : Sys) (r : Res) : Bool := s.allowed r.addr

/-- One step for the device `dev`; handlers do not ignore requests. -/
def step (dev : Nat) (s : Sys) : Op → Sys
  | .change a c t =>
    { s with w := s.w.mapRes (fun r => if r.addr = a then { r with etag := Etag.get s.g t, content := c } else r),
             g := Etag.get s.g t }
  | .create r t =>
    { s with w := { s.w with apps := { r with etag := Etag.get s.g t } :: s.w.apps }, g := Etag.get s.g t }
  | .delete a => { s with w := { s.w with apps := s.w.apps.filter fun r => r.addr ≠ a } }
  | .access al => { s with allowed := al }
  | .sync q =>
    let x := serveBatch s.w s.acl (fun _ => false) dev q
    { s with copy := x.2.1.foldl put s.copy
             known := s.known ++ x.2.2.toList ++ x.2.1.map (·.etag) }

/-! ### The client -/

/-- What `oc_rep_parse_payload` gives, api/oc_rep_decode.c:492-542: a list of nodes (a
map: its properties; an array: one node without name for every element, an object), or
nothing of type `OC_REP_PARSE_RESULT_REP`. -/
inductive Payload where
  | bad
  | map (m : Rep)
  | array (l : List Rep)

/-- The nodes of an array of objects, api/oc_rep_decode.c:464-490. -/
def nodes (l : List Rep) : Rep := l.map fun o => ([], Val.obj o)

/-- `node->value.object` read from a node of any type (oc_discovery.c:1372, 1399): the
list it points to, empty for NULL. The member of the union is right for objects and, as
both are pointers to nodes, for arrays of objects. The memory of a node is zero when it
is allocated, so a node without value gives NULL, as do the number 0 and `false`. Other
numbers, and the lengths and numbers with which strings and arrays start, are not
pointers to nodes. -/
def asObject : Val → Out Rep
  | .obj l => .ok l
  | .objs l => .ok (nodes l)
  | .nil => .ok []
  | .arr => .ok []
  | .int i => if i = 0 then .ok [] else .ub
  | .bool v => if v then .ub else .ok []
  | _ => .ub

/-- An endpoint handed to the application, oc_discovery.c:1458-1471: `di` is `none` if the
local variable holds no value yet. Simplification: `addr_local`, `version` and the scope
of link-local addresses, which are those of the endpoint of the answer, are left out. -/
structure CEp where
  ep : Ep
  index : Nat
  di : Option Bytes
  deriving DecidableEq, Repr

/-- One call of the handler, oc_discovery.c:1499-1504. -/
structure Report where
  anchor : Bytes
  uri : Bytes
  types : List Bytes
  ifaces : BitVec 32
  eps : List CEp
  bm : Int
  more : Bool
  deriving DecidableEq, Repr

/-- The local variables of `oc_discovery_process_payload`, oc_discovery.c:1348-1398. `cur`
is `eps_cur != NULL`; `allocs` counts the calls of `oc_new_endpoint`, `lost` the endpoints
that are never freed. -/
structure St where
  uri : Option Bytes := none
  anchor : Option Bytes := none
  types : Option (List Bytes) := none
  ifaces : BitVec 32 := 0
  di : Option Bytes := none
  bm : Int := 0
  eps : List CEp := []
  cur : Bool := false
  allocs : Nat := 0
  lost : Nat := 0
  deriving DecidableEq, Repr

/-- The environment of the client: resolution of names, success of the n-th allocation of
an endpoint, and the endpoint the answer came from. -/
structure CEnv where
  dns : Option (Flags → Bytes → Option Bytes)
  mem : Nat → Bool
  from' : SEp

/-- oc_discovery.c:1440-1448: the endpoint is skipped. -/
def skipEp (o : SEp) (e : Ep) : Bool :=
  !(e.flags.ipv6 && e.port == 5683) && !(e.flags.ipv4 && e.port == 5683) && !e.flags.tcp &&
  ((o.ep.flags.ipv4 && e.flags.ipv6) || (o.ep.flags.ipv6 && e.flags.ipv4))

/-- oc_discovery.c:1459-1470. -/
def mkEp (o : SEp) (di : Option Bytes) (e : Ep) : CEp :=
  ⟨{ e with device := o.ep.device }, o.index, di⟩

/-- oc_discovery.c:1451-1471: `eps_list` and `eps_cur` after a new endpoint. -/
def addEp (env : CEnv) (s : St) (e : Ep) : St :=
  let n := mkEp env.from' s.di e
  if env.mem s.allocs then
    if s.cur then { s with eps := s.eps ++ [n], allocs := s.allocs + 1 }
    else { s with eps := [n], cur := true, allocs := s.allocs + 1, lost := s.lost + s.eps.length }
  else
    if s.cur then { s with cur := false, allocs := s.allocs + 1 }
    else { s with eps := [], allocs := s.allocs + 1, lost := s.lost + s.eps.length }

/-- oc_discovery.c:1432-1480: the properties of one element of an array of objects. -/
def epProps (env : CEnv) : St → Rep → Out St
  | s, [] => .ok s
  | s, (name, v) :: l =>
    match v with
    | .str t =>
      if name = b "ep" then
        (Endpoint.parse env.dns t).bind fun r =>
        match r with
        | none => epProps env s l
        | some (e, _) => if skipEp env.from' e then .ok s else epProps env (addEp env s e) l
      else epProps env s l
    | _ => epProps env s l

/-- oc_discovery.c:1427-1483: an array of objects, of any name. -/
def epArray (env : CEnv) : St → List Rep → Out St
  | s, [] => .ok s
  | s, o :: l => (epProps env s o).bind fun s => epArray env s l

/-- oc_discovery.c:1404-1411: a string. `oc_string(*anchor) + 6` points beyond a shorter
text; `di` keeps its value if the rest is no UUID (api/oc_uuid.c:92-118). -/
def stringProp (s : St) (name t : Bytes) : Out St :=
  if name = b "anchor" then
    if t.length < 6 then .ub
    else
      (Uuid.ofStr (t.drop 6)).bind fun r =>
      .ok { s with anchor := some t, di := r.2.orElse fun _ => s.di }
  else if name = b "href" then .ok { s with uri := some t }
  else .ok s

/-- oc_discovery.c:1413-1426: an array of strings. -/
def stringsProp (s : St) (name : Bytes) (l : List Bytes) : St :=
  if name = b "rt" then { s with types := some l }
  else { s with ifaces := l.foldl (fun m i => m ||| Ri.ifaceMask i) 0 }

/-- oc_discovery.c:1484-1492: an object. -/
def objProp (s : St) (name : Bytes) (o : Rep) : St :=
  match o with
  | [] => s
  | (n, v) :: _ =>
    if name = b "p" then
      match v with
      | .int i => if n = b "bm" then { s with bm := i } else s
      | _ => s
    else s

/-- oc_discovery.c:1401-1497: the properties of one link. -/
def linkProps (env : CEnv) : St → Rep → Out St
  | s, [] => .ok s
  | s, (name, v) :: l =>
    match v with
    | .str t => (stringProp s name t).bind fun s => linkProps env s l
    | .strs a => linkProps env (stringsProp s name a) l
    | .objs a => (epArray env { s with cur := false } a).bind fun s => linkProps env s l
    | .obj o => linkProps env (objProp s name o) l
    | _ => linkProps env s l

/-- oc_discovery.c:1396-1398: the variables that every round starts with. -/
def fresh (s : St) : St := { s with di := none, bm := 0, eps := [], cur := false }

/-- oc_discovery.c:1499: the handler is called. -/
def report (s : St) (more : Bool) : Option Report :=
  match s.anchor, s.uri, s.types with
  | some a, some u, some t => if s.eps.isEmpty then none else some ⟨a, u, t, s.ifaces, s.eps, s.bm, more⟩
  | _, _, _ => none

/-- oc_discovery.c:1394-1511: the links. `stop` is the handler's decision; the result is
the calls of the handler in order and whether it stopped the discovery. -/
def links (env : CEnv) (stop : Report → Bool) : St → Rep → Out (List Report × Bool × St)
  | s, [] => .ok ([], false, s)
  | s, (_, v) :: l =>
    (asObject v).bind fun o =>
    (linkProps env (fresh s) o).bind fun s =>
    match report s (!l.isEmpty) with
    | none => links env stop s l
    | some r =>
      if stop r then .ok ([r], true, s)
      else (links env stop s l).bind fun x => .ok (r :: x.1, x.2)

/-- oc_discovery.c:1376-1392: the last array of objects named "links". -/
def findLinks (d : Rep) : Rep → Rep
  | [] => d
  | (name, v) :: l =>
    match v with
    | .objs a => findLinks (if name = b "links" then nodes a else d) l
    | _ => findLinks d l

/-- oc_discovery.c:1372-1374: the list that is searched for "links". -/
def searched (root : Rep) : Out Rep :=
  match root with
  | [] => .ok []
  | (_, v) :: _ => (asObject v).bind fun o => .ok (if o.isEmpty then root else o)

/-- oc_discovery.c:1335-1520 `oc_discovery_process_payload` after the parser: the calls of
the handler, whether it returned `OC_STOP_DISCOVERY`, and the variables at the end. -/
def process (env : CEnv) (stop : Report → Bool) : Payload → Out (List Report × Bool × St)
  | .bad => .ok ([], false, {})
  | .map m => (searched m).bind fun p => links env stop {} (findLinks m p)
  | .array l => (searched (nodes l)).bind fun p => links env stop {} (findLinks (nodes l) p)

end Verif.Discovery
