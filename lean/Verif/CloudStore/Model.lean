import Verif.EpAddr.Model
import Verif.Rep.Model
import Verif.Uuid.Model
/-!
Model of the stored cloud configuration: `api/cloud/oc_cloud_store.c`,
`api/cloud/oc_cloud_endpoints.c` and the encoding of
`util/oc_endpoint_address.c`.  A representation is a list of properties
(`Verif.Rep`); CBOR is not modelled here.
-/
namespace Verif.CloudStore

open Verif.EpAddr (Bytes Meta Item Addrs View)
open Verif.Rep (Rep Val b getByTypeAndKey)

/-- `oc_cloud_store_t`, api/cloud/oc_cloud_store_internal.h: the servers, the strings
(an absent string is the empty one), the status bits, the provisioning status and the
validity of the token.  Simplification: `device` is left out. -/
structure Store where
  servers : Addrs := {}
  authProvider : Bytes := []
  uid : Bytes := []
  accessToken : Bytes := []
  refreshToken : Bytes := []
  status : UInt8 := 0
  cps : UInt8 := 0
  expiresIn : Int := 0
  deriving DecidableEq, Repr

/-- `oc_endpoint_address_encode`, util/oc_endpoint_address.c:502-530: the uri and, if
there is a key for it, the UUID or the name.  The buffer of the UUID's text has
`OC_UUID_LEN` bytes; the failing assertion of line 526 is undefined here. -/
def encodeAddr (uriKey uuidKey nameKey : Bytes) (i : Item) : Out Rep :=
  match i.tag with
  | .name n =>
    if nameKey.length = 0 then .ok [(uriKey, .str i.uri)]
    else .ok [(uriKey, .str i.uri), (nameKey, .str (n.getD []))]
  | .uuid u =>
    if uuidKey.length = 0 then .ok [(uriKey, .str i.uri)]
    else match Uuid.toStr u 37 with
      | none => .ub
      | some t => .ok [(uriKey, .str i.uri), (uuidKey, .str t)]

/-- `endpoint_addresses_encode` for every item, util/oc_endpoint_address.c:532-548 and
571. -/
def encodeItems : List Item → Out (List Rep)
  | [] => .ok []
  | i :: l => (encodeAddr (b "uri") (b "id") (b "name") i).bind fun r =>
      (encodeItems l).bind fun rs => .ok (r :: rs)

/-- `oc_endpoint_addresses_encode`, util/oc_endpoint_address.c:550-574, with
`skipIfSingleAndSelected`; the failing assertion of line 563 is undefined here. -/
def encodeServers (key : Bytes) (s : Addrs) : Out Rep :=
  if s.items.length = 0 then .ok []
  else if s.items.length = 1 then
    if s.sel = none then .ub else .ok []
  else (encodeItems s.items).bind fun rs => .ok [(key, .objs rs)]

/-- The selected server, api/cloud/oc_cloud_store.c:82-91; the failing assertion of
line 85 is undefined here. -/
def encodeSelected (s : Addrs) : Out Rep :=
  (EpAddr.selected s).bind fun r =>
  match r with
  | none => .ok []
  | some i =>
    match i.tag with
    | .name _ => .ub
    | .uuid _ => encodeAddr (b "ci_server") (b "sid") [] i

/-- `oc_cloud_store_encode`, api/cloud/oc_cloud_store.c:77-107. -/
def encode (s : Store) : Out Rep :=
  (encodeSelected s.servers).bind fun sel =>
  (encodeServers (b "x.org.iotivity.servers") s.servers).bind fun srv =>
  .ok (sel ++ srv ++
    [(b "auth_provider", .str s.authProvider), (b "uid", .str s.uid),
     (b "access_token", .str s.accessToken), (b "refresh_token", .str s.refreshToken),
     (b "status", .int s.status.toNat), (b "cps", .int s.cps.toNat),
     (b "expires_in", .int s.expiresIn)])

/-- A string of a server's representation, api/cloud/oc_cloud_endpoints.c:87-102. -/
def strOf (r : Rep) (key : Bytes) : Option Bytes :=
  match getByTypeAndKey r .str key with
  | some (_, .str v) => some v
  | _ => none

/-- The loop over the servers, api/cloud/oc_cloud_endpoints.c:85-122; `mem k` tells
whether there is memory for the `k`-th server of the list.  `none` is the
`return false` of line 118. -/
def setLoop (lim : Nat) (mem : Nat → Bool) : Nat → List Rep → Addrs → Out (Option Unit × Addrs)
  | _, [], s => .ok (some (), s)
  | k, r :: rs, s =>
    match strOf r (b "uri") with
    | none => setLoop lim mem (k + 1) rs s
    | some uri =>
      match strOf r (b "id") with
      | none => setLoop lim mem (k + 1) rs s
      | some sid =>
        (Uuid.ofStr sid).bind fun q =>
        match q with
        | (some _, some u) =>
          if EpAddr.contains s uri then setLoop lim mem (k + 1) rs s
          else (EpAddr.add lim (mem k) s ⟨uri, .uuid u⟩).bind fun p =>
            match p with
            | (none, s) => .ok (none, s)
            | (some _, s) => setLoop lim mem (k + 1) rs s
        | _ => setLoop lim mem (k + 1) rs s

/-- `oc_cloud_endpoint_addresses_set`, api/cloud/oc_cloud_endpoints.c:50-125; an
absent uri is the empty one. -/
def setServers (lim : Nat) (mem : Nat → Bool) (s : Addrs) (uri : Bytes) (id : Bytes)
    (rs : List Rep) : Out (Bool × Addrs) :=
  (EpAddr.init lim (mem 0) (EpAddr.deinit s) ⟨uri, .uuid id⟩).bind fun r =>
  if r.1 then
    (setLoop lim mem 1 rs r.2).bind fun q => .ok (q.1.isSome, q.2)
  else .ok (false, r.2)

/-- `cloud_store_data_t`, api/cloud/oc_cloud_store.c:150-162. -/
structure Data where
  servers : List Rep := []
  server : Option Bytes := none
  sid : Option Bytes := none
  authProvider : Option Bytes := none
  uid : Option Bytes := none
  accessToken : Option Bytes := none
  refreshToken : Option Bytes := none
  status : UInt8
  cps : UInt8
  expiresIn : Int

/-- One property, api/cloud/oc_cloud_store.c:164-241 and 280-300; `none` is a property
that is not known.  The failing assertions of lines 208 and 213 are undefined here. -/
def parseProp (d : Data) (p : Bytes × Val) : Out (Option Data) :=
  match p.2 with
  | .objs l =>
    if p.1 = b "x.org.iotivity.servers" then .ok (some { d with servers := l }) else .ok none
  | .str v =>
    if p.1 = b "ci_server" then .ok (some { d with server := some v })
    else if p.1 = b "sid" then .ok (some { d with sid := some v })
    else if p.1 = b "auth_provider" then .ok (some { d with authProvider := some v })
    else if p.1 = b "uid" then .ok (some { d with uid := some v })
    else if p.1 = b "access_token" then .ok (some { d with accessToken := some v })
    else if p.1 = b "refresh_token" then .ok (some { d with refreshToken := some v })
    else .ok none
  | .int v =>
    if p.1 = b "status" then
      if v > 255 then .ub else .ok (some { d with status := UInt8.ofNat (v % 256).toNat })
    else if p.1 = b "cps" then
      if v > 255 then .ub else .ok (some { d with cps := UInt8.ofNat (v % 256).toNat })
    else if p.1 = b "expires_in" then .ok (some { d with expiresIn := v })
    else .ok none
  | _ => .ok none

/-- The loop of `oc_cloud_store_decode`, api/cloud/oc_cloud_store.c:279-302. -/
def parseProps (d : Data) : Rep → Out (Option Data)
  | [] => .ok (some d)
  | p :: r => (parseProp d p).bind fun q =>
    match q with
    | none => .ok none
    | some d => parseProps d r

/-- `cloud_store_set_servers`, api/cloud/oc_cloud_store.c:243-266. -/
def storeServers (lim : Nat) (mem : Nat → Bool) (s : Addrs) (d : Data) : Out (Bool × Addrs) :=
  match d.sid with
  | none => setServers lim mem s (d.server.getD []) (List.replicate 16 0) d.servers
  | some sid =>
    (Uuid.ofStr sid).bind fun q =>
    match q with
    | (some n, some u) =>
      if n ≠ 16 then .ok (false, s)
      else setServers lim mem s (d.server.getD []) u d.servers
    | _ => .ok (false, s)

/-- `oc_cloud_store_decode`, api/cloud/oc_cloud_store.c:268-327; `ci_servers` is NULL
for an array without elements.  A failure to set the servers is only logged. -/
def decode (lim : Nat) (mem : Nat → Bool) (r : Rep) (s : Store) : Out (Bool × Store) :=
  (parseProps { status := s.status, cps := s.cps, expiresIn := s.expiresIn } r).bind fun q =>
  match q with
  | none => .ok (false, s)
  | some d =>
    (if d.server.isSome ∨ d.servers ≠ [] then storeServers lim mem s.servers d
      else .ok (true, s.servers)).bind fun p =>
    .ok (true, {
      servers := p.2
      authProvider := d.authProvider.getD s.authProvider
      uid := d.uid.getD s.uid
      accessToken := d.accessToken.getD s.accessToken
      refreshToken := d.refreshToken.getD s.refreshToken
      status := d.status, cps := d.cps, expiresIn := d.expiresIn })

/-- `oc_cloud_store_initialize`, api/cloud/oc_cloud_store.c:361-386: everything is
cleared and the default server of api/cloud/oc_cloud_resource_internal.h:40 is set. -/
def initStore (lim : Nat) (mem : Bool) (s : Store) : Out Store :=
  (EpAddr.init lim mem (EpAddr.deinit s.servers)
    ⟨b "coaps+tcp://127.0.0.1", .uuid (List.replicate 16 0)⟩).bind fun r =>
  .ok { servers := r.2 }

/-- `oc_cloud_store_load`, api/cloud/oc_cloud_store.c:341-352; `r` is what is in the
storage, if it can be read (`Verif.Storage`). -/
def load (lim : Nat) (mem : Nat → Bool) (r : Option Rep) (s : Store) : Out (Bool × Store) :=
  match r with
  | none => (initStore lim (mem 0) s).bind fun s => .ok (false, s)
  | some r => (decode lim mem r s).bind fun q =>
    if q.1 then .ok q else (initStore lim (mem 0) q.2).bind fun s => .ok (false, s)

/-- The status bits `cloud_context_init` keeps, api/cloud/oc_cloud_context.c:102-104:
only `OC_CLOUD_REGISTERED` and the unused bit 7. -/
def keepStatus (st : UInt8) : UInt8 := st &&& 0x81

/-- The store at the start of the device, api/cloud/oc_cloud_context.c:100-104, for a
device that is not to be reset. -/
def start (lim : Nat) (mem : Nat → Bool) (r : Option Rep) : Out Store :=
  (initStore lim (mem 0) {}).bind fun s =>
  (load lim mem r s).bind fun q => .ok { q.2 with status := keepStatus q.2.status }

end Verif.CloudStore
