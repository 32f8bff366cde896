import Verif.Rep.Model

/-!
Model of the access control decision (security/oc_acl_util.c) and of the lists it
reads (security/oc_ace.c, include/oc_acl.h).

A request is decided on the basis of `Env`: everything the code reads through
globals, with the requesting endpoint.  `oc_endpoint_t.device` selects the ACL,
the credentials and the resource owners; these are given directly.  What the
TLS layer contributes is the peer structure (`Peer`), the cipher suite being
reduced to "PSK or anonymous" (`oc_tls_uses_psk_cred`) and the validation of a role
certificate to a flag.  A resource is given by the flags that the code computes
from its address in the table of core resources (`oc_core_is_DCR`,
`oc_core_is_SVR`, `oc_core_is_vertical_resource`), see `Kind`.  Pointers into
linked lists are modelled by the suffix of the list they point to.
-/

namespace Verif.Acl

open Verif.Rep (Bytes b)

/-- security/oc_pstat_internal.h:47-53 `oc_dostype_t`. -/
inductive Dos where
  | reset | rfotm | rfpro | rfnop | sreset
  deriving DecidableEq

/-- include/oc_ri.h `oc_method_t`: the methods of a request (a further value,
`OC_FETCH`, is refused by the last line of `eval_access`). -/
inductive Method where
  | get | post | put | delete | fetch
  deriving DecidableEq

/-- A UUID (16 bytes). -/
abbrev Id := Bytes

/-- The nil UUID. -/
def nilId : Id := List.replicate 16 0

/-- include/oc_acl.h:50-53 `oc_ace_connection_type_t`. -/
inductive Conn where
  | authCrypt | anonClear
  deriving DecidableEq

/-- include/oc_acl.h:70-75, 96-104: subject type and subject of an ACE. The
strings of a role are given by their bytes; an absent authority is empty. -/
inductive Subject where
  | uuid (id : Id)
  | role (role authority : Bytes)
  | conn (c : Conn)
  deriving DecidableEq

/-- include/oc_acl.h:59-64 `oc_ace_wildcard_t`. -/
inductive Wc where
  | no | all | secured | pub
  deriving DecidableEq

/-- The values of include/oc_acl.h:59-64. -/
def Wc.bits : Wc → BitVec 16
  | .no => 0
  | .all => 0x111
  | .secured => 0x01
  | .pub => 0x10

/-- include/oc_acl.h:81-90 `oc_ace_res_t`. `href` is `none` for a null string
(`oc_string_t` without data). -/
structure Entry where
  href : Option Bytes
  wc : Wc
  deriving DecidableEq

/-- include/oc_acl.h:110-119 `oc_sec_ace_t`. -/
structure Ace where
  aceid : Int
  subject : Subject
  permission : BitVec 16
  tag : Option Bytes
  resources : List Entry
  deriving DecidableEq

/-- What the decision reads of a role credential, include/oc_cred.h
`oc_sec_cred_t`; `valid`: `oc_certs_validate_role_cert` succeeds without flags. -/
structure RoleCred where
  role : Bytes
  authority : Bytes
  valid : Bool
  deriving DecidableEq

/-- What the decision reads of a credential of the device. `psk`: credtype is
`OC_CREDTYPE_PSK` and credusage is `OC_CREDUSAGE_NULL`. -/
structure Cred where
  psk : Bool
  subject : Id
  role : Bytes
  authority : Bytes
  deriving DecidableEq

/-- What the decision reads of a TLS peer (security/oc_tls_internal.h): whether it
is the device onboarding connection, whether the session uses PSK
(`oc_tls_uses_psk_cred`), and the roles it asserted (`oc_sec_roles_get`). -/
structure Peer where
  doc : Bool
  psk : Bool
  roles : List RoleCred
  deriving DecidableEq

/-- Build options: `OC_PKI`, `OC_WKCORE`, `OC_HAS_FEATURE_PLGD_TIME`,
`OC_HAS_FEATURE_RESOURCE_ACCESS_IN_RFOTM`. (`OC_DOXM_UUID_FILTER`,
oc_acl_util.c:224-237, is for development only and is not modelled.) -/
structure Config where
  pki : Bool
  wkcore : Bool
  plgdTime : Bool
  rfotmAccess : Bool

/-- The resource of the request. `dcr`, `svr`, `vertical`:
`oc_core_is_DCR`, `oc_core_is_SVR`, `oc_core_is_vertical_resource`
(api/oc_core_res.c:576-670). -/
structure Res where
  uri : Bytes
  dcr : Bool
  svr : Bool
  vertical : Bool
  discoverable : Bool
  secure : Bool
  accessInRfotm : Bool
  anonPerm : BitVec 16
  deriving DecidableEq

/-- What the decision reads besides the request. `numPeers` is
`oc_tls_num_peers(device)`, `peer` is `oc_tls_get_peer(endpoint)`. -/
structure Env where
  cfg : Config
  dos : Dos
  secured : Bool
  di : Id
  numPeers : Nat
  peer : Option Peer
  acl : List Ace
  creds : List Cred
  aclOwner : Id
  doxmOwner : Id
  pstatOwner : Id
  credOwner : Id

/-! ## Kinds of resources -/

/-- The enumeration include/oc_ri.h `oc_core_resource_t` as far as the tests read
it: the first resource of a logical device (`OCF_CON`), the introspection
resources if built in, the first security resource (`OCF_SEC_DOXM`) and the last
resource (`OCF_D`). -/
structure Layout where
  con : Nat
  intro : Option (Nat × Nat)
  doxm : Nat
  d : Nat

/-- api/oc_ri_internal.h:56-57 `OC_NUM_CORE_LOGICAL_DEVICE_RESOURCES` times the
device. -/
def Layout.base (y : Layout) (device : Nat) : Nat := (y.d + 1 - y.con) * device

/-- api/oc_core_res.c:576-595 `oc_core_is_SVR` for the resource at index `i` of the
table of core resources (`none`: not in the table). -/
def coreIsSVR (y : Layout) (numDevices device : Nat) (i : Option Nat) : Bool :=
  match i with
  | none => false
  | some i => decide (device < numDevices) && decide (y.base device + y.doxm ≤ i) && decide (i ≤ y.base device + y.d - 1)

/-- api/oc_core_res.c:609-634 `oc_core_is_vertical_resource`. -/
def coreIsVertical (y : Layout) (numDevices device : Nat) (i : Option Nat) : Bool :=
  match i with
  | none => decide (device < numDevices)
  | some i =>
    if i < y.con then true
    else if ¬ device < numDevices then false
    else !(decide (y.base device + y.con ≤ i) && decide (i ≤ y.base device + y.d))

/-- api/oc_core_res.c:636-670 `oc_core_is_DCR`. -/
def coreIsDCR (y : Layout) (numDevices device : Nat) (i : Option Nat) : Bool :=
  match i with
  | none => false
  | some i =>
    if i < y.con then true
    else if ¬ device < numDevices then false
    else if y.base device + y.con ≤ i ∧ i ≤ y.base device + y.d then
      if (match y.intro with
          | some (wk, data) => decide (i = y.base device + wk) || decide (i = y.base device + data)
          | none => false) then false
      else decide (i ≠ y.base device + y.con)
    else false

/-! ## Matching -/

/-- api/oc_resource.c:86-97 `oc_resource_match_uri`. The length of an empty
canonical URI would wrap around, which no length of a URI equals. -/
def matchUri (canonical uri : Bytes) : Bool :=
  match uri with
  | c :: _ => if c ≠ 47 then (!canonical.isEmpty && decide (uri = canonical.tail)) else decide (uri = canonical)
  | [] => decide (uri = canonical)

/-- security/oc_ace.c:288-295 `ace_res_match_wild_card`. -/
def matchWildcard (wc reswc : BitVec 16) : Bool :=
  if wc = Wc.all.bits then decide (reswc = Wc.all.bits) else decide (wc &&& reswc ≠ 0)

/-- security/oc_ace.c:301-323: one iteration of `ace_res_find_resource`. An `href`
without data does not select, an empty one in the list neither. -/
def entryMatches (href : Option Bytes) (wildcard : BitVec 16) (res : Entry) : Bool :=
  match href, res.href with
  | some h, some (x :: y) =>
    if !matchUri (x :: y) h then false
    else if wildcard ≠ 0 ∧ res.wc.bits ≠ 0 then matchWildcard wildcard res.wc.bits else true
  | _, _ =>
    if wildcard ≠ 0 ∧ res.wc.bits ≠ 0 then matchWildcard wildcard res.wc.bits else false

/-- security/oc_ace.c:297-340 `oc_sec_ace_find_resource` from a position: the
suffix that starts with the match. -/
def findResource (href : Option Bytes) (wildcard : BitVec 16) : List Entry → List Entry
  | [] => []
  | r :: l => if entryMatches href wildcard r then r :: l else findResource href wildcard l

/-- security/oc_ace.c:243-263 `oc_ace_has_matching_subject`; the first subject is
that of the ACE. -/
def subjectMatches : Subject → Subject → Bool
  | .uuid a, .uuid s => decide (a = s)
  | .role r a, .role r' a' => decide (r' = r) && (a.isEmpty || decide (a' = a))
  | .conn c, .conn c' => decide (c' = c)
  | _, _ => false

/-- security/oc_acl.c:73-87 `oc_sec_acl_find_subject` with aceid -1, permission 0
and without tag (the filters of security/oc_ace.c:265-286 off): the suffix that
starts with the match. -/
def findSubject (s : Subject) : List Ace → List Ace
  | [] => []
  | a :: l => if subjectMatches a.subject s then a :: l else findSubject s l

/-! ## Permissions -/

/-- security/oc_acl_util.c:123-133: the wildcards that cover the resource. -/
def wildcards (r : Res) : BitVec 16 :=
  if r.dcr then 0
  else if r.discoverable then
    if !r.secure then Wc.secured.bits ||| Wc.pub.bits else Wc.secured.bits
  else Wc.all.bits

/-- security/oc_acl_util.c:135-145, the loop of `oc_ace_get_permission`; at most
`fuel` matches (the length of the list). -/
def resLoop (a : Ace) (r : Res) : Nat → List Entry → BitVec 16 → BitVec 16
  | 0, _, p => p
  | n + 1, l, p =>
    match findResource (some r.uri) (wildcards r) l with
    | [] => p
    | _ :: l' => resLoop a r n l' (p ||| a.permission)

/-- security/oc_acl_util.c:112-146 `oc_ace_get_permission`. `is_public` is computed
from the properties (:392). -/
def acePermission (a : Ace) (r : Res) : BitVec 16 := resLoop a r a.resources.length a.resources 0

/-- The loops over the ACEs of a subject, security/oc_acl_util.c:155-173, 351-363,
369-381, 395-411; at most `fuel` matches. -/
def subjectLoop (s : Subject) (r : Res) : Nat → List Ace → BitVec 16 → BitVec 16
  | 0, _, p => p
  | n + 1, l, p =>
    match findSubject s l with
    | [] => p
    | a :: l' => subjectLoop s r n l' (p ||| acePermission a r)

/-- The permissions that the ACL gives to a subject. -/
def subjectPermission (acl : List Ace) (s : Subject) (r : Res) : BitVec 16 := subjectLoop s r acl.length acl 0

/-- security/oc_cred.c:337-359 `oc_sec_find_cred` for `OC_CREDTYPE_PSK` and
`OC_CREDUSAGE_NULL`: the suffix that starts with the match. -/
def findPsk (id : Id) : List Cred → List Cred
  | [] => []
  | c :: l => if c.psk && decide (c.subject = id) then c :: l else findPsk id l

/-- security/oc_acl_util.c:298-313: the roles of the PSK credentials of the peer's
UUID. -/
def pskLoop (e : Env) (r : Res) : Nat → List Cred → BitVec 16 → BitVec 16
  | 0, _, p => p
  | n + 1, l, p =>
    match findPsk e.di l with
    | [] => p
    | c :: l' =>
      pskLoop e r n l' (if c.role.isEmpty then p else p ||| subjectPermission e.acl (.role c.role c.authority) r)

/-- include/oc_roles.h `OCF_SEC_ROLE_OWNER`. -/
def ownerRole : Bytes := b "oic.role.owner"

/-- include/oc_enums.h:248 `OC_PERM_ALL`. -/
def permAll : BitVec 16 := 31

/-- security/oc_acl_util.c:315-336: the roles that the peer asserted with
certificates. Returns the permissions and the roles left: those whose certificate
is no longer valid are freed. -/
def certLoop (e : Env) (r : Res) : List RoleCred → BitVec 16 → BitVec 16 × List RoleCred
  | [], p => (p, [])
  | c :: l, p =>
    if !c.valid then certLoop e r l p
    else if c.role = ownerRole then (permAll, c :: l)
    else
      let x := certLoop e r l (p ||| subjectPermission e.acl (.role c.role c.authority) r)
      (x.1, c :: x.2)

/-- security/oc_acl_util.c:293-339 `get_peer_permissions`. -/
def peerPermissions (e : Env) (r : Res) (p : Peer) : BitVec 16 × List RoleCred :=
  if p.psk then (pskLoop e r e.creds.length e.creds 0, p.roles)
  else if e.cfg.pki then certLoop e r p.roles 0
  else (0, p.roles)

/-- security/oc_acl_util.c:341-384 `get_conn_permissions`. -/
def connPermissions (e : Env) (r : Res) : BitVec 16 :=
  (if e.secured then subjectPermission e.acl (.conn .authCrypt) r else 0) |||
    subjectPermission e.acl (.conn .anonClear) r

/-- security/oc_acl_util.c:177-195 `eval_access`. -/
def evalAccess (m : Method) (p : BitVec 16) : Bool :=
  if p = 0 then false
  else match m with
    | .get => decide (p &&& 2 ≠ 0) || decide (p &&& 16 ≠ 0)
    | .post | .put => decide (p &&& 1 ≠ 0) || decide (p &&& 4 ≠ 0)
    | .delete => decide (p &&& 8 ≠ 0)
    | .fetch => false

/-- security/oc_acl_util.c:386-429 `oc_sec_check_acl_by_permissions`: the decision
and the roles of the peer afterwards. -/
def byPermissions (e : Env) (r : Res) (m : Method) : Bool × Option (List RoleCred) :=
  let p := subjectPermission e.acl (.uuid e.di) r
  let q := match e.peer with
    | some peer => (p ||| (peerPermissions e r peer).1, some (peerPermissions e r peer).2)
    | none => (p, none)
  let c := if !r.svr then q.1 ||| connPermissions e r else q.1
  (evalAccess m c, q.2)

/-! ## The decision -/

/-- security/oc_acl_util.c:197-239 `oc_sec_check_acl_on_get`. -/
def onGet (e : Env) (r : Res) : Bool :=
  (decide (e.dos = .rfotm) &&
    (matchUri (b "/oic/res") r.uri || matchUri (b "/oic/d") r.uri || matchUri (b "/oic/p") r.uri)) ||
  (e.cfg.plgdTime && matchUri (b "/x.plgd.dev/time") r.uri) ||
  (e.cfg.wkcore && matchUri (b "/.well-known/core") r.uri)

/-- security/oc_acl_util.c:241-267 `oc_sec_check_acl_by_uuid`. -/
def byUuid (e : Env) (r : Res) : Bool :=
  (matchUri (b "/oic/sec/acl2") r.uri && decide (e.aclOwner = e.di)) ||
  (matchUri (b "/oic/sec/doxm") r.uri && decide (e.doxmOwner = e.di)) ||
  (matchUri (b "/oic/sec/pstat") r.uri && decide (e.pstatOwner = e.di)) ||
  (matchUri (b "/oic/sec/cred") r.uri && decide (e.credOwner = e.di))

/-- security/oc_acl_util.c:269-291 `oc_sec_check_acl_in_rfotm_prior_to_doc`. -/
def priorToDoc (m : Method) (r : Res) : Bool :=
  matchUri (b "/oic/sec/doxm") r.uri || (decide (m = .get) && matchUri (b "/oic/sec/pstat") r.uri)

/-- `oc_sec_pstat_is_in_dos_state(ps, RFPRO | RFNOP | SRESET)`. -/
def provisioned (d : Dos) : Bool := decide (d = .rfpro ∨ d = .rfnop ∨ d = .sreset)

/-- security/oc_acl_util.c:483-538: the decision after the checks of the state. -/
def checkRest (e : Env) (r : Res) (m : Method) : Bool × Option (List RoleCred) :=
  let roles := e.peer.map Peer.roles
  if r.dcr && (match e.peer with | some p => p.doc | none => false) then (true, roles)
  else if decide (m = .get) && onGet e r then (true, roles)
  else if decide (e.dos = .rfotm) && decide (e.numPeers = 0) then (priorToDoc m r, roles)
  else if r.svr && !e.secured && provisioned e.dos then (false, roles)
  else if byUuid e r then (true, roles)
  else if e.cfg.pki && matchUri (b "/oic/sec/roles") r.uri && provisioned e.dos then (true, roles)
  else byPermissions e r m

/-- security/oc_acl_util.c:431-538 `oc_sec_check_acl`: the decision and the roles of
the peer afterwards. -/
def checkAcl (e : Env) (r : Res) (m : Method) : Bool × Option (List RoleCred) :=
  let roles := e.peer.map Peer.roles
  if decide (e.dos = .rfotm) && !e.secured && decide (e.numPeers = 1) then (false, roles)
  else if decide (e.dos = .rfotm) && !e.secured && e.cfg.rfotmAccess && r.accessInRfotm && evalAccess m r.anonPerm then
    (true, roles)
  else if !r.dcr && decide (e.dos ≠ .rfnop) then (false, roles)
  else if !r.dcr && r.vertical && !e.secured then (false, roles)
  else checkRest e r m

end Verif.Acl
