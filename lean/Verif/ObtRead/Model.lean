import Verif.Acl.Store
import Verif.Cred.Model

/-!
Model of how an onboarding tool reads the access control list and the credentials
of a device (security/oc_obt.c), and of what the device answers
(security/oc_cred.c; the answer with the list is in Acl/Store.lean).

Memory is assumed to be available (dynamic allocation). The build has `OC_PKI`.
The CBOR encoding is not modelled: the tool is given the representation.
-/

namespace Verif.ObtRead

open Verif.Rep (Bytes b Val Rep)
open Verif.Acl (Id nilId Conn Wc Ace AclState)
open Verif.Sec (strToUuid toInt32)
open Verif.Cred (Cred Data)

/-! ## The access control list -/

/-- What `value.string` is for a value of any type (include/oc_rep.h, the union of
`oc_rep_t`): the text, or `none` for the null string that is found behind the
other members (the union is zeroed, util/oc_memb.c:78-86). The memory of a
non-empty array read as text is not modelled (`ub`). -/
def textOf : Val → Out (Option Bytes)
  | .str s => .ok (some s)
  | .bytes s => .ok (some s)
  | .nil => .ok none
  | .int _ => .ok none
  | .dbl _ => .ok none
  | .bool _ => .ok none
  | .obj _ => .ok none
  | .objs _ => .ok none
  | .arr => .ok none
  | .ints _ => .ub
  | .dbls _ => .ub
  | .bools _ => .ub
  | .bytess _ => .ub
  | .strs _ => .ub

/-- api/oc_uuid.c:120-128 `oc_str_to_uuid`, which leaves the UUID for a null
pointer. -/
def readUuid (old : Id) : Option Bytes → Out Id
  | none => .ok old
  | some s => strToUuid old s

/-- api/oc_helpers.c:77-93 `oc_new_string`: copying from a null pointer is
undefined, also for the length 0. -/
def newString : Option Bytes → Out Bytes
  | none => .ub
  | some s => .ok s

/-- include/oc_acl.h:96-104, the union with the subject of an ACE, and
`subject_type`. An ACE starts as zeros: a UUID of zeros. Strings are `none`
until they are set. What the union holds after members of different kinds is not
modelled (`mixed`). -/
inductive Sub where
  | uuid (id : Id)
  | role (role authority : Option Bytes)
  | conn (c : Conn)
  | mixed
  deriving DecidableEq

/-- include/oc_acl.h:81-90 `oc_ace_res_t` as it is read. -/
structure ROut where
  href : Option Bytes := none
  wc : Wc := .no
  deriving DecidableEq

/-- include/oc_acl.h:110-119 `oc_sec_ace_t` as it is read. -/
structure RAce where
  aceid : Int := 0
  sub : Sub := .uuid nilId
  permission : BitVec 16 := 0
  resources : List ROut := []
  deriving DecidableEq

/-- security/oc_obt.c:3194-3197: `uuid`. -/
def setUuid (t : Option Bytes) : Sub → Out Sub
  | .uuid u => (readUuid u t).bind fun x => .ok (.uuid x)
  | _ => .ok .mixed

/-- security/oc_obt.c:3198-3203: `role`. -/
def setRole (t : Option Bytes) : Sub → Out Sub
  | .uuid u => (newString t).bind fun x => .ok (if u = nilId then .role (some x) none else .mixed)
  | .role _ a => (newString t).bind fun x => .ok (.role (some x) a)
  | _ => (newString t).bind fun _ => .ok .mixed

/-- security/oc_obt.c:3204-3209: `authority`. -/
def setAuthority (t : Option Bytes) : Sub → Out Sub
  | .uuid u => (newString t).bind fun x => .ok (if u = nilId then .role none (some x) else .mixed)
  | .role r _ => (newString t).bind fun x => .ok (.role r (some x))
  | _ => (newString t).bind fun _ => .ok .mixed

/-- security/oc_obt.c:3210-3222: `conntype`; another text leaves the value. -/
def setConn (t : Option Bytes) : Sub → Sub
  | .uuid u =>
    if u = nilId then .conn (if t = some (b "anon-clear") then .anonClear else .authCrypt) else .mixed
  | .conn c =>
    .conn (if t = some (b "auth-crypt") then .authCrypt else if t = some (b "anon-clear") then .anonClear else c)
  | _ => .mixed

/-- security/oc_obt.c:3192-3225: the members of an object in an ACE. -/
def decodeSub : Rep → Sub → Out Sub
  | [], s => .ok s
  | (k, v) :: r, s =>
    if k = b "uuid" then (textOf v).bind fun t => (setUuid t s).bind fun s' => decodeSub r s'
    else if k = b "role" then (textOf v).bind fun t => (setRole t s).bind fun s' => decodeSub r s'
    else if k = b "authority" then (textOf v).bind fun t => (setAuthority t s).bind fun s' => decodeSub r s'
    else if k = b "conntype" then (textOf v).bind fun t => decodeSub r (setConn t s)
    else decodeSub r s

/-- security/oc_obt.c:3173-3230: the members of an ACE, and the array
`resources`, which is read afterwards. -/
def decodeMembers : Rep → RAce → List Rep → Out (RAce × List Rep)
  | [], a, rs => .ok (a, rs)
  | (k, .int i) :: r, a, rs =>
    if k = b "permission" then decodeMembers r { a with permission := BitVec.ofInt 16 i } rs
    else if k = b "aceid" then decodeMembers r { a with aceid := toInt32 i } rs
    else decodeMembers r a rs
  | (k, .objs l) :: r, a, rs => if k = b "resources" then decodeMembers r a l else decodeMembers r a rs
  | (_, .obj o) :: r, a, rs => (decodeSub o a.sub).bind fun s => decodeMembers r { a with sub := s } rs
  | _ :: r, a, rs => decodeMembers r a rs

/-- security/oc_obt.c:3250-3258: the wildcard, by the first character. -/
def wcOf (s : Bytes) (old : Wc) : Wc :=
  if s.headD 0 = 42 then .all
  else if s.headD 0 = 43 then .secured
  else if s.headD 0 = 45 then .pub
  else old

/-- security/oc_obt.c:3239-3265: one resource. -/
def decodeRes : Rep → ROut → ROut
  | [], e => e
  | (k, .str s) :: r, e =>
    if k = b "href" then decodeRes r { e with href := some s }
    else if k = b "wc" then decodeRes r { e with wc := wcOf s e.wc }
    else decodeRes r e
  | _ :: r, e => decodeRes r e

/-- security/oc_obt.c:3167-3267: one ACE. -/
def decodeAce (item : Rep) : Out RAce :=
  (decodeMembers item {} []).bind fun x => .ok { x.1 with resources := x.2.map fun r => decodeRes r {} }

/-- security/oc_obt.c:3166-3269: the elements of an array. -/
def decodeAces : List Rep → Out (List RAce)
  | [] => .ok []
  | i :: l => (decodeAce i).bind fun a => (decodeAces l).bind fun r => .ok (a :: r)

/-- `oc_sec_acl_t` of the tool: `subjects` is null (`none`) until it is
initialised in the decoder (security/oc_obt.c:3164). -/
structure RAcl where
  owner : Id := nilId
  aces : Option (List RAce) := none

/-- security/oc_obt.c:3150-3280 `decode_acl`: an array of objects of any name starts
the list anew. -/
def decodeAcl : Rep → RAcl → Out RAcl
  | [], a => .ok a
  | (k, .str s) :: r, a =>
    if k = b "rowneruuid" then (strToUuid a.owner s).bind fun u => decodeAcl r { a with owner := u }
    else decodeAcl r a
  | (_, .objs l) :: r, a => (decodeAces l).bind fun x => decodeAcl r { a with aces := some x }
  | _ :: r, a => decodeAcl r a

/-- include/oc_ri.h:76-81 `OC_STATUS_BAD_REQUEST`. -/
def badRequest : Nat := 5

/-- security/oc_obt.c:3302-3320 of `acl2_rsrc`: what the callback is given (`none`:
a null pointer). The length of a list that is null is undefined
(util/oc_list.c:163-172). -/
def aclResult (code : Nat) (payload : Rep) : Out (Option (Id × List RAce)) :=
  if code < badRequest then
    (decodeAcl payload {}).bind fun a =>
      match a.aces with
      | none => .ub
      | some [] => .ok none
      | some (x :: l) => .ok (some (a.owner, x :: l))
  else .ok none

/-- security/oc_ace.c:445-469 `oc_sec_encode_ace` for a response: without the tag. -/
def answerAce (a : Ace) : Rep := Acl.encodeAce { a with tag := none }

/-- security/oc_acl.c:112-143 `oc_sec_encode_acl` for a response. -/
def answerAcl (base : Rep) (st : AclState) : Rep :=
  base ++ [(b "aclist2", if st.aces.isEmpty then .arr else .objs (st.aces.map answerAce)),
    (b "rowneruuid", .str (Sec.uuidText st.owner))]

/-! ## The credentials -/

/-- include/oc_cred.h:95-118 `oc_sec_cred_t` as it is read. -/
structure RCred where
  id : Int := 0
  typ : Int := 0
  usage : Nat := 0
  subject : Id := nilId
  priv : Data := {}
  pub : Data := {}
  role : Option Bytes := none
  authority : Option Bytes := none
  owner : Bool := false
  deriving DecidableEq

/-- security/oc_obt.c:2846-2914: the members of `privatedata` or `publicdata`;
an empty text is left out. -/
def decodeData : Rep → Data → Data
  | [], d => d
  | (k, .str s) :: r, d =>
    if k = b "encoding" then decodeData r { d with enc := Cred.encodingOf s }
    else if k = b "data" then decodeData r (if s.length = 0 then d else { d with bytes := s })
    else decodeData r d
  | (k, .bytes s) :: r, d =>
    if k = b "data" then decodeData r (if s.length = 0 then d else { d with bytes := s })
    else decodeData r d
  | _ :: r, d => decodeData r d

/-- security/oc_obt.c:2915-2931: the members of `roleid`. -/
def decodeRole : Rep → RCred → Out RCred
  | [], c => .ok c
  | (k, v) :: r, c =>
    if k = b "role" then
      (textOf v).bind fun t => (newString t).bind fun s => decodeRole r { c with role := some s }
    else if k = b "authority" then
      (textOf v).bind fun t => (newString t).bind fun s => decodeRole r { c with authority := some s }
    else decodeRole r c

/-- security/oc_obt.c:2819-2943: the members of a credential. The type is an
enumeration of 32 bits. -/
def decodeCred : Rep → RCred → Out RCred
  | [], c => .ok c
  | (k, .int i) :: r, c =>
    if k = b "credid" then decodeCred r { c with id := toInt32 i }
    else if k = b "credtype" then decodeCred r { c with typ := toInt32 i }
    else decodeCred r c
  | (k, .str s) :: r, c =>
    if k = b "subjectuuid" then (strToUuid c.subject s).bind fun u => decodeCred r { c with subject := u }
    else if k = b "credusage" then decodeCred r { c with usage := Cred.usageOf s }
    else decodeCred r c
  | (k, .obj o) :: r, c =>
    if k = b "privatedata" then decodeCred r { c with priv := decodeData o c.priv }
    else if k = b "publicdata" then decodeCred r { c with pub := decodeData o c.pub }
    else if k = b "roleid" then (decodeRole o c).bind fun c' => decodeCred r c'
    else decodeCred r c
  | (k, .bool v) :: r, c => if k = b "owner_cred" then decodeCred r { c with owner := v } else decodeCred r c
  | _ :: r, c => decodeCred r c

/-- security/oc_obt.c:2811-2945: the elements of an array. -/
def decodeCredArr : List Rep → Out (List RCred)
  | [] => .ok []
  | i :: l => (decodeCred i {}).bind fun c => (decodeCredArr l).bind fun r => .ok (c :: r)

/-- security/oc_obt.c:2793-2958 `decode_cred`. -/
def decodeCreds : Rep → Id × List RCred → Out (Id × List RCred)
  | [], x => .ok x
  | (k, .str s) :: r, x =>
    if k = b "rowneruuid" then (strToUuid x.1 s).bind fun u => decodeCreds r (u, x.2)
    else decodeCreds r x
  | (k, .objs l) :: r, x =>
    if k = b "creds" ∨ k = b "roles" then (decodeCredArr l).bind fun y => decodeCreds r (x.1, x.2 ++ y)
    else decodeCreds r x
  | _ :: r, x => decodeCreds r x

/-- security/oc_obt.c:2968-2987 of `cred_rsrc`: what the callback is given. -/
def credResult (code : Nat) (payload : Rep) : Out (Option (Id × List RCred)) :=
  if code < badRequest then
    (decodeCreds payload (nilId, [])).bind fun x =>
      match x.2 with
      | [] => .ok none
      | y :: l => .ok (some (x.1, y :: l))
  else .ok none

/-- security/oc_cred_util.c:43-64 `oc_cred_encoding_to_string`. -/
def encodingText (e : Nat) : Bytes :=
  if e = Cred.encBase64 then b "oic.sec.encoding.base64"
  else if e = Cred.encRaw then b "oic.sec.encoding.raw"
  else if e = Cred.encPem then b "oic.sec.encoding.pem"
  else if e = 4 then b "oic.sec.encoding.handle"
  else b "Unknown"

/-- security/oc_cred_util.c:230-253 `oc_cred_credusage_to_string`. -/
def usageText (u : Nat) : Bytes :=
  if u = 2 then b "oic.sec.cred.trustca"
  else if u = Cred.identityCert then b "oic.sec.cred.cert"
  else if u = Cred.roleCertUse then b "oic.sec.cred.rolecert"
  else if u = 16 then b "oic.sec.cred.mfgtrustca"
  else if u = 32 then b "oic.sec.cred.mfgcert"
  else b "None"

/-- security/oc_cred.c:847-854: the subject. -/
def subjectText (u : Id) : Bytes := if u.headD 0 = 42 then b "*" else Sec.uuidText u

/-- security/oc_cred.c:855-868: the role, for a response only of a pre-shared key. -/
def answerRole (c : Cred) : Rep :=
  if c.typ = Cred.psk ∧ ¬c.role.isEmpty then
    [(b "roleid", .obj ((b "role", .str c.role) ::
      (if c.authority.isEmpty then [] else [(b "authority", .str c.authority)])))]
  else []

/-- security/oc_cred.c:869-896: the private data, for a response without the data. -/
def answerPriv (c : Cred) : Rep :=
  [(b "data", if c.priv.enc = Cred.encRaw then .bytes [] else .str []),
   (b "encoding", .str (if (encodingText c.priv.enc).length ≤ 7 then b "oic.sec.encoding.raw"
     else encodingText c.priv.enc))]

/-- security/oc_cred.c:933-952: the public data. -/
def answerPub (c : Cred) : Rep :=
  if c.pub.bytes.isEmpty then []
  else [(b "publicdata", .obj (
    (b "data", if c.pub.enc = Cred.encPem then .str c.pub.bytes else .bytes c.pub.bytes) ::
    (if (encodingText c.pub.enc).length > 7 then [(b "encoding", .str (encodingText c.pub.enc))] else [])))]

/-- security/oc_cred.c:926-932: the usage. -/
def answerUsage (c : Cred) : Rep :=
  if (usageText c.usage).length > 4 then [(b "credusage", .str (usageText c.usage))] else []

/-- security/oc_cred.c:842-963 of `oc_sec_encode_cred` for a response: one
credential. `os` is the content of the object about the OSCORE context (:897-924),
which is not modelled. -/
def answerCred (os : Cred → Rep) (c : Cred) : Rep :=
  [(b "credid", .int c.id), (b "credtype", .int c.typ), (b "subjectuuid", .str (subjectText c.subject))] ++
  answerRole c ++ [(b "privatedata", .obj (answerPriv c))] ++
  (if c.oscore then [(b "oscore", .obj (os c))] else []) ++ answerUsage c ++ answerPub c

/-- security/oc_cred.c:829-970 `oc_sec_encode_cred` for a response. -/
def answerCreds (os : Cred → Rep) (base : Rep) (creds : List Cred) (owner : Id) : Rep :=
  base ++ [(b "creds", if creds.isEmpty then .arr else .objs (creds.map (answerCred os))),
    (b "rowneruuid", .str (Sec.uuidText owner))]

/-! ## Requests and callbacks -/

/-- The retrievals of a tool: the pending contexts (`oc_aclret_ctx_l` or
`oc_credret_ctx_l`, security/oc_obt.c:99-106), the number of contexts made, and the
callbacks made so far, each with its context. A context is given by a number
(simplification: the address of a freed one is not reused while a response to it
can come). -/
structure Tool (α : Type) where
  pending : List Nat := []
  made : Nat := 0
  calls : List (Nat × Option α) := []

/-- security/oc_obt.c:3324-3354 `oc_obt_retrieve_acl` and 2991-3021
`oc_obt_retrieve_creds`: whether the device is owned and found, memory is
available and the request is issued (`sent`). The result is whether 0 is
returned. -/
def retrieve {α : Type} (owned found mem sent : Bool) (t : Tool α) : Bool × Tool α :=
  if !owned then (false, t)
  else if !found then (false, t)
  else if !mem then (false, t)
  else if !sent then (false, { t with made := t.made + 1 })
  else (true, { t with pending := t.pending ++ [t.made], made := t.made + 1 })

/-- security/oc_obt.c:3294-3322 `acl2_rsrc` and 2960-2988 `cred_rsrc`: a response
for a context. `result` is `aclResult` or `credResult`. -/
def respond {α : Type} (result : Nat → Rep → Out (Option α)) (ctx code : Nat) (payload : Rep) (t : Tool α) :
    Out (Tool α) :=
  if t.pending.contains ctx then
    (result code payload).bind fun r =>
      .ok { t with pending := t.pending.erase ctx, calls := t.calls ++ [(ctx, r)] }
  else .ok t

/-- What happens to a tool (see the functions). -/
inductive Op where
  | retrieve (owned found mem sent : Bool)
  | respond (ctx code : Nat) (payload : Rep)

/-- One event (see the functions). -/
def step {α : Type} (result : Nat → Rep → Out (Option α)) (t : Tool α) : Op → Out (Tool α)
  | .retrieve o f m s => .ok (retrieve o f m s t).2
  | .respond c code p => respond result c code p t

/-- A history of events (modelling convention). -/
def run {α : Type} (result : Nat → Rep → Out (Option α)) : List Op → Tool α → Out (Tool α)
  | [], t => .ok t
  | o :: l, t => (step result t o).bind fun t' => run result l t'

end Verif.ObtRead
