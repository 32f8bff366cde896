import Verif.Sec.Base
import Verif.Base64.Model

/-!
Model of the credential store (security/oc_cred.c, oc_cred_util.c) and of the
role credentials asserted by a session (security/oc_roles.c).

Certificates, key pairs and OSCORE key derivation belong to mbedTLS and other
files: their answers are given by an oracle (`Orc`), which is arbitrary in every
theorem.  The list of role names kept for clients (`g_role_creds`) and the TLS
caches of identity certificates and trust anchors are not modelled.
-/

namespace Verif.Cred

open Verif.Rep (Bytes b Val Rep)
open Verif.Acl (Dos Id nilId)
open Verif.Sec (strToUuid toInt32)

/-- include/oc_cred.h:42-44 `OC_CREDTYPE_PSK`. -/
def psk : Int := 1
/-- include/oc_cred.h:44 `OC_CREDTYPE_CERT`. -/
def certType : Int := 8
/-- include/oc_cred.h:55-61 `OC_CREDUSAGE_IDENTITY_CERT`. -/
def identityCert : Nat := 4
/-- include/oc_cred.h:58 `OC_CREDUSAGE_ROLE_CERT`. -/
def roleCertUse : Nat := 8
/-- include/oc_cred.h:70 `OC_ENCODING_BASE64`. -/
def encBase64 : Nat := 1
/-- include/oc_cred.h:71 `OC_ENCODING_RAW`. -/
def encRaw : Nat := 2
/-- include/oc_cred.h:72 `OC_ENCODING_PEM`. -/
def encPem : Nat := 3

/-- include/oc_cred.h:83-90 `oc_cred_data_t` and security/oc_cred_internal.h
`oc_sec_encoded_data_t`: the bytes (without the terminator that is kept behind
them in a stored credential) and the encoding. No data is the empty list. -/
structure Data where
  bytes : Bytes := []
  enc : Nat := 0
  deriving DecidableEq, Repr

/-- include/oc_cred.h:95-118 `oc_sec_cred_t`. `uid` identifies the memory object
(its address); it is used only to tell pointers apart. A role of length 0 is the
unset string. The pointer to an OSCORE context is replaced by a flag. -/
structure Cred where
  uid : Nat
  id : Int
  typ : Int
  usage : Nat
  subject : Id
  priv : Data
  pub : Data
  role : Bytes
  authority : Bytes
  tag : Bytes
  owner : Bool
  oscore : Bool
  deriving DecidableEq, Repr

/-- security/oc_cred.c:96-119 `cred_get_by_credid` on one list. -/
def getById (l : List Cred) (i : Int) : Option Cred := l.find? fun c => c.id == i

/-- security/oc_cred.c:177-181 `cred_remove_from_device` (`oc_list_remove2`) and
:184-191, :242-250, removal of the object that `getById` returned: the first one
with the id. -/
def eraseId (i : Int) : List Cred → List Cred
  | [] => []
  | c :: l => if c.id = i then l else c :: eraseId i l

/-- security/oc_cred.c:320-335, the first credential of a subject, removed as in
:288-296 `oc_cred_remove_by_subject`. -/
def eraseSubject (s : Id) : List Cred → List Cred
  | [] => []
  | c :: l => if c.subject = s then l else c :: eraseSubject s l

/-- security/oc_cred.c:252-263 `oc_sec_cred_clear` with a filter (`NULL` is the
filter that always holds). -/
def clear (f : Cred → Bool) (l : List Cred) : List Cred := l.filter fun c => !f c

/-- security/oc_cred_util.c:102-114 `oc_cred_data_is_equal_to_encoded_data`. The
stored string counts its terminator unless the encoding is PEM. -/
def eqData (cd sed : Data) : Bool :=
  cd.enc == sed.enc &&
    (if cd.enc = encPem then cd.bytes == sed.bytes
     else if cd.bytes = [] then sed.bytes == []
     else cd.bytes ++ [0] == sed.bytes)

/-- Answers of the parts that are not modelled: parsing the certificate's public
key (oc_cred.c:651-658), `oc_sec_verify_role_cred` (:425-453), the device's key
pair if it fits the certificate (:458-482), memory for a credential
(:365-369, :485-502) and for the entry of a session (oc_roles.c:150-163), the role of a role certificate
(`oc_certs_parse_role_certificate`), the random numbers that `get_new_credid`
draws (:167-175), `oc_oscore_add_context` (:1405). -/
structure Orc where
  pkOk : Bool
  roleOk : Bool
  kp : Option Bytes
  mem : Bool
  memClient : Bool
  roleCert : Option (Bytes × Bytes)
  rnd : List (BitVec 32)
  osOk : Bool

/-- Arguments of `oc_sec_add_new_cred` (security/oc_cred.c:638-645). -/
structure Req where
  id : Int
  typ : Int
  usage : Nat
  subject : Option Bytes
  priv : Data
  pub : Data
  role : Option Bytes
  authority : Option Bytes
  tag : Option Bytes

/-- security/oc_cred_util.c:163-181 `oc_sec_cred_set_subject`, starting from the
zero UUID (oc_cred.c:668-672). The first byte of a C string of length 0 is its
terminator. -/
def setSubject (subject : Option Bytes) (usage : Nat) : Out (Option Id) :=
  match subject with
  | none => .ok (if usage = roleCertUse then some (42 :: List.replicate 15 0) else none)
  | some s =>
    if s.headD 0 = 42 then .ok (some (42 :: List.replicate 15 0))
    else (strToUuid nilId s).bind fun u => .ok (some u)

/-- security/oc_cred_util.c:123-147 `oc_cred_is_duplicate` (with `OC_PKI`). -/
def isDuplicate (c : Cred) (q : Req) (subject : Id) : Bool :=
  c.typ == q.typ && c.subject == subject && eqData c.priv q.priv && c.tag == q.tag.getD [] &&
    c.usage == q.usage && eqData c.pub q.pub

/-- security/oc_cred.c:167-175 `get_new_credid` with the random numbers that are
drawn. If none of them is unused the loop has not ended yet (no result). -/
def newId (used : List Int) : List (BitVec 32) → Option Int
  | [] => none
  | r :: rs =>
    let i : Int := (r >>> 1).toNat
    if i ∈ used then newId used rs else some i

/-- security/oc_cred_util.c:183-198 `cred_check_symmetric_key_length`. -/
def keyLenOk (n : Nat) : Bool := n == 16 || n == 32

/-- security/oc_cred_util.c:200-226 `oc_cred_set_privatedata`. -/
def setPrivate (typ : Int) (d : Data) : Out (Option Data) :=
  if typ = psk then
    if d.enc = encBase64 then
      if d.bytes.length > 64 then .ok none
      else
        (Base64.decodeInPlace d.bytes).bind fun r =>
          match r with
          | none => .ok none
          | some (n, key) => .ok (if keyLenOk n then some ⟨key.take n, encRaw⟩ else none)
    else .ok (if keyLenOk d.bytes.length then some d else none)
  else .ok (some d)

/-- security/oc_cred.c:66-69, :382-398 `check_role_assertion`: of the roles that
begin with `oic.role.` only `oic.role.owner` may be asserted. -/
def roleAllowed (role : Bytes) : Bool :=
  if role.take 9 = b "oic.role." then role == b "oic.role.owner" else true

/-- security/oc_cred.c:576-594: the private data of a new credential. -/
def newPrivate (q : Req) (kp : Option Bytes) : Out (Option Data) :=
  if q.priv.bytes ≠ [] then setPrivate q.typ q.priv
  else
    match kp with
    | some k => .ok (some ⟨k, encRaw⟩)
    | none => .ok (some {})

/-- security/oc_cred.c:549-563: the role of a role certificate, which must be
valid; on the roles resource it must also be one that may be asserted. -/
def parseRole (q : Req) (o : Orc) (roles : Bool) : Option (Bytes × Bytes) :=
  if q.usage = roleCertUse then
    match o.roleCert with
    | none => none
    | some r => if roles && !roleAllowed r.1 then none else some r
  else some ([], [])

/-- security/oc_cred.c:566-571: the id of a new credential. The credential itself
is already in the list with id 0 (:361-379), so 0 is never drawn. -/
def chooseId (ids : List Int) (q : Req) (o : Orc) : Out Int :=
  if q.id = -1 then
    match newId (ids ++ [0]) o.rnd with
    | none => .ub
    | some i => .ok i
  else .ok q.id

/-- security/oc_cred.c:539-619 `cred_create` after the memory was obtained, for
the list with the ids `ids`. `none`: refused, the new object is freed again.
A loop of `get_new_credid` that did not end is no result (`ub`). -/
def create (ids : List Int) (q : Req) (o : Orc) (roles : Bool) (subject : Id) (kp : Option Bytes)
    (uid : Nat) : Out (Option Cred) :=
  match parseRole q o roles with
  | none => .ok none
  | some r =>
    (chooseId ids q o).bind fun i =>
    (newPrivate q kp).bind fun p =>
      match p with
      | none => .ok none
      | some p => .ok (some
          { uid := uid, id := i, typ := q.typ, usage := if roles then 0 else q.usage,
            subject := if roles then nilId else subject, priv := p,
            pub := if q.pub.bytes ≠ [] then q.pub else {},
            role := if roles then r.1 else q.role.getD r.1,
            authority := if roles ∨ q.role = none then r.2 else q.authority.getD r.2,
            tag := q.tag.getD [], owner := false, oscore := false })

/-- security/oc_cred.c:623-634 `sec_match_cred_with_publicdata`. -/
def matchPublic (c : Cred) (q : Req) : Bool :=
  c.usage == q.usage && q.pub.bytes.length > 0 && eqData c.pub q.pub && c.tag == q.tag.getD []

/-- Result of the loop at security/oc_cred.c:711-741. -/
inductive Scan where
  /-- :734-735 a certificate that is already there, its id -/
  | same (i : Int)
  /-- :719-727 a credential of the requested id was found and removed -/
  | gone (c : Cred) (l : List Cred)
  /-- the end of the list -/
  | done
  deriving DecidableEq, Repr

/-- security/oc_cred.c:711-741, the loop over the credentials of the subject. -/
def scan (q : Req) (subject : Id) : List Cred → Scan
  | [] => .done
  | c :: l =>
    if c.subject = subject ∧ c.typ = q.typ ∧ c.id = q.id then .gone c l
    else if c.subject = subject ∧ c.typ = q.typ ∧ q.typ = certType ∧ matchPublic c q then .same c.id
    else
      match scan q subject l with
      | .same i => .same i
      | .gone d l' => .gone d (c :: l')
      | .done => .done

/-- Result of `oc_sec_add_new_cred`: the value returned, the list, and the data
of `oc_sec_add_new_cred_data_t` (security/oc_cred_internal.h:43-47). -/
structure Added where
  ret : Int
  creds : List Cred
  created : Bool
  replaced : Option Cred
  deriving DecidableEq, Repr

/-- security/oc_cred.c:759-816: the new credential is created and appended, or
everything is given up. -/
def append (l : List Cred) (q : Req) (o : Orc) (subject : Id) (kp : Option Bytes) (uid : Nat)
    (replaced : Option Cred) : Out Added :=
  if !o.mem then .ok ⟨-1, l, false, none⟩
  else
    (create (l.map (·.id)) q o false subject kp uid).bind fun r =>
      match r with
      | none => .ok ⟨-1, l, false, none⟩
      | some c => .ok ⟨c.id, l ++ [c], true, replaced⟩

/-- security/oc_cred.c:711-807 for the credentials of a device. The assertion at
:721 fails if a credential was already removed (only with a place for it,
`keep`). -/
def addScan (l : List Cred) (q : Req) (o : Orc) (subject : Id) (kp : Option Bytes) (uid : Nat)
    (keep : Bool) (replaced : Option Cred) : Out Added :=
  match scan q subject l with
  | .same i => .ok ⟨i, l, false, replaced⟩
  | .gone c l' =>
    if keep && replaced.isSome then .ub
    else append l' q o subject kp uid (if keep then some c else none)
  | .done => append l q o subject kp uid replaced

/-- security/oc_cred.c:685-807 for the credentials of a device (`roles_resource`
false). `keep`: `new_cred_data` is given. -/
def addDev (l : List Cred) (q : Req) (o : Orc) (subject : Id) (kp : Option Bytes) (uid : Nat)
    (keep : Bool) : Out Added :=
  match getById l q.id with
  | some c =>
    if isDuplicate c q subject then .ok ⟨q.id, l, false, none⟩
    else addScan (eraseId q.id l) q o subject kp uid keep (if keep then some c else none)
  | none => addScan l q o subject kp uid keep none

/-- security/oc_roles.c:124-130 `oc_sec_roles_t`: the roles of a session. The
session is identified by the address of its `oc_tls_peer_t`. -/
structure Client where
  peer : Nat
  device : Nat
  roles : List Cred
  deriving DecidableEq, Repr

/-- security/oc_roles.c:137-148 `roles_get_for_client`. -/
def clientOf (cl : List Client) (peer : Nat) : Option Client := cl.find? fun c => c.peer == peer

/-- security/oc_roles.c:197-205 `oc_sec_roles_get`. -/
def rolesOf (cl : List Client) (peer : Nat) : List Cred :=
  match clientOf cl peer with
  | some c => c.roles
  | none => []

/-- The list of roles of the first entry of a session is replaced (the effect of
`oc_list_add`/`oc_list_remove` at oc_roles.c:180, :228, :282). -/
def setRoles (peer : Nat) (roles : List Cred) : List Client → List Client
  | [] => []
  | c :: l => if c.peer = peer then { c with roles := roles } :: l else c :: setRoles peer roles l

/-- security/oc_roles.c:184-195: the entry of a session is created if it has none. -/
def ensureClient (cl : List Client) (peer device : Nat) : List Client :=
  match clientOf cl peer with
  | some _ => cl
  | none => cl ++ [⟨peer, device, []⟩]

/-- security/oc_roles.c:252-270 `oc_sec_free_roles`. -/
def freeRoles (peer : Nat) : List Client → List Client
  | [] => []
  | c :: l => if c.peer = peer then l else c :: freeRoles peer l

/-- security/oc_roles.c:237-250 `oc_sec_free_roles_for_device`: the sessions of
the device are visited in order; each is freed by its address. -/
def freeForDevice (device : Nat) (visit : List Client) (cl : List Client) : List Client :=
  match visit with
  | [] => cl
  | c :: l => freeForDevice device l (if c.device = device then freeRoles c.peer cl else cl)

/-- security/oc_roles.c:272-289 `oc_sec_free_role_by_credid`. -/
def freeRoleById (i : Int) (peer : Nat) (cl : List Client) : Bool × List Client :=
  match clientOf cl peer with
  | none => (false, cl)
  | some c =>
    match getById c.roles i with
    | none => (false, cl)
    | some _ => (true, setRoles peer (eraseId i c.roles) cl)

/-- Result of adding a role credential. -/
structure AddedRole where
  ret : Int
  clients : List Client
  created : Bool
  deriving DecidableEq, Repr

/-- security/oc_cred.c:685-816 for the roles resource: an id that is in use is
replaced by a new one (:706), a role certificate that is there is not added again
(:744-756), a new one is appended to the roles of the session. If it is refused
the entry of the session stays. -/
def addRole (cl : List Client) (peer device : Nat) (q : Req) (o : Orc) (kp : Option Bytes)
    (uid : Nat) : Out AddedRole :=
  let roles := rolesOf cl peer
  let q' := if (getById roles q.id).isSome then { q with id := -1 } else q
  match roles.find? fun c => eqData c.pub q.pub && c.tag == q.tag.getD [] with
  | some c => .ok ⟨c.id, cl, false⟩
  | none =>
    if q.usage ≠ roleCertUse then .ok ⟨-1, cl, false⟩
    else if clientOf cl peer = none ∧ !o.memClient then .ok ⟨-1, cl, false⟩
    else if !o.mem then .ok ⟨-1, ensureClient cl peer device, false⟩
    else
      (create (roles.map (·.id)) q' o true nilId kp uid).bind fun r =>
        match r with
        | none => .ok ⟨-1, ensureClient cl peer device, false⟩
        | some c => .ok ⟨c.id, setRoles peer (roles ++ [c]) (ensureClient cl peer device), true⟩

/-- security/oc_cred.h `oc_sec_creds_t` (g_devices, oc_cred.c:56-62) of one device. -/
structure Dev where
  creds : List Cred
  rowner : Id
  deriving DecidableEq

/-- The state: the credentials of each device, the roles of the sessions, and the
next address. `log` is not part of the code: the credentials created so far, with
their device, the newest first. -/
structure St where
  dev : Nat → Dev
  clients : List Client
  next : Nat
  log : List (Nat × Cred)

/-- Replace the data of one device. -/
def St.setDev (s : St) (d : Nat) (x : Dev) : St :=
  { s with dev := fun i => if i = d then x else s.dev i }

/-- security/oc_cred.c:647-683: the checks before the list is looked at; the
subject and the key pair of the device, or a refusal. `client`: the session on
the roles resource (`roles_resource`). -/
def precheck (q : Req) (o : Orc) (roles : Bool) (client : Option Nat) :
    Out (Option (Id × Option Bytes)) :=
  if q.typ = certType ∧ !o.pkOk then .ok none
  else if roles ∧ (q.typ ≠ certType ∨ q.usage ≠ roleCertUse ∨ client = none ∨ !o.roleOk) then .ok none
  else
    (setSubject q.subject q.usage).bind fun r =>
      match r with
      | none => .ok none
      | some u =>
        if q.usage = identityCert ∧ q.priv.bytes = [] then
          match o.kp with
          | none => .ok none
          | some k => .ok (some (u, some k))
        else .ok (some (u, none))

/-- Result of `oc_sec_add_new_cred` on the whole state. -/
structure AddRes where
  ret : Int
  st : St
  created : Bool
  replaced : Option Cred

/-- security/oc_cred.c:638-817 `oc_sec_add_new_cred`. -/
def add (s : St) (d : Nat) (roles : Bool) (client : Option Nat) (q : Req) (o : Orc) (keep : Bool) :
    Out AddRes :=
  (precheck q o roles client).bind fun r =>
    match r with
    | none => .ok ⟨-1, s, false, none⟩
    | some (u, kp) =>
      if roles then
        match client with
        | none => .ub
        | some peer =>
          (addRole s.clients peer d q o kp s.next).bind fun a =>
            .ok ⟨a.ret, { s with clients := a.clients, next := s.next + 1 }, a.created, none⟩
      else
        (addDev (s.dev d).creds q o u kp s.next keep).bind fun a =>
          .ok ⟨a.ret, { s.setDev d { s.dev d with creds := a.creds } with
              next := s.next + 1
              log := if a.created then a.creds.getLast?.toList.map (fun c => (d, c)) ++ s.log else s.log },
            a.created, a.replaced⟩

/-! ### Decoding a representation -/

/-- security/oc_cred.c:1170-1193: the properties of one credential object. -/
structure Item where
  id : Int := -1
  typ : Int := 0
  role : Option Bytes := none
  authority : Option Bytes := none
  subject : Option Bytes := none
  priv : Data := {}
  pub : Data := {}
  usage : Nat := 0
  sid : Option Bytes := none
  rid : Option Bytes := none
  desc : Option Bytes := none
  ownerCred : Bool := false
  tag : Option Bytes := none
  nonEmpty : Bool := false

/-- security/oc_cred_util.c:74-93 `oc_cred_encoding_from_string`. -/
def encodingOf (s : Bytes) : Nat :=
  if s = b "oic.sec.encoding.base64" then encBase64
  else if s = b "oic.sec.encoding.raw" then encRaw
  else if s = b "oic.sec.encoding.handle" then 4
  else if s = b "oic.sec.encoding.pem" then encPem
  else 0

/-- security/oc_cred_util.c:262-286 `oc_cred_usage_from_string`. -/
def usageOf (s : Bytes) : Nat :=
  if s = b "oic.sec.cred.trustca" then 2
  else if s = b "oic.sec.cred.cert" then identityCert
  else if s = b "oic.sec.cred.rolecert" then roleCertUse
  else if s = b "oic.sec.cred.mfgtrustca" then 16
  else if s = b "oic.sec.cred.mfgcert" then 32
  else 0

/-- security/oc_cred.c:1249-1283: the object `privatedata` or `publicdata`. -/
def decodeData : Rep → Data → Option Data
  | [], d => some d
  | (k, .str s) :: l, d =>
    if k = b "encoding" then
      if encodingOf s = 0 then none else decodeData l { d with enc := encodingOf s }
    else if k = b "data" then decodeData l { d with bytes := s }
    else decodeData l d
  | (k, .bytes s) :: l, d => if k = b "data" then decodeData l { d with bytes := s } else decodeData l d
  | _ :: l, d => decodeData l d

/-- security/oc_cred.c:1286-1296: the object `roleid`. The type of the property is
not looked at; the bytes of a value that is no string are not modelled (`ub`). -/
def decodeRole : Rep → Item → Out Item
  | [], it => .ok it
  | (k, v) :: l, it =>
    if k = b "role" then
      match v with
      | .str s | .bytes s => decodeRole l { it with role := some s }
      | _ => .ub
    else if k = b "authority" then
      match v with
      | .str s | .bytes s => decodeRole l { it with authority := some s }
      | _ => .ub
    else decodeRole l it

/-- `isxdigit` in the C locale. -/
def isXDigit (c : UInt8) : Bool := (48 ≤ c && c ≤ 57) || (65 ≤ c && c ≤ 70) || (97 ≤ c && c ≤ 102)

/-- security/oc_cred.c:1091-1103 `is_valid_oscore_id`. -/
def oscoreId (s : Bytes) : Bool := s.length == 14 && s.all isXDigit

/-- security/oc_cred.c:1300-1342: the object `oscore`. -/
def decodeOscore (fromStorage : Bool) : Rep → Item → Option Item
  | [], it => some it
  | (k, .str s) :: l, it =>
    if k = b "senderid" then
      if oscoreId s then decodeOscore fromStorage l { it with sid := some s } else none
    else if k = b "recipientid" then
      if oscoreId s then decodeOscore fromStorage l { it with rid := some s } else none
    else if k = b "desc" then decodeOscore fromStorage l { it with desc := some s }
    else none
  | (k, .int _) :: l, it =>
    if k = b "ssn" then (if fromStorage then decodeOscore fromStorage l it else none) else none
  | _ :: _, _ => none

/-- security/oc_cred.c:1197-1353: one property of a credential object. -/
def decodeProp (fromStorage : Bool) (k : Bytes) (v : Val) (it : Item) : Out (Option Item) :=
  match v with
  | .int i =>
    if k = b "credid" then .ok (some { it with id := toInt32 i })
    else if k = b "credtype" then .ok (some { it with typ := toInt32 i })
    else .ok (some it)
  | .str s =>
    if k = b "subjectuuid" then .ok (some { it with subject := some s })
    else if k = b "credusage" then .ok (some { it with usage := usageOf s })
    else if k = b "tag" then .ok (some { it with tag := some s })
    else .ok (some it)
  | .obj o =>
    if k = b "privatedata" then .ok ((decodeData o it.priv).map fun d => { it with priv := d })
    else if k = b "publicdata" then .ok ((decodeData o it.pub).map fun d => { it with pub := d })
    else if k = b "roleid" then (decodeRole o it).bind fun it => .ok (some it)
    else if k = b "oscore" then .ok (decodeOscore fromStorage o it)
    else .ok (some it)
  | .bool x => .ok (some (if k = b "owner_cred" then { it with ownerCred := x } else it))
  | _ => .ok (some it)

/-- security/oc_cred.c:1194-1355: the properties of a credential object in order. -/
def decodeItem (fromStorage : Bool) : Rep → Item → Out (Option Item)
  | [], it => .ok (some it)
  | (k, v) :: l, it =>
    (decodeProp fromStorage k v { it with nonEmpty := true }).bind fun r =>
      match r with
      | none => .ok none
      | some it => decodeItem fromStorage l it

/-- security/oc_cred.c:1357-1374: the requirements on OSCORE credentials
(`OSCORE_MASTER_SECRET_LEN` is 32). -/
def oscoreOk (it : Item) : Bool :=
  !(it.typ == 64 && (it.sid.isNone || it.rid.isNone || it.priv.bytes.length != 32 || it.desc.isSome)) &&
  !(it.typ == 128 && (it.sid.isNone || it.rid.isSome || it.priv.bytes.length != 32)) &&
  !(it.typ == 256 && (it.rid.isNone || it.sid.isSome || it.priv.bytes.length != 32))

/-- The arguments built at security/oc_cred.c:1376-1395. -/
def Item.req (it : Item) : Req :=
  ⟨it.id, it.typ, it.usage, it.subject, it.priv, it.pub, it.role, it.authority, it.tag⟩

/-- Change the first credential with an id. -/
def modify (i : Int) (f : Cred → Cred) : List Cred → List Cred
  | [] => []
  | c :: l => if c.id = i then f c :: l else c :: modify i f l

/-- security/oc_cred.c:1401-1437 after the credential was added: the credential of
the **device** with the id that was returned gets the OSCORE context and the owner
flag, on the roles resource as well. Result: success, the state, and the
credential remembered as owner (its address). The callback (:1426-1433) is not
modelled: it is `NULL` for both resources. -/
def finish (s : St) (d : Nat) (it : Item) (osOk wantOwner : Bool) (ret : Int) (owner : Option Nat) :
    Bool × St × Option Nat :=
  match getById (s.dev d).creds ret with
  | none => (true, s, owner)
  | some c =>
    if (it.sid.isSome || it.rid.isSome) && !osOk then (false, s, owner)
    else
      let isOwner := it.typ == psk && it.priv.bytes == [] && wantOwner
      let f := fun c : Cred => { c with
        oscore := c.oscore || it.sid.isSome || it.rid.isSome
        owner := it.ownerCred || isOwner }
      (true, s.setDev d { s.dev d with creds := modify ret f (s.dev d).creds },
        if isOwner then some c.uid else owner)

/-- security/oc_cred.c:1169-1440: the credential objects of an array in order,
each with the answers of its oracle. A missing oracle stands for one that does not
answer (no result). -/
def decodeCreds (fromStorage roles : Bool) (client : Option Nat) (wantOwner : Bool) (d : Nat) :
    List Rep → List Orc → St → Option Nat → Out (Bool × St × Option Nat)
  | [], _, s, owner => .ok (true, s, owner)
  | _ :: _, [], _, _ => .ub
  | r :: l, o :: os, s, owner =>
    (decodeItem fromStorage r {}).bind fun x =>
      match x with
      | none => .ok (false, s, owner)
      | some it =>
        if !oscoreOk it then .ok (false, s, owner)
        else if !it.nonEmpty then decodeCreds fromStorage roles client wantOwner d l os s owner
        else
          (add s d roles client it.req o true).bind fun a =>
            if a.ret = -1 then .ok (false, a.st, owner)
            else
              let y := finish a.st d it o.osOk wantOwner a.ret owner
              if y.1 then decodeCreds fromStorage roles client wantOwner d l os y.2.1 y.2.2
              else .ok y

/-- security/oc_cred.c:1121-1151: the properties that the state of the device
allows to write. Every array of objects counts, whatever its name. -/
def guardOk (dos : Dos) (fromStorage : Bool) : Rep → Bool
  | [] => true
  | (k, .str _) :: l =>
    !(k = b "rowneruuid" && !fromStorage && dos != .rfotm && dos != .sreset) && guardOk dos fromStorage l
  | (_, .objs _) :: l =>
    !(!fromStorage && dos != .rfotm && dos != .sreset && dos != .rfpro) && guardOk dos fromStorage l
  | _ :: l => guardOk dos fromStorage l

/-- security/oc_cred.c:1153-1447: the properties in order. The oracles are
consumed array by array (at most one array per oracle list). -/
def decodeProps (fromStorage roles : Bool) (client : Option Nat) (wantOwner : Bool) (d : Nat) :
    Rep → List (List Orc) → St → Option Nat → Out (Bool × St × Option Nat)
  | [], _, s, owner => .ok (true, s, owner)
  | (k, .str v) :: l, os, s, owner =>
    if k = b "rowneruuid" then
      (strToUuid (s.dev d).rowner v).bind fun u =>
        decodeProps fromStorage roles client wantOwner d l os
          (s.setDev d { s.dev d with rowner := u }) owner
    else decodeProps fromStorage roles client wantOwner d l os s owner
  | (k, .objs v) :: l, os, s, owner =>
    if k = b "creds" ∨ k = b "roles" then
      (decodeCreds fromStorage roles client wantOwner d v (os.headD []) s owner).bind fun y =>
        if y.1 then decodeProps fromStorage roles client wantOwner d l os.tail y.2.1 y.2.2
        else .ok y
    else decodeProps fromStorage roles client wantOwner d l os s owner
  | _ :: l, os, s, owner => decodeProps fromStorage roles client wantOwner d l os s owner

/-- security/oc_cred.c:1114-1454 `oc_sec_decode_cred`. The delayed dump (:1449) is
not modelled. -/
def decode (dos : Dos) (fromStorage roles : Bool) (client : Option Nat) (wantOwner : Bool) (d : Nat)
    (rep : Rep) (os : List (List Orc)) (s : St) : Out (Bool × St × Option Nat) :=
  if !roles ∧ !guardOk dos fromStorage rep then .ok (false, s, none)
  else decodeProps fromStorage roles client wantOwner d rep os s none

/-- Change the credential with an address. -/
def modifyUid (u : Nat) (f : Cred → Cred) (l : List Cred) : List Cred :=
  l.map fun c => if c.uid = u then f c else c

/-- security/oc_cred.c:1484-1522: what happens with the owner credential after
decoding. If the remembered credential was replaced meanwhile its memory is
freed and reading it is undefined. `derived`: the result of
`oc_sec_derive_owner_psk` with the 16 bytes of the key. -/
def deriveOwner (s : St) (d : Nat) (success : Bool) (owner : Option Nat) (derived : Bool × Bytes) :
    Out (Bool × St) :=
  match owner with
  | none => .ok (success, s)
  | some u =>
    match (s.dev d).creds.find? fun c => c.uid == u with
    | none => .ub
    | some c =>
      let derive := success && c.subject == (s.dev d).rowner
      let ok := if derive then derived.1 else success
      let l := if derive then modifyUid u (fun c => { c with priv := ⟨derived.2, encRaw⟩ }) (s.dev d).creds
        else (s.dev d).creds
      .ok (ok, s.setDev d { s.dev d with creds := if ok then l else eraseId c.id l })

/-- security/oc_cred.c:1456-1524 `oc_sec_apply_cred`, called by the POST handlers
of `/oic/sec/cred` (:1535-1551) and `/oic/sec/roles` (oc_roles.c:352-366). On the
roles resource the owner is never set, as only certificates are accepted. -/
def apply (dos : Dos) (roles : Bool) (client : Option Nat) (d : Nat) (rep : Rep)
    (os : List (List Orc)) (derived : Bool × Bytes) (s : St) : Out (Bool × St) :=
  (decode dos false roles client true d rep os s).bind fun y =>
    if roles then .ok (y.1, y.2.1) else deriveOwner y.2.1 d y.1 y.2.2 derived

/-- security/oc_cred.c:1553-1586 `cred_resource_delete`: the id of the query (if
there is a query `credid`), already parsed as a `long`. Result: success. -/
def delete (dos : Dos) (d : Nat) (query : Option Int) (s : St) : Bool × St :=
  if dos = .rfnop then (false, s)
  else
    match query with
    | none => (true, s.setDev d { s.dev d with creds := clear (fun _ => true) (s.dev d).creds })
    | some i =>
      if i > intMax ∨ i < 0 then (false, s)
      else
        match getById (s.dev d).creds i with
        | none => (false, s)
        | some _ => (true, s.setDev d { s.dev d with creds := eraseId i (s.dev d).creds })

/-- security/oc_roles.c:368-400 `roles_resource_delete`. -/
def deleteRole (client : Option Nat) (query : Option Int) (s : St) : Bool × St :=
  match client with
  | none => (false, s)
  | some p =>
    match query with
    | none => (true, { s with clients := freeRoles p s.clients })
    | some i =>
      if i > intMax ∨ i < 0 then (false, s)
      else
        let r := freeRoleById i p s.clients
        (r.1, { s with clients := r.2 })

/-- The operations of a history. -/
inductive Op where
  /-- `oc_sec_add_new_cred` by the application (oc_pki.c, oc_obt*.c; no place for a
  replaced credential) -/
  | add (d : Nat) (q : Req) (o : Orc)
  /-- POST to `/oic/sec/cred` -/
  | post (d : Nat) (dos : Dos) (rep : Rep) (os : List (List Orc)) (derived : Bool × Bytes)
  /-- POST to `/oic/sec/roles` by a session -/
  | postRoles (d : Nat) (dos : Dos) (client : Option Nat) (rep : Rep) (os : List (List Orc))
  /-- DELETE of `/oic/sec/cred` -/
  | delete (d : Nat) (dos : Dos) (query : Option Int)
  /-- DELETE of `/oic/sec/roles` -/
  | deleteRole (client : Option Nat) (query : Option Int)
  /-- `oc_sec_remove_cred_by_credid` -/
  | remove (d : Nat) (i : Int)
  /-- `oc_cred_remove_by_subject` -/
  | removeSubject (d : Nat) (u : Id)
  /-- `oc_sec_cred_clear` with a filter -/
  | clear (d : Nat) (f : Cred → Bool)
  /-- `oc_sec_cred_default` -/
  | default (d : Nat)
  /-- loading from storage: `oc_sec_decode_cred` with `from_storage` -/
  | load (d : Nat) (dos : Dos) (rep : Rep) (os : List (List Orc))
  /-- a session ends (`oc_tls_free_peer`, security/oc_tls.c:500) -/
  | closeSession (p : Nat)
  /-- `oc_sec_free_roles_for_device` (on a reset, security/oc_pstat.c:318) -/
  | freeRolesDevice (d : Nat)

/-- One operation of a history (each as described above). -/
def step (s : St) : Op → Out St
  | .add d q o => (add s d false none q o false).bind fun a => .ok a.st
  | .post d dos rep os derived => (apply dos false none d rep os derived s).bind fun y => .ok y.2
  | .postRoles d dos client rep os => (apply dos true client d rep os (false, []) s).bind fun y => .ok y.2
  | .delete d dos q => .ok (delete dos d q s).2
  | .deleteRole c q => .ok (deleteRole c q s).2
  | .remove d i => .ok (s.setDev d { s.dev d with creds := eraseId i (s.dev d).creds })
  | .removeSubject d u => .ok (s.setDev d { s.dev d with creds := eraseSubject u (s.dev d).creds })
  | .clear d f => .ok (s.setDev d { s.dev d with creds := clear f (s.dev d).creds })
  | .default d => .ok (s.setDev d ⟨clear (fun _ => true) (s.dev d).creds, nilId⟩)
  | .load d dos rep os =>
    (decode dos true false none false d rep os s).bind fun y => .ok y.2.1
  | .closeSession p => .ok { s with clients := freeRoles p s.clients }
  | .freeRolesDevice d => .ok { s with clients := freeForDevice d s.clients s.clients }

/-- A history of operations. -/
def run : St → List Op → Out St
  | s, [] => .ok s
  | s, o :: l => (step s o).bind fun s' => run s' l

/-- The state after `oc_sec_cred_init` (security/oc_cred.c:81-94). -/
def init : St := ⟨fun _ => ⟨[], nilId⟩, [], 0, []⟩

end Verif.Cred
