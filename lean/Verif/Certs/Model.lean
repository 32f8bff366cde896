import Verif.Uuid.Model
import Verif.Rep.Model

/-!
Model of the checks of X.509 certificates: security/oc_certs_validate.c, the parts of
security/oc_certs.c that read names, roles and times, the verification callbacks of
security/oc_tls.c and the assertion of a role certificate in security/oc_cred.c.

Simplifications: a certificate is what mbedtls has parsed, its fields are independent of
each other; mbedtls itself (signatures, building of the chain) is a parameter: the flags it
has found for every certificate of the chain, and if a role certificate is signed by one
of the trust anchors. The clock does not move while a handshake is checked.
-/

namespace Verif.Certs

open Verif.Rep (b)

/-- Bytes. -/
abbrev Bytes := List UInt8

/-- A name of the type directoryName or something else, mbedtls/x509.h; `bad`: cannot be
parsed (security/oc_certs.c:496-499). -/
inductive San where
  | dir (names : List (Bytes × Bytes))
  | other
  | bad
  deriving DecidableEq, Repr

/-- `mbedtls_x509_crt`, as far as it is used: message digest and kind of the signature
(`sig_md`, `sig_pk`), version, whether the clock is before `valid_from` or after `valid_to`,
the curve of the public key (`none`: the key is not one of an elliptic curve), the bytes of
issuer and subject and what follows the subject in memory, key usage, `ca_istrue` (0 or 1),
`max_pathlen` (0: no limit, otherwise one more than the limit), extended key usage (`none`:
no such extension), all bytes of the certificate, attributes (type, value) of subject and
issuer, alternative names of the subject, the public key in DER (`none`: it cannot be
written). -/
structure Cert where
  sigMd : Nat
  sigPk : Nat
  version : Nat
  future : Bool
  past : Bool
  curve : Option Nat
  issuer : Bytes
  subject : Bytes
  after : Bytes
  ku : Nat
  ca : Bool
  maxPathlen : Nat
  eku : Option (List Bytes)
  raw : Bytes
  names : List (Bytes × Bytes)
  issuerNames : List (Bytes × Bytes)
  sans : List San
  pub : Option Bytes
  deriving DecidableEq, Repr

/-- The masks set by the application: `g_allowed_mds_mask`, `g_allowed_ecp_grpids_mask`,
security/oc_certs.c:57-64. -/
structure Cfg where
  mds : Nat
  curves : Nat
  deriving DecidableEq, Repr

/-- `MBEDTLS_X509_ID_FLAG`, mbedtls/x509_crt.h: `1 << (id - 1)`. -/
def idFlag (v : Nat) : Nat := 1 <<< (v - 1)

/-- `OCF_CERTS_SUPPORTED_MDS`, include/oc_certs.h:36-38; SHA256 is 9 and SHA384 is 10 in
mbedtls/md.h. -/
def supportedMds : Nat := idFlag 9 ||| idFlag 10

/-- `OCF_CERTS_SUPPORTED_ELLIPTIC_CURVES`, include/oc_certs.h:41-43; SECP256R1 is 3 and
SECP384R1 is 4 in mbedtls/ecp.h. -/
def supportedCurves : Nat := idFlag 3 ||| idFlag 4

/-- `oc_sec_certs_md_set_algorithms_allowed`, `oc_sec_certs_ecp_set_group_ids_allowed`,
security/oc_certs.c:90-95, 129-135. -/
def setAllowed (mds curves : Nat) : Cfg := ⟨mds &&& supportedMds, curves &&& supportedCurves⟩

/-- `certs_x509_id_flag_value` with the arguments it is called with,
security/oc_certs.c:103-107. -/
def flagValue (v : Nat) : Nat := if v > 0 ∧ v < 32 then idFlag v else 0

/-- `oc_sec_certs_md_algorithm_is_allowed`, security/oc_certs.c:109-114. -/
def mdAllowed (cfg : Cfg) (v : Nat) : Bool := flagValue v &&& cfg.mds != 0

/-- `oc_sec_certs_ecp_group_id_is_allowed`, security/oc_certs.c:143-148. -/
def curveAllowed (cfg : Cfg) (v : Nat) : Bool := flagValue v &&& cfg.curves != 0

/-- `MBEDTLS_X509_BADCERT_EXPIRED`, mbedtls/x509.h. -/
abbrev expiredFlag : Nat := 0x01
/-- `MBEDTLS_X509_BADCERT_FUTURE`, mbedtls/x509.h. -/
abbrev futureFlag : Nat := 0x0200

/-- `MBEDTLS_PK_ECDSA`, mbedtls/pk.h. -/
abbrev pkEcdsa : Nat := 4

/-- The flags set for the validity period, security/oc_certs_validate.c:56-66. -/
def timeFlags (c : Cert) (flags : Nat) : Nat :=
  let flags := if c.future then flags ||| futureFlag else flags
  if c.past then flags ||| expiredFlag else flags

/-- `validate_x509v1_fields`, security/oc_certs_validate.c:38-82. `sig_pk` is the kind of
the *signature*; if the public key is not one of an elliptic curve, `mbedtls_pk_ec` at line
76 is NULL. A shift by -1 at line 70 is `ub` too. -/
def v1Fields (cfg : Cfg) (c : Cert) (flags : Nat) : Out (Bool × Nat) :=
  if ¬ mdAllowed cfg c.sigMd then .ok (false, flags)
  else if c.version ≠ 3 then .ok (false, flags)
  else
    let flags := timeFlags c flags
    if c.sigPk = 0 then .ub
    else if idFlag c.sigPk &&& idFlag pkEcdsa = 0 then .ok (false, flags)
    else match c.curve with
      | none => .ub
      | some g => .ok (curveAllowed cfg g, flags)

/-- `is_self_issued`, security/oc_certs_validate.c:96-98: `||` where `&&` is meant. The
comparison reads as many bytes as the issuer has, from the subject on. -/
def selfIssued (c : Cert) : Out Bool :=
  if c.issuer.length = c.subject.length then .ok true
  else if c.issuer.length ≤ (c.subject ++ c.after).length then
    .ok (c.issuer == (c.subject ++ c.after).take c.issuer.length)
  else .ub

/-- `MBEDTLS_X509_KU_DIGITAL_SIGNATURE`, mbedtls/x509.h. -/
abbrev kuDs : Nat := 0x80
/-- `MBEDTLS_X509_KU_KEY_AGREEMENT`, mbedtls/x509.h. -/
abbrev kuKa : Nat := 0x08
/-- `MBEDTLS_X509_KU_KEY_CERT_SIGN`, mbedtls/x509.h. -/
abbrev kuCs : Nat := 0x04
/-- `MBEDTLS_X509_KU_CRL_SIGN`, mbedtls/x509.h. -/
abbrev kuCrl : Nat := 0x02

/-- The checks of the key usage, security/oc_certs_validate.c:116-123, 196-203: all of
`req` and nothing outside `req` and `opt` (`x & ~m` is what remains of `x` without `m`). -/
def kuOk (ku req opt : Nat) : Bool := ku &&& req == req && ku &&& (opt ||| req) == ku

/-- Required and optional bits of a CA, security/oc_certs_validate.c:110-115. -/
def kuCa (otm : Bool) (ku : Nat) : Bool :=
  kuOk ku (if otm then kuCs ||| kuCrl else kuCs) (if otm then kuDs else kuDs ||| kuCrl)

/-- What follows the check of the names, security/oc_certs_validate.c:108-146. -/
def caRest (c : Cert) (root otm : Bool) (depth : Nat) : Bool :=
  if ¬ kuCa otm c.ku then false
  else if ¬ c.ca then false
  else if c.maxPathlen ≠ 0 ∧ c.maxPathlen < depth then false
  else if otm ∧ ¬ root ∧ c.maxPathlen ≠ 1 then false
  else true

/-- `oc_certs_validate_non_end_entity_cert`, security/oc_certs_validate.c:84-147. -/
def nonEndEntity (cfg : Cfg) (c : Cert) (root otm : Bool) (depth flags : Nat) : Out (Bool × Nat) :=
  (v1Fields cfg c flags).bind fun x =>
    if ¬ x.1 then .ok x
    else (selfIssued c).bind fun s =>
      if root ∧ ¬ s then .ok (false, x.2)
      else if ¬ root ∧ s then .ok (false, x.2)
      else .ok (caRest c root otm depth, x.2)

/-- `MBEDTLS_OID_SERVER_AUTH`, mbedtls/oid.h. -/
def oidServer : Bytes := [0x2b, 0x06, 0x01, 0x05, 0x05, 0x07, 0x03, 0x01]
/-- `MBEDTLS_OID_CLIENT_AUTH`, mbedtls/oid.h. -/
def oidClient : Bytes := [0x2b, 0x06, 0x01, 0x05, 0x05, 0x07, 0x03, 0x02]
/-- `MBEDTLS_OID_ANY_EXTENDED_KEY_USAGE`, mbedtls/oid.h. -/
def oidAny : Bytes := [0x55, 0x1d, 0x25, 0x00]
/-- The OID of identity certificates, security/oc_certs_validate.c:152-159. -/
def oidIdentity : Bytes := [0x2b, 0x06, 0x01, 0x04, 0x01, 0x82, 0xDE, 0x7C, 0x01, 0x06]
/-- The OID of role certificates, security/oc_certs_validate.c:169-176. -/
def oidRole : Bytes := [0x2b, 0x06, 0x01, 0x04, 0x01, 0x82, 0xDE, 0x7C, 0x01, 0x07]

/-- `mbedtls_x509_crt_check_extended_key_usage` of mbedtls, returning 0: no extension, or
the OID or `anyExtendedKeyUsage` is listed; used at security/oc_certs_validate.c:161-327. -/
def hasEku (c : Cert) (oid : Bytes) : Bool :=
  match c.eku with
  | none => true
  | some l => l.any fun o => o == oid || o == oidAny

/-- The checks common to end-entity and role certificates after the fields of v1,
security/oc_certs_validate.c:191-229, 267-305. -/
def leafOk (c : Cert) : Bool :=
  kuOk c.ku (kuDs ||| kuKa) 0 && !(c.ca || c.maxPathlen != 0) && hasEku c oidServer && hasEku c oidClient

/-- `oc_certs_validate_end_entity_cert`, security/oc_certs_validate.c:182-255. -/
def endEntity (cfg : Cfg) (c : Cert) (flags : Nat) : Out (Bool × Nat) :=
  (v1Fields cfg c flags).bind fun x =>
    .ok (x.1 && leafOk c && hasEku c oidIdentity && !hasEku c oidRole && !hasEku c oidAny, x.2)

/-- `oc_certs_validate_role_cert`, security/oc_certs_validate.c:257-331. -/
def roleCert (cfg : Cfg) (c : Cert) (flags : Nat) : Out (Bool × Nat) :=
  (v1Fields cfg c flags).bind fun x =>
    .ok (x.1 && leafOk c && !hasEku c oidIdentity && hasEku c oidRole && !hasEku c oidAny, x.2)

/-! ### Names -/

/-- `MBEDTLS_OID_AT_CN`, mbedtls/oid.h. -/
def oidCn : Bytes := [0x55, 0x04, 0x03]
/-- `MBEDTLS_OID_AT_ORG_UNIT`, mbedtls/oid.h. -/
def oidOu : Bytes := [0x55, 0x04, 0x0b]

/-- `UUID_PREFIX`, security/oc_certs.c:47. -/
def uuidPrefix : Bytes := b "uuid:"

/-- `certs_find_uuid_prefix`, security/oc_certs.c:309-319: the position of the first
occurrence; called with more bytes than the prefix has. -/
def findPrefix : Bytes → Option Nat
  | [] => none
  | c :: r => if uuidPrefix.isPrefixOf (c :: r) then some 0 else (findPrefix r).map (· + 1)

/-- `oc_certs_parse_CN_buffer_for_UUID` with a buffer that is large enough,
security/oc_certs.c:321-358: the 36 characters. -/
def cnUuid (val : Bytes) : Option Bytes :=
  if val.length > uuidPrefix.length then
    match findPrefix val with
    | none => none
    | some i =>
      let n := i + uuidPrefix.length
      if val.length - n < 36 then none else some ((val.drop n).take 36)
  else none

/-- The first attribute of a type: the loops at security/oc_certs.c:365-372, 419-426. -/
def firstOf (oid : Bytes) (names : List (Bytes × Bytes)) : Option Bytes :=
  (names.find? fun n => n.1 == oid).map (·.2)

/-- `oc_certs_extract_CN_for_UUID`, security/oc_certs.c:360-379. -/
def certUuid (c : Cert) : Option Bytes := (firstOf oidCn c.names).bind cnUuid

/-- `oc_certs_encode_CN_with_UUID`, security/oc_certs.c:298-307; `cap`: size of the
buffer. -/
def encodeCn (u : Bytes) (cap : Nat) : Option Bytes :=
  if cap < 8 + 37 then none else (Uuid.toStr u 37).map fun s => b "CN=uuid:" ++ s

/-- The inner loop of `certs_extract_first_role`, security/oc_certs.c:508-522: it ends when
both are found. -/
def scanDn : List (Bytes × Bytes) → Option Bytes → Option Bytes → Option Bytes × Option Bytes
  | [], r, a => (r, a)
  | n :: l, r, a =>
    if r.isSome ∧ a.isSome then (r, a)
    else if n.1 = oidCn then scanDn l (some n.2) a
    else if n.1 = oidOu then scanDn l r (some n.2)
    else scanDn l r a

/-- Role and authority of a directoryName, security/oc_certs.c:524-547. -/
def roleOf (issuerNames dn : List (Bytes × Bytes)) : Option (Bytes × Bytes) :=
  match scanDn dn none none with
  | (none, _) => none
  | (some r, some a) => some (r, a)
  | (some r, none) => (firstOf oidCn issuerNames).map fun a => (r, a)

/-- `certs_extract_first_role`, security/oc_certs.c:488-550. -/
def firstRole (issuerNames : List (Bytes × Bytes)) : List San → Option (Bytes × Bytes)
  | [] => none
  | .bad :: _ => none
  | .other :: l => firstRole issuerNames l
  | .dir dn :: _ => roleOf issuerNames dn

/-! ### Handshake -/

/-- `oc_sec_credusage_t`, include/oc_cred.h, as far as it is used here. -/
inductive Usage where
  | mfgCert
  | identity
  | trustCa
  | mfgTrustCa
  | role
  | other
  deriving DecidableEq, Repr

/-- `oc_x509_cacrt_t` with what is used of its credential, security/oc_tls.c:190-196:
address, device, usage, subject of the credential, bytes of the certificate. -/
structure Ca where
  addr : Nat
  device : Nat
  usage : Usage
  subject : Bytes
  raw : Bytes
  deriving DecidableEq, Repr

/-- `oc_x509_crt_t` of the own certificate of the session, security/oc_tls.c:203-211:
device, usage, `ctx` (the address of a CA). -/
structure Own where
  device : Nat
  usage : Usage
  ctx : Option Nat
  deriving DecidableEq, Repr

/-- What a handshake changes: the own certificate (`none`: not in `g_identity_certs`,
security/oc_tls.c:1627-1646), the identity and the public key of the peer. -/
structure St where
  own : Option Own
  uuid : Bytes
  pub : Option Bytes
  deriving DecidableEq, Repr

/-- The wildcard `*` as a UUID, security/oc_tls.c:1859-1861. -/
def wildcard : Bytes := 42 :: List.replicate 15 0

/-- The search for the trusted root, security/oc_tls.c:1814-1826. -/
def noteRoot (cas : List Ca) (c : Cert) (s : St) : St :=
  match s.own with
  | none => s
  | some o =>
    if o.usage = .identity then
      match cas.find? fun a => a.device == o.device && a.usage == .trustCa && c.raw == a.raw with
      | none => s
      | some a => { s with own := some { o with ctx := some a.addr } }
    else s

/-- The branch for root and intermediate certificates, security/oc_tls.c:1798-1827. -/
def verifyCa (cfg : Cfg) (cas : List Ca) (otm : Bool) (c : Cert) (depth : Nat) (s : St) (flags : Nat) :
    Out (Bool × Nat × St) :=
  (nonEndEntity cfg c true otm depth flags).bind fun x =>
    if x.1 then .ok (true, x.2, noteRoot cas c s)
    else (nonEndEntity cfg c false otm depth x.2).bind fun y => .ok (y.1, y.2, s)

/-- The loop that looks for an authorising trust anchor, security/oc_tls.c:1872-1919: the
condition of the loop ends it at the first CA that is not a `TRUSTCA` of the device, with
`ca_cert` not NULL. -/
def authorise (device : Nat) (root : Bytes) (uuid : Bytes) : List Ca → Bool
  | [] => false
  | a :: l =>
    if ¬ (a.device = device ∧ a.usage = .trustCa) then true
    else if a.raw ≠ root then authorise device root uuid l
    else if a.subject = uuid ∨ a.subject = wildcard then true
    else authorise device root uuid l

/-- `oc_str_to_uuid` into the UUID of the peer, security/oc_tls.c:1848: its result is not
looked at. -/
def setUuid (text old : Bytes) : Out Bytes :=
  (Uuid.ofStr text).bind fun x => .ok (x.2.getD old)

/-- The UUID of the peer, security/oc_tls.c:1837-1850; `none`: refused. -/
def peerUuid (c : Cert) (s : St) : Out (Option Bytes) :=
  match certUuid c with
  | none => .ok (match s.own with
    | some o => if o.usage = .identity then none else some (42 :: s.uuid.drop 1)
    | none => some (42 :: s.uuid.drop 1))
  | some t => (setUuid t s.uuid).bind fun u => .ok (some u)

/-- The authorisation, security/oc_tls.c:1857-1920. A CA that is no longer in the list has
been freed (`oc_tls_remove_trust_anchor`, security/oc_tls.c:1226-1241), reading it through
`ctx` is `ub`. -/
def authorised (cas : List Ca) (s : St) : Out Bool :=
  match s.own with
  | none => .ok true
  | some o =>
    if o.usage = .mfgCert then .ok true
    else match o.ctx with
      | none => .ok false
      | some p => match cas.find? fun a => a.addr == p with
        | none => .ub
        | some r => .ok (authorise o.device r.raw s.uuid cas)

/-- The branch for end-entity certificates, security/oc_tls.c:1828-1921. -/
def verifyLeaf (cfg : Cfg) (cas : List Ca) (c : Cert) (s : St) (flags : Nat) : Out (Bool × Nat × St) :=
  (endEntity cfg c flags).bind fun x =>
    if ¬ x.1 then .ok (false, x.2, s)
    else (peerUuid c s).bind fun u => match u with
      | none => .ok (false, x.2, s)
      | some u => match c.pub with
        | none => .ok (false, x.2, { s with uuid := u })
        | some k =>
          let s := { s with uuid := u, pub := some k }
          (authorised cas s).bind fun a => .ok (a, x.2, s)

/-- `verify_manufacturer_or_identity_certificate`, security/oc_tls.c:1792-1924. -/
def verifyPeer (cfg : Cfg) (cas : List Ca) (otm : Bool) (c : Cert) (depth : Nat) (s : St) (flags : Nat) :
    Out (Bool × Nat × St) :=
  if depth > 0 then verifyCa cfg cas otm c depth s flags else verifyLeaf cfg cas c s flags

/-- `verify_cloud_certificate`, security/oc_tls.c:1927-1943. -/
def verifyCloud (c : Cert) (depth : Nat) (s : St) (flags : Nat) : Out (Bool × Nat × St) :=
  if depth ≠ 0 then .ok (true, flags, s)
  else match certUuid c with
    | none => .ok (true, flags, { s with uuid := 42 :: s.uuid.drop 1 })
    | some t => (setUuid t s.uuid).bind fun u => .ok (true, flags, { s with uuid := u })

/-- The callback of the application, security/oc_pki.c:407-461: result 0, flags. -/
abbrev User := Nat → Cert → Nat → Bool × Nat

/-- `default_verify_certificate_cb`, security/oc_pki.c:413-452. -/
def defaultUser : User := fun _ _ flags => (true, flags)

/-- `tls_verify_certificate`, security/oc_tls.c:1748-1790. -/
def tlsVerify (user : User) (v : Out (Bool × Nat × St)) (c : Cert) (depth : Nat) : Out (Bool × St) :=
  v.bind fun x =>
    if x.1 then
      let u := user depth c x.2.1
      .ok (if u.2 ≠ 0 then false else u.1, x.2.2)
    else .ok (false, x.2.2)

/-- What the checks of a handshake depend on: masks, CAs, whether the device is in RFOTM,
the callback of the application, whether the peer is the cloud. -/
structure Env where
  cfg : Cfg
  cas : List Ca
  otm : Bool
  user : User
  cloud : Bool

/-- One certificate of the chain. -/
def checkOne (env : Env) (c : Cert) (depth flags : Nat) (s : St) : Out (Bool × St) :=
  tlsVerify env.user
    (if env.cloud then verifyCloud c depth s flags else verifyPeer env.cfg env.cas env.otm c depth s flags) c depth

/-- mbedtls calls the callback for every certificate of the chain with the flags it has
found itself, the root (with the greatest depth) first, and ends at the first failure
(`x509_crt_merge_flags_with_cb`). The list has the certificate at depth 0 last. -/
def handshake (env : Env) : List (Cert × Nat) → St → Out (Bool × St)
  | [], s => .ok (true, s)
  | (c, f) :: l, s => (checkOne env c l.length f s).bind fun x => if x.1 then handshake env l x.2 else .ok x

/-! ### Role certificates -/

/-- The client of a session: UUID and public key (empty: `public_key.size` is 0). -/
structure Client where
  uuid : Bytes
  pub : Bytes
  deriving DecidableEq, Repr

/-- `memcmp` of the public key of the role certificate with the end of the one of the
client, security/oc_cred.c:439-446: the start is before the buffer if the key of the role
certificate is longer. -/
def keyMatches (client : Client) (key : Bytes) : Out Bool :=
  if client.pub.length = 0 then .ok true
  else if client.pub.length < key.length then .ub
  else .ok (key == client.pub.drop (client.pub.length - key.length))

/-- `check_uuid_from_cert_raw`, security/oc_cred.c:400-416: 37 bytes are compared. For the
wildcard UUID the text is `*` and what follows it on the stack is compared too; here such a
comparison fails. -/
def uuidMatches (uuid : Bytes) (c : Cert) : Bool :=
  match certUuid c with
  | none => false
  | some t => match Uuid.toStr uuid 37 with
    | none => false
    | some s => s == t

/-- What a role certificate is checked against: masks and the bytes of the trust anchors
it may be signed by: `oc_tls_get_trust_anchors` are the certificates of all CAs, of all
devices and of both usages (security/oc_tls.c:1528-1578); `signed`: whether mbedtls can
verify the certificate with these. -/
structure RoleEnv where
  cfg : Cfg
  anchors : List Ca
  signed : Cert → List Bytes → Bool

/-- `oc_certs_parse_role_certificate`, security/oc_certs.c:573-632; `none`: -1. -/
def parseRole (env : RoleEnv) (c : Cert) : Out (Option (Bytes × Bytes)) :=
  (roleCert env.cfg c 0).bind fun x =>
    if ¬ x.1 ∨ x.2 ≠ 0 then .ok none
    else if ¬ env.signed c (env.anchors.map (·.raw)) then .ok none
    else .ok (firstRole c.issuerNames c.sans)

/-- `OCF_SEC_ROLE_OWNER`, security/oc_roles_internal.h. -/
def roleOwner : Bytes := b "oic.role.owner"

/-- `check_role_assertion`, security/oc_cred.c:382-398. -/
def assertable (role : Bytes) : Bool :=
  if (b "oic.role.").isPrefixOf role then role == roleOwner else true

/-- Posting a certificate to /oic/sec/roles, security/oc_cred.c:644-665, 776-780, 549-563:
the role (with its authority) that the client is given; `none`: refused. -/
def assertRole (env : RoleEnv) (client : Client) (usage : Usage) (c : Cert) : Out (Option (Bytes × Bytes)) :=
  match c.pub with
  | none => .ok none
  | some key =>
    if usage ≠ .role then .ok none
    else (keyMatches client key).bind fun k =>
      if ¬ k then .ok none
      else if ¬ uuidMatches client.uuid c then .ok none
      else (parseRole env c).bind fun r => match r with
        | none => .ok none
        | some ra => .ok (if assertable ra.1 then some ra else none)

/-- A role the client has: its certificate and what was read from it. -/
structure Held where
  cert : Cert
  role : Bytes
  authority : Bytes
  deriving DecidableEq, Repr

/-- The loop over the roles of a peer in `get_peer_permissions`,
security/oc_acl_util.c:316-336: permissions and the roles that remain; `perm`: the
permissions of the access control list for a role, `acc`: the permissions so far. 31 is `OC_PERM_ALL`
(api/oc_enums_internal.h:30). -/
def rolePerms (cfg : Cfg) (perm : Held → Nat) : Nat → List Held → Out (Nat × List Held)
  | acc, [] => .ok (acc, [])
  | acc, h :: l => (roleCert cfg h.cert 0).bind fun x =>
    if ¬ x.1 ∨ x.2 ≠ 0 then rolePerms cfg perm acc l
    else if h.role = roleOwner then .ok (31, h :: l)
    else (rolePerms cfg perm (acc ||| perm h) l).bind fun y => .ok (y.1, h :: y.2)

/-! ### Times -/

/-- `mbedtls_x509_time`. -/
structure Time where
  year : Int
  mon : Int
  day : Int
  hour : Int
  min : Int
  sec : Int
  deriving DecidableEq, Repr

/-- `days_offset`, security/oc_certs.c:648-650. -/
def daysOffset : List Int := [0, 31, 59, 90, 120, 151, 181, 212, 243, 273, 304, 334]

/-- Element of the table; an index outside is `ub`. -/
def offsetAt (i : Int) : Out Int :=
  if i < 0 then .ub else Out.get daysOffset i.toNat

/-- The days, security/oc_certs.c:652-665. `/` and `%` round to zero. -/
def timeDays (t : Time) : Out Int :=
  let month := t.mon - 1
  let year := t.year + month.tdiv 12
  (offsetAt (month.tmod 12)).bind fun o =>
    let days := (year - 1970) * 365 + o
    let days := days + (year - 1968).tdiv 4
    let days := days - (year - 1900).tdiv 100
    let days := days + (year - 1600).tdiv 400
    let days := if year.tmod 4 = 0 ∧ (year.tmod 100 ≠ 0 ∨ year.tmod 400 = 0) ∧ month.tmod 12 < 2 then days - 1 else days
    .ok (days + (t.day - 1))

/-- `oc_certs_time_to_unix_timestamp`, security/oc_certs.c:644-673: modulo 2^64. -/
def unixTime (t : Time) : Out Nat :=
  (timeDays t).bind fun d =>
    .ok ((((d * 24 + t.hour) * 60 + t.min) * 60 + t.sec) % 18446744073709551616).toNat

/-- `oc_certs_is_PEM`, security/oc_certs.c:150-157. -/
def isPem (s : Bytes) : Bool := s.length > 11 && (b "-----BEGIN ").isPrefixOf s

/-- `oc_certs_is_subject_the_issuer`, security/oc_certs.c:675-682. -/
def isIssuer (issuer child : Cert) : Bool := child.issuer == issuer.subject

end Verif.Certs
