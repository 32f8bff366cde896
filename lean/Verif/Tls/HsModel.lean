import Verif.Common
import Verif.Cred.Model

/-!
Model of how a (D)TLS handshake is set up and how its pre-shared key is found:
security/oc_tls.c:153-180, 225-305, 831-908, 1580-1745, 1947-2009, 2114-2248 (built
with `OC_CLIENT`, `OC_PKI` and `OC_CLOUD`).
-/

namespace Verif.Tls

open Verif.Acl (Dos Id)
open Verif.Cred (Cred)
open Verif.Rep (b)

/-- The cipher suites of the tables security/oc_tls.c:227-305. -/
inductive Suite where
  | pskCbc | anonCbc
  | ecdsa128Ccm8 | ecdsa128Ccm | ecdsa256Ccm8 | ecdsa256Ccm
  | ecdsa128Gcm | ecdsa128Cbc | ecdsa256Gcm | ecdsa256Cbc | rsa128Gcm | rsa256Gcm
  deriving Repr, DecidableEq

/-- The tables of a client, security/oc_tls.c:257-265, 284-305; `g_ciphers`
(227) points to one of them or is NULL between handshakes. -/
inductive Prio where
  | psk | anon | cert | cloud
  deriving Repr, DecidableEq

/-- security/oc_tls.c:276-281 `cert_otm_priority` and 298-303 `cert_priority`. -/
def certSuites : List Suite := [.ecdsa128Ccm8, .ecdsa128Ccm, .ecdsa256Ccm8, .ecdsa256Ccm]

/-- security/oc_tls.c:287-295 `cloud_priority`. -/
def cloudSuites : List Suite :=
  [.ecdsa128Gcm, .ecdsa128Cbc, .ecdsa256Gcm, .ecdsa256Cbc, .rsa128Gcm, .rsa256Gcm]

/-- security/oc_tls.c:232-255 `default_priority`. -/
def defaultSuites : List Suite := .pskCbc :: (certSuites ++ cloudSuites)

/-- The contents of the tables, security/oc_tls.c:257-305. -/
def Prio.suites : Prio → List Suite
  | .psk => [.pskCbc]
  | .anon => [.anonCbc]
  | .cert => certSuites
  | .cloud => cloudSuites

/-- The global variables: `g_ciphers`, `g_selected_mfg_cred`,
`g_selected_id_cred` (security/oc_tls.c:227-230; `none` is
`OC_TLS_SELECTED_ANY_CRED_ID`), `use_pin_obt_psk_identity` (173) and `g_pin` (127). -/
structure Glob where
  ciphers : Option Prio := none
  mfg : Option Int := none
  ident : Option Int := none
  pinId : Bool := false
  pin : List UInt8 := List.replicate 8 0
  deriving Repr, DecidableEq

/-- What the code reads of a device: pstat and doxm (security/oc_tls.c:1669, 1678),
its credentials, its identifier, and the chains of certificates that can be loaded
(1648-1657; which one is found for a selected credential is an oracle). -/
structure Device where
  dos : Dos
  oxmsel : Int
  owned : Bool
  uuid : Id
  creds : List Cred
  identChain : Option Int → Bool
  mfgChain : Option Int → Bool

/-- The chain of certificates configured for a handshake. -/
inductive Chain where
  | ident | mfg | nothing
  deriving Repr, DecidableEq

/-- The configuration of a handshake: cipher suites in order, whether the
certificate of the peer is checked by the rules for a cloud, whether one is
required, the identity told to the peer, the own chain, and whether the
connection is the one for the transfer of ownership. -/
structure Conf where
  suites : List Suite
  cloudVerify : Bool
  required : Bool
  identity : List UInt8
  chain : Chain
  doc : Bool
  deriving Repr, DecidableEq

/-- Role of this device in a handshake. -/
inductive Role where
  | client | server
  deriving Repr, DecidableEq

/-- security/oc_tls.c:1648-1657 `oc_tls_load_cert_chain`. -/
def loadChain (g : Glob) (d : Device) : Chain :=
  if d.owned && d.identChain g.ident then .ident
  else if d.mfgChain g.mfg then .mfg
  else .nothing

/-- security/oc_cred.c:320-335 `oc_sec_find_creds_for_subject` from the beginning. -/
def findSubject (l : List Cred) (s : Id) : Option Cred := l.find? fun c => c.subject == s

/-- security/oc_tls.c:1661-1729 `oc_tls_set_ciphersuites`: the suites offered to or
accepted from the peer `di`. -/
def suitesFor (g : Glob) (d : Device) (role : Role) (di : Id) : List Suite :=
  if role = .server ∧ d.dos = .rfotm then
    if d.oxmsel = 0 then [.anonCbc]
    else if d.oxmsel = 1 then [.pskCbc]
    else if d.oxmsel = 2 then certSuites
    else defaultSuites
  else
    match g.ciphers with
    | some p => p.suites
    | none =>
      if role = .client then
        match findSubject d.creds di with
        | some c =>
          if c.typ = Cred.psk then [.pskCbc]
          else if loadChain g d ≠ .nothing then certSuites else defaultSuites
        | none => if loadChain g d ≠ .nothing then certSuites else defaultSuites
      else defaultSuites

/-- security/oc_tls.c:1958-1986: the identity of this device in the handshake. -/
def identityFor (g : Glob) (d : Device) (role : Role) : List UInt8 :=
  if role = .client ∧ g.pinId = true then b "oic.sec.doxm.rdp"
  else if d.dos = .rfotm ∧ d.oxmsel = 1 then b "oic.sec.doxm.rdp:" ++ d.uuid
  else d.uuid

/-- security/oc_tls.c:1997-2000: numbers of the states, RESET 0 to SRESET 4. -/
def afterRfotm : Dos → Bool
  | .reset | .rfotm => false
  | .rfpro | .rfnop | .sreset => true

/-- security/oc_tls.c:2162-2183 and 2072-2087: a new peer up to its configuration.
`none`: the connection is refused (2168-2173) or there is no memory (`alloc`), and
the selections stay as they are.  Simplification: the calls of mbedtls for the
configuration succeed. -/
def newPeer (g : Glob) (d : Device) (peers : Nat) (alloc : Bool) (role : Role) (di : Id) :
    Option Conf × Glob :=
  let doc := d.dos == .rfotm
  if doc && (d.oxmsel == 4 || peers != 0) then (none, g)
  else if !alloc then (none, g)
  else
    (some ⟨suitesFor g d role di, g.ciphers == some .cloud, afterRfotm d.dos || role == .client,
      identityFor g d role, loadChain g d, doc⟩,
     { g with ciphers := none, mfg := none, ident := none,
              pinId := if role = .client then false else g.pinId })

/-- The calls that change the selections, and handshakes: security/oc_tls.c:153-180,
1580-1615, 1731-1745, and `oc_tls_add_or_get_peer` (2218-2248), where `exists'`
tells that there is a peer with this endpoint already. -/
inductive HsOp where
  | select (p : Prio)
  | reset
  | selectMfg (i : Int)
  | selectIdent (i : Int)
  | usePin
  | newPin (pin : List UInt8)
  | peer (d : Device) (peers : Nat) (exists' alloc : Bool) (role : Role) (di : Id)

/-- One operation; the configuration when a peer is set up. -/
def hsStep (g : Glob) : HsOp → Option Conf × Glob
  | .select p => (none, { g with ciphers := some p })
  | .reset => (none, { g with ciphers := none })
  | .selectMfg i => (none, { g with mfg := some i })
  | .selectIdent i => (none, { g with ident := some i })
  | .usePin => (none, { g with pinId := true })
  | .newPin p => (none, { g with pin := p })
  | .peer d n e a r di => if e then (none, g) else newPeer g d n a r di

/-- The globals after a history. -/
def hsRun (g : Glob) : List HsOp → Glob
  | [] => g
  | op :: l => hsRun (hsStep g op).2 l

/-- The globals at the start, security/oc_tls.c:127, 173, 227-230. -/
def Glob.init : Glob := {}

/-- How the callback for a pre-shared key ends: refused, or the key and the
identifier that the peer gets. -/
inductive PskRes where
  | refused
  | key (k : List UInt8) (peer : Id)
  deriving Repr, DecidableEq

/-- security/oc_cred.c:337-359 `oc_sec_find_cred` from the beginning, for a
pre-shared key without usage; `mem` is the memory from the identity on (the rest of
the buffer of mbedtls), of which 16 bytes are read for every credential of that
type and usage. -/
def findPsk : List Cred → List UInt8 → Out (Option Cred)
  | [], _ => .ok none
  | c :: l, mem =>
    if c.typ = Cred.psk ∧ c.usage = 0 then
      if mem.length < 16 then .ub
      else if c.subject = mem.take 16 then .ok (some c) else findPsk l mem
    else findPsk l mem

/-- security/oc_tls.c:853-860: a device signals to an OBT the transfer of ownership
with a PIN by a prefix; the identity and its length without it. -/
def strip (d : Device) (mem : List UInt8) (len : Nat) : List UInt8 × Nat :=
  if d.dos = .rfnop ∧ len > 16 ∧ mem.take 17 = b "oic.sec.doxm.rdp:" then (mem.drop 17, len - 17)
  else (mem, len)

/-- security/oc_tls.c:831-908 `get_psk_cb` for the peer of the handshake, whose
identity are the first `len` bytes of `mem`.  `kdf` is `oc_tls_pbkdf2` with the 8
bytes of the PIN, the salt, 1000 rounds of HMAC-SHA256 and 16 bytes of key.
Simplification: `mbedtls_ssl_set_hs_psk` and the derivation succeed. -/
def pskCb (kdf : List UInt8 → Id → List UInt8) (g : Glob) (d : Device) (mem : List UInt8) (len : Nat) :
    Out PskRes :=
  let id := strip d mem len
  (findPsk d.creds id.1).bind fun r =>
  match r with
  | some c => .ok (.key c.priv.bytes (id.1.take 16))
  | none =>
    if d.dos = .rfotm ∧ d.oxmsel = 1 then
      if id.2 = 16 ∧ id.1.take 16 = b "oic.sec.doxm.rdp" then .ok (.key (kdf g.pin d.uuid) (id.1.take 16))
      else .ok .refused
    else .ok .refused

end Verif.Tls
