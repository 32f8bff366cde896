import Verif.Certs.Model
import Verif.Rfc3339.Spec

/-!
What certificates of a device, of a CA and of a role have to look like (OCF Security
Specification, section 9.4.2, and the comments of the code), independent of the functions
of the model; what a handshake has to establish.
-/

namespace Verif.Certs.Spec

open Verif.Certs
open Verif.Rep (b)

/-- An algorithm with a number is allowed by a mask: its bit is set. -/
def Allowed (mask v : Nat) : Prop := 1 ≤ v ∧ v ≤ 31 ∧ mask.testBit (v - 1)

/-- Version 3, signed by ECDSA with an allowed digest, a key on an allowed curve. -/
structure Common (cfg : Cfg) (c : Cert) : Prop where
  md : Allowed cfg.mds c.sigMd
  v3 : c.version = 3
  sig : c.sigPk = 4
  key : ∃ g, c.curve = some g ∧ Allowed cfg.curves g

/-- The limit of the length of the path below a CA. -/
def pathLimit (c : Cert) : Option Nat := if c.maxPathlen = 0 then none else some (c.maxPathlen - 1)

/-- A certificate of a CA at a depth of the chain, whatever its names are. -/
structure CaBase (cfg : Cfg) (otm : Bool) (depth : Nat) (c : Cert) : Prop where
  common : Common cfg c
  usage : c.ku ∈ (if otm then [0x06, 0x86] else [0x04, 0x06, 0x84, 0x86])
  ca : c.ca = true
  path : ∀ n, pathLimit c = some n → depth ≤ n + 1

/-- A certificate of a root or of an intermediate CA: only roots are self-issued, and
while the ownership is transferred an intermediate CA signs no other CA. -/
structure CaOk (cfg : Cfg) (root otm : Bool) (depth : Nat) (c : Cert) : Prop extends CaBase cfg otm depth c where
  self : root = true ↔ c.issuer = c.subject
  tiers : otm = true → root = false → pathLimit c = some 0

/-- A certificate of a device (`id` listed, `no` not listed as a usage). -/
structure LeafOk (cfg : Cfg) (id no : Bytes) (c : Cert) : Prop where
  common : Common cfg c
  usage : c.ku = 0x88
  notCa : c.ca = false
  path : pathLimit c = none
  eku : ∃ l, c.eku = some l ∧ oidServer ∈ l ∧ oidClient ∈ l ∧ id ∈ l ∧ no ∉ l ∧ oidAny ∉ l

/-- The length of the first element of a DER text. -/
def derLen : Bytes → Option Nat
  | _ :: n :: r =>
    if n < 128 then some (2 + n.toNat)
    else if n.toNat - 128 ≤ r.length then
      some (2 + (n.toNat - 128) + (r.take (n.toNat - 128)).foldl (fun a d => a * 256 + d.toNat) 0)
    else none
  | _ => none

/-- Names are DER elements, and reading as many bytes as the issuer has from the subject on
stays inside the certificate. -/
structure Names (c : Cert) : Prop where
  issuer : derLen c.issuer = some c.issuer.length
  subject : derLen c.subject = some c.subject.length
  inside : c.issuer.length ≤ (c.subject ++ c.after).length

/-- Names of the same length are the same: what the code takes for granted. -/
def NamesByLength (c : Cert) : Prop := c.issuer.length = c.subject.length → c.issuer = c.subject

/-- A certificate is in its period of validity. -/
def InTime (c : Cert) : Prop := c.future = false ∧ c.past = false

/-- The text after the first `uuid:` of a common name. -/
def FirstUuid (val t : Bytes) : Prop :=
  t.length = 36 ∧ ∃ pre post, val = pre ++ b "uuid:" ++ t ++ post ∧
    ∀ i, i < pre.length → ¬ b "uuid:" <+: val.drop i

/-- A CA authorises a peer on a device. -/
def Authorises (device : Nat) (uuid : Bytes) (a : Ca) : Prop :=
  a.device = device ∧ a.usage = .trustCa ∧ (a.subject = uuid ∨ a.subject = 42 :: List.replicate 15 0)

/-- A role that is in force. -/
def Held.Valid (cfg : Cfg) (h : Held) : Prop := LeafOk cfg oidRole oidIdentity h.cert ∧ InTime h.cert

end Verif.Certs.Spec
