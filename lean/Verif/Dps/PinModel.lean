import Verif.EpAddr.Model
/-!
The check of the certificates of the provisioning server:
api/plgd/device-provisioning-client/plgd_dps_verify_certificate.c with the callback of
the TLS layer in security/oc_tls.c.
-/
namespace Verif.Dps.Pin

open Verif.EpAddr (Bytes)

/-- A certificate of the chain the server presents.  `digest md` is its digest by an
algorithm, `none` if computing it fails; `anchor`: it is one of the trust anchors of
the device; `signed`: its signature was made with the key of the next certificate of
the chain; `timely`: the time is within its validity. -/
structure Cert where
  digest : Nat → Option Bytes
  anchor : Bool
  signed : Bool
  timely : Bool

/-- The flags mbedtls gives a certificate before the callback (mbedtls
library/x509_crt.c `x509_crt_verify_chain`, not in /repo): bit 0 is
`MBEDTLS_X509_BADCERT_EXPIRED` (or not yet valid), bit 3
`MBEDTLS_X509_BADCERT_NOT_TRUSTED`, given to a certificate that is no anchor and has
no issuer or no good signature of it.  Simplification: the other flags, for weak keys
and for revocation, are left out. -/
def mbFlags (c : Cert) (last : Bool) : Nat :=
  (if c.timely then 0 else 1) + (if c.anchor then 0 else if last then 8 else if c.signed then 0 else 8)

/-- The configuration of the client, plgd_dps_context_internal.h: the algorithm (0 is
`MBEDTLS_MD_NONE`) and the data of the pinned fingerprint, and `skip_verify`. -/
structure Cfg where
  md : Nat := 0
  fp : Option Bytes := none
  skip : Bool := false

/-- `calculate_fingerprint`, plgd_dps_verify_certificate.c:104-135; `none` is false. -/
def digestOf (g : Cfg) (c : Cert) : Option Bytes :=
  if g.md = 0 then some [] else c.digest g.md

/-- `dps_verify_certificate`, plgd_dps_verify_certificate.c:137-219, for the
certificate at `depth` with `flags`; `data` is `fingerprint_verified` of the data of
the peer, `none` after they were freed.  The original callback is
`verify_cloud_certificate`, security/oc_tls.c:1927-1943, which returns 0 and leaves the
flags alone.  The result is whether 0 was returned, the flags and the data. -/
def verify (g : Cfg) (c : Cert) (depth : Nat) (flags : Nat) (data : Option Bool) :
    Bool × Nat × Option Bool :=
  match data with
  | none => (false, flags, none)
  | some v =>
    match digestOf g c with
    | none => (false, flags, some v)
    | some d =>
      let v := if g.md ≠ 0 ∧ g.fp = some d then true else v
      if flags = 0 then (true, flags, some v)
      else if g.md ≠ 0 then
        if depth > 0 then (true, 0, some v)
        else if v = true then (true, 0, none)
        else (false, flags, some v)
      else if g.skip = true then (true, 0, some v)
      else (true, flags, some v)

/-- `tls_verify_certificate`, security/oc_tls.c:1748-1790, with the default callback of
the application, security/oc_pki.c:413-452, which returns 0 and leaves the flags
alone. -/
def tlsVerify (g : Cfg) (c : Cert) (depth : Nat) (flags : Nat) (data : Option Bool) :
    Bool × Nat × Option Bool :=
  let r := verify g c depth flags data
  if r.1 = true ∧ r.2.1 ≠ 0 then (false, r.2) else r

/-- The calls of mbedtls for the chain, the certificate of the server first in the
list (mbedtls library/x509_crt.c `x509_crt_merge_flags_with_cb`, not in /repo): from
the last certificate to the first; a callback that fails ends the handshake, and so do
flags that are left.  The result is whether the server is accepted so far, and the
data. -/
def check (g : Cfg) : List Cert → Nat → Bool × Option Bool
  | [], _ => (true, some false)
  | c :: l, depth =>
    let r := check g l (depth + 1)
    if r.1 = true then
      let x := tlsVerify g c depth (mbFlags c l.isEmpty) r.2
      (x.1 && x.2.1 == 0, x.2.2)
    else r

/-- The server is accepted; a server without a certificate is not. -/
def accepts (g : Cfg) (chain : List Cert) : Bool :=
  !chain.isEmpty && (check g chain 0).1

end Verif.Dps.Pin
