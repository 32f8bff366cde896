import Verif.Tls.HsModel

/-!
Model of the derivation of the key shared with the owner: security/oc_tls.c:2338-2538
and its callers security/oc_cred.c:1484-1515, security/oc_obt_otm_*.c.
-/

namespace Verif.Tls

open Verif.Acl (Id)
open Verif.Rep (b)

/-- HMAC-SHA256 of mbedtls: key, message (`mbedtls_md_hmac_starts`, `_update`,
`_finish`; security/oc_tls.c:2356-2422). -/
abbrev Hmac := List UInt8 → List UInt8 → List UInt8

/-- security/oc_tls.c:2376-2424: the loop of `oc_tls_prf`; `A` is the local variable,
`gen` the bytes of the output so far (`gen_output` of them).  The first argument bounds
the turns (every turn but the last yields 32 bytes). -/
def prfLoop (hmac : Hmac) (secret msg : List UInt8) (n : Nat) : Nat → List UInt8 → List UInt8 → List UInt8
  | 0, _, gen => gen
  | fuel + 1, A, gen =>
    if gen.length < n then
      let buf := hmac secret (A ++ msg)
      let copy := if n - gen.length < 32 then n - gen.length else 32
      prfLoop hmac secret msg n fuel (if copy = 32 then hmac secret A else A) (gen ++ buf.take copy)
    else gen

/-- security/oc_tls.c:2338-2434 `oc_tls_prf`: the output, `none` for -1.  `setup1` and
`setup2` tell whether `mbedtls_md_setup` succeeds for the two contexts (2344, 2351); if
the first fails, the second is freed without having been initialised (2345, 2432).  The
fragments of the message are concatenated.  Simplification: the other calls of mbedtls
succeed (they fail for wrong arguments only). -/
def prf (hmac : Hmac) (setup1 setup2 : Bool) (secret : List UInt8) (n : Nat) (frags : List (List UInt8)) :
    Out (Option (List UInt8)) :=
  if !setup1 then .ub
  else if !setup2 then .ok none
  else .ok (some (prfLoop hmac secret frags.flatten n (n + 1) (hmac secret frags.flatten) []))

/-- security/oc_tls.c:2472-2512 with 219-225: the length of the key block of a suite. -/
def keyBlockLen : Suite → Nat
  | .anonCbc | .pskCbc | .ecdsa128Cbc => 2 * (32 + 16 + 0)
  | .ecdsa128Ccm | .ecdsa128Ccm8 => 2 * (0 + 16 + 4)
  | .ecdsa256Ccm | .ecdsa256Ccm8 => 2 * (0 + 32 + 4)
  | .ecdsa128Gcm => 2 * (32 + 16 + 12)
  | .ecdsa256Gcm | .ecdsa256Cbc | .rsa128Gcm | .rsa256Gcm => 2 * (0 + 0 + 0)

/-- The session with a peer (security/oc_tls.c:2048-2070 `oc_tls_export_keys`): suite,
master secret (48 bytes) and the random bytes of client and server (32 each). -/
structure Session where
  suite : Suite
  master : List UInt8
  clientRandom : List UInt8
  serverRandom : List UInt8
  deriving Repr, DecidableEq

/-- security/oc_tls.c:2436-2538 `oc_sec_derive_owner_psk`; `none` without peer or
session (2443-2449), `none` as result for `false`.  The key block has room for 184
bytes (2467). -/
def ownerPsk (hmac : Hmac) (setup : Nat → Bool × Bool) (peer : Option Session) (oxm server obt : List UInt8)
    (keyLen : Nat) : Out (Option (List UInt8)) :=
  match peer with
  | none => .ok none
  | some s =>
    if s.master.all (· == 0) then .ok none
    else if (s.clientRandom ++ s.serverRandom).all (· == 0) then .ok none
    else if keyBlockLen s.suite > 184 then .ub
    else
      (prf hmac (setup 0).1 (setup 0).2 s.master (keyBlockLen s.suite)
        [b "key expansion", s.serverRandom, s.clientRandom]).bind fun r =>
      match r with
      | none => .ok none
      | some kb =>
        if kb.length ≠ keyBlockLen s.suite then .ok none
        else
          (prf hmac (setup 1).1 (setup 1).2 kb keyLen [oxm, obt, server]).bind fun r =>
          match r with
          | none => .ok none
          | some k => if k.length ≠ keyLen then .ok none else .ok (some k)

/-- security/oc_doxm_internal.h:47-50: the name of a method. -/
def oxmName (oxmsel : Int) : Option (List UInt8) :=
  if oxmsel = 0 then some (b "oic.sec.doxm.jw")
  else if oxmsel = 1 then some (b "oic.sec.doxm.rdp")
  else if oxmsel = 2 then some (b "oic.sec.doxm.mfgcert")
  else none

/-- security/oc_cred.c:1492-1513: the key that a device derives for its owner; `none`
when the method has no name (the memory of the key is then left as it was
allocated). -/
def deviceKey (hmac : Hmac) (setup : Nat → Bool × Bool) (peer : Option Session) (oxmsel : Int) (device owner : Id) :
    Option (Out (Option (List UInt8))) :=
  (oxmName oxmsel).map fun n => ownerPsk hmac setup peer n device owner 16

/-- security/oc_obt_otm_justworks.c:357-361, oc_obt_otm_randompin.c:357-362,
oc_obt_otm_cert.c:358-362: the key that a tool derives for a device. -/
def toolKey (hmac : Hmac) (setup : Nat → Bool × Bool) (peer : Option Session) (method : Int) (device tool : Id) :
    Option (Out (Option (List UInt8))) :=
  (oxmName method).map fun n => ownerPsk hmac setup peer n device tool 16

end Verif.Tls
