import Verif.Common
/-!
The validity of the certificates of the provisioning service and their renewal:
api/plgd/device-provisioning-client/plgd_dps_pki.c and plgd_dps_security.c.
Times are seconds since 1970 if not said otherwise.
-/
namespace Verif.Dps.Cert

/-- The validity of a certificate, `oc_sec_certs_data_t`. -/
structure Validity where
  start : Nat
  stop : Nat
  deriving DecidableEq, Repr

/-- `dps_certificate_state_t`, plgd_dps_pki_internal.h. -/
inductive State where
  | valid
  | notYetValid
  | expiring
  | expired
  deriving DecidableEq, Repr

/-- `dps_pki_certificate_is_expiring`, plgd_dps_pki.c:120-125; 64 bit arithmetic. -/
def isExpiring (limit stop now : Nat) : Bool := decide ((now + limit) % 2 ^ 64 > stop)

/-- `dps_pki_validate_certificate`, plgd_dps_pki.c:127-150; the time is `none` if it
cannot be read, the result `none` is -1. -/
def validate (limit : Nat) (now : Option Nat) (v : Validity) : Option State :=
  match now with
  | none => none
  | some now =>
    if now < v.start then some .notYetValid
    else if isExpiring limit v.stop now then some (if now > v.stop then .expired else .expiring)
    else some .valid

/-- What a credential is for. -/
inductive Usage where
  | identity
  | trustAnchor
  | mfgTrustAnchor
  | other
  deriving DecidableEq, Repr

/-- A credential, `oc_sec_cred_t`: its id, whether it has the tag of the provisioning
service, whether it is a pre-shared key, its usage, and the validities of the
certificates of its chain, the device's own first; `none` if the chain cannot be
parsed. -/
structure Cred where
  id : Nat
  dps : Bool
  psk : Bool
  usage : Usage
  chain : Option (List Validity)
  deriving DecidableEq, Repr

/-- Result of the check of one credential, `oc_cred_verify_certificate_chain`: -1, 1 or
0 with the validity left in the user data. -/
inductive Res where
  | unreadable
  | bad
  | good (v : Validity)
  deriving DecidableEq, Repr

/-- The loop of `oc_cred_verify_certificate_chain`, security/oc_cred.c:1063-1082, with
the callback `dps_verify_certificate_data`, plgd_dps_security.c:308-332: the validity
of the certificate looked at last is left in the user data, which were zero. -/
def chainLoop (limit : Nat) (now : Option Nat) (ca : Bool) : List Validity → Validity → Res
  | [], u => .good u
  | v :: l, _ =>
    if validate limit now v = some .valid then
      if ca then .good v else chainLoop limit now ca l v
    else .bad

/-- `oc_cred_verify_certificate_chain`, security/oc_cred.c:1041-1090. -/
def checkOne (limit : Nat) (now : Option Nat) (c : Cred) : Res :=
  match c.chain with
  | none => .unreadable
  | some l => chainLoop limit now (decide (c.usage = .trustAnchor ∨ c.usage = .mfgTrustAnchor)) l ⟨0, 0⟩

/-- The variables of the loop of `dps_check_credentials` and the credentials kept. -/
structure Acc where
  kept : List Cred := []
  allValid : Bool := true
  identity : Bool := false
  anchor : Bool := false
  min : Validity := ⟨0, 2 ^ 64 - 1⟩
  deriving DecidableEq, Repr

/-- One round of the loop of `dps_check_credentials`, plgd_dps_security.c:353-387. -/
def round (limit : Nat) (now : Option Nat) (a : Acc) (c : Cred) : Acc :=
  if c.dps = false ∨ c.psk = true then { a with kept := a.kept ++ [c] }
  else
    match checkOne limit now c with
    | .unreadable => { a with kept := a.kept ++ [c], allValid := false }
    | .bad => { a with allValid := false }
    | .good v =>
      { a with
        kept := a.kept ++ [c]
        identity := a.identity || decide (c.usage = .identity)
        anchor := a.anchor || decide (c.usage = .trustAnchor)
        min := if v.stop < a.min.stop then v else a.min }

/-- `dps_check_credentials`, plgd_dps_security.c:340-400: the earliest end, `none` for
false, and the credentials of the device afterwards. -/
def check (limit : Nat) (now : Option Nat) (cs : List Cred) : Option Validity × List Cred :=
  let a := cs.foldl (round limit now) {}
  (if a.allValid && a.identity && a.anchor then some a.min else none, a.kept)

/-- `dps_pki_calculate_renew_certificates_interval`, plgd_dps_pki.c:248-285, in
milliseconds; `none` is -1. -/
def interval (limit : Nat) (now : Option Nat) (stop : Nat) : Option Nat :=
  match now with
  | none => none
  | some now =>
    if isExpiring limit stop now then some 0
    else if now + 60 > stop then some (10 * 1000)
    else if now + 180 > stop then some (60 * 1000)
    else if now + 360 > stop then some (120 * 1000)
    else some (((2 * (stop - now)) % 2 ^ 64 / 3) * 1000 % 2 ^ 64)

/-- `dps_check_credentials_and_schedule_renewal`, plgd_dps_security.c:402-412, with
`dps_pki_schedule_renew_certificates`, plgd_dps_pki.c:226-246: whether it returned
true, the delay of the renewal in milliseconds if it was scheduled, and the
credentials. -/
def schedule (limit : Nat) (now : Option Nat) (atLeast : Nat) (cs : List Cred) :
    Bool × Option Nat × List Cred :=
  match check limit now cs with
  | (none, cs) => (false, none, cs)
  | (some v, cs) => (true, (interval limit now v.stop).map fun i => if i < atLeast then atLeast else i, cs)

end Verif.Dps.Cert
