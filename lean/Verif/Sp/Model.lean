import Verif.Sec.Base

/-!
Model of the security profile resource (security/oc_sp.c).  The payload is a
representation (Verif.Rep); its CBOR form is not modelled.
-/

namespace Verif.Sp

open Verif.Rep (Bytes b Val Rep)

/-- security/oc_sp_internal.h:33-38 `oc_sec_sp_t`; profiles are bits of an
`unsigned`. -/
structure Sp where
  supported : BitVec 32
  current : BitVec 32
  credid : Int
  deriving DecidableEq

/-- include/oc_sp.h:45-48 and security/oc_sp_internal.h:46-49: the profiles and
their object identifiers. -/
def oids : List (Bytes × BitVec 32) :=
  [(b "1.3.6.1.4.1.51414.0.0.1.0", 2), (b "1.3.6.1.4.1.51414.0.0.2.0", 4),
   (b "1.3.6.1.4.1.51414.0.0.3.0", 8), (b "1.3.6.1.4.1.51414.0.0.4.0", 16)]

/-- security/oc_sp.c:126-146 `oc_sec_sp_type_from_string`; 0 if unknown. -/
def ofString (s : Bytes) : BitVec 32 :=
  match oids.find? fun p => p.1 == s with
  | some p => p.2
  | none => 0

/-- security/oc_sp.c:148-162 `oc_sec_sp_type_to_string`; `none` is `NULL`. -/
def toString (t : BitVec 32) : Option Bytes :=
  (oids.find? fun p => p.2 == t).map (·.1)

/-- security/oc_sp.c:172-193: the last values of the two properties, or `none`
for a payload with another property; `ign` is
`OC_SEC_SP_DECODE_FLAG_IGNORE_UNKNOWN_PROPERTIES`. -/
def collect (ign : Bool) : Rep → Option Bytes → Option (List Bytes) → Option (Option Bytes × Option (List Bytes))
  | [], cur, sup => some (cur, sup)
  | (k, v) :: r, cur, sup =>
    match v with
    | .str s =>
      if k = b "currentprofile" then collect ign r (some s) sup
      else if ign then collect ign r cur sup else none
    | .strs l =>
      if k = b "supportedprofiles" then collect ign r cur (some l)
      else if ign then collect ign r cur sup else none
    | _ => if ign then collect ign r cur sup else none

/-- security/oc_sp.c:195-207: the mask of an array of names. Array items are
strings of at most 127 bytes (STRING_ARRAY_ITEM_MAX_LEN, `oc_strnlen`). -/
def mask : List Bytes → BitVec 32 → Option (BitVec 32)
  | [], m => some m
  | s :: l, m => let t := ofString (s.takeWhile (· != 0)); if t = 0 then none else mask l (m ||| t)

/-- security/oc_sp.c:195-209. -/
def setSupported (sup : Option (List Bytes)) (d : Sp) : Option Sp :=
  match sup with
  | none => some d
  | some l => (mask l 0).map fun m => { d with supported := m }

/-- security/oc_sp.c:211-227. -/
def setCurrent (cur : Option Bytes) (d : Sp) : Bool × Sp :=
  match cur with
  | none => (true, d)
  | some s =>
    let t := ofString s
    if t = 0 then (false, d)
    else if t &&& d.supported = 0 then (false, d)
    else (true, { d with current := t })

/-- security/oc_sp.c:164-228 `oc_sec_sp_decode`: the result and `*dst` afterwards. -/
def decode (ign : Bool) (rep : Rep) (d : Sp) : Bool × Sp :=
  match collect ign rep none none with
  | none => (false, d)
  | some (cur, sup) =>
    match setSupported sup d with
    | none => (false, d)
    | some d => setCurrent cur d

/-- security/oc_sp.c:230-238 `oc_sec_sp_decode_for_device`. -/
def decodeFor (dos : Acl.Dos) (rep : Rep) (d : Sp) : Bool × Sp :=
  if dos = .rfnop then (false, d) else decode false rep d

/-- The names of the profiles of a mask, security/oc_sp.c:248-270. -/
def names (m : BitVec 32) : List Bytes := (oids.filter fun p => m &&& p.2 != 0).map (·.1)

/-- security/oc_sp.c:272-295 `oc_sec_sp_encode_with_resource` without baseline
properties, as called by security/oc_store.c:146-151. A current profile that is
not one of the four constants would be passed to the encoder as a null string,
which is undefined. -/
def encode (d : Sp) : Out Rep :=
  match toString d.current with
  | none => .ub
  | some s => .ok [(b "currentprofile", .str s), (b "supportedprofiles", .strs (names d.supported))]

/-- The manufacturer's default, the profile, and what is in the storage. -/
structure Dev where
  sp : Sp
  mfg : Sp
  stored : Option Rep

/-- security/oc_store.c:153-161 `oc_sec_dump_sp` (the write succeeds). -/
def dump (d : Dev) : Out Dev := (encode d.sp).bind fun r => .ok { d with stored := some r }

/-- security/oc_sp.c:91-96 `oc_sec_sp_default`. -/
def default (d : Dev) : Out Dev := dump { d with sp := d.mfg }

/-- security/oc_sp.c:47-55 `oc_pki_set_security_profile`. -/
def setProfile (supported current : BitVec 32) (credid : Int) (d : Dev) : Dev :=
  let m : Sp := ⟨d.mfg.supported ||| supported, current, credid⟩
  { d with mfg := m, sp := m }

/-- security/oc_sp.c:333-347 `sp_resource_post`; the result is whether the
response is "changed". -/
def post (dos : Acl.Dos) (rep : Rep) (d : Dev) : Out (Bool × Dev) :=
  let x := decodeFor dos rep d.sp
  let d := { d with sp := x.2 }
  if x.1 then (dump d).bind fun d => .ok (true, d) else .ok (false, d)

/-- security/oc_store.c:134-144 `oc_sec_load_sp` (api/oc_storage.c:104-146: the
data is there and parses). -/
def load (dos : Acl.Dos) (d : Dev) : Out Dev :=
  match d.stored with
  | none => default d
  | some r =>
    let x := decodeFor dos r d.sp
    if x.1 then .ok { d with sp := x.2 } else default { d with sp := x.2 }

/-- Start of the stack, security/oc_sp.c:57-76 (`calloc`, default profile) and
api/oc_main.c:320-327: the state of the device is loaded before the profile. -/
def boot (dos : Acl.Dos) (stored : Option Rep) : Out Dev :=
  load dos ⟨⟨0, 0, 0⟩, ⟨2, 2, -1⟩, stored⟩

end Verif.Sp
