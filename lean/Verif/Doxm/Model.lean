import Verif.Sec.Base

/-!
Model of the device ownership resource (security/oc_doxm.c).  The callbacks on a
change of ownership and the random PIN of `oc_tls_generate_random_pin` are not
modelled.
-/

namespace Verif.Doxm

open Verif.Rep (Bytes b Val Rep)
open Verif.Acl (Dos Id nilId)

/-- security/oc_doxm_internal.h `oc_sec_doxm_t` without the supported methods, which
are computed anew whenever they are used (`doxm_evaluate_supported_oxms`). -/
structure Doxm where
  oxmsel : Int
  sct : Int
  owned : Bool
  devowner : Id
  device : Id
  rowner : Id
  deriving DecidableEq

/-- security/oc_doxm.c:444-456 `oc_doxm_decode_t`. -/
structure Dec where
  device : Option Bytes
  devowner : Option Bytes
  rowner : Option Bytes
  oxmsel : Option Int
  sct : Option Int
  owned : Option Bool

/-- What the decoding reads apart from the payload: whether it comes from the
storage, whether the peer is the device onboarding connection (DOC,
`oc_tls_peer_is_doc`), the state of the device, and the supported ownership
transfer methods (security/oc_doxm.c:209-228, with the application's callback; the
assertion at :499 demands at most three). -/
structure Env where
  fromStorage : Bool
  doc : Bool
  dos : Dos
  oxms : List Int

/-- security/oc_doxm.c:458-480 `doxm_decode_bool_property`. -/
def decodeBool (e : Env) (k : Bytes) (v : Bool) (d : Dec) : Option Dec :=
  if k = b "owned" then
    if !e.fromStorage ∧ e.dos ≠ .rfotm then none
    else if !e.fromStorage ∧ !e.doc then none
    else some { d with owned := some v }
  else none

/-- security/oc_doxm.c:482-529 `doxm_decode_int_property`. -/
def decodeInt (e : Env) (k : Bytes) (i : Int) (d : Dec) : Out (Option Dec) :=
  if k = b "oxmsel" then
    if e.fromStorage then .ok (some { d with oxmsel := some (Sec.toInt32 i) })
    else if e.dos ≠ .rfotm then .ok none
    else if e.doc then .ok none
    else if e.oxms.length > 3 then .ub
    else if e.oxms.contains (Sec.toInt32 i) then .ok (some { d with oxmsel := some (Sec.toInt32 i) })
    else .ok none
  else if k = b "sct" then
    if e.fromStorage then .ok (some { d with sct := some (Sec.toInt32 i) }) else .ok none
  else .ok none

/-- security/oc_doxm.c:531-549 `doxm_string_propery_is_writable`. -/
def writable (e : Env) (allowed : List Dos) : Bool :=
  if e.fromStorage then true
  else if !allowed.contains e.dos then false
  else e.doc

/-- security/oc_doxm.c:551-592 `doxm_decode_string_property`. -/
def decodeStr (e : Env) (k s : Bytes) (d : Dec) : Option Dec :=
  if k = b "deviceuuid" then
    if writable e [.rfotm] then some { d with device := some s } else none
  else if k = b "devowneruuid" then
    if writable e [.rfotm] then some { d with devowner := some s } else none
  else if k = b "rowneruuid" then
    if writable e [.rfotm, .sreset] then some { d with rowner := some s } else none
  else none

/-- api/oc_rep.c:420-449 `oc_rep_is_baseline_interface_property`. -/
def isBaseline (k : Bytes) : Val → Bool
  | .str _ => k == b "n" || k == b "tag-pos-desc" || k == b "tag-func-desc" || k == b "tag-locn"
  | .strs _ => k == b "rt" || k == b "if"
  | .dbls _ => k == b "tag-pos-rel"
  | _ => false

/-- security/oc_doxm.c:602-635 `doxm_decode_property`. -/
def decodeProp (e : Env) (k : Bytes) (v : Val) (d : Dec) : Out (Option Dec) :=
  if e.fromStorage && isBaseline k v then .ok (some d)
  else match v with
    | .bool v => .ok (decodeBool e k v d)
    | .int i => decodeInt e k i d
    | .str s => .ok (decodeStr e k s d)
    | _ => .ok none

/-- security/oc_doxm.c:637-649 `doxm_decode`. -/
def collect (e : Env) : Rep → Dec → Out (Option Dec)
  | [], d => .ok (some d)
  | (k, v) :: r, d =>
    (decodeProp e k v d).bind fun
      | none => .ok none
      | some d => collect e r d

/-- `oc_str_to_uuid` for a value that may be absent, security/oc_doxm.c:666-676. -/
def setId (old : Id) : Option Bytes → Out Id
  | none => .ok old
  | some s => Sec.strToUuid old s

/-- security/oc_doxm.c:651-677 `doxm_decode_copy`. -/
def copy (s : Dec) (x : Doxm) : Out Doxm :=
  (setId x.device s.device).bind fun device =>
  (setId x.devowner s.devowner).bind fun devowner =>
  (setId x.rowner s.rowner).bind fun rowner =>
    .ok ⟨s.oxmsel.getD x.oxmsel, s.sct.getD x.sct, s.owned.getD x.owned, devowner, device, rowner⟩

/-- security/oc_doxm.c:679-733 `oc_sec_decode_doxm`. The device id
(`oc_core_get_device_id`) is kept equal to the `deviceuuid`. -/
def decode (e : Env) (rep : Rep) (x : Doxm) : Out (Bool × Doxm) :=
  (collect e rep ⟨none, none, none, none, none, none⟩).bind fun
    | none => .ok (false, x)
    | some d => (copy d x).bind fun x => .ok (true, x)

/-- security/oc_doxm.c:250-261 `oc_sec_doxm_set_default`: `sct` depends on the
configuration (`doxm_sct_default`), `fresh` is the generated UUID. -/
def setDefault (sct : Int) (fresh : Id) : Doxm := ⟨4, sct, false, nilId, fresh, nilId⟩

/-- security/oc_doxm.c:283-319 `oc_sec_encode_doxm` to the storage; `base` are the
baseline properties. -/
def encode (base : Rep) (x : Doxm) : Rep :=
  base ++ [(b "oxmsel", .int x.oxmsel), (b "sct", .int x.sct), (b "owned", .bool x.owned),
    (b "devowneruuid", .str (Sec.uuidText x.devowner)), (b "deviceuuid", .str (Sec.uuidText x.device)),
    (b "rowneruuid", .str (Sec.uuidText x.rowner))]

end Verif.Doxm
