import Verif.Sec.Base

/-!
Model of the security domain information resource (security/oc_sdi.c).
-/

namespace Verif.Sdi

open Verif.Rep (Bytes b Val Rep)
open Verif.Acl (Dos Id nilId)

/-- security/oc_sdi_internal.h `oc_sec_sdi_t`; the name is `none` for a string
without data. -/
structure Sdi where
  priv : Bool
  uuid : Id
  name : Option Bytes
  deriving DecidableEq

/-- security/oc_sdi.c:111-117 `sdi_decode_data_t`. -/
structure Data where
  uuid : Option Bytes
  name : Option Bytes
  priv : Option Bool

/-- security/oc_sdi.c:119-153 `sdi_decode_string_property`. -/
def decodeStr (k s : Bytes) (dos : Dos) (fromStorage : Bool) (d : Data) : Option Data :=
  if k = b "uuid" then
    if !fromStorage ∧ dos ≠ .rfotm then none
    else if s.length < 36 then none
    else some { d with uuid := some s }
  else if k = b "name" then
    if !fromStorage ∧ dos ≠ .rfotm ∧ dos ≠ .rfpro ∧ dos ≠ .sreset then none
    else some { d with name := some s }
  else some d

/-- security/oc_sdi.c:155-176 `sdi_decode_bool_property`. -/
def decodeBool (k : Bytes) (v : Bool) (dos : Dos) (fromStorage : Bool) (d : Data) : Option Data :=
  if k = b "priv" then
    if !fromStorage ∧ dos ≠ .rfotm ∧ dos ≠ .rfpro ∧ dos ≠ .sreset then none
    else some { d with priv := some v }
  else some d

/-- security/oc_sdi.c:184-202: the loop. -/
def collect (dos : Dos) (fromStorage : Bool) : Rep → Data → Option Data
  | [], d => some d
  | (k, v) :: r, d =>
    match v with
    | .str s => (decodeStr k s dos fromStorage d).bind (collect dos fromStorage r)
    | .bool v => (decodeBool k v dos fromStorage d).bind (collect dos fromStorage r)
    | _ => collect dos fromStorage r d

/-- security/oc_sdi.c:209-211. -/
def setUuid (u : Option Bytes) (sdi : Sdi) : Out Sdi :=
  match u with
  | none => .ok sdi
  | some s => (Sec.strToUuid sdi.uuid s).bind fun u => .ok { sdi with uuid := u }

/-- security/oc_sdi.c:212-218. -/
def setName (n : Option Bytes) (sdi : Sdi) : Sdi :=
  match n with
  | none => sdi
  | some s => { sdi with name := if s.length > 0 then some s else none }

/-- security/oc_sdi.c:219-221. -/
def setPriv (p : Option Bool) (sdi : Sdi) : Sdi :=
  match p with
  | none => sdi
  | some v => { sdi with priv := v }

/-- security/oc_sdi.c:178-223 `oc_sec_sdi_decode_with_state`. -/
def decode (dos : Dos) (fromStorage : Bool) (rep : Rep) (sdi : Sdi) : Out (Bool × Sdi) :=
  match collect dos fromStorage rep ⟨none, none, none⟩ with
  | none => .ok (false, sdi)
  | some d =>
    if d.uuid.isNone && d.name.isNone && d.priv.isNone then .ok (false, sdi)
    else (setUuid d.uuid sdi).bind fun sdi => .ok (true, setPriv d.priv (setName d.name sdi))

/-- security/oc_sdi.c:233-258 `oc_sec_sdi_encode_with_resource` without baseline
properties (security/oc_store.c:526-531). The name of a string without data is
encoded with length 0. -/
def encode (sdi : Sdi) : Rep :=
  [(b "uuid", .str (Sec.uuidText sdi.uuid)), (b "name", .str (sdi.name.getD [])), (b "priv", .bool sdi.priv)]

end Verif.Sdi
