import Verif.Doxm.Model

/-!
Model of the provisioning status (security/oc_pstat.c) with the parts of the
device that the state machine reads and resets: the ownership resource
(Verif.Doxm), the owners of the ACL and of the credentials, and the subjects of the
credentials.  Not modelled: cloud, software update (`OC_SOFTWARE_UPDATE`),
observers, TLS sessions, audit log, security profile, ETags, and the storage
(`oc_sec_dump_pstat`), except for the round trip in Pstat.Props.
-/

namespace Verif.Pstat

open Verif.Rep (Bytes b Val Rep)
open Verif.Acl (Dos Id nilId)
open Verif.Doxm (Doxm)

/-- security/oc_pstat_internal.h:61-72 `oc_sec_pstat_t`. The state is `none` for a
value that is none of the five constants. The modes are values of an enumeration
with an unsigned representation. -/
structure Pstat where
  s : Option Dos
  p : Bool
  isop : Bool
  cm : BitVec 32
  tm : BitVec 32
  om : Int
  sm : Int
  rowner : Id
  rip : Bool
  deriving DecidableEq

/-- The device. `pending` is whether the callback `delayed_reset` is scheduled. -/
structure Dev where
  ps : Pstat
  doxm : Doxm
  aclOwner : Id
  credOwner : Id
  creds : List Id
  pending : Bool
  deriving DecidableEq

/-- What an operation obtains from outside: the default `sct`, the UUID that
`oc_gen_uuid` returns, whether `oc_sec_ecdsa_reset_keypair` succeeds, and the
application's factory presets callback with its effect on the device. -/
structure Env where
  sct : Int
  fresh : Id
  keypair : Bool
  preset : Option (Dev → Dev)

/-- The value of the state as an integer. -/
def dosOfInt (i : Int) : Option Dos :=
  let v := BitVec.ofInt 32 i
  if v = 0 then some .reset else if v = 1 then some .rfotm else if v = 2 then some .rfpro
  else if v = 3 then some .rfnop else if v = 4 then some .sreset else none

/-- security/oc_pstat.c:137-160 `valid_transition`. -/
def validTransition (cur new : Option Dos) : Bool :=
  match cur with
  | some .reset => true
  | some .rfotm => new != some .sreset
  | some .rfpro => new != some .rfotm
  | some .rfnop => new != some .rfotm
  | some .sreset => !(new == some .rfotm || new == some .rfnop)
  | none => true

/-- security/oc_pstat.c:177-207 `pstat_check_ps_state`. -/
def checkPs (ps : Pstat) : Bool :=
  match ps.s with
  | some .rfpro => !(ps.isop || ps.cm &&& 0xC3 != 0 || ps.tm &&& 0xC3 != 0)
  | some .rfnop => !(!ps.isop || ps.cm &&& 0xC3 != 0 || ps.tm &&& 0xC3 != 0)
  | some .sreset => !(ps.isop || ps.cm != 1 || ps.tm &&& 0xC3 != 0)
  | some .reset | some .rfotm => !(ps.isop || ps.cm &&& 0xC3 != 2 || ps.tm &&& 0xC3 != 0)
  | none => true

/-- security/oc_pstat.c:217-267: an owner is set and has a credential
(`oc_sec_find_creds_for_subject`, security/oc_cred.c:320-335). UUIDs have 16 bytes,
so that being nil is being equal to `nilId`. -/
def ownerOk (d : Dev) (id : Id) : Bool := id != nilId && d.creds.contains id

/-- security/oc_pstat.c:209-269 `pstat_check_state`. -/
def checkState (ps : Pstat) (d : Dev) : Bool :=
  checkPs ps && ownerOk d ps.rowner && d.doxm.owned && d.doxm.devowner != nilId && d.doxm.device != nilId &&
    ownerOk d d.doxm.rowner && ownerOk d d.aclOwner && ownerOk d d.credOwner

/-- security/oc_pstat.c:337-372 and 410: entering RFOTM. -/
def rfotm (e : Env) (ps : Pstat) (d : Dev) : Bool × Dev :=
  let ps := { ps with p := true, s := some .rfotm, cm := 2, tm := 0 }
  if d.doxm.owned || d.doxm.devowner != nilId || !checkPs ps then
    (false, { d with ps := { d.ps with rip := false } })
  else
    match e.preset with
    | none => (true, { d with ps := { ps with p := false } })
    | some f =>
      let d := f { d with ps := ps }
      (true, { d with ps := { d.ps with p := false } })

/-- security/oc_pstat.c:277-335: RESET, which ends in RFOTM. -/
def resetNow (e : Env) (ps : Pstat) (d : Dev) : Bool × Dev :=
  if d.ps.rip then (false, d)
  else
    let ps := { ps with p := false, isop := false, cm := 1, tm := 2, om := 3, sm := 4, rowner := nilId }
    let d := { d with ps := { d.ps with rip := true }, pending := false, doxm := Doxm.setDefault e.sct e.fresh,
                      creds := [], credOwner := nilId, aclOwner := nilId }
    if !e.keypair then (false, { d with ps := { d.ps with rip := false } })
    else rfotm e ps d

/-- security/oc_pstat.c:373-405, 410: entering RFPRO, RFNOP or SRESET. -/
def enter (ps : Pstat) (d : Dev) : Bool × Dev :=
  if checkState ps d then (true, { d with ps := { ps with p := false } }) else (false, d)

/-- security/oc_pstat.c:271-431 `oc_pstat_handle_state`. -/
def handleState (e : Env) (ps : Pstat) (d : Dev) : Bool × Dev :=
  match ps.s with
  | some .reset => resetNow e ps d
  | some .rfotm => rfotm e ps d
  | some .rfpro => enter { ps with p := true, cm := 0, tm := 0, isop := false } d
  | some .rfnop => enter { ps with p := true, cm := 0, tm := 0, isop := true } d
  | some .sreset => enter { ps with p := true, cm := 1, tm := 0, isop := false } d
  | none => (false, d)

/-- A zeroed `oc_sec_pstat_t` with state RESET. -/
def zero : Pstat := ⟨some .reset, false, false, 0, 0, 0, 0, nilId, false⟩

/-- security/oc_pstat.c:711-718 `oc_pstat_reset_device`. -/
def resetDevice (e : Env) (d : Dev) : Bool × Dev := handleState e zero d

/-- security/oc_pstat.c:744-775 `set_delayed_reset` (with `oc_reset_in_progress`,
:170-175). -/
def delayReset (d : Dev) : Bool × Dev :=
  if d.ps.rip || d.pending then (false, d)
  else (true, { d with ps := ⟨some .reset, true, false, 1, 2, 3, 4, nilId, false⟩, pending := true })

/-- security/oc_pstat.c:777-784 `oc_reset_device_v1`. -/
def resetV1 (e : Env) (force : Bool) (d : Dev) : Bool × Dev := if force then resetDevice e d else delayReset d

/-- security/oc_pstat.c:593-613: the object `dos`; the state and whether a
transition was requested. -/
def decodeDos (fs : Bool) : Rep → Option Dos × Bool → Option (Option Dos × Bool)
  | [], x => some x
  | (k, v) :: r, x =>
    match v with
    | .int i => if k = b "s" then decodeDos fs r (dosOfInt i, true) else none
    | _ => if !fs ∧ k = b "p" then none else decodeDos fs r x

/-- The local variables of the decoding, security/oc_pstat.c:576-587. -/
structure Dec where
  ps : Pstat
  trans : Bool

/-- security/oc_pstat.c:626-639: an integer property. Two bytes of the name are
compared whatever its length: the name and its terminator must have two bytes. -/
def decodeInt (fs : Bool) (k : Bytes) (i : Int) (x : Dec) : Out (Option Dec) :=
  if k.length < 1 then .ub
  else if fs ∧ k.take 2 = b "cm" then .ok (some { x with ps := { x.ps with cm := BitVec.ofInt 32 i } })
  else if k.take 2 = b "tm" then .ok (some { x with ps := { x.ps with tm := BitVec.ofInt 32 i } })
  else if k.take 2 = b "om" then .ok (some { x with ps := { x.ps with om := Sec.toInt32 i } })
  else if fs ∧ k.take 2 = b "sm" then .ok (some { x with ps := { x.ps with sm := Sec.toInt32 i } })
  else .ok none

/-- security/oc_pstat.c:588-658: the properties. -/
def decodeProp (fs : Bool) (k : Bytes) (v : Val) (x : Dec) : Out (Option Dec) :=
  match v with
  | .obj o =>
    if k = b "dos" then
      .ok ((decodeDos fs o (x.ps.s, x.trans)).map fun y => { ps := { x.ps with s := y.1 }, trans := y.2 })
    else .ok none
  | .bool v => if fs ∧ k = b "isop" then .ok (some { x with ps := { x.ps with isop := v } }) else .ok none
  | .int i => decodeInt fs k i x
  | .str s =>
    if (fs ∨ (x.ps.s ≠ some .rfpro ∧ x.ps.s ≠ some .rfnop)) ∧ k = b "rowneruuid" then
      (Sec.strToUuid x.ps.rowner s).bind fun u => .ok (some { x with ps := { x.ps with rowner := u } })
    else .ok none
  | _ => if k = b "rt" ∨ k = b "if" then .ok (some x) else .ok none

/-- security/oc_pstat.c:588-658: the loop. -/
def collect (fs : Bool) : Rep → Dec → Out (Option Dec)
  | [], x => .ok (some x)
  | (k, v) :: r, x =>
    (decodeProp fs k v x).bind fun
      | none => .ok none
      | some x => collect fs r x

/-- security/oc_pstat.c:665-675: what is done with the decoded status. -/
def applyPs (e : Env) (fs : Bool) (x : Dec) (d : Dev) : Bool × Dev :=
  if fs || validTransition d.ps.s x.ps.s then
    if !fs && x.trans then
      if x.ps.s = some .reset then resetV1 e false d
      else handleState e x.ps d
    else (true, { d with ps := x.ps })
  else (false, d)

/-- security/oc_pstat.c:573-676 `oc_sec_decode_pstat`. -/
def decode (e : Env) (fs : Bool) (rep : Rep) (d : Dev) : Out (Bool × Dev) :=
  (collect fs rep ⟨d.ps, false⟩).bind fun
    | none => .ok (false, d)
    | some x => .ok (applyPs e fs x d)

/-- The integer of a state (security/oc_pstat_internal.h:47-53); the encoding of a
state that is not one of the constants is not modelled. -/
def dosInt : Option Dos → Int
  | some .reset => 0
  | some .rfotm => 1
  | some .rfpro => 2
  | some .rfnop => 3
  | some .sreset => 4
  | none => 5

/-- security/oc_pstat.c:505-530 `oc_sec_encode_pstat` to the storage; `base` are the
baseline properties of the resource. -/
def encode (base : Rep) (ps : Pstat) : Rep :=
  base ++ [(b "dos", .obj [(b "p", .bool ps.p), (b "s", .int (dosInt ps.s))]),
    (b "cm", .int ps.cm.toNat), (b "tm", .int ps.tm.toNat), (b "om", .int ps.om), (b "sm", .int ps.sm),
    (b "isop", .bool ps.isop), (b "rowneruuid", .str (Sec.uuidText ps.rowner))]

/-- security/oc_security.c:85-107 `oc_sec_own_resources` for the device id `id`. -/
def ownResources (id : Id) (d : Dev) : Dev :=
  { d with aclOwner := id, credOwner := id,
           doxm := { d.doxm with devowner := id, device := id, rowner := id, owned := true, oxmsel := 0 },
           ps := { d.ps with rowner := id, tm := 0, cm := 0, isop := true, s := some .rfnop } }

/-- security/oc_security.c:137-150 `oc_sec_self_disown` with `oc_sec_pstat_clear`
(security/oc_pstat.c:491-503). -/
def selfDisown (e : Env) (d : Dev) : Dev :=
  { d with ps := ⟨some .rfotm, false, false, 2, 0, 3, 4, nilId, false⟩, doxm := Doxm.setDefault e.sct e.fresh,
           creds := [], credOwner := nilId, aclOwner := nilId }

/-- api/oc_main.c:301-343 `main_load_resources` after the process ended, with storage
that holds the last state of the resources: an unowned device is reset
(`main_sec_clear_resources`, then `oc_sec_load_pstat` finds nothing and calls
`oc_sec_pstat_default`); otherwise the status is decoded. The memory of the new
process is zero and no callback is scheduled. `base` are the baseline properties. -/
def restart (e : Env) (base : Rep) (d : Dev) : Out Dev :=
  if d.doxm.owned then
    (decode e true (encode base d.ps) { d with ps := zero, pending := false }).bind fun
      | (true, d) => .ok d
      | (false, d) => .ok (resetDevice e d).2
  else .ok (resetDevice e { d with ps := zero, pending := false }).2

/-- The operations of a running device. `post` is `pstat_resource_post`
(:694-709); `fire` the timer of the delayed reset (:162-168); `shutdown`
`oc_reset_devices_in_RFOTM` (:800-808) for one device; `doxm` an update of the
ownership resource; `aclOwner` and `credOwner` updates of the owners of the ACL
(security/oc_acl.c:354-386) and of the credentials (security/oc_cred.c:1126-1161)
with their guards; `creds` any change of the credentials; `setCm`
`oc_sec_pstat_set_current_mode` (:553-564); `selfOwn` and `selfDisown` the calls of
the application that own the device without an onboarding tool, where `id` is the
device id. -/
inductive Op where
  | post (rep : Rep)
  | reset (force : Bool)
  | fire
  | shutdown
  | doxm (doc : Bool) (oxms : List Int) (rep : Rep)
  | aclOwner (id : Id)
  | credOwner (id : Id)
  | creds (l : List Id)
  | setCm (cm : BitVec 32)
  | selfOwn (id : Id)
  | selfDisown
  | restart (base : Rep)

/-- An operation, see `Op`. The state of the device that guards updates of the
ownership resource is that of `g_pstat`; a value that is not one of the five
constants guards like RESET (no property of the resource is writable in it). -/
def exec (e : Env) (o : Op) (d : Dev) : Out Dev :=
  match o with
  | .post rep => (decode e false rep d).bind fun x => .ok x.2
  | .reset force => .ok (resetV1 e force d).2
  | .fire => .ok (if d.pending then (resetV1 e true { d with pending := false }).2 else d)
  | .shutdown => .ok (if d.ps.s = some .rfotm then (resetDevice e d).2 else d)
  | .doxm doc oxms rep =>
    (Doxm.decode ⟨false, doc, d.ps.s.getD .reset, oxms⟩ rep d.doxm).bind fun x => .ok { d with doxm := x.2 }
  | .aclOwner id => .ok (if d.ps.s = some .rfpro ∨ d.ps.s = some .rfnop then d else { d with aclOwner := id })
  | .credOwner id => .ok (if d.ps.s = some .rfotm ∨ d.ps.s = some .sreset then { d with credOwner := id } else d)
  | .creds l => .ok { d with creds := l }
  | .setCm cm => .ok { d with ps := { d.ps with cm := cm } }
  | .selfOwn id => .ok (ownResources id d)
  | .selfDisown => .ok (selfDisown e d)
  | .restart base => restart e base d

/-- A history. -/
def run : List (Env × Op) → Dev → Out Dev
  | [], d => .ok d
  | x :: l, d => (exec x.1 x.2 d).bind (run l)

end Verif.Pstat
