import Verif.Rep.Model

/-!
Model of the configuration resource /oc/con (api/oc_con_resource.c) and of the names of
locations, positions and enumerated values (api/oc_enums.c).

Simplifications: memory can be allocated; CBOR and the properties of the baseline
interface are left out; notifications of /oic/d are counted when they are asked for;
a callback for writes is only there or not there.
-/

namespace Verif.ConRes

open Verif.Rep (Bytes b Val Rep)

/-- api/oc_enums.c:27-31 `oc_pos_desc` (14 names). -/
def posTable : List Bytes :=
  [b "unknown", b "top", b "bottom", b "left", b "right", b "centre", b "topleft", b "bottomleft",
   b "centreleft", b "centreright", b "bottomright", b "topright", b "topcentre", b "bottomcentre"]

/-- api/oc_enums.c:35-109 `oc_enums` (73 names). -/
def enumTable : List Bytes :=
  [b "aborted", b "active", b "airDry", b "armedAway", b "armedInstant", b "armedMaximum",
   b "armedNightStay", b "armedStay", b "aroma", b "artificalintelligence", b "auto", b "boiling",
   b "brewing", b "cancelled", b "circulating", b "cleaning", b "clothes", b "completed", b "cool",
   b "delicate", b "disabled", b "down", b "dual", b "dry", b "enabled", b "extended", b "fan",
   b "fast", b "filterMaterial", b "focused", b "grinding", b "heating", b "heavy", b "idle",
   b "ink", b "inkBlack", b "inkCyan", b "inkMagenta", b "inkTricolour", b "inkYellow",
   b "keepwarm", b "normal", b "notsupported", b "pause", b "pending", b "pendingHeld",
   b "permapress", b "preWash", b "processing", b "pure", b "quick", b "quiet", b "rinse",
   b "sectored", b "silent", b "sleep", b "smart", b "spot", b "steam", b "stopped", b "spin",
   b "testing", b "toner", b "tonerBlack", b "tonerCyan", b "tonerMagenta", b "tonerYellow",
   b "warm", b "wash", b "wet", b "wind", b "wrinklePrevent", b "zigzag"]

/-- api/oc_enums.c:113-134 `oc_locns` (60 names). -/
def locnTable : List Bytes :=
  [b "unknown", b "attic", b "balcony", b "ballroom", b "bathroom", b "bedroom", b "border",
   b "boxroom", b "cellar", b "cloakroom", b "conservatory", b "corridor", b "deck", b "den",
   b "diningroom", b "drawingroom", b "driveway", b "dungeon", b "ensuite", b "entrance",
   b "familyroom", b "garage", b "garden", b "guestroom", b "hall", b "indoor", b "kitchen",
   b "larder", b "lawn", b "library", b "livingroom", b "lounge", b "mancave", b "masterbedroom",
   b "musicroom", b "office", b "outdoor", b "pantry", b "parkinglot", b "parlour", b "patio",
   b "receiptionroom", b "restroom", b "roof", b "roofterrace", b "sauna", b "scullery", b "shed",
   b "sittingroom", b "snug", b "spa", b "studio", b "suite", b "swimmingpool", b "terrace",
   b "toilet", b "utilityroom", b "vegetableplot", b "ward", b "yard"]

/-- api/oc_enums.c:138-142, 144-155, 177-188, 211-222: the name of a value; the assertion
fails for a name that is not shorter than `mx`. -/
def toStr (T : List Bytes) (mx : Nat) (n : Int) : Out (Option Bytes) :=
  let i := n - 1
  if 0 ≤ i ∧ i.toNat < T.length then
    match T[i.toNat]? with
    | some t => if t.length < mx then .ok (some t) else .ub
    | none => .ub
  else .ok none

/-- api/oc_enums.c:163-175, 196-209, 230-242: the first value with the name. -/
def fromStr (T : List Bytes) (mx : Nat) (s : Bytes) : Option Int :=
  (T.findIdx? fun t => t.take mx == s).map fun i => (i : Int) + 1

/-- api/oc_enums.c:33 `OC_POS_DESC_MAX_LEN`. -/
def posMax : Nat := 13

/-- api/oc_enums.c:111 `OC_ENUMS_MAX_LEN`. -/
def enumMax : Nat := 22

/-- api/oc_enums.c:136 `OC_LOCNS_MAX_LEN`. -/
def locnMax : Nat := 15

/-- A device: its name, the location tag of /oic/d (0: none), whether /oc/con has a
callback for writes, the notifications of /oic/d and the calls of the callback. -/
structure Dev where
  name : Bytes
  locn : Int := 0
  cb : Bool := false
  notes : Nat := 0
  calls : List Rep := []

/-- The codes of responses that are used. -/
inductive Code where
  | ok | changed | badRequest
  deriving DecidableEq

/-- api/oc_con_resource.c:69-77: the location in the answer. -/
def getLocn (d : Dev) : Out Rep :=
  if d.locn > 0 then
    (toStr locnTable locnMax d.locn).bind fun
      | some t => .ok [(b "locn", .str (t.take 32))]
      | none => .ok []
  else .ok []

/-- api/oc_con_resource.c:46-82 `con_resource_get`. -/
def get (d : Dev) : Out Rep := (getLocn d).bind fun l => .ok ((b "n", .str d.name) :: l)

/-- api/oc_con_resource.c:91-113: name and location of a request; `none` if it is
refused. -/
def scan : Rep → Option Bytes × Option Bytes → Option (Option Bytes × Option Bytes)
  | [], x => some x
  | (k, .str s) :: r, x =>
    if s = [] then none
    else if k = b "n" then scan r (some s, x.2)
    else if k = b "locn" then scan r (x.1, some s)
    else none
  | _ :: _, _ => none

/-- api/oc_con_resource.c:121-133: the name is set and observers of /oic/d are notified. -/
def setName (n : Option Bytes) (d : Dev) : Dev :=
  match n with
  | some s => { d with name := s, notes := d.notes + 1 }
  | none => d

/-- api/oc_con_resource.c:135-148: the location is set; `none` if it is refused. -/
def setLocn (l : Option Bytes) (d : Dev) : Option Dev :=
  match l with
  | none => some d
  | some s =>
    if d.locn = 0 then none
    else match fromStr locnTable locnMax s with
      | none => none
      | some n => some { d with locn := n }

/-- api/oc_con_resource.c:83-161 `con_resource_post`. -/
def post (p : Rep) (d : Dev) : Code × Dev :=
  match scan p (none, none) with
  | none => (.badRequest, d)
  | some x =>
    let d := setName x.1 d
    match setLocn x.2 d with
    | none => (.badRequest, d)
    | some d =>
      if x.1.isNone ∧ x.2.isNone then (.badRequest, d)
      else (.changed, if d.cb then { d with calls := d.calls ++ [p] } else d)

/-- What can happen to the devices: one is added, `oc_set_con_write_cb`
(api/oc_con_resource.c:165-174), the application tags /oic/d
(api/oc_resource.c:223-227), a request. -/
inductive Op where
  | add (name : Bytes)
  | setCb (on : Bool)
  | tag (i : Nat) (n : Int)
  | post (i : Nat) (p : Rep)

/-- One event. -/
def step (l : List Dev) : Op → List Dev
  | .add n => l ++ [{ name := n }]
  | .setCb on => l.map fun d => { d with cb := on }
  | .tag i n => l.modify i fun d => { d with locn := n }
  | .post i p => l.modify i fun d => (ConRes.post p d).2

/-- A history (modelling convention). -/
def run (ops : List Op) : List Dev := ops.foldl step []

end Verif.ConRes
