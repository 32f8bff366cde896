import Verif.Rfc3339.Model
import Verif.Rep.Model

/-!
Model of the synchronised time of a device, api/plgd/plgd_time.c: setting it,
reading it, the resource /x.plgd.dev/time, saving and loading.

Simplifications: a clock value is a natural number below 2^64 (`uint64_t`) in ticks of
1/1000000 s (port/linux/oc_config.h:18); every reading of the monotonic clock is an
input (`none`: it fails); whether the storage can be written is an input; the baseline
properties and the checks of the interface (412-429) are left out; notifications and
fetching the time from another device are not modelled; the resource exists.
-/

namespace Verif.PlgdTime

open Verif.Rep (Rep Val b)
open Verif.Rfc3339 (encodeTime parseClock)

/-- `OC_CLOCK_SECOND`, port/linux/oc_config.h:18. -/
def tps : Nat := 1000000

/-- `(oc_clock_time_t)-1`. -/
def minusOne : Nat := 18446744073709551615

/-- `plgd_time_t` (api/plgd/plgd_time_internal.h:65-79) and what is outside of it:
`hook`: a function that sets the system time is configured; `disk`: what is stored;
`sys`: the values the function was called with (ghost). `status` is 0 at the start,
then 1 (syncing), 2 (in sync), 3 (in sync from storage). -/
structure St where
  lst : Nat
  upd : Nat
  status : Nat
  hook : Bool
  disk : Option Rep
  sys : List Nat

/-- The readings of the monotonic clock during one call: when the time is set, by the
function that sets the system time, and for the answer. -/
structure Reads where
  set : Option Nat
  hook : Option Nat
  answer : Option Nat

/-- `dev_plgd_time` / `plgd_time`, api/plgd/plgd_time.c:193-241. The difference is
converted to `long`; a failed assertion is `ub`. -/
def time (s : St) (now : Option Nat) : Out Nat :=
  if s.lst = 0 then .ok minusOne
  else match now with
    | none => .ok minusOne
    | some c =>
      let d := (c + 18446744073709551616 - s.upd) % 18446744073709551616
      if d < 9223372036854775808 then .ok ((s.lst + d) % 18446744073709551616) else .ub

/-- `plgd_time_set` without saving, api/plgd/plgd_time.c:112-122, 99-110. -/
def put (s : St) (lst upd : Nat) (now : Option Nat) : Out St :=
  let s := { s with lst := lst, upd := upd, status := 2 }
  if s.hook then (time s now).bind fun t => .ok { s with sys := s.sys ++ [t] }
  else .ok s

/-- `dev_time_set_time` without saving, api/plgd/plgd_time.c:141-167; `false`: -1. -/
def setTime (s : St) (lst : Nat) (r : Reads) : Out (Bool × St) :=
  if lst = 0 then (put s 0 0 r.hook).bind fun s => .ok (true, s)
  else match r.set with
    | none => .ok (false, s)
    | some m =>
      if m = minusOne then .ok (false, s)
      else (put s lst m r.hook).bind fun s => .ok (true, s)

/-- A time as a text in a buffer of 64 bytes, api/plgd/plgd_time.c:352-360, 400-406;
`none`: it cannot be encoded. -/
def text (t : Nat) : Out (Option (List UInt8)) :=
  (encodeTime tps t (List.replicate 64 0)).bind fun r => .ok (if r.1 = 0 then none else some (r.2.take r.1))

/-- `dev_time_encode_property_last_synced_time`, api/plgd/plgd_time.c:385-409: the
text, empty if the time was not set. -/
def lstText (s : St) : Out (Option (List UInt8)) := if s.lst = 0 then .ok (some []) else text s.lst

/-- `dev_time_encode_property_time`, api/plgd/plgd_time.c:342-363. -/
def timeText (s : St) (now : Option Nat) : Out (Option (List UInt8)) :=
  if s.lst = 0 then .ok (some [])
  else (time s now).bind fun t => if t = minusOne then .ok none else text t

/-- `plgd_time_status_to_str`, api/plgd/plgd_time.c:267-279. -/
def statusText : Nat → Option (List UInt8)
  | 1 => some (b "syncing")
  | 2 => some (b "in-sync")
  | 3 => some (b "in-sync-from-storage")
  | _ => none

/-- `plgd_time_status_from_str`, api/plgd/plgd_time.c:281-298. -/
def statusOf (t : List UInt8) : Option Nat :=
  if t = b "in-sync" then some 2
  else if t = b "syncing" then some 1
  else if t = b "in-sync-from-storage" then some 3
  else none

/-- `dev_time_encode_property_status`, api/plgd/plgd_time.c:365-383, called for a
status that is not 0 (439). `strlen (NULL)` for an unknown status is `ub`. -/
def statusProp (s : St) (secure : Bool) : Out Rep :=
  if s.status = 0 ∨ secure = false then .ok []
  else if s.lst = 0 then .ok [(b "status", .str [])]
  else match statusText s.status with
    | none => .ub
    | some t => .ok [(b "status", .str t)]

/-- `plgd_time_encode` for a client, api/plgd/plgd_time.c:411-450, 300-324; `none`:
an error. -/
def encode (s : St) (secure : Bool) (now : Option Nat) : Out (Option Rep) :=
  (timeText s now).bind fun t => match t with
  | none => .ok none
  | some t => (statusProp s secure).bind fun st =>
    if secure then (lstText s).bind fun l => match l with
      | none => .ok none
      | some l => .ok (some ([(b "time", .str t)] ++ st ++ [(b "lastSyncedTime", .str l)]))
    else .ok (some ([(b "time", .str t)] ++ st))

/-- `plgd_time_dump`, api/plgd/plgd_time.c:483-501; nothing is saved if the time cannot
be encoded or the storage cannot be written. -/
def dump (s : St) (saved : Bool) : Out St :=
  (lstText s).bind fun l => match l with
  | none => .ok s
  | some l => .ok (if saved then { s with disk := some [(b "lastSyncedTime", .str l)] } else s)

/-- The text of the last string property `lastSyncedTime`,
api/plgd/plgd_time.c:455-472. -/
def lastLst : Rep → Option (List UInt8)
  | [] => none
  | (n, .str v) :: r => match lastLst r with
    | some t => some t
    | none => if n = b "lastSyncedTime" then some v else none
  | _ :: r => lastLst r

/-- `plgd_time_decode`, api/plgd/plgd_time.c:452-481. -/
def decode (rep : Rep) : Out (Option Nat) :=
  match lastLst rep with
  | none => .ok none
  | some t => parseClock tps t

/-- `plgd_time_set_time`, api/plgd/plgd_time.c:169-173. -/
def apiSet (s : St) (lst : Nat) (r : Reads) (saved : Bool) : Out (Bool × St) :=
  (setTime s lst r).bind fun x => if x.1 then (dump x.2 saved).bind fun s => .ok (true, s) else .ok x

/-- `plgd_time_load`, api/plgd/plgd_time.c:503-532. -/
def load (s : St) (r : Reads) : Out (Bool × St) :=
  match s.disk with
  | none => .ok (false, s)
  | some rep => (decode rep).bind fun t => match t with
    | none => .ok (false, s)
    | some t => (setTime s t r).bind fun x => .ok (if x.1 then (true, { x.2 with status := 3 }) else x)

/-- `plgd_time_resource_post`, api/plgd/plgd_time.c:534-565: the code of the answer. -/
def post (s : St) (rep : Rep) (r : Reads) (saved : Bool) : Out (Nat × St) :=
  (decode rep).bind fun t => match t with
  | none => .ok (400, s)
  | some t => (setTime s t r).bind fun x =>
    if !x.1 then .ok (500, x.2)
    else (encode x.2 true r.answer).bind fun e => match e with
      | none => .ok (500, x.2)
      | some _ => (dump x.2 saved).bind fun s => .ok (204, s)

/-- A restart: the memory is cleared (85-91), the application configures the function
for the system time as before, and the stored time is loaded. -/
def restart (s : St) (r : Reads) : Out St :=
  (load { s with lst := 0, upd := 0, status := 0 } r).bind fun x => .ok x.2

end Verif.PlgdTime
