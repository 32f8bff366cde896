import Verif.Rep.Model
import Verif.Rfc3339.Model

/-!
Model of the software update resource: api/oc_swupdate.c (with its caller in
security/oc_pstat.c:534-550).  One device.  Strings are `none` for a null pointer.
Allocations of strings succeed.  The application's callbacks return at once; what they
call back is a separate step, which is the same as a call at the end of the callback,
since every callback is the last thing that `oc_swupdate_perform_action` and its
callers do.
-/

namespace Verif.Swu

open Verif.Rep (b Bytes Val Rep)

/-- api/oc_swupdate_internal.h:42-47 `oc_swupdate_action_t`. -/
inductive Action where
  | idle | isac | isvv | upgrade
  deriving DecidableEq, Repr

/-- api/oc_swupdate_internal.h:34-40 `oc_swupdate_state_t`. -/
inductive State where
  | idle | nsa | svv | sva | upgrading
  deriving DecidableEq, Repr

/-- api/oc_swupdate_internal.h:49-59 `oc_swupdate_t`; zeroed by `calloc`
(api/oc_swupdate.c:126). -/
structure Swu where
  purl : Option Bytes := none
  nv : Option Bytes := none
  signage : Option Bytes := none
  action : Action := .idle
  state : State := .idle
  result : Int := 0
  last : Nat := 0
  time : Nat := 0
  deriving DecidableEq, Repr

/-- api/oc_swupdate.c:358-372 `oc_swupdate_action_to_str`. -/
def actionStr : Action → Bytes
  | .idle => b "idle"
  | .isac => b "isac"
  | .isvv => b "isvv"
  | .upgrade => b "upgrade"

/-- api/oc_swupdate.c:374-394 `oc_swupdate_action_from_str`. -/
def actionOf (s : Bytes) : Option Action :=
  if s = b "idle" then some .idle
  else if s = b "isac" then some .isac
  else if s = b "isvv" then some .isvv
  else if s = b "upgrade" then some .upgrade
  else none

/-- api/oc_swupdate.c:396-412 `oc_swupdate_state_to_str`. -/
def stateStr : State → Bytes
  | .idle => b "idle"
  | .nsa => b "nsa"
  | .svv => b "svv"
  | .sva => b "sva"
  | .upgrading => b "upgrading"

/-- api/oc_swupdate.c:414-438 `oc_swupdate_state_from_str`. -/
def stateOf (s : Bytes) : Option State :=
  if s = b "idle" then some .idle
  else if s = b "nsa" then some .nsa
  else if s = b "svv" then some .svv
  else if s = b "sva" then some .sva
  else if s = b "upgrading" then some .upgrading
  else none

/-- The conversions of times (api/oc_clock.c:35-78). -/
structure Clk where
  parse : Bytes → Option Nat
  fmt : Nat → Option Bytes

/-- api/oc_swupdate.c:504-512 with `oc_clock_parse_time_rfc3339_v1`, and 840-850 with
`oc_clock_encode_time_rfc3339` and a buffer of 64 bytes, as modelled in
`Verif.Rfc3339`, for a clock of `tps` ticks per second. -/
def clk (tps : Nat) : Clk where
  parse s := if s.length ≥ 63 then none else
    match Verif.Rfc3339.parseClock tps s with
    | .ok r => r
    | .ub => none
  fmt t :=
    match Verif.Rfc3339.encodeTime tps t (List.replicate 64 0) with
    | .ok (n, buf) => if n = 0 then none else some (buf.take n)
    | .ub => none

/-- api/oc_swupdate.c:78-83 `update_time_set_t` with `updatetime`. -/
inductive Time where
  | notSet | set (t : Nat) | none | now
  deriving DecidableEq, Repr

/-- api/oc_swupdate.c:85-102 `oc_swupdate_decode_t`. -/
structure Dec where
  purl : Option Bytes := none
  nv : Option Bytes := none
  signage : Option Bytes := none
  action : Option Action := none
  state : Option State := none
  result : Option Int := none
  last : Option Nat := none
  time : Time := .notSet
  deriving DecidableEq, Repr

/-- include/oc_swupdate.h `oc_swupdate_validate_update_error_t`. -/
inductive Err where
  | prop | readonly | value | timeNotSet | timePast | purlNotSet | noImpl | purlInvalid
  deriving DecidableEq, Repr

/-- api/oc_swupdate.c:514-545 `swupdate_decode_update_time`. -/
def decTime (c : Clk) (storage : Bool) (d : Dec) (s : Bytes) : Except Err Dec :=
  if storage = false ∧ s = b "none" then .ok { d with time := .none }
  else if storage = false ∧ s = b "now" then .ok { d with time := .now }
  else match c.parse s with
    | none => .error .value
    | some t => .ok { d with time := .set t }

/-- api/oc_swupdate.c:587-601 and 603-618: the properties `swupdatestate` and
`lastupdate` of the storage. -/
def decState (d : Dec) (s : Bytes) : Except Err Dec :=
  match stateOf s with
  | none => .error .value
  | some x => .ok { d with state := some x }

/-- api/oc_swupdate.c:609-617. -/
def decLast (c : Clk) (d : Dec) (s : Bytes) : Except Err Dec :=
  match c.parse s with
  | none => .error .value
  | some t => .ok { d with last := some t }

/-- api/oc_swupdate.c:575-585: the property `swupdateaction`. -/
def decAction (d : Dec) (s : Bytes) : Except Err Dec :=
  match actionOf s with
  | none => .error .value
  | some a => .ok { d with action := some a }

/-- api/oc_swupdate.c:547-631 `swupdate_decode_string_property`. -/
def decStr (c : Clk) (storage : Bool) (d : Dec) (name s : Bytes) : Except Err Dec :=
  if name = b "nv" then
    if storage then .ok { d with nv := some s } else .error .readonly
  else if name = b "signed" then
    if storage then .ok { d with signage := some s } else .error .readonly
  else if name = b "swupdateaction" then decAction d s
  else if name = b "swupdatestate" then
    if storage then decState d s else .error .readonly
  else if name = b "lastupdate" then
    if storage then decLast c d s else .error .readonly
  else if name = b "updatetime" then decTime c storage d s
  else if name = b "purl" then .ok { d with purl := some s }
  else .error .prop

/-- api/oc_swupdate.c:485-502 `swupdate_decode_int_property` (the assertion at 496
fails for a large number). -/
def decInt (storage : Bool) (d : Dec) (name : Bytes) (i : Int) : Out (Except Err Dec) :=
  if name = b "swupdateresult" then
    if storage then
      if i ≤ intMax then .ok (.ok { d with result := some i }) else .ub
    else .ok (.error .readonly)
  else .ok (.error .prop)

/-- api/oc_swupdate.c:633-644 `swupdate_decode_property`. -/
def decProp (c : Clk) (storage : Bool) (d : Dec) (p : Bytes × Val) : Out (Except Err Dec) :=
  match p.2 with
  | .int i => decInt storage d p.1 i
  | .str s => .ok (decStr c storage d p.1 s)
  | _ => .ok (.error .prop)

/-- What the loop at api/oc_swupdate.c:720-738 leaves: whether it ran to its end,
`is_valid`, the decoded data and (ghost) the errors reported. -/
structure Loop where
  done : Bool := true
  valid : Bool := true
  dec : Dec := {}
  errs : List Err := []
  deriving DecidableEq, Repr

/-- api/oc_swupdate.c:720-738: `h` is the application's handler of errors, if any
(simplification: its answer depends on the error only).  The flag to ignore errors,
which no caller in the library sets, is not modelled. -/
def loop (c : Clk) (storage : Bool) (h : Option (Err → Bool)) : Rep → Loop → Out Loop
  | [], l => .ok l
  | p :: ps, l =>
    (decProp c storage l.dec p).bind fun r =>
    match r with
    | .ok d => loop c storage h ps { l with dec := d }
    | .error e =>
      match h with
      | none => .ok { l with done := false, valid := false }
      | some f =>
        if f e then loop c storage h ps { l with valid := false, errs := l.errs ++ [e] }
        else .ok { l with done := false, valid := false, errs := l.errs ++ [e] }

/-- The application's implementation (include/oc_swupdate.h `oc_swupdate_cb_t`,
api/oc_swupdate.c:982-992): the check of a package URL if there is one, and which of
the other callbacks are set.  The check sees the C string. -/
structure Impl where
  validate : Option (Bytes → Bool) := none
  check : Bool := false
  download : Bool := false
  upgrade : Bool := false

/-- A C string ends at the first zero byte. -/
def cstr (s : Bytes) : Bytes := s.takeWhile (· != 0)

/-- api/oc_swupdate.c:646-660 `swupdate_validate_updatetime`. -/
def checkTime (now : Nat) (d : Dec) : Option Err :=
  match d.time with
  | .notSet => some .timeNotSet
  | .set t => if t < now then some .timePast else none
  | _ => none

/-- api/oc_swupdate.c:662-681 `swupdate_validate_package_url`. -/
def checkPurl (i : Impl) (d : Dec) : Option Err :=
  match d.purl with
  | none => some .purlNotSet
  | some u =>
    match i.validate with
    | none => some .noImpl
    | some f => if f (cstr u) then none else some .purlInvalid

/-- api/oc_swupdate.c:683-711 `swupdate_validate_decoded_data`, with the errors
reported. -/
def checkData (i : Impl) (now : Nat) (d : Dec) (skip : Bool) (h : Option (Err → Bool)) : Bool × List Err :=
  let purl : Bool × List Err :=
    if skip then (true, [])
    else match checkPurl i d with
      | none => (true, [])
      | some e => (false, if h.isSome then [e] else [])
  match checkTime now d with
  | none => purl
  | some e =>
    match h with
    | none => (false, [])
    | some f => if f e then (false, e :: purl.2) else (false, [e])

/-- api/oc_swupdate.c:745-753: the check of the URL is skipped. -/
def skipPurl (hasPurl : Bool) (d : Dec) : Bool :=
  match d.action, d.purl with
  | some a, some u => decide (a ≠ .idle) && (cstr u).isEmpty && hasPurl
  | _, _ => false

/-- api/oc_swupdate.c:713-757 `swupdate_decode`: the result, the decoded data and the
errors reported. -/
def decode (c : Clk) (i : Impl) (now : Nat) (storage check : Bool) (hasPurl : Bool) (h : Option (Err → Bool))
    (rep : Rep) : Out (Bool × Dec × List Err) :=
  (loop c storage h rep {}).bind fun l =>
  if !l.done then .ok (false, l.dec, l.errs)
  else if !l.valid || !check then .ok (l.valid, l.dec, l.errs)
  else
    let r := checkData i now l.dec (skipPurl hasPurl l.dec) h
    .ok (r.1, l.dec, l.errs ++ r.2)

/-- api/oc_swupdate.c:471-482. -/
def copyTime (now : Nat) (old : Nat) : Time → Nat
  | .notSet => old
  | .set t => t
  | .now => now
  | .none => 0

/-- api/oc_swupdate.c:440-483 `swupdate_decode_copy`. -/
def copy (now : Nat) (d : Dec) (s : Swu) : Swu where
  purl := d.purl <|> s.purl
  nv := d.nv <|> s.nv
  signage := d.signage <|> s.signage
  action := d.action.getD s.action
  state := d.state.getD s.state
  result := d.result.getD s.result
  last := d.last.getD s.last
  time := copyTime now s.time d.time

/-- A string as it is encoded: up to the first zero byte, empty for a null pointer
(include/oc_rep.h:443-445). -/
def text (s : Option Bytes) : Val := .str (cstr (s.getD []))

/-- api/oc_swupdate.c:866-919 `oc_swupdate_encode_with_resource` without the baseline
properties; `none` for an error.  The result is the representation, not its bytes;
the buffer is large enough. -/
def encode (c : Clk) (storage : Bool) (s : Swu) : Option Rep :=
  (if s.last > 0 then (c.fmt s.last).map fun x => [(b "lastupdate", Val.str x)] else some []).bind fun l =>
  (if storage = false ∨ s.time > 0 then (c.fmt s.time).map fun x => [(b "updatetime", Val.str x)]
    else some []).map fun t =>
  [(b "purl", text s.purl), (b "nv", text s.nv), (b "signed", text s.signage),
   (b "swupdateaction", .str (actionStr s.action)), (b "swupdatestate", .str (stateStr s.state)),
   (b "swupdateresult", .int s.result)] ++ l ++ t

/-- (Ghost) a call of the application: the action, the URL and the time. -/
structure Call where
  action : Action
  url : Option Bytes
  at_ : Nat
  deriving DecidableEq, Repr

/-- The device: the resource, when the timed callback is due (if it is set), the
clock, the storage, whether a delayed save is pending, the application and (ghost)
the calls made to it.  Simplification: the clock runs steadily (the timer counts by
another clock than the one that sets it, api/oc_swupdate.c:290-291). -/
structure St where
  swu : Swu := {}
  timer : Option Nat := none
  now : Nat := 0
  store : Option Rep := none
  dirty : Bool := false
  impl : Impl := {}
  log : List Call := []

/-- Which callback an action calls and whether it is set. -/
def Impl.has (i : Impl) : Action → Bool
  | .idle => false
  | .isac => i.check
  | .isvv => i.download
  | .upgrade => i.upgrade

/-- api/oc_swupdate.c:1097-1129 `oc_swupdate_perform_action`. -/
def perform (a : Action) (s : St) : St :=
  { s with
    swu := { s.swu with action := a }
    log := s.log ++ if s.impl.has a then [⟨a, s.swu.purl.map cstr, s.now⟩] else [] }

/-- api/oc_swupdate.c:970-980 `oc_swupdate_dump`; `ok` tells whether writing
succeeds. -/
def dump (c : Clk) (ok : Bool) (s : St) : St :=
  match encode c true s.swu with
  | none => s
  | some r => if ok then { s with store := some r } else s

/-- api/oc_swupdate.c:270-312 `swupdate_execute_action` with
`oc_swupdate_action_schedule`; `room` tells whether there is memory for the callback. -/
def execute (room : Bool) (s : St) : St :=
  if s.swu.action = .idle ∨ s.swu.time = 0 then { s with timer := none }
  else { s with timer := if room then some (max s.swu.time s.now) else none }

/-- Steps. -/
inductive Op where
  /-- a POST request; memory for the callback, and whether writing succeeds -/
  | post (rep : Rep) (room saved : Bool)
  /-- time passes and the timed callbacks are polled -/
  | wait (dt : Nat)
  /-- the delayed save runs -/
  | flush (saved : Bool)
  | available (version : Bytes) (result : Int)
  | downloaded (result : Int)
  | upgrading (version : Bytes) (time : Nat) (result : Int)
  | done (result : Int)
  /-- the target mode of the resource /oic/sec/pstat, security/oc_pstat.c:534-550 -/
  | target (a : Action)
  | setImpl (i : Impl)
  /-- the process ends and starts again after `dt` -/
  | restart (dt : Nat) (room saved : Bool)

/-- api/oc_swupdate.c:314-337 `swupdate_resource_post`: the new state and whether the
request was accepted (2.04, else 4.06). -/
def post (c : Clk) (rep : Rep) (room saved : Bool) (s : St) : Out (Bool × St) :=
  (decode c s.impl s.now false true s.swu.purl.isSome none rep).bind fun r =>
  if r.1 then .ok (true, dump c saved (execute room { s with swu := copy s.now r.2.1 s.swu }))
  else .ok (false, s)

/-- api/oc_event_callback.c:196-240 for this callback, 239-250
`swupdate_update_async`: called when due, then removed. -/
def wait (dt : Nat) (s : St) : St :=
  let s := { s with now := s.now + dt }
  match s.timer with
  | none => s
  | some t => if t ≤ s.now then { perform s.swu.action s with timer := none } else s

/-- api/oc_swupdate.c:153-164 `oc_swupdate_default`. -/
def default (c : Clk) (saved : Bool) (s : St) : St :=
  dump c saved { s with swu := { signage := some (b "vendor") }, timer := none }

/-- api/oc_swupdate.c:944-958 `oc_swupdate_load`. -/
def load (c : Clk) (room saved : Bool) (s : St) : Out St :=
  match s.store with
  | none => .ok (default c saved s)
  | some rep =>
    (decode c s.impl s.now true false s.swu.purl.isSome none rep).bind fun r =>
    if r.1 then .ok (execute room { s with swu := copy s.now r.2.1 s.swu })
    else .ok (default c saved s)

/-- api/oc_swupdate.c:1007-1029 `oc_swupdate_notify_new_version_available` (success is
1, include/oc_swupdate.h:44). -/
def available (v : Bytes) (r : Int) (s : St) : St :=
  let s := { s with
    swu := { s.swu with nv := some v, state := .nsa, result := r, action := if r = 1 then s.swu.action else .idle }
    dirty := true }
  if r = 1 then perform .isvv s else s

/-- api/oc_swupdate.c:1031-1057 `oc_swupdate_notify_downloaded`. -/
def downloaded (r : Int) (s : St) : St :=
  let s := { s with
    swu := { s.swu with state := .sva, result := r, action := if r = 1 then s.swu.action else .idle }
    dirty := true }
  if r = 1 then perform .upgrade s else s

/-- api/oc_swupdate.c:1059-1078 `oc_swupdate_notify_upgrading`. -/
def upgrading (v : Bytes) (t : Nat) (r : Int) (s : St) : St :=
  { s with swu := { s.swu with state := .upgrading, result := r, nv := some v, last := t }, dirty := true }

/-- api/oc_swupdate.c:1080-1095 `oc_swupdate_notify_done`. -/
def finished (r : Int) (s : St) : St :=
  { s with swu := { s.swu with nv := none, action := .idle, state := .idle, result := r }, dirty := true }

/-- One step.  A restart clears the memory (api/oc_swupdate.c:121-131) and loads
(api/oc_main.c:339). -/
def step (c : Clk) (s : St) : Op → Out St
  | .post rep room saved => (post c rep room saved s).bind fun r => .ok r.2
  | .wait dt => .ok (wait dt s)
  | .flush saved => .ok (if s.dirty then { dump c saved s with dirty := false } else s)
  | .available v r => .ok (available v r s)
  | .downloaded r => .ok (downloaded r s)
  | .upgrading v t r => .ok (upgrading v t r s)
  | .done r => .ok (finished r s)
  | .target a => .ok (perform a s)
  | .setImpl i => .ok { s with impl := i }
  | .restart dt room saved =>
    load c room saved { s with swu := {}, timer := none, dirty := false, now := s.now + dt }

/-- A history. -/
def run (c : Clk) : St → List Op → Out St
  | s, [] => .ok s
  | s, op :: ops => (step c s op).bind fun s' => run c s' ops

end Verif.Swu
