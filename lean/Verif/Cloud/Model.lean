import Verif.CloudStore.Model
/-!
Model of the cloud client: the retry schedule (`api/cloud/oc_cloud_schedule.c`), the
manager (`api/cloud/oc_cloud_manager.c`), starting, stopping, restarting and
provisioning it (`api/cloud/oc_cloud.c`, `api/cloud/oc_cloud_context.c`), the calls of
the application (`api/cloud/oc_cloud_apis.c`) and deregistration
(`api/cloud/oc_cloud_deregister.c`).

One device.  Delayed callbacks are those of `Verif.Delayed`: here the pending ones
with their delay, in the order they were set.  Requests that were sent and wait for
their handler are listed.  What the environment decides is in `Env`.  Simplifications:
handlers that closing a session calls are separate events; callbacks of the
application do not call the library; the resource directory client
(`oc_cloud_rd.c`), the notification of observers and the writing of the store
(`Verif.CloudStore`) are left out; a string that is not set is the empty one.
-/
namespace Verif.Cloud

open Verif.EpAddr (Bytes Addrs View)
open Verif.Rep (Rep Val b getByTypeAndKey)

/-- `OC_CLOUD_REGISTERED`, include/oc_cloud.h:45. -/
def REGISTERED : UInt8 := 1
/-- `OC_CLOUD_LOGGED_IN`, include/oc_cloud.h:46. -/
def LOGGED_IN : UInt8 := 2
/-- `OC_CLOUD_TOKEN_EXPIRY`, include/oc_cloud.h:47. -/
def TOKEN_EXPIRY : UInt8 := 4
/-- `OC_CLOUD_REFRESHED_TOKEN`, include/oc_cloud.h:48. -/
def REFRESHED : UInt8 := 8
/-- `OC_CLOUD_LOGGED_OUT`, include/oc_cloud.h:49. -/
def LOGGED_OUT : UInt8 := 16
/-- `OC_CLOUD_FAILURE`, include/oc_cloud.h:50. -/
def FAILURE : UInt8 := 32
/-- `OC_CLOUD_DEREGISTERED`, include/oc_cloud.h:51. -/
def DEREGISTERED : UInt8 := 64

/-- `(status & bit) != 0` (modelling convention). -/
def has (st bit : UInt8) : Bool := st &&& bit != 0

/-- `oc_cps_t`, include/oc_cloud.h:54-61. -/
inductive Cps where
  | uninitialized | ready | registering | registered | failed | deregistering
  deriving DecidableEq, Repr

/-- `oc_cloud_error_t`, include/oc_cloud.h:63-69. -/
inductive Err where
  | ok | response | connect | refresh | unauthorized
  deriving DecidableEq, Repr

/-- The delayed callbacks: those of api/cloud/oc_cloud_manager.c:59-96 and 52-57, of
api/cloud/oc_cloud.c:75 and 99, and of api/cloud/oc_cloud_deregister.c:49, 89 and 225. -/
inductive Tm where
  | reconnect | register | login | ping | refresh | notify | restart | start
  | clear | onReset | refreshed
  deriving DecidableEq, Repr

/-- A request that waits for its handler: of the manager (`m...`,
api/cloud/oc_cloud_manager.c:356, 584, 811, 905), of the application (lines 318, 501,
784, api/cloud/oc_cloud_apis.c:213) or of deregistering
(api/cloud/oc_cloud_deregister.c:124; the logins and refreshes made for it). -/
inductive Req where
  | mRegister | mLogin | mRefresh | ping
  | register | login | refresh | logout
  | dereg | dLogin | dRefresh
  deriving DecidableEq, Repr

/-- `oc_cloud_context_t`, include/oc_cloud_context.h; `tms` and `out` are described
above, `ep` is the server the endpoint was made of (`none` is the empty endpoint) and
`sent` the history of requests with the server they went to and the servers in the
list at that time (not in the code). -/
structure Ctx where
  status : UInt8 := 0
  cps : Cps := .uninitialized
  err : Err := .ok
  expires : Int := 0
  access : Bytes := []
  refresh : Bytes := []
  uid : Bytes := []
  provider : Bytes := []
  servers : Addrs := {}
  tms : List (Tm × Nat) := []
  out : List Req := []
  count : UInt8 := 0
  rcount : UInt8 := 0
  initial : Option Bytes := none
  remaining : UInt8 := 0
  changed : Bool := false
  manager : Bool := false
  ep : Option Bytes := none
  conn : Bool := false
  timeout : Nat := 0
  pingTimeout : Nat := 4
  sent : List (Req × Bytes × List Bytes) := []
  deriving DecidableEq, Repr

/-- What the environment decides in one step: `g_retry_timeout_ms`, the answer of the
application's schedule (`none` without one; a delay and a timeout, or stop),
`oc_random_value`, whether the provisioning state is RFNOP (`nop`) or RFPRO (`pro`),
which names can be resolved, whether a request can be sent, whether there is memory
for the `k`-th allocation, the longest address, and whether the session is TCP. -/
structure Env where
  timeouts : List Nat
  custom : Option (Option (Nat × Nat)) := none
  rnd : Nat := 0
  nop : Bool := true
  pro : Bool := false
  resolves : Bytes → Bool
  sends : Bool := true
  mem : Nat → Bool
  lim : Nat
  tcp : Bool := true

/-! ## Schedule -/

/-- `OC_CLOUD_DEFAULT_RETRY_TIMEOUTS`, api/cloud/oc_cloud_schedule.c:35-40. -/
def defaultTimeouts : List Nat := [2000, 4000, 8000, 16000, 32000, 64000]

/-- `oc_cloud_set_retry_timeouts`, api/cloud/oc_cloud_schedule.c:45-75, on the array of
six; `none` is the NULL pointer.  The values are below 65536. -/
def setTimeouts (cur : List Nat) (t : Option (List Nat)) : Bool × List Nat :=
  match t with
  | none => (true, defaultTimeouts)
  | some t =>
    if t.length > 6 then (false, cur)
    else if t.any (· == 0) then (false, cur)
    else (true, t ++ List.replicate (6 - t.length) 0)

/-- `oc_cloud_get_retry_timeouts`, api/cloud/oc_cloud_schedule.c:77-91: `none` is -1. -/
def getTimeouts (cur : List Nat) (size : Nat) : Option (List Nat) :=
  let c := cur.takeWhile (· != 0)
  if size < c.length then none else some c

/-- `cloud_retry_is_over`, api/cloud/oc_cloud_schedule.c:93-98. -/
def isOver (timeouts : List Nat) (count : UInt8) : Bool :=
  match timeouts[count.toNat]? with
  | none => true
  | some t => t == 0

/-- `cloud_context_on_server_change`, api/cloud/oc_cloud_context.c:63-71, after a
change of the list of servers: `Addrs.calls` counts the calls. -/
def withServers (s : Ctx) (a : Addrs) : Ctx :=
  { s with servers := a, changed := s.changed || (s.manager && decide (a.calls ≠ s.servers.calls)) }

/-- `default_schedule_action`, api/cloud/oc_cloud_schedule.c:100-119: the delay and
the timeout.  The failing assertion of line 111 is undefined here (without assertions
a timeout of 1 ms is a division by zero). -/
def defaultAction (x : Env) (s : Ctx) (count : UInt8) : Out (Option Nat × Ctx) :=
  if isOver x.timeouts count then
    (EpAddr.selectNext s.servers).bind fun r => .ok (none, withServers s r.2)
  else
    let t := x.timeouts.getD count.toNat 0
    if t < 1000 then .ub
    else .ok (some (t / 2 + x.rnd % (t / 2)), { s with timeout := t / 1000 })

/-- `on_action_response_set_retry`, api/cloud/oc_cloud_schedule.c:121-145. -/
def setRetry (x : Env) (s : Ctx) (count : UInt8) : Out (Option Nat × Ctx) :=
  match x.custom with
  | some none => .ok (none, s)
  | some (some (d, t)) => .ok (some d, { s with timeout := t })
  | none => defaultAction x s count

/-- `oc_reset_delayed_callback_ms`, api/oc_server_api.c:260-266, for a callback of
this device. -/
def reset (t : Tm) (d : Nat) (s : Ctx) : Ctx :=
  { s with tms := (s.tms.filter fun p => p.1 != t) ++ [(t, d)] }

/-- `oc_remove_delayed_callback`, api/oc_server_api.c:285-289, for some callbacks. -/
def cancel (ts : List Tm) (s : Ctx) : Ctx :=
  { s with tms := s.tms.filter fun p => p.1 ∉ ts }

/-- The counters of `cloud_schedule_action`, api/cloud/oc_cloud_schedule.c:151-166. -/
def counted (s : Ctx) (t : Tm) (retry : Bool) : UInt8 × Ctx :=
  if t = .refresh then
    if retry then (s.rcount + 1, { s with rcount := s.rcount + 1 }) else (0, { s with rcount := 0 })
  else
    if retry then (s.count + 1, { s with count := s.count + 1 }) else (0, { s with count := 0 })

/-- `cloud_schedule_action`, api/cloud/oc_cloud_schedule.c:147-172; the action is given
by its callback. -/
def schedule (x : Env) (s : Ctx) (t : Tm) (retry : Bool) : Out (Bool × Ctx) :=
  let c := counted s t retry
  (setRetry x c.2 c.1).bind fun r =>
  match r.1 with
  | none => .ok (false, r.2)
  | some d => .ok (true, reset t d r.2)

/-! ## Context -/

/-- `cloud_set_last_error`, api/cloud/oc_cloud.c:388-399. -/
def setErr (e : Err) (s : Ctx) : Ctx := { s with err := e }

/-- `cloud_set_cps_and_last_error`, api/cloud/oc_cloud.c:414-427. -/
def setCps (c : Cps) (e : Err) (s : Ctx) : Ctx := { s with cps := c, err := e }

/-- `ctx->store.status |= bits` (modelling convention). -/
def on (bits : UInt8) (s : Ctx) : Ctx := { s with status := s.status ||| bits }

/-- `ctx->store.status &= ~bits` (modelling convention). -/
def off (bits : UInt8) (s : Ctx) : Ctx := { s with status := s.status &&& ~~~ bits }

/-- `cloud_retry_reset`, api/cloud/oc_cloud_context.c:44-49. -/
def retryReset (s : Ctx) : Ctx := { s with count := 0, rcount := 0 }

/-- `cloud_context_has_permanent_access_token`,
api/cloud/oc_cloud_context.c:266-276. -/
def permanent (s : Ctx) : Bool := s.access != [] && decide (s.expires < 0)

/-- `cloud_is_deregistering`, api/cloud/oc_cloud.c:429-433. -/
def isDereg (s : Ctx) : Bool := decide (s.cps = .deregistering)

/-- The callbacks `cloud_manager_stop` removes, api/cloud/oc_cloud_manager.c:77-87. -/
def managerTms : List Tm := [.reconnect, .register, .login, .ping, .refresh, .notify]

/-- The callbacks `oc_cloud_deregister_stop` removes,
api/cloud/oc_cloud_deregister.c:347-359. -/
def deregTms : List Tm := [.refreshed, .clear, .onReset]

/-- `oc_cloud_reset_endpoint`, api/cloud/oc_cloud.c:162-168. -/
def resetEndpoint (s : Ctx) : Ctx := { s with ep := none, conn := false }

/-- `oc_cloud_store_reinitialize`, api/cloud/oc_cloud_store.c:354-387. -/
def reinitStore (x : Env) (s : Ctx) : Out Ctx :=
  (EpAddr.init x.lim (x.mem 0) (EpAddr.deinit s.servers)
    ⟨b "coaps+tcp://127.0.0.1", .uuid (List.replicate 16 0)⟩).bind fun r =>
  .ok (withServers { s with provider := [], uid := [], access := [], refresh := [], status := 0, expires := 0, cps := .uninitialized } r.2)

/-- `oc_cloud_registration_context_deinit`, api/cloud/oc_cloud_context.c:338-344. -/
def regDeinit (s : Ctx) : Ctx := { s with initial := none, remaining := 0, changed := false }

/-- `oc_cloud_registration_context_init`, api/cloud/oc_cloud_context.c:321-336; the
failing assertion of line 331 is undefined. -/
def regInit (s : Ctx) : Out Ctx :=
  (EpAddr.selected s.servers).bind fun i =>
  if s.servers.items.length > 255 then .ub
  else .ok { s with
    initial := i.map (·.uri)
    remaining := if i.isSome then UInt8.ofNat (s.servers.items.length - 1) else 0
    changed := false }

/-- `oc_cloud_context_clear`, api/cloud/oc_cloud_context.c:238-258. -/
def contextClear (x : Env) (s : Ctx) : Out Ctx :=
  (reinitStore x (cancel (managerTms ++ deregTms) (resetEndpoint (regDeinit s)))).bind fun s =>
  .ok { s with err := .ok, cps := .uninitialized, pingTimeout := 4 }

/-- `oc_cloud_set_endpoint`, api/cloud/oc_cloud.c:108-129. -/
def setEndpoint (x : Env) (s : Ctx) : Out (Bool × Ctx) :=
  if s.ep.isSome then .ok (true, s)
  else (EpAddr.selected s.servers).bind fun i =>
    match i with
    | none => .ok (false, s)
    | some i => if x.resolves i.uri then .ok (true, { s with ep := some i.uri }) else .ok (false, s)

/-- Setting the endpoint and sending request `r`: `oc_cloud_set_access_conf`,
api/cloud/oc_cloud_apis.c:85-104, and one of the functions of
api/cloud/oc_cloud_access.c, which refuse missing tokens (`toks`) and, if `nop`, any
provisioning state but RFNOP. -/
def send (x : Env) (s : Ctx) (r : Req) (toks : Bool) (nop : Bool) : Out (Bool × Ctx) :=
  (setEndpoint x s).bind fun q =>
  if q.1 && toks && (x.nop || !nop) && x.sends then
    .ok (true, { q.2 with out := q.2.out ++ [r], sent := q.2.sent ++ [(r, q.2.ep.getD [], q.2.servers.items.map (·.uri))] })
  else .ok (false, q.2)

/-! ## Manager -/

/-- The choice of `cloud_start_process`, api/cloud/oc_cloud_manager.c:122-139. -/
def startAction (s : Ctx) : Option Tm :=
  if has s.status REGISTERED then
    if permanent s then some .login
    else if s.refresh != [] then some .refresh
    else none
  else if s.status = 0 ∧ s.cps = .ready then some .register
  else none

/-- `cloud_start_process`, api/cloud/oc_cloud_manager.c:112-149. -/
def startProcess (x : Env) (s : Ctx) : Out Ctx :=
  let s := retryReset s
  if ¬ (x.nop ∨ x.pro) then .ok s
  else match startAction s with
    | none => .ok s
    | some t => (schedule x s t false).bind fun r =>
      if r.1 then .ok r.2
      else .ok (reset .reconnect 0 (on FAILURE (setCps .failed .connect r.2)))

/-- A response, `oc_client_response_t`: the code (include/oc_ri.h:75-107) and the
payload, if there is one. -/
structure Resp where
  code : Nat
  payload : Option Rep

/-- `cloud_is_connection_error_code`, api/cloud/oc_cloud.c:48-54. -/
def isConnErr (c : Nat) : Bool := c == 17 || c == 18 || c == 24 || c == 25

/-- `cloud_is_timeout_error_code`, api/cloud/oc_cloud.c:56-60. -/
def isTimeout (c : Nat) : Bool := c == 23

/-- `cloud_is_connection_error_or_timeout`, api/cloud/oc_cloud_manager.c:151-156. -/
def isConn (c : Nat) : Bool := isTimeout c || isConnErr c

/-- `manager_payload_get_string_property`, api/cloud/oc_cloud_manager.c:170-180. -/
def strOf (r : Rep) (key : String) : Option Bytes :=
  match CloudStore.strOf r (b key) with
  | some [] => none
  | v => v

/-- `oc_rep_get_int`, api/oc_rep.c:255-265. -/
def intOf (r : Rep) (key : String) : Option Int :=
  match getByTypeAndKey r .int (b key) with
  | some (_, .int v) => some v
  | _ => none

/-- `ctx->store.expires_in` is set with its status bit,
api/cloud/oc_cloud_manager.c:215-218, 480-483 and 728-731. -/
def setExpires (e : Int) (s : Ctx) : Ctx :=
  let s := { s with expires := e }
  if e > 0 then on TOKEN_EXPIRY s else s

/-- `cloud_manager_handle_register_response`, api/cloud/oc_cloud_manager.c:182-220. -/
def registerResponse (s : Ctx) (r : Rep) : Option Ctx :=
  match strOf r "accesstoken", strOf r "refreshtoken", strOf r "uid", intOf r "expiresin" with
  | some a, some f, some u, some e =>
    some (setExpires e { s with access := a, refresh := f, uid := u })
  | _, _, _, _ => none

/-- Adding the server the cloud redirects to,
api/cloud/oc_cloud_manager.c:244-263: `none` if it cannot be added. -/
def redirectAdd (x : Env) (a : Addrs) (uri sid : Bytes) : Out (Option Addrs) :=
  if EpAddr.contains a uri then .ok (some a)
  else (EpAddr.add x.lim (x.mem 0) a ⟨uri, .uuid sid⟩).bind fun r =>
    .ok (if r.1.isSome then some r.2 else none)

/-- The list of servers after a redirection, api/cloud/oc_cloud_manager.c:244-272; the
failing assertion of line 251 is undefined. -/
def redirectServers (x : Env) (a : Addrs) (uri : Bytes) : Out (Option Addrs) :=
  (EpAddr.selected a).bind fun i =>
  match i with
  | none =>
    (redirectAdd x a uri (List.replicate 16 0)).bind fun r =>
    .ok (r.map fun a => (EpAddr.selectByUri a uri).2)
  | some i =>
    match i.tag with
    | .name _ => .ub
    | .uuid sid =>
      (redirectAdd x a uri sid).bind fun r =>
      match r with
      | none => .ok none
      | some a => (EpAddr.remove a (.mine i.id)).bind fun q =>
        .ok (some (EpAddr.selectByUri q.2 uri).2)

/-- `cloud_manager_handle_redirect_response`,
api/cloud/oc_cloud_manager.c:222-278. -/
def redirectResponse (x : Env) (s : Ctx) (r : Rep) : Out Ctx :=
  match strOf r "redirecturi" with
  | none => .ok s
  | some uri =>
    (EpAddr.isSelected s.servers uri).bind fun q =>
    if q then .ok s
    else (redirectServers x s.servers uri).bind fun q =>
      match q with
      | none => .ok s
      | some a => .ok (resetEndpoint (withServers s a))

/-- `_register_handler_check_data_error`, api/cloud/oc_cloud_manager.c:158-168. -/
def registerError (c : Nat) : Err :=
  if isConn c then .connect else if c ≥ 5 then .response else .ok

/-- `_register_handler`, api/cloud/oc_cloud_manager.c:280-315: the error, the
provisioning status and the context.  The failing assertion of line 187 is
undefined. -/
def registerHandler (x : Env) (s : Ctx) (r : Resp) : Out (Err × Cps × Ctx) :=
  if registerError r.code ≠ .ok then .ok (registerError r.code, .failed, on FAILURE s)
  else if s.status ≠ 0 then .ok (.response, .failed, on FAILURE s)
  else match r.payload with
    | none => .ub
    | some p =>
      match registerResponse s p with
      | none => .ok (.response, .failed, on FAILURE s)
      | some s => (redirectResponse x s p).bind fun s =>
        .ok (.ok, .registered, on REGISTERED (retryReset s))

/-- `cloud_manager_register_check_retry_with_changed_server`,
api/cloud/oc_cloud_manager.c:334-353. -/
def retryOther (s : Ctx) : Bool :=
  s.remaining != 0 && s.changed && EpAddr.contains s.servers (s.initial.getD [])

/-- The retry of `cloud_manager_register_handler`,
api/cloud/oc_cloud_manager.c:383-404. -/
def registerRetry (x : Env) (s : Ctx) (e : Err) (c : Cps) : Out Ctx :=
  (schedule x s .register true).bind fun q =>
  if q.1 then .ok (setCps .registering .ok q.2)
  else if retryOther q.2 then
    .ok (setCps .registering .ok (reset .reconnect 0 { q.2 with remaining := q.2.remaining - 1, changed := false }))
  else .ok (setCps c e q.2)

/-- `cloud_manager_register_handler`, api/cloud/oc_cloud_manager.c:355-405. -/
def mRegisterDone (x : Env) (s : Ctx) (r : Resp) : Out Ctx :=
  (registerHandler x (cancel [.register] s) r).bind fun q =>
  match q with
  | (e, c, s) =>
    if e = .ok then
      (schedule x s .login false).bind fun q =>
      if q.1 then .ok (setCps c e (reset .notify 0 q.2))
      else .ok (reset .reconnect 0 (on FAILURE (setCps .failed .connect q.2)))
    else if s.status &&& ~~~ FAILURE = 0 ∧ isConn r.code then
      registerRetry x (reset .notify 0 s) e c
    else .ok (setCps c e (reset .notify 0 s))

/-- `cloud_manager_register_async`, api/cloud/oc_cloud_manager.c:407-442. -/
def registerAsync (x : Env) (s : Ctx) : Out Ctx :=
  if s.status ≠ 0 then .ok s
  else (send x s .mRegister (s.access != []) true).bind fun q =>
    if q.1 then .ok (setCps .registering .ok q.2)
    else (schedule x q.2 .register true).bind fun q =>
      if q.1 then .ok (setErr .ok q.2) else .ok (setCps .failed .connect q.2)

/-- `_login_handler_check_data_error`, api/cloud/oc_cloud_manager.c:444-457. -/
def loginError (c : Nat) : Err :=
  if isConn c then .connect
  else if c = 6 then .unauthorized
  else if c ≥ 5 then .response
  else .ok

/-- `_login_handler`, api/cloud/oc_cloud_manager.c:459-498. -/
def loginHandler (s : Ctx) (r : Resp) : Err × Cps × Ctx :=
  let cpsOk := if isDereg s then Cps.deregistering else .registered
  if loginError r.code ≠ .ok then
    (loginError r.code, if loginError r.code = .connect then cpsOk else .failed, s)
  else if ¬ has s.status REGISTERED then (.response, .failed, s)
  else match r.payload.bind fun p => intOf p "expiresin" with
    | none => (.response, .failed, s)
    | some e => (.ok, cpsOk, on LOGGED_IN (retryReset (setExpires e s)))

/-- `on_keepalive_response_default`, api/cloud/oc_cloud_manager.c:521-539; the
application's own function is left out. -/
def keepalive (x : Env) (s : Ctx) (received : Bool) : Bool × Nat × Ctx :=
  if received then (!isOver x.timeouts 0, 20000, { s with count := 0 })
  else
    (!isOver x.timeouts (s.count + 1),
     if s.pingTimeout * 1000 ≥ 4000 + 1000 then s.pingTimeout * 1000 - 4000 else 4000,
     { s with count := s.count + 1 })

/-- `cloud_manager_calculate_refresh_token_expiration`,
api/cloud/oc_cloud_manager.c:563-581; the failing assertion is undefined. -/
def refreshDelay (ms : Nat) : Out Nat :=
  if ms = 0 then .ub
  else .ok (
    if ms > 3600000 then ms - 600000
    else if ms > 240000 then ms - 120000
    else if ms > 20000 then ms - 10000
    else ms)

/-- Scheduling the refresh of the token, api/cloud/oc_cloud_manager.c:603-608: the
product of line 607 is a signed 64-bit one, its overflow is undefined. -/
def scheduleRefresh (s : Ctx) : Out Ctx :=
  if s.expires > 0 then
    if s.expires * 1000 ≥ 9223372036854775808 then .ub
    else (refreshDelay (s.expires * 1000).toNat).bind fun d => .ok (reset .refresh d s)
  else .ok s

/-- The part of `cloud_manager_login_handler` for an unauthorized device,
api/cloud/oc_cloud_manager.c:625-640. -/
def loginUnauthorized (x : Env) (s : Ctx) : Out Ctx :=
  let s := { setCps .failed .unauthorized s with access := [], expires := 0 }
  (if s.refresh = [] then contextClear x s
    else (schedule x s .refresh false).bind fun q =>
      if q.1 then .ok q.2 else contextClear x q.2).bind fun s =>
  .ok (reset .notify 0 s)

/-- `cloud_manager_login_handler`, api/cloud/oc_cloud_manager.c:583-644. -/
def mLoginDone (x : Env) (s : Ctx) (r : Resp) : Out Ctx :=
  let s := cancel [.login] s
  if ¬ has s.status REGISTERED then .ok (reset .notify 0 (setCps .failed .response s))
  else match loginHandler s r with
    | (.ok, c, s) =>
      let k := keepalive x (setCps c .ok s) true
      (scheduleRefresh (reset .ping k.2.1 k.2.2)).bind fun s => .ok (reset .notify 0 s)
    | (.unauthorized, _, s) => loginUnauthorized x (on FAILURE s)
    | (.connect, c, s) =>
      (schedule x (on FAILURE s) .login true).bind fun q =>
      if q.1 then .ok (reset .notify 0 (setCps c .ok q.2))
      else .ok (reset .reconnect 0 (setCps .failed .connect q.2))
    | (e, c, s) => .ok (reset .reconnect 0 (setCps c e (on FAILURE s)))

/-- `cloud_manager_login_async`, api/cloud/oc_cloud_manager.c:646-681. -/
def loginAsync (x : Env) (s : Ctx) : Out Ctx :=
  if ¬ has s.status REGISTERED then .ok s
  else (send x s .mLogin (s.uid != [] && s.access != []) true).bind fun q =>
    if q.1 then .ok q.2
    else (schedule x q.2 .login true).bind fun q =>
      if q.1 then .ok (setErr .ok q.2)
      else .ok (reset .reconnect 0 (on FAILURE (setCps .failed .connect q.2)))

/-- `_refresh_token_handler_check_data_error`,
api/cloud/oc_cloud_manager.c:683-696. -/
def refreshError (c : Nat) : Err :=
  if isConn c then .connect
  else if c = 6 then .unauthorized
  else if c ≥ 5 then .refresh
  else .ok

/-- `cloud_manager_handle_refresh_token_response`,
api/cloud/oc_cloud_manager.c:698-733. -/
def refreshResponse (s : Ctx) (r : Rep) : Option Ctx :=
  match strOf r "accesstoken", strOf r "refreshtoken", intOf r "expiresin" with
  | some a, some f, some e => some (setExpires e { s with access := a, refresh := f })
  | _, _, _ => none

/-- The error path of `_refresh_token_handler`, api/cloud/oc_cloud_manager.c:765-780. -/
def refreshFail (s : Ctx) (e : Err) : Err × Ctx :=
  let s := on FAILURE s
  if e = .unauthorized then (e, s)
  else if e = .connect then (e, off LOGGED_IN s)
  else (e, off REGISTERED (off LOGGED_IN s))

/-- `_refresh_token_handler`, api/cloud/oc_cloud_manager.c:735-781, without the
provisioning status, which the callers do not use.  The failing assertion of line 703
is undefined. -/
def refreshHandler (s : Ctx) (r : Resp) : Out (Err × Ctx) :=
  if refreshError r.code ≠ .ok then .ok (refreshFail s (refreshError r.code))
  else if ¬ has s.status REGISTERED then .ok (refreshFail s .refresh)
  else match r.payload with
    | none => .ub
    | some p =>
      match refreshResponse s p with
      | none => .ok (refreshFail s .refresh)
      | some s => .ok (.ok, on REFRESHED (retryReset s))

/-- `cloud_manager_refresh_token_handler`, api/cloud/oc_cloud_manager.c:810-863. -/
def mRefreshDone (x : Env) (s : Ctx) (r : Resp) : Out Ctx :=
  (refreshHandler (cancel [.refresh] s) r).bind fun q =>
  match q with
  | (.ok, s) =>
    (schedule x s .login false).bind fun q =>
    if q.1 then .ok (reset .notify 0 (setErr .ok q.2))
    else .ok (reset .reconnect 0 (on FAILURE (setCps .failed .connect q.2)))
  | (.unauthorized, s) =>
    (contextClear x (setCps .failed .unauthorized s)).bind fun s => .ok (reset .notify 0 s)
  | (.connect, s) =>
    if has s.status REGISTERED then
      (schedule x s .refresh true).bind fun q =>
      if q.1 then .ok (reset .notify 0 (setErr .ok q.2))
      else .ok (reset .reconnect 0 (on FAILURE (setCps .failed .refresh q.2)))
    else .ok (reset .notify 0 s)
  | (e, s) => .ok (reset .notify 0 (setCps .failed e s))

/-- `cloud_manager_refresh_token_async`, api/cloud/oc_cloud_manager.c:865-902. -/
def refreshAsync (x : Env) (s : Ctx) : Out Ctx :=
  if ¬ has s.status REGISTERED then .ok s
  else
    let s := cancel [.ping] s
    (send x s .mRefresh (s.uid != [] && s.refresh != []) true).bind fun q =>
    if q.1 then .ok q.2
    else (schedule x q.2 .refresh true).bind fun q =>
      if q.1 then .ok (setErr .refresh q.2)
      else .ok (reset .reconnect 0 (on FAILURE (setCps .failed .refresh q.2)))

/-- `cloud_manager_send_ping_handler`, api/cloud/oc_cloud_manager.c:904-929; 22 is
`OC_PING_TIMEOUT`. -/
def pingDone (x : Env) (s : Ctx) (r : Resp) : Ctx :=
  if ¬ has s.status LOGGED_IN then s
  else
    let k := keepalive x s (!(r.code == 22 || r.code == 17 || isTimeout r.code))
    if k.1 then reset .ping k.2.1 k.2.2
    else reset .reconnect 0 (setErr .connect k.2.2)

/-- `cloud_manager_send_ping_async`, api/cloud/oc_cloud_manager.c:931-947; sending is
`cloud_send_ping`, api/cloud/oc_cloud_apis.c:345-361, which needs a session: the empty
endpoint has none. -/
def pingAsync (x : Env) (s : Ctx) : Ctx :=
  if ¬ has s.status LOGGED_IN then s
  else if x.sends && s.ep.isSome then
    { s with out := s.out ++ [.ping], sent := s.sent ++ [(.ping, s.ep.getD [], s.servers.items.map (·.uri))] }
  else setErr .ok s

/-- `cloud_manager_callback_handler_async`, api/cloud/oc_cloud_manager.c:59-68; the
callback of the application is left out. -/
def notifyAsync (s : Ctx) : Ctx :=
  off (FAILURE ||| LOGGED_OUT ||| REFRESHED ||| TOKEN_EXPIRY ||| DEREGISTERED) s

/-! ## Starting, stopping, provisioning -/

/-- `cloud_manager_restart`, api/cloud/oc_cloud.c:89-96; the failing assertion is
undefined. -/
def restart (s : Ctx) : Out Ctx :=
  if ¬ s.manager then .ub else .ok (reset .start 0 (cancel (managerTms ++ deregTms) s))

/-- `restart_manager`, api/cloud/oc_cloud.c:98-106. -/
def restartAsync (s : Ctx) : Out Ctx := if s.manager then restart s else .ok s

/-- `start_manager`, api/cloud/oc_cloud.c:74-87; the new endpoint is taken to be
allocated. -/
def startAsync (x : Env) (s : Ctx) : Out Ctx :=
  let s := off LOGGED_IN { s with ep := none }
  startProcess x { s with cps := if has s.status REGISTERED then .registered else .ready }

/-- `oc_cloud_manager_restart`, api/cloud/oc_cloud.c:435-453, with session events:
closing a TCP session leads to an event `session false` later. -/
def managerRestart (x : Env) (s : Ctx) : Ctx :=
  if ¬ s.manager then s
  else if s.conn ∧ x.tcp then s
  else reset .restart 0 s

/-- `cloud_manager_reconnect_async`, api/cloud/oc_cloud_manager.c:89-96. -/
def reconnectAsync (x : Env) (s : Ctx) : Ctx := managerRestart x (reset .notify 0 s)

/-- `oc_cloud_manager_start`, api/cloud/oc_cloud.c:461-489. -/
def managerStart (x : Env) (s : Ctx) : Out Ctx :=
  (startProcess x s).bind fun s =>
  let s := { s with manager := true }
  if s.initial.isSome then .ok s else regInit s

/-- `oc_cloud_manager_stop_v1`, api/cloud/oc_cloud.c:498-527. -/
def managerStop (x : Env) (s : Ctx) (drop : Bool) : Out Ctx :=
  let s := resetEndpoint (cancel (managerTms ++ [.restart, .start]) s)
  (EpAddr.selected s.servers).bind fun i =>
  if drop ∨ ¬ (i.isSome ∧ s.access ≠ []) then
    (reinitStore x s).bind fun s => .ok { regDeinit s with manager := false }
  else
    let s := off LOGGED_IN s
    .ok { s with cps := if has s.status REGISTERED then .registered else .ready, changed := false, manager := false }

/-- `oc_cloud_conf_update_t`, api/cloud/oc_cloud_internal.h: a new configuration. -/
structure Conf where
  access : Bytes
  provider : Bytes
  server : Bytes
  sid : Bytes
  servers : List Rep := []

/-- The servers of a new configuration, api/cloud/oc_cloud.c:205-214. -/
def confServers (x : Env) (s : Ctx) (c : Conf) : Out Ctx :=
  if c.server ≠ [] ∨ c.servers ≠ [] then
    (CloudStore.setServers x.lim (fun k => x.mem (k + 1)) s.servers c.server c.sid c.servers).bind fun r =>
    .ok (withServers s r.2)
  else .ok s

/-- `cloud_set_cloudconf`, api/cloud/oc_cloud.c:194-216; its result is only logged. -/
def setConf (x : Env) (s : Ctx) (c : Conf) : Out Ctx :=
  confServers x { s with
    access := if c.access ≠ [] then c.access else s.access
    provider := if c.provider ≠ [] then c.provider else s.provider } c

/-- `oc_cloud_provision_conf_resource` with valid arguments, api/cloud/oc_cloud.c:254-291,
and `oc_cloud_update_by_resource` with a server, lines 310-327. -/
def provision (x : Env) (s : Ctx) (c : Conf) : Out Ctx :=
  (reinitStore x (resetEndpoint s)).bind fun s =>
  (setConf x (cancel (managerTms ++ deregTms) (regDeinit s)) c).bind fun s =>
  let s := { s with status := 0, cps := .ready }
  if s.manager then (regInit s).bind fun s => .ok (managerRestart x s)
  else .ok s

/-- `cloud_ep_session_event_handler`, api/cloud/oc_cloud.c:330-364, for the endpoint of
the cloud; registered from start to stop of the manager. -/
def session (s : Ctx) (connected : Bool) : Out Ctx :=
  if ¬ s.manager ∨ s.ep = none ∨ s.conn = connected then .ok s
  else if connected then .ok { s with conn := true }
  else if has s.status REGISTERED then restart { s with conn := false }
  else .ok { s with conn := false }

/-- `cloud_interface_up_event_handler`, api/cloud/oc_cloud.c:369-376. -/
def netUp (s : Ctx) : Out Ctx :=
  if s.status = 0 ∧ s.manager then restart s else .ok s

/-! ## Calls of the application -/

/-- `oc_cloud_do_register`, api/cloud/oc_cloud_apis.c:106-143. -/
def doRegister (x : Env) (s : Ctx) : Out Ctx :=
  if has s.status REGISTERED then .ok s
  else if s.status ≠ 0 then .ok s
  else (send x s .register (s.access != []) true).bind fun q =>
    if q.1 then .ok { q.2 with cps := .registering } else .ok (setErr .connect q.2)

/-- `oc_cloud_do_login`, api/cloud/oc_cloud_apis.c:154-189, with request `r`: the
result tells success. -/
def doLogin (x : Env) (s : Ctx) (r : Req) : Out (Bool × Ctx) :=
  if ¬ has s.status REGISTERED then .ok (false, s)
  else (send x s r (s.uid != [] && s.access != []) true).bind fun q =>
    if q.1 then .ok (true, q.2) else .ok (false, setErr .connect q.2)

/-- `oc_cloud_login`: nothing is sent by a device that is logged in. -/
def appLogin (x : Env) (s : Ctx) : Out Ctx :=
  if has s.status LOGGED_IN then .ok s
  else (doLogin x s .login).bind fun q => .ok q.2

/-- `oc_cloud_do_logout`, api/cloud/oc_cloud_apis.c:236-265. -/
def doLogout (x : Env) (s : Ctx) : Out Ctx :=
  if ¬ has s.status LOGGED_IN then .ok s
  else (send x s .logout (s.uid != [] && s.access != []) true).bind fun q =>
    if q.1 then .ok q.2 else .ok (setErr .connect q.2)

/-- `oc_cloud_do_refresh_token`, api/cloud/oc_cloud_apis.c:285-321. -/
def doRefresh (x : Env) (s : Ctx) (r : Req) : Out (Bool × Ctx) :=
  if ¬ has s.status REGISTERED then .ok (false, s)
  else (send x s r (s.uid != [] && s.refresh != []) true).bind fun q =>
    if q.1 then .ok (true, q.2) else .ok (false, setErr .refresh q.2)

/-- `oc_cloud_register_handler`, api/cloud/oc_cloud_manager.c:317-332. -/
def registerDone (x : Env) (s : Ctx) (r : Resp) : Out Ctx :=
  (registerHandler x s r).bind fun q =>
  .ok (off (FAILURE ||| TOKEN_EXPIRY) (setCps q.2.1 q.1 q.2.2))

/-- The first part of `oc_cloud_login_handler`, api/cloud/oc_cloud_manager.c:503-512. -/
def loginResult (s : Ctx) (r : Resp) : Ctx :=
  match loginHandler s r with
  | (.ok, c, s) => setCps c .ok s
  | (e, _, s) => setCps .failed e (on FAILURE s)

/-- `oc_cloud_login_handler`, api/cloud/oc_cloud_manager.c:500-519. -/
def loginDone (s : Ctx) (r : Resp) : Ctx := off (FAILURE ||| TOKEN_EXPIRY) (loginResult s r)

/-- The first part of `oc_cloud_refresh_token_handler`,
api/cloud/oc_cloud_manager.c:787-799. -/
def refreshResult (s : Ctx) (r : Resp) : Out Ctx :=
  (refreshHandler s r).bind fun q =>
  match q with
  | (.ok, s) => .ok (setErr .ok s)
  | (.connect, s) => .ok (setErr .connect s)
  | (e, s) => .ok (setCps .failed e s)

/-- `oc_cloud_refresh_token_handler`, api/cloud/oc_cloud_manager.c:783-808. -/
def refreshDone (s : Ctx) (r : Resp) : Out Ctx :=
  (refreshResult s r).bind fun s => .ok (off (FAILURE ||| TOKEN_EXPIRY ||| REFRESHED) s)

/-- `cloud_logout_internal`, api/cloud/oc_cloud_apis.c:212-234. -/
def logoutDone (s : Ctx) (r : Resp) : Ctx :=
  off (FAILURE ||| LOGGED_OUT) (
    if isConnErr r.code then on FAILURE (setErr .connect s)
    else if r.code ≥ 5 then on FAILURE (setErr .response s)
    else on LOGGED_OUT (off LOGGED_IN s))

/-! ## Deregistering -/

/-- `cloud_deregister_by_request`, api/cloud/oc_cloud_deregister.c:177-200. -/
def deregRequest (x : Env) (s : Ctx) : Out (Bool × Ctx) :=
  (send x s .dereg true false).bind fun q =>
  if q.1 then .ok (true, q.2) else .ok (false, setErr .connect q.2)

/-- `oc_cloud_do_deregister`, api/cloud/oc_cloud_deregister.c:267-330; `short` is
`oc_cloud_check_accesstoken_for_deregister` and `params` whether the parameters can
be allocated.  0 is success, 1 is `CLOUD_DEREGISTER_ERROR_ALREADY_DEREGISTERING`. -/
def doDeregister (x : Env) (s : Ctx) (sync short params : Bool) : Out (Int × Ctx) :=
  if ¬ has s.status REGISTERED then .ok (-1, s)
  else if isDereg s then .ok (1, s)
  else if ¬ params then .ok (-1, s)
  else
    let s := { s with cps := .deregistering }
    if short ∨ has s.status LOGGED_IN then
      (deregRequest x s).bind fun q => .ok (if q.1 then 0 else -1, q.2)
    else if sync then .ok (-1, s)
    else if s.refresh ≠ [] ∧ ¬ permanent s then
      (doRefresh x s .dRefresh).bind fun q => .ok (if q.1 then 0 else -1, q.2)
    else (doLogin x s .dLogin).bind fun q => .ok (if q.1 then 0 else -1, q.2)

/-- `cloud_deregistered_internal`, api/cloud/oc_cloud_deregister.c:123-150; the
callback of a deregistration for a reset is left out. -/
def deregDone (s : Ctx) (r : Resp) : Ctx :=
  let s := if r.code < 5 ∨ isConnErr r.code then { s with status := DEREGISTERED }
    else on FAILURE (setErr .response s)
  off (FAILURE ||| DEREGISTERED) { s with cps := .uninitialized }

/-- The login made to deregister is over: api/cloud/oc_cloud_manager.c:500-519 with
the callback `cloud_deregister_try_logged_in`,
api/cloud/oc_cloud_deregister.c:202-222. -/
def dLoginDone (x : Env) (s : Ctx) (r : Resp) : Out Ctx :=
  let s := loginResult s r
  (if ¬ has s.status LOGGED_IN then contextClear x s
    else (deregRequest x s).bind fun q => if q.1 then .ok q.2 else contextClear x q.2).bind fun s =>
  .ok (off (FAILURE ||| TOKEN_EXPIRY) s)

/-- The refresh made to deregister is over: api/cloud/oc_cloud_manager.c:783-808 with
the callback `cloud_deregister_try_refreshed_token`,
api/cloud/oc_cloud_deregister.c:249-265. -/
def dRefreshDone (x : Env) (s : Ctx) (r : Resp) : Out Ctx :=
  (refreshResult s r).bind fun s =>
  (if ¬ has s.status REFRESHED then contextClear x s
    else .ok { s with tms := s.tms ++ [(.refreshed, 0)] }).bind fun s =>
  .ok (off (FAILURE ||| TOKEN_EXPIRY ||| REFRESHED) s)

/-- `cloud_deregister_refreshed_token_async`,
api/cloud/oc_cloud_deregister.c:224-247: lines 233 and 243 read the parameters freed
in the line before. -/
def refreshedAsync (x : Env) (s : Ctx) (short : Bool) : Out Ctx :=
  if short then (deregRequest x s).bind fun q => if q.1 then .ok q.2 else .ub
  else if has s.status LOGGED_IN then
    (deregRequest x s).bind fun q => if q.1 then .ok q.2 else contextClear x q.2
  else (doLogin x s .dLogin).bind fun q => if q.1 then .ok q.2 else .ub

/-- `cloud_reset`, api/cloud/oc_cloud.c:170-192, when the device is to forget the cloud
at once (forced, or not connected); the other case is `oc_cloud_deregister_on_reset`,
api/cloud/oc_cloud_deregister.c:102-119, which stops the manager and deregisters. -/
def cloudReset (x : Env) (s : Ctx) (force sync short params : Bool) : Out Ctx :=
  if force ∨ ¬ s.conn then contextClear x s
  else if sync then
    (doDeregister x (cancel managerTms s) true short params).bind fun q =>
    if q.1 = 0 ∨ q.1 = 1 then .ok q.2 else contextClear x q.2
  else if params then .ok (reset .onReset 0 (cancel managerTms s))
  else contextClear x (cancel managerTms s)

/-- `cloud_deregister_on_reset_async`, api/cloud/oc_cloud_deregister.c:88-100. -/
def onResetAsync (x : Env) (s : Ctx) (short params : Bool) : Out Ctx :=
  (doDeregister x s false short params).bind fun q =>
  if q.1 = 0 ∨ q.1 = 1 then .ok q.2 else contextClear x q.2

/-! ## Histories -/

/-- What can happen (modelling convention): a pending callback runs, a request is
answered, the session of the cloud changes, or the application calls. -/
inductive Ev where
  | fire (t : Tm) (short params : Bool)
  | done (r : Req) (a : Resp)
  | session (connected : Bool)
  | netUp
  | start
  | stop (drop : Bool)
  | restart
  | provision (c : Conf)
  | reset (force sync short params : Bool)
  | register | login | logout | refresh
  | deregister (short params : Bool)

/-- The callback of `t`. -/
def fire (x : Env) (s : Ctx) (short params : Bool) : Tm → Out Ctx
  | .reconnect => .ok (reconnectAsync x s)
  | .register => registerAsync x s
  | .login => loginAsync x s
  | .ping => .ok (pingAsync x s)
  | .refresh => refreshAsync x s
  | .notify => .ok (notifyAsync s)
  | .restart => restartAsync s
  | .start => startAsync x s
  | .clear => contextClear x s
  | .onReset => onResetAsync x s short params
  | .refreshed => refreshedAsync x s short

/-- The handler of `r`. -/
def done (x : Env) (s : Ctx) (a : Resp) : Req → Out Ctx
  | .mRegister => mRegisterDone x s a
  | .mLogin => mLoginDone x s a
  | .mRefresh => mRefreshDone x s a
  | .ping => .ok (pingDone x s a)
  | .register => registerDone x s a
  | .login => .ok (loginDone s a)
  | .refresh => refreshDone s a
  | .logout => .ok (logoutDone s a)
  | .dereg => .ok (deregDone s a)
  | .dLogin => dLoginDone x s a
  | .dRefresh => dRefreshDone x s a

/-- One event; a callback that is not pending and a request that was not sent leave
everything as it is.  A callback is removed before it runs (`Verif.Delayed`). -/
def step (x : Env) (s : Ctx) : Ev → Out Ctx
  | .fire t sh pa =>
    if t ∈ s.tms.map (·.1) then fire x { s with tms := s.tms.eraseP fun p => p.1 == t } sh pa t
    else .ok s
  | .done r a => if r ∈ s.out then done x { s with out := s.out.erase r } a r else .ok s
  | .session c => session s c
  | .netUp => netUp s
  | .start => managerStart x s
  | .stop d => managerStop x s d
  | .restart => .ok (managerRestart x s)
  | .provision c => provision x s c
  | .reset f sy sh pa => cloudReset x s f sy sh pa
  | .register => doRegister x s
  | .login => appLogin x s
  | .logout => doLogout x s
  | .refresh => (doRefresh x s .refresh).bind fun q => .ok q.2
  | .deregister sh pa => (doDeregister x s true sh pa).bind fun q => .ok q.2

/-- A history (modelling convention): the environment decides anew in each step. -/
def run (s : Ctx) : List (Env × Ev) → Out Ctx
  | [] => .ok s
  | e :: es => (step e.1 s e.2).bind fun s => run s es

end Verif.Cloud
