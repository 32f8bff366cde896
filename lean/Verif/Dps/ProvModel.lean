/-!
# The provisioning of a device by the plgd provisioning service

Models the state machine in `/repo/api/plgd/device-provisioning-client/`: the manager
(`plgd_dps_manager.c`), the steps (`plgd_dps_provision.c`, `plgd_dps_time.c`,
`plgd_dps_provision_owner.c`, `plgd_dps_provision_cloud.c`), the renewal of certificates
(`plgd_dps_pki.c` 287-397), the cloud observer (`plgd_dps_cloud.c` 168-402) and the reaction to session
and interface events (`plgd_dps.c` 59-168), built with `OC_SECURITY`, `OC_PKI` and `OC_SESSION_EVENTS`.

Simplified throughout: the delays of timers are left out (any pending callback may run at any time,
before or after any answer); the status callback of the application, the last error and the stored
configuration are left out; the content of requests and answers is reduced to whether the code that
applies it succeeds (`Verif.Dps.Cert`, `Verif.Acl`, `Verif.Cloud` model parts of that code).
-/
namespace Verif.Dps.Prov

/-- The five provisioning steps in their order, `/repo/api/plgd/device-provisioning-client/plgd_dps_provision.c`
419-438 (`dps_provision_get_next_action`). -/
inductive Step | time | owner | cloud | cred | acl
  deriving DecidableEq, Repr

/-- The status word of the client, one Boolean per flag of
`/repo/api/plgd/device-provisioning-client/include/plgd/dps.h`'s `plgd_dps_status_t`, as listed in
`plgd_dps_internal.h` 36-47. -/
structure Fl where
  init : Bool := false
  gTime : Bool := false
  hTime : Bool := false
  gOwner : Bool := false
  hOwner : Bool := false
  gCloud : Bool := false
  hCloud : Bool := false
  gCred : Bool := false
  hCred : Bool := false
  gAcl : Bool := false
  hAcl : Bool := false
  started : Bool := false
  renew : Bool := false
  transient : Bool := false
  failure : Bool := false
  deriving DecidableEq, Repr

/-- Whether the status has the HAS flag of a step, `plgd_dps_internal.h` 36-38. -/
def Fl.has (f : Fl) : Step → Bool
  | .time => f.hTime
  | .owner => f.hOwner
  | .cloud => f.hCloud
  | .cred => f.hCred
  | .acl => f.hAcl

/-- Write the HAS flag of a step, e.g. `plgd_dps_time.c` 145-147 and 161. -/
def Fl.setHas (f : Fl) (b : Bool) : Step → Fl
  | .time => { f with hTime := b }
  | .owner => { f with hOwner := b }
  | .cloud => { f with hCloud := b }
  | .cred => { f with hCred := b }
  | .acl => { f with hAcl := b }

/-- Write the GET flag of a step, e.g. `plgd_dps_time.c` 227 and 147. -/
def Fl.setGet (f : Fl) (b : Bool) : Step → Fl
  | .time => { f with gTime := b }
  | .owner => { f with gOwner := b }
  | .cloud => { f with gCloud := b }
  | .cred => { f with gCred := b }
  | .acl => { f with gAcl := b }

/-- Remove the error flags, `plgd_dps_internal.h` 39-40 and e.g. `plgd_dps_time.c` 117. -/
def Fl.noErr (f : Fl) : Fl := { f with transient := false, failure := false }

/-- Whether an error flag is set, `plgd_dps_internal.h` 39-40. -/
def Fl.err (f : Fl) : Bool := f.transient || f.failure

/-- The status a handler expects after it removed the error flags: `plgd_dps_time.c` 119,
`plgd_dps_provision_owner.c` 94-95, `plgd_dps_provision_cloud.c` 277-278,
`plgd_dps_provision.c` 158-160 and 232ff. -/
def expected : Step → Fl
  | .time => { init := true, gTime := true }
  | .owner => { init := true, hTime := true, gOwner := true }
  | .cloud => { init := true, hTime := true, hOwner := true, gCloud := true }
  | .cred => { init := true, hTime := true, hOwner := true, hCloud := true, gCred := true }
  | .acl => { init := true, hTime := true, hOwner := true, hCloud := true, hCred := true, gAcl := true }

/-- Remove all GET and HAS flags: the forced part of `dps_manager_provision_async`,
`plgd_dps_manager.c` 299-307. -/
def Fl.forced (f : Fl) : Fl :=
  { f with gTime := false, hTime := false, gOwner := false, hOwner := false, gCloud := false
           hCloud := false, gCred := false, hCred := false, gAcl := false, hAcl := false }

/-- Remove the flags of the last two steps: `plgd_dps_provision.c` 495-499 and
`plgd_dps_cloud.c` 212-215. -/
def Fl.noCred (f : Fl) : Fl :=
  { f with gCred := false, hCred := false, gAcl := false, hAcl := false }

/-- All five HAS flags, `plgd_dps_internal.h` 36-38. -/
def Fl.all (f : Fl) : Bool := f.hTime && f.hOwner && f.hCloud && f.hCred && f.hAcl

/-- The first step without its HAS flag, `plgd_dps_provision.c` 419-438. -/
def Fl.next (f : Fl) : Option Step :=
  if !f.hTime then some .time
  else if !f.hOwner then some .owner
  else if !f.hCloud then some .cloud
  else if !f.hCred then some .cred
  else if !f.hAcl then some .acl
  else none

/-- The requests the client sends: one per step and the renewal of certificates
(`plgd_dps_pki.c` 347-368). -/
inductive Req | step (x : Step) | renew
  deriving DecidableEq, Repr

/-- The delayed callbacks of a context: `dps_provisioning_start_async`, `dps_manager_provision_async`,
`dps_manager_provision_retry_async`, `dps_manager_reprovision_and_restart_async`,
`dps_provision_next_step_async`, `dps_pki_renew_certificates_async`,
`dps_pki_renew_certificates_retry_async`, `dps_cloud_observer_reprovision_server_uuid_change_async`,
`dps_cloud_observe_status_async` (`plgd_dps_manager.c` 231-241) and `dps_manager_start_async`
(`plgd_dps.c` 59-63). -/
structure Tm where
  start : Bool := false
  prov : Bool := false
  retry : Bool := false
  reprov : Bool := false
  next : Bool := false
  renew : Bool := false
  renewRetry : Bool := false
  uuid : Bool := false
  obs : Bool := false
  mgr : Bool := false
  deriving DecidableEq, Repr

/-- The context: `plgd_dps_context_t` of `plgd_dps_context_internal.h`, with the requests in flight and
whether the cloud manager runs (`oc_cloud_manager_is_started`). `want` and `got` are ghosts: whether the
application started provisioning and did not stop it, and the steps whose data was found on the device
by the last start or applied since. -/
structure St where
  fl : Fl := {}
  force : Bool := false
  started : Bool := false
  count : Nat := 0
  closing : Bool := false
  conn : Bool := false
  tm : Tm := {}
  reqs : List Req := []
  cloud : Bool := false
  want : Bool := false
  got : List Step := []
  deriving DecidableEq, Repr

/-- What the rest of the device answers during one operation. `rfnop`/`sent`: the device is in RFNOP and
the request can be dispatched; `tcp`: fetching the time opened a TCP session; `busy`: a reset or the
closing of all TLS sessions is in progress; `hasEp`/`epOk`: an endpoint is configured and can be set up;
`owned`: the device is owned or can be made so; `certs`/`chain`: usable certificates are found
(`dps_check_credentials_and_schedule_renewal`) and set as identity chain; `cloudCtx`, `cloudStart`,
`selected`: the cloud context exists, its manager can be started and a server is selected; `mfg`: a
manufacturer certificate exists; `fTime` ... `fAcl`, `registered`: the data found at a start
(`plgd_dps_manager.c` 105-142); `observe`: the cloud observer is enabled; `same`: the cloud
configuration received equals the one in use; `redirect`: the answer redirects to another service. -/
structure Env where
  rfnop : Bool := true
  sent : Bool := true
  tcp : Bool := false
  busy : Bool := false
  hasEp : Bool := true
  epOk : Bool := true
  owned : Bool := true
  certs : Bool := true
  chain : Bool := true
  cloudCtx : Bool := true
  cloudStart : Bool := true
  selected : Bool := true
  mfg : Bool := true
  fTime : Bool := false
  fOwner : Bool := false
  fCloud : Bool := false
  fAcl : Bool := false
  registered : Bool := false
  observe : Bool := true
  same : Bool := false
  redirect : Bool := false
  deriving DecidableEq, Repr

/-- An answer: applied successfully, of a success code but not applicable, a time-out or unavailability
(408 from the stack, transaction time-out, 5.03, 5.04), or any other error code, including the closing
of the connection; `plgd_dps_apis.c` 103-132, `plgd_dps_provision.c` 43-63. -/
inductive Ans | good | bad | transient | refused
  deriving DecidableEq, Repr

/-- `dps_is_provisioned_with_cloud_started`, `plgd_dps_provision.c` 604-624. -/
def done (e : Env) (s : St) : Bool :=
  s.fl.all && !s.fl.err && e.cloudCtx && s.cloud && s.fl.started

/-- `dps_manager_stop`, `plgd_dps_manager.c` 227-243. -/
def stopTimers (s : St) : St := { s with tm := { mgr := s.tm.mgr }, started := false }

/-- `plgd_dps_manager_stop`, `plgd_dps_manager.c` 245-259. Requests in flight are not cancelled: their
handlers run later, at the latest with `OC_CONNECTION_CLOSED`. -/
def stopAll (s : St) : St :=
  { s with tm := {}, started := false, conn := false }

/-- `dps_get_provision_and_cloud_observer_flags`, `plgd_dps_manager.c` 104-142, on top of the flag
INITIALIZED; the status kept for the observer is left out. -/
def found (e : Env) (cloud : Bool) : Fl :=
  let t := e.fTime
  let o := t && e.fOwner
  let c := o && e.fCloud
  let r := c && e.certs && e.chain
  let a := r && e.fAcl
  { init := true, hTime := t, hOwner := o, hCloud := c, hCred := r, hAcl := a
    started := a && e.registered && e.cloudCtx && cloud }

/-- The steps whose HAS flag is set. -/
def Fl.list (f : Fl) : List Step :=
  [Step.time, .owner, .cloud, .cred, .acl].filter f.has

/-- The status `plgd_dps_manager_start` begins with, `plgd_dps_manager.c` 175-182. -/
def initial (e : Env) (s : St) : Fl :=
  if s.force then { init := true } else found e s.cloud

/-- `plgd_dps_manager_start`, `plgd_dps_manager.c` 144-200. The renewal of certificates is scheduled when
the check of the credentials is reached and succeeds (`plgd_dps_manager.c` 119-121). -/
def start (e : Env) (s : St) : St :=
  if s.started then s
  else if !e.hasEp then { s with fl := {}, force := false }
  else if !e.mfg then s
  else
    { s with
      fl := initial e s
      got := (initial e s).list
      force := false
      count := 0
      started := true
      tm := { s.tm with
              prov := true
              renew := s.tm.renew || (!s.force && e.fTime && e.fOwner && e.fCloud && e.certs) } }

/-- `dps_manager_reprovision_and_restart`, `plgd_dps_manager.c` 261-275. -/
def reprovision (e : Env) (s : St) : St :=
  start e (stopAll { s with force := true, cloud := s.cloud && !e.cloudCtx })

/-- `dps_cloud_observe_status`, `plgd_dps_cloud.c` 298-314. -/
def observe (e : Env) (s : St) : St := { s with tm := { s.tm with obs := e.observe } }

/-- The forced part of `dps_manager_provision_async`, `plgd_dps_manager.c` 299-307. -/
def applyForce (s : St) : St :=
  if s.force then { s with fl := s.fl.forced, force := false } else s

/-- `dps_manager_provision_async` after its forced part, `plgd_dps_manager.c` 309-349. -/
def provisionGo (e : Env) (s : St) : St :=
  if done e s then observe e s
  else if !s.fl.init then s
  else if !e.hasEp then stopTimers { s with fl := {} }
  else if !e.epOk || !e.owned then { s with tm := { s.tm with retry := true } }
  else { s with tm := { s.tm with start := true } }

/-- `dps_manager_provision_async`, `plgd_dps_manager.c` 295-349. -/
def provision (e : Env) (s : St) : St := provisionGo e (applyForce s)

/-- Send the request of a step: `plgd_dps_time.c` 174-230, `plgd_dps_provision_owner.c` 155-178,
`plgd_dps_provision_cloud.c` 379-412, `plgd_dps_provision.c` 206-229 and 317-334. All but the cloud step
remove the error flags. -/
def ask (e : Env) (x : Step) (s : St) : St :=
  { s with
    fl := (if x = .cloud then s.fl else s.fl.noErr).setGet true x
    closing := s.closing || (decide (x = .time) && e.tcp)
    reqs := s.reqs ++ [.step x] }

/-- `dps_cloud_observer_on_provisioning_started`, `plgd_dps_cloud.c` 167-199; a round over the servers
that is still going on counts as a selected server. -/
def observerStart (e : Env) (s : St) : St :=
  if e.selected then observe e s else reprovision e s

/-- `dps_provisioning_start_cloud` and its failure in `dps_provision_next_step_async`,
`plgd_dps_provision.c` 548-602 and 484-503. -/
def startCloud (e : Env) (s : St) : St :=
  if !e.cloudCtx then { s with fl := { s.fl with failure := true }, tm := { s.tm with retry := false } }
  else if !s.cloud && !e.cloudStart then
    { s with fl := { s.fl with failure := true, started := false }, force := true
             tm := { s.tm with retry := true } }
  else
    observerStart e
      { s with fl := { s.fl.noErr with started := true }, count := 0, cloud := true
               tm := { s.tm with retry := false } }

/-- The end of provisioning in `dps_provision_next_step_async`, `plgd_dps_provision.c` 473-503 and
`dps_provision_next_step_start_cloud` 398-417. -/
def finishSteps (e : Env) (s : St) : St :=
  if s.fl.err then s
  else if done e s then s
  else if !s.tm.renew && !e.certs then
    { s with fl := { s.fl.noCred with failure := true }, tm := { s.tm with retry := true } }
  else startCloud e { s with tm := { s.tm with renew := true } }

/-- `dps_provision_next_step_async`, `plgd_dps_provision.c` 440-509. -/
def nextStep (e : Env) (s : St) : St :=
  match s.fl.next with
  | some x =>
    if e.rfnop && e.sent then ask e x s
    else { s with fl := { s.fl with failure := true }, tm := { s.tm with retry := true } }
  | none => finishSteps e s

/-- `dps_provisioning_handle_failure`, `plgd_dps_provision.c` 626-654. -/
def handleFailure (sched : Bool) (s : St) : St :=
  let c := if s.fl.transient then s.count + 1 else s.count
  let over := s.fl.transient && decide (3 ≤ c)
  { s with
    count := if over then 0 else c
    force := s.force || s.fl.failure || over
    tm := { s.tm with retry := s.tm.retry || sched } }

/-- Whether a failing step schedules the retry itself: always, but for the time step while the insecure
session is being closed (`plgd_dps_time.c` 153-154 and 167-170). -/
def scheds (x : Step) (s : St) : Bool :=
  if x = .time then !s.conn || !s.closing else true

/-- The error path of the handlers: `plgd_dps_time.c` 160-171, `plgd_dps_provision_owner.c` 136-150,
`plgd_dps_provision.c` 190-204 and 300-315; the cloud handler's sets the failure flag and does nothing
else (`plgd_dps_provision_cloud.c` 316-318). -/
def handlerError (x : Step) (s : St) : St :=
  if x = .cloud then { s with fl := { s.fl with failure := true } }
  else handleFailure (scheds x s) { s with fl := { s.fl.setHas false x with failure := true } }

/-- What a successfully applied answer changes apart from the status: the cloud configuration stops the
cloud manager and the observer unless the configuration is the one in use
(`plgd_dps_provision_cloud.c` 196-241); credentials schedule their renewal (`plgd_dps_provision.c`
270-290); a redirecting answer closes the session (`plgd_dps_apis.c` 134-184; the time answer is checked
without a payload, `plgd_dps_time.c` 132). -/
def effect (e : Env) (x : Step) (s : St) : St :=
  { s with
    cloud := s.cloud && (decide (x ≠ .cloud) || e.same)
    conn := s.conn && (decide (x = .time) || !e.redirect)
    tm := { s.tm with
            obs := s.tm.obs && (decide (x ≠ .cloud) || e.same)
            renew := s.tm.renew || decide (x = .cred) } }

/-- The success path of the handlers: `plgd_dps_time.c` 145-158, `plgd_dps_provision_owner.c` 121-134,
`plgd_dps_provision_cloud.c` 305-314, `plgd_dps_provision.c` 180-188 and 290-298. -/
def handlerGood (e : Env) (x : Step) (s : St) : St :=
  let s1 := effect e x s
  { s1 with
    fl := ((s1.fl.setGet false x).setHas true x).noErr
    count := 0
    got := x :: s1.got
    tm := { s1.tm with next := s1.tm.next || scheds x s1 } }

/-- The part of the handlers after the duplicate check: `plgd_dps_time.c` 114-171,
`plgd_dps_provision_owner.c` 89-150, `plgd_dps_provision_cloud.c` 271-318, `plgd_dps_provision.c`
153-204 and 240-315. -/
def handlerGo (e : Env) (x : Step) (a : Ans) (s : St) : St :=
  if s.fl ≠ expected x then handlerError x s
  else
    match a with
    | .transient => handleFailure (scheds x s) { s with fl := { s.fl with transient := true } }
    | .refused => handleFailure (scheds x s) { s with fl := { s.fl with failure := true } }
    | .bad => handlerError x { s with tm := { s.tm with renew := s.tm.renew || (decide (x = .cred) && e.certs) }
                                      conn := s.conn && (decide (x = .time) || !e.redirect) }
    | .good => handlerGood e x s

/-- The handler of a step's answer: `dps_get_time_handler` (`plgd_dps_time.c` 99-172),
`dps_get_owner_handler` (`plgd_dps_provision_owner.c` 75-150), `dps_set_cloud_handler`
(`plgd_dps_provision_cloud.c` 256-318), `dps_get_acls_handler` and `dps_get_credentials_handler`
(`plgd_dps_provision.c` 139-204 and 231-315). -/
def handler (e : Env) (x : Step) (a : Ans) (s : St) : St :=
  if s.fl.has x && !s.fl.failure then s
  else handlerGo e x a { s with fl := s.fl.noErr, tm := { s.tm with retry := false } }

/-- Schedule the next renewal or, without usable certificates, provision anew: `plgd_dps_pki.c` 287-294,
337-344 and 387-395. -/
def renewAgain (e : Env) (s : St) : St :=
  if e.certs then { s with tm := { s.tm with renew := true } } else reprovision e s

/-- `dps_pki_replace_credentials_handler`, `plgd_dps_pki.c` 296-345. The two ways an answer of a success
code can fail, before and after the certificates are replaced, are one: `bad` provisions anew when no
certificates are usable or the chain cannot be set and schedules another renewal otherwise. -/
def renewHandler (e : Env) (a : Ans) (s : St) : St :=
  let s := { s with tm := { s.tm with renewRetry := false } }
  if !done e s && !s.fl.renew then s
  else
    match a with
    | .good =>
      { s with tm := { s.tm with renew := true }, fl := { s.fl with renew := false }, count := 0
               conn := s.conn && !e.redirect }
    | .bad =>
      if e.chain then renewAgain e { s with conn := s.conn && !e.redirect }
      else reprovision e { s with conn := s.conn && !e.redirect }
    | _ => renewAgain e s

/-- `dps_pki_renew_certificates_async` and `dps_pki_try_renew_certificates`, `plgd_dps_pki.c` 347-397. -/
def renewFire (e : Env) (s : St) : St :=
  if !done e s then s
  else if e.sent then
    { s with reqs := s.reqs ++ [.renew], fl := { s.fl with renew := true }
             tm := { s.tm with renewRetry := true } }
  else renewAgain e s

/-- How one run of the cloud observer ends while the cloud manager runs: it waits on, it saw the device
registered and logged in, it ran out of servers, or it switched to the next server, which has the same
identifier, another one, or closes the round; `plgd_dps_cloud.c` 224-271 and 343-396. -/
inductive Obs | wait | done | exhausted | same | otherUuid | round
  deriving DecidableEq, Repr

/-- `dps_cloud_observe_status_async`, `plgd_dps_cloud.c` 328-402, with
`dps_cloud_observer_on_server_change` 224-271. -/
def observeFire (e : Env) (o : Obs) (s : St) : St :=
  if !e.cloudCtx || !s.cloud then reprovision e s
  else if !e.observe then s
  else
    match o with
    | .wait => { s with tm := { s.tm with obs := true } }
    | .done => s
    | .exhausted => reprovision e s
    | .same => { s with tm := { s.tm with obs := true } }
    | .otherUuid => { s with tm := { s.tm with uuid := true } }
    | .round => { s with tm := { s.tm with reprov := true } }

/-- `dps_cloud_observer_reprovision_server_uuid_change_async`, `plgd_dps_cloud.c` 201-222. -/
def uuidFire (e : Env) (s : St) : St :=
  { s with cloud := s.cloud && !e.cloudCtx
           fl := { s.fl.noCred with started := false }
           tm := { s.tm with next := true } }

/-- `dps_manager_start_async` and `dps_manager_start`, `plgd_dps_manager.c` 45-54 and 209-218. -/
def mgrFire (s : St) : St :=
  if s.started then s else { s with started := true, tm := { s.tm with prov := true } }

/-- `dps_provisioning_start_async`, `plgd_dps_provision.c` 511-531. -/
def startFire (e : Env) (s : St) : St :=
  if e.busy then { s with tm := { s.tm with start := true } }
  else { s with tm := { s.tm with next := true } }

/-- The delayed callbacks. -/
inductive Timer | start | prov | retry | reprov | next | renew | renewRetry | uuid | obs | mgr
  deriving DecidableEq, Repr

/-- Whether a delayed callback is pending. -/
def Tm.on (t : Tm) : Timer → Bool
  | .start => t.start
  | .prov => t.prov
  | .retry => t.retry
  | .reprov => t.reprov
  | .next => t.next
  | .renew => t.renew
  | .renewRetry => t.renewRetry
  | .uuid => t.uuid
  | .obs => t.obs
  | .mgr => t.mgr

/-- Take a delayed callback off the list. -/
def Tm.off (t : Tm) : Timer → Tm
  | .start => { t with start := false }
  | .prov => { t with prov := false }
  | .retry => { t with retry := false }
  | .reprov => { t with reprov := false }
  | .next => { t with next := false }
  | .renew => { t with renew := false }
  | .renewRetry => { t with renewRetry := false }
  | .uuid => { t with uuid := false }
  | .obs => { t with obs := false }
  | .mgr => { t with mgr := false }

/-- The callbacks themselves; `dps_manager_provision_retry_async` (`plgd_dps_manager.c` 285-293) closes
the session first, `dps_manager_reprovision_and_restart_async` is 277-283. -/
def fire (e : Env) (o : Obs) (t : Timer) (s : St) : St :=
  match t with
  | .start => startFire e s
  | .prov => provision e s
  | .retry => provision e { s with conn := false }
  | .reprov => reprovision e s
  | .next => nextStep e s
  | .renew => renewFire e s
  | .renewRetry => renewFire e s
  | .uuid => uuidFire e s
  | .obs => observeFire e o s
  | .mgr => mgrFire s

/-- `dps_manager_restart`, `plgd_dps.c` 58-63: stop the timers and start the manager from a delayed
callback. -/
def restartLater (s : St) : St :=
  { stopTimers s with tm := { mgr := true } }

/-- The session to the service was closed: `dps_handle_endpoint_event`, `plgd_dps.c` 65-127. -/
def disconnected (e : Env) (s : St) : St :=
  if !s.started || !s.conn then s
  else
    let s := { s with conn := false }
    if s.closing then
      { s with closing := false
               tm := { s.tm with next := s.tm.next || !s.fl.err, retry := s.tm.retry || s.fl.err } }
    else if !s.fl.err && !done e s then restartLater s
    else s

/-- The operations: the application starts, stops or restarts provisioning (`plgd_dps_manager.c`
144-259) or asks for a full one (`plgd_dps_context.c` 193-199); a delayed callback runs; a request in
flight is answered; the session to the service opens or closes, the session to the cloud is lost
(`plgd_dps.c` 65-148), a network interface comes up (150-168); others start or stop the cloud manager;
the device is reset to its factory state (`plgd_dps_context.c` 129-165). -/
inductive Op
  | start (e : Env)
  | stop
  | restart (e : Env)
  | force
  | fire (t : Timer) (e : Env) (o : Obs)
  | answer (r : Req) (a : Ans) (e : Env)
  | connected
  | disconnected (e : Env)
  | cloudLost (e : Env)
  | ifUp
  | cloudRun (b : Bool)
  | reset
  deriving DecidableEq, Repr

/-- The handler of the answer to a request. -/
def answer (e : Env) (a : Ans) (r : Req) (s : St) : St :=
  match r with
  | .step x => handler e x a s
  | .renew => renewHandler e a s

/-- One operation. A start by the application without an endpoint or a manufacturer certificate does not
count as wanted. Lost cloud sessions: `plgd_dps.c` 129-148; interface: 150-168; reset:
`plgd_dps_context.c` 129-144. -/
def step (s : St) : Op → St
  | .start e => start e { s with want := s.want || (e.hasEp && e.mfg) }
  | .stop => { stopAll s with want := false }
  | .restart e => start e { stopAll s with want := e.hasEp && e.mfg }
  | .force => { s with force := true }
  | .fire t e o => if s.tm.on t then fire e o t { s with tm := s.tm.off t } else s
  | .answer r a e => if r ∈ s.reqs then answer e a r { s with reqs := s.reqs.erase r } else s
  | .connected => if s.started then { s with conn := true } else s
  | .disconnected e => disconnected e s
  | .cloudLost e => if s.started && s.cloud then observe e s else s
  | .ifUp => if s.fl = { init := true } then restartLater s else s
  | .cloudRun b => { s with cloud := b }
  | .reset => { stopTimers s with fl := {}, conn := false, count := 0, want := false }

/-- A history. -/
def run (s : St) (ops : List Op) : St := ops.foldl step s

end Verif.Dps.Prov
