import Verif.Common

/-!
Model of the registrations of observers: messaging/coap/observe.c with its callers
in api/oc_ri.c.

Endpoints are elements of an arbitrary type `E` compared by an arbitrary function
(`oc_endpoint_compare`, api/oc_endpoint.c:695-734, is not transitive: session id 0
means any).  An observer is identified by a number that is never used again where
the C code uses its address.  A resource is identified by a number; `uri` tells
which resources exist, and reading or writing a deleted resource is undefined
behaviour.  Block-wise response buffers and batch observers are not modelled, nor
is the failure of allocating an observer.
-/

namespace Verif.Observe

/-- messaging/coap/observe_internal.h `coap_observer_t`. -/
structure Obs (E : Type) where
  id : Nat
  ep : E
  url : List UInt8
  iface : Nat
  token : List UInt8
  mid : Nat
  res : Nat
  ctr : Nat

/-- A notification as seen by the client: to whom (endpoint, path, interface,
registration) and the value of the Observe option. -/
structure Notif (E : Type) where
  id : Nat
  ep : E
  url : List UInt8
  iface : Nat
  seq : Nat

/-- `g_observers_list`, `num_observers` of each resource (include/oc_ri.h:347, a
`uint8_t`), the existing resources with their uri, `g_observe_counter`, and the
notifications sent so far. -/
structure St (E : Type) where
  obs : List (Obs E)
  num : Nat → Nat
  uri : Nat → Option (List UInt8)
  g : Nat
  nextId : Nat
  log : List (Notif E)

variable {E : Type}

/-- coap_internal.h:189-190: first and last sequence number. -/
def seqStart : Nat := 2
/-- coap_internal.h:190 `OC_COAP_OPTION_OBSERVE_MAX_VALUE`. -/
def seqMax : Nat := 2 ^ 24 - 1

/-- observe.c:194-202 `observe_increment_observe_counter`, the new value. -/
def inc (c : Nat) : Nat := if c = seqMax then seqStart else c + 1

/-- observe.c:223-249 `coap_remove_observer`. -/
def removeOne (s : St E) (o : Obs E) : Out (St E) :=
  match s.uri o.res with
  | none => .ub
  | some _ =>
    .ok { s with
      obs := s.obs.filter fun q => q.id ≠ o.id
      num := fun r => if r = o.res then (s.num r + 255) % 256 else s.num r }

/-- observe.c:255-278 `coap_remove_observers_by_filter`, the loop over the list
as it was at the start (the next element is fetched before a removal). The number
of removed observers is counted in `n`. -/
def removeLoop (f : St E → Obs E → Out Bool) (all : Bool) : List (Obs E) → St E → Nat → Out (St E × Nat)
  | [], s, n => .ok (s, n)
  | o :: r, s, n =>
    (f s o).bind fun m =>
    if m then
      (removeOne s o).bind fun s' => if all then removeLoop f all r s' (n + 1) else .ok (s', n + 1)
    else removeLoop f all r s n

/-- observe.c:255-278. -/
def removeBy (f : St E → Obs E → Out Bool) (all : Bool) (s : St E) : Out (St E × Nat) :=
  removeLoop f all s.obs s 0

/-- observe.c:288-297 `coap_observer_has_matching_data`. -/
def matchData (cmp : E → E → Bool) (ep : E) (url : List UInt8) (iface : Nat) :
    St E → Obs E → Out Bool :=
  fun _ o => .ok (cmp o.ep ep && o.url == url && o.iface == iface)

/-- observe.c:367-373. -/
def matchEndpoint (cmp : E → E → Bool) (ep : E) : St E → Obs E → Out Bool :=
  fun _ o => .ok (cmp o.ep ep)

/-- observe.c:393-402. -/
def matchToken (cmp : E → E → Bool) (ep : E) (token : List UInt8) : St E → Obs E → Out Bool :=
  fun _ o => .ok (cmp o.ep ep && o.token == token)

/-- observe.c:423-430. -/
def matchMid (cmp : E → E → Bool) (ep : E) (mid : Nat) : St E → Obs E → Out Bool :=
  fun _ o => .ok (cmp o.ep ep && o.mid == mid)

/-- observe.c:480-494: a path without its leading slash. -/
def stripSlash (u : List UInt8) : List UInt8 :=
  match u with
  | c :: r => if c = 47 then r else u
  | [] => []

/-- observe.c:472-498 `coap_observer_match_resource`; `ruri` is the uri of the
resource. -/
def matchResource (r : Nat) (ruri : List UInt8) : St E → Obs E → Out Bool :=
  fun _ o => .ok (o.res == r && stripSlash ruri == stripSlash o.url)

/-- observe.c:525-532 `coap_observer_has_matching_device`: `sel` is the
comparison of the device and, if the device is not being reset, the decision of
the access control for the observer's endpoint and resource, which reads the
resource. -/
def matchDevice (sel : E → Nat → Bool) : St E → Obs E → Out Bool :=
  fun s o => match s.uri o.res with
    | none => .ub
    | some _ => .ok (sel o.ep o.res)

/-- observe.c:313-354 `coap_add_observer`; `r` exists. -/
def add (cmp : E → E → Bool) (s : St E) (ep : E) (url : List UInt8) (iface : Nat)
    (token : List UInt8) (r : Nat) : Out (St E) :=
  (removeBy (matchData cmp ep url iface) true s).bind fun x =>
  let s := x.1
  .ok { s with
    obs := s.obs ++ [⟨s.nextId, ep, url, iface, token, 0, r, s.g⟩]
    num := fun q => if q = r then (s.num q + 1) % 256 else s.num q
    nextId := s.nextId + 1 }

/-- api/oc_ri.c:565-624 `oc_ri_delete_resource` as far as observers are
concerned: they are removed only if the counter of the resource is not 0
(:597). -/
def deleteResource (s : St E) (r : Nat) : Out (St E) :=
  match s.uri r with
  | none => .ub
  | some u =>
    (if s.num r > 0 then (removeBy (matchResource r u) true s).bind fun x => .ok x.1
      else .ok s).bind fun s =>
    .ok { s with uri := fun q => if q = r then none else s.uri q }

/-- observe.c:714-793 `coap_send_notification_internal` for a response with a
success code (`code < 4.00`): the Observe option is the counter of the observer,
which is incremented together with the global one, unless the counter of the
resource is 0, in which case the option is `OBSERVE_UNREGISTER` (1).  `mid` is the
message id of the notification. -/
def notifyOne (s : St E) (o : Obs E) (mid : Nat) : Out (St E) :=
  match s.uri o.res with
  | none => .ub
  | some _ =>
    if s.num o.res ≠ 0 then
      .ok { s with
        obs := s.obs.map fun q => if q.id = o.id then { q with ctr := inc q.ctr, mid := mid } else q
        g := inc s.g
        log := s.log ++ [⟨o.id, o.ep, o.url, o.iface, o.ctr⟩] }
    else
      .ok { s with
        obs := s.obs.map fun q => if q.id = o.id then { q with mid := mid } else q
        log := s.log ++ [⟨o.id, o.ep, o.url, o.iface, 1⟩] }

/-- Events. `addResource` registers a resource with its uri. -/
inductive Op (E : Type) where
  | addResource (r : Nat) (u : List UInt8)
  | register (ep : E) (url : List UInt8) (iface : Nat) (token : List UInt8) (r : Nat)
  | byClient (ep : E)
  | byToken (ep : E) (token : List UInt8)
  | byMid (ep : E) (mid : Nat)
  | dosChange (sel : E → Nat → Bool)
  | delete (r : Nat)
  | notify (id mid : Nat)
  | freeAll

/-- One event. A notification goes to one observer of the list; a notification of
a resource (observe.c:1052-1118) is a sequence of these. -/
def exec (cmp : E → E → Bool) (s : St E) : Op E → Out (St E)
  | .addResource r u =>
    .ok { s with uri := fun q => if q = r then some u else s.uri q,
                 num := fun q => if q = r then 0 else s.num q }
  | .register ep url iface token r => add cmp s ep url iface token r
  | .byClient ep => (removeBy (matchEndpoint cmp ep) true s).bind fun x => .ok x.1
  | .byToken ep t => (removeBy (matchToken cmp ep t) false s).bind fun x => .ok x.1
  | .byMid ep m => (removeBy (matchMid cmp ep m) false s).bind fun x => .ok x.1
  | .dosChange sel => (removeBy (matchDevice sel) true s).bind fun x => .ok x.1
  | .delete r => deleteResource s r
  | .notify id mid =>
    match s.obs.find? fun o => o.id = id with
    | none => .ok s
    | some o => notifyOne s o mid
  | .freeAll => (removeBy (fun _ _ => .ok true) true s).bind fun x => .ok x.1

/-- observe.c:192, 210: the initial state. -/
def init : St E := ⟨[], fun _ => 0, fun _ => none, seqStart, 0, []⟩

/-- A history of events. -/
def run (cmp : E → E → Bool) : St E → List (Op E) → Out (St E)
  | s, [] => .ok s
  | s, o :: r => (exec cmp s o).bind fun s' => run cmp s' r

end Verif.Observe
