import Verif.Common

/-!
The life of resources and collections, and what else in the library points to them:
links of collections, observers and delayed callbacks.  Memory that was freed may be
given out again.

Modelled from api/oc_ri.c, api/oc_collection.c, api/oc_link.c, api/oc_server_api.c and
messaging/coap/observe.c, as built with OC_SERVER, OC_COLLECTIONS and OC_SECURITY.

Left out: what is sent (area Notify), the pending notifications of the discovery
resource (area Batch), periodic callbacks (area Delayed), resources made by requests
(area Factory), the links of resources published to a cloud (area CloudRd), block-wise
transfers, `num_links` of a resource (it only saves a search), failing allocations and
the shutdown.  Devices are in normal operation.
-/

namespace Verif.Life

/-- `oc_resource_t` and `oc_collection_t` (include/oc_ri.h, api/oc_collection_internal.h):
which of the two, the device and the URI.  URIs are numbered in the order of
api/oc_collection.c:203-209.  `gen` tells objects apart that had the same address one
after the other; the code has no such thing. -/
structure Obj where
  gen : Nat
  col : Bool
  dev : Nat
  uri : Nat
  deriving DecidableEq, Repr

/-- Interfaces of observers (`oc_interface_mask_t`, include/oc_ri.h): none given, links
list, baseline, batch, any other one but `OC_IF_STARTUP`, whose observers are passed
over (messaging/coap/observe.c:1087-1090). -/
inductive Iface where
  | dflt
  | ll
  | base
  | batch
  | other
  deriving DecidableEq, Repr

/-- `coap_observer_t` (messaging/coap/observe_internal.h): `id` stands for its address,
`res` is the address of the resource.  `gen` is the object it was registered for; the
code has no such thing. -/
structure Obs where
  id : Nat
  ep : Nat
  dev : Nat
  uri : Nat
  iface : Iface
  res : Nat
  gen : Nat
  deriving DecidableEq, Repr

/-- The delayed callbacks that have a resource or collection as their data:
`notify_resource_changed_async`, `notify_observers_async` (api/oc_server_api.c:736-741, 790-795),
`oc_delayed_delete_resource_cb` (api/oc_ri.c:289) and the three of
api/oc_collection.c:79-105. -/
inductive Fn where
  | changed
  | observers
  | delete
  | ll
  | base
  | batch
  deriving DecidableEq, Repr

/-- `oc_event_callback_t` (api/oc_event_callback_internal.h). -/
structure Cb where
  fn : Fn
  data : Nat
  deriving DecidableEq, Repr

/-- What is sent to an observer: a notification, with the object the observer was
registered for and the one the notification is of; or the end of the observation, as
the resource is gone (4.04) or the device is reset (5.03). -/
inductive Sent where
  | note (obs ep of is : Nat)
  | gone (obs ep : Nat)
  | unavailable (obs ep : Nat)
  deriving DecidableEq, Repr

/-- The objects by address, the links of each collection (addresses of the linked
resources), `num_observers` (a `uint8_t`, include/oc_ri.h:347), the lists of resources,
of resources to be deleted (api/oc_ri.c:88-90) and of collections
(api/oc_collection.c:58), the observers, the callbacks and what was sent. -/
structure St where
  heap : Nat → Option Obj
  links : Nat → List Nat
  nobs : Nat → Nat
  app : List Nat
  del : List Nat
  cols : List Nat
  obs : List Obs
  cbs : List Cb
  ngen : Nat
  nid : Nat
  out : List Sent

/-- Nothing there yet (the lists of api/oc_ri.c:88-90 start empty). -/
def init : St := ⟨fun _ => none, fun _ => [], fun _ => 0, [], [], [], [], [], 0, 0, []⟩

/-- Update of one place of a table (`*ptr = v`; modelling helper). -/
def put {α : Type} (f : Nat → α) (i : Nat) (a : α) : Nat → α := fun j => if j = i then a else f j

/-- All the objects at these addresses are read (`link->resource->uri` and so on,
api/oc_collection.c:671-727). -/
def derefs (s : St) (l : List Nat) : Out Unit :=
  if l.all fun a => (s.heap a).isSome then .ok () else .ub

/-- `oc_new_resource`, `oc_new_collection` (api/oc_server_api.c:360-396): memory that is
not in use is given out. -/
def new (a : Nat) (col : Bool) (dev uri : Nat) (s : St) : St :=
  match s.heap a with
  | some _ => s
  | none => { s with heap := put s.heap a (some ⟨s.ngen, col, dev, uri⟩), links := put s.links a [],
                     nobs := put s.nobs a 0, ngen := s.ngen + 1 }

/-- `oc_ri_URI_is_in_use` (api/oc_ri.c:257-277), without the core resources (area Ri). -/
def inUse (s : St) (x : Obj) : Bool :=
  (s.app ++ s.del ++ s.cols).any fun b =>
    match s.heap b with
    | none => false
    | some y => y.dev == x.dev && y.uri == x.uri

/-- `oc_ri_add_resource` (api/oc_ri.c:636-673) of a resource with handlers, and
`oc_collection_add` (api/oc_collection.c:323-338). -/
def add (a : Nat) (s : St) : Out St :=
  match s.heap a with
  | none => .ub
  | some x =>
    if x.col then
      if s.cols.contains a || inUse s x then .ok s else .ok { s with cols := s.cols ++ [a] }
    else if s.app.contains a || s.del.contains a || inUse s x then .ok s
    else .ok { s with app := s.app ++ [a] }

/-- `oc_reset_delayed_callback` (api/oc_server_api.c:254-267). -/
def schedule (f : Fn) (a : Nat) (s : St) : St :=
  { s with cbs := (s.cbs.filter fun c => c != ⟨f, a⟩) ++ [⟨f, a⟩] }

/-- The place of a new link (api/oc_collection.c:193-216): before the first link with a
later URI. -/
def insert (h : Nat → Option Obj) (a u : Nat) : List Nat → Out (List Nat)
  | [] => .ok [a]
  | t :: l =>
    match h t with
    | none => .ub
    | some y => if u < y.uri then .ok (a :: t :: l) else (insert h a u l).bind fun l => .ok (t :: l)

/-- `oc_new_link` (api/oc_link.c:60-79) and `oc_collection_add_link`
(api/oc_collection.c:178-219, 162-176) in one step. -/
def link (c a : Nat) (s : St) : Out St :=
  match s.heap c, s.heap a with
  | some y, some x =>
    if y.col then
      (insert s.heap a x.uri (s.links c)).bind fun l => .ok (schedule .ll c { s with links := put s.links c l })
    else .ub
  | _, _ => .ub

/-- `oc_collection_remove_link` (api/oc_collection.c:221-244) and `oc_delete_link`
(api/oc_link.c:82-100) in one step; the linked resource is not read unless it is on a
list. -/
def unlink (c a : Nat) (s : St) : Out St :=
  match s.heap c with
  | none => .ub
  | some y =>
    if !y.col then .ub
    else if (s.links c).contains a then .ok (schedule .ll c { s with links := put s.links c ((s.links c).erase a) })
    else .ok s

/-- `coap_remove_observer` (messaging/coap/observe.c:223-249): the resource is read and
written. -/
def removeObs (o : Obs) (s : St) : Out St :=
  match s.heap o.res with
  | none => .ub
  | some _ => .ok { s with nobs := put s.nobs o.res ((s.nobs o.res + 255) % 256),
                           obs := s.obs.filter fun p => p.id != o.id }

/-- The loop of `coap_remove_observers_by_filter` (messaging/coap/observe.c:255-277)
over the observers that match; `f` is what is sent first. -/
def removeList (f : Obs → List Sent) : List Obs → St → Out St
  | [], s => .ok s
  | o :: l, s => (removeObs o { s with out := s.out ++ f o }).bind (removeList f l)

/-- `coap_remove_observers_by_filter` (messaging/coap/observe.c:255-277). -/
def removeBy (p : Obs → Bool) (f : Obs → List Sent) (s : St) : Out St := removeList f (s.obs.filter p) s

/-- Nothing is sent (`on_remove` is `NULL`, messaging/coap/observe.c:266-268). -/
def silent (_ : Obs) : List Sent := []

/-- A new observer (messaging/coap/observe.c:322-354). -/
def addObs (e : Nat) (i : Iface) (a : Nat) (x : Obj) (s : St) : St :=
  { s with obs := s.obs ++ [⟨s.nid, e, x.dev, x.uri, i, a, x.gen⟩], nid := s.nid + 1,
           nobs := put s.nobs a ((s.nobs a + 1) % 256) }

/-- A request to observe was answered (api/oc_ri.c:895-925, `coap_add_observer`,
messaging/coap/observe.c:312-354): the resource was found on a list; the links of a
collection were read to answer (api/oc_collection.c:641-725); an observer with the same
endpoint, path and interface is replaced. -/
def observe (e : Nat) (i : Iface) (a : Nat) (s : St) : Out St :=
  if s.app.contains a || s.cols.contains a then
    match s.heap a with
    | none => .ub
    | some x =>
      (derefs s (s.links a)).bind fun _ =>
      (removeBy (fun o => o.ep == e && o.dev == x.dev && o.uri == x.uri && o.iface == i) silent s).bind fun s =>
      .ok (addObs e i a x s)
  else .ok s

/-- `coap_remove_observer_by_token`, `coap_remove_observer_by_mid`
(messaging/coap/observe.c:404-441). -/
def cancel (id : Nat) (s : St) : Out St := removeBy (fun o => o.id == id) silent s

/-- `coap_remove_observers_by_client` (messaging/coap/observe.c:375-385). -/
def leave (e : Nat) (s : St) : Out St := removeBy (fun o => o.ep == e) silent s

/-- `coap_remove_observers_on_dos_change` with `reset`
(messaging/coap/observe.c:522-552). -/
def reset (d : Nat) (s : St) : Out St := removeBy (fun o => o.dev == d) (fun o => [.unavailable o.id o.ep]) s

/-- Notifications of the object to these observers (the loops of
messaging/coap/observe.c:821-836, 1076-1116); no sending fails. -/
def notes (g : Nat) (l : List Obs) : List Sent := l.map fun o => .note o.id o.ep o.gen g

/-- `coap_notify_collection` (messaging/coap/observe.c:812-836, 838-900): the links are
read. -/
def noteCol (c : Nat) (i : Iface) (s : St) : Out St :=
  match s.heap c with
  | none => .ub
  | some y =>
    (derefs s (s.links c)).bind fun _ =>
    .ok { s with out := s.out ++ notes y.gen (s.obs.filter fun o =>
      o.res == c && (o.iface == i || (o.iface == .dflt && i == .ll))) }

/-- `coap_notify_observers_internal`, the observers of the resource itself
(messaging/coap/observe.c:1052-1118, 1135-1187): those of a collection only with the
baseline interface, for whom its links are read. -/
def noteOwn (a : Nat) (x : Obj) (s : St) : Out St :=
  if s.nobs a = 0 then .ok s
  else
    let l := s.obs.filter fun o => o.res == a && (!x.col || o.iface == .base)
    if x.col && !l.isEmpty then
      (derefs s (s.links a)).bind fun _ => .ok { s with out := s.out ++ notes x.gen l }
    else .ok { s with out := s.out ++ notes x.gen l }

/-- The collections that link the resource (`oc_get_next_collection_with_link`,
api/oc_collection.c:603-631). -/
def linkers (s : St) (a d : Nat) : List Nat :=
  s.cols.filter fun c =>
    match s.heap c with
    | none => false
    | some y => y.dev == d && (s.links c).contains a

/-- The batch notifications of one collection (messaging/coap/observe.c:812-836, 970). -/
def batchOf (s : St) (c : Nat) : List Sent :=
  match s.heap c with
  | none => []
  | some y => notes y.gen (s.obs.filter fun o => o.res == c && o.iface == .batch)

/-- `coap_notify_collections` (messaging/coap/observe.c:920-979): up to the first
collection without observers. -/
def noteLinkers (a d : Nat) (s : St) : Out St :=
  (derefs s s.cols).bind fun _ =>
  .ok { s with out := s.out ++ ((linkers s a d).takeWhile fun c => s.nobs c != 0).flatMap (batchOf s) }

/-- `oc_notify_resource_changed`, `oc_notify_observers` (api/oc_server_api.c:726-734,
771-788, `coap_notify_observers_internal`, messaging/coap/observe.c:1135-1193). -/
def changed (a : Nat) (s : St) : Out St :=
  match s.heap a with
  | none => .ub
  | some x => (noteOwn a x s).bind (noteLinkers a x.dev)

/-- `oc_notify_resource_changed_delayed_ms` (api/oc_server_api.c:797-814). -/
def changedLater (a : Nat) (s : St) : Out St :=
  match s.heap a with
  | none => .ub
  | some _ => .ok (schedule .changed a s)

/-- `oc_notify_observers_delayed` (api/oc_server_api.c:743-769): only with observers. -/
def observersLater (a : Nat) (s : St) : Out St :=
  match s.heap a with
  | none => .ub
  | some _ => if s.obs.any fun o => o.res == a then .ok (schedule .observers a s) else .ok s

/-- An update through the batch interface (api/oc_collection.c:1080-1087). -/
def wrote (c : Nat) (s : St) : Out St :=
  match s.heap c with
  | none => .ub
  | some y => if y.col then .ok (schedule .batch c s) else .ok s

/-- The first link with this URI is taken out (`oc_get_link_by_uri`,
api/oc_collection.c:276-308): the resources before it are read. -/
def eraseUri (h : Nat → Option Obj) (u : Nat) : List Nat → Out (List Nat)
  | [] => .ok []
  | t :: l =>
    match h t with
    | none => .ub
    | some y => if y.uri = u then .ok l else (eraseUri h u l).bind fun l => .ok (t :: l)

/-- `ri_delete_resource` (api/oc_ri.c:570-587): the collections of the device that link
the resource lose the first link with its URI and tell their observers later. -/
def dropLinks (a : Nat) (x : Obj) : List Nat → St → Out St
  | [], s => .ok s
  | c :: l, s =>
    match s.heap c with
    | none => .ub
    | some y =>
      if y.dev = x.dev ∧ a ∈ s.links c then
        (eraseUri s.heap x.uri (s.links c)).bind fun k =>
        dropLinks a x l (schedule .ll c { s with links := put s.links c k })
      else dropLinks a x l s

/-- Off the lists and without callbacks (api/oc_ri.c:590-595, `oc_notify_clear`,
api/oc_server_api.c:882-888). -/
def unlist (a : Nat) (s : St) : St :=
  { s with app := s.app.filter fun b => b != a, del := s.del.filter fun b => b != a,
           cbs := s.cbs.filter fun c => c != ⟨.delete, a⟩ && c != ⟨.changed, a⟩ && c != ⟨.observers, a⟩ }

/-- `coap_remove_observers_by_resource` if there are observers (api/oc_ri.c:597-604,
messaging/coap/observe.c:472-516). -/
def endObs (a : Nat) (x : Obj) (s : St) : Out St :=
  if s.nobs a = 0 then .ok s
  else removeBy (fun o => o.res == a && o.uri == x.uri) (fun o => [.gone o.id o.ep]) s

/-- `oc_delete_resource` (api/oc_ri.c:549-634). -/
def delete (a : Nat) (s : St) : Out St :=
  match s.heap a with
  | none => .ub
  | some x =>
    if x.col then .ub
    else
      (dropLinks a x s.cols s).bind fun s =>
      (endObs a x (unlist a s)).bind fun s =>
      .ok { s with heap := put s.heap a none }

/-- `oc_delayed_delete_resource` (api/oc_ri.c:279-307). -/
def later (a : Nat) (s : St) : Out St :=
  match s.heap a with
  | none => .ub
  | some x =>
    if x.col then .ub
    else .ok (schedule .delete a { s with app := s.app.filter fun b => b != a,
                                          del := if s.del.contains a then s.del else s.del ++ [a] })

/-- `oc_delete_collection` (api/oc_collection.c:118-150): the links are deleted, the
callbacks of collections removed. -/
def deleteCol (c : Nat) (s : St) : Out St :=
  match s.heap c with
  | none => .ub
  | some y =>
    if !y.col then .ub
    else .ok { s with cols := s.cols.filter fun b => b != c, links := put s.links c [],
                      cbs := s.cbs.filter fun f => f != ⟨.batch, c⟩ && f != ⟨.base, c⟩ && f != ⟨.ll, c⟩,
                      heap := put s.heap c none }

/-- What a callback does (api/oc_server_api.c:736-741, 790-795, api/oc_ri.c:288-296,
api/oc_collection.c:79-105). -/
def call (b : Cb) (s : St) : Out St :=
  match b.fn with
  | .changed => changed b.data s
  | .observers => changed b.data s
  | .delete => delete b.data s
  | .ll => (noteCol b.data .ll s).bind fun s => .ok (schedule .base b.data s)
  | .base => noteCol b.data .base s
  | .batch => noteCol b.data .batch s

/-- A callback is due (api/oc_event_callback.c; area Delayed): it is called and is no
longer on the list. -/
def fire (k : Nat) (s : St) : Out St :=
  match s.cbs[k]? with
  | none => .ok s
  | some b => call b { s with cbs := s.cbs.eraseIdx k }

/-- What the application, clients and the event loop do (modelling helper). -/
inductive Op where
  | new (a : Nat) (col : Bool) (dev uri : Nat)
  | add (a : Nat)
  | link (c a : Nat)
  | unlink (c a : Nat)
  | observe (e : Nat) (i : Iface) (a : Nat)
  | cancel (id : Nat)
  | leave (e : Nat)
  | reset (d : Nat)
  | changed (a : Nat)
  | changedLater (a : Nat)
  | observersLater (a : Nat)
  | wrote (c : Nat)
  | delete (a : Nat)
  | later (a : Nat)
  | deleteCol (c : Nat)
  | fire (k : Nat)
  deriving DecidableEq, Repr

/-- One step (modelling helper). -/
def step (s : St) : Op → Out St
  | .new a c d u => .ok (new a c d u s)
  | .add a => add a s
  | .link c a => link c a s
  | .unlink c a => unlink c a s
  | .observe e i a => observe e i a s
  | .cancel id => cancel id s
  | .leave e => leave e s
  | .reset d => reset d s
  | .changed a => changed a s
  | .changedLater a => changedLater a s
  | .observersLater a => observersLater a s
  | .wrote c => wrote c s
  | .delete a => delete a s
  | .later a => later a s
  | .deleteCol c => deleteCol c s
  | .fire k => fire k s

/-- A history (modelling helper). -/
def run (s : St) : List Op → Out St
  | [] => .ok s
  | o :: os => (step s o).bind fun s => run s os

end Verif.Life
