/-
Model of the notifications of the discovery resource to the observers that asked
for the batch interface (`GET /oic/res?if=oic.if.b` with Observe):
messaging/coap/observe.c:120-190, 223-249 and 1241-1540, with the callers in
api/oc_server_api.c:815-879, api/oc_ri.c:549-680 and api/oc_blockwise.c:106-134.

Simplifications: one logical device; a resource is known by a number that is
never used again (its address, in the code); what a client may read and what the
batch representation shows are functions of the uri and of the client's endpoint
that do not change; an observer has one endpoint and no two batch observers share
one (`coap_add_observer` removes the older, observe.c:320); of the representation
of a resource only a version, raised by each change, is kept.
-/
import Verif.Common

namespace Verif.Batch

abbrev Bytes := List UInt8

/-- An observer of the discovery resource with interface `oic.if.b`
(messaging/coap/observe_internal.h `coap_observer_t`). -/
structure Obs where
  id : Nat
  ep : Nat
deriving DecidableEq, Repr

/-- A resource (include/oc_ri.h `oc_resource_t`); `listed`: it is in
`g_app_resources` (api/oc_ri.c:637-680). -/
structure Res where
  id : Nat
  uri : Bytes
  ver : Nat
  listed : Bool
deriving DecidableEq, Repr

/-- observe_internal.h `coap_batch_observer_t`: `resource`, or, when that is null,
`removed_resource_uri`. -/
inductive Tgt where
  | res (id : Nat)
  | gone (uri : Bytes)
deriving DecidableEq, Repr

/-- observe_internal.h `coap_batch_observer_t`. -/
structure Ent where
  obs : Nat
  tgt : Tgt
deriving DecidableEq, Repr

/-- A response buffer of a transfer in blocks of the batch representation to an
endpoint (api/oc_blockwise_internal.h:60-80); `cb`: `finish_cb` is set, which it
is for a notification (observe.c:1299) and not for a plain answer
(api/oc_blockwise.c:98). -/
structure Xf where
  ep : Nat
  cb : Bool
deriving DecidableEq, Repr

/-- One element of a batch payload as the observer receives it: the uri and the
state of the resource, `none` for a removed one. -/
structure Item where
  obs : Nat
  uri : Bytes
  what : Option (Nat × Nat)
deriving DecidableEq, Repr

/-- `g_observers_list` (the batch observers of the discovery resource), the
resources, `g_batch_observers_list` (observe.c:125), the response buffers, whether
one of the two delayed callbacks that process the list is set (observe.c:1246,
api/oc_server_api.c:852, 875), and the items sent so far. -/
structure St where
  obs : List Obs
  res : List Res
  queue : List Ent
  xfers : List Xf
  sched : Bool
  log : List Item
  nextObs : Nat
  nextRes : Nat
deriving DecidableEq, Repr

/-- What the rest of the stack decides: access control (`oc_sec_check_acl` with
GET, observe.c:1493) and whether the batch representation shows a resource
(api/oc_discovery.c:650-679, 702-732). -/
structure Env where
  acl : Bytes → Nat → Bool
  shown : Bytes → Nat → Bool

/-- What may fail in one step, by observer: the allocation of a list entry
(observe.c:1514), the working buffer (1365), the encoding within
`OC_MAX_OBSERVE_SIZE` (1330-1333), whether the payload needs blocks (682), the
response buffer (617) and the transaction (773). -/
structure Luck where
  entry : Nat → Bool
  work : Bool
  fits : Nat → Bool
  big : Nat → Bool
  rbuf : Nat → Bool
  tx : Nat → Bool

/-- observe.c:1440-1460 `cmp_add_batch_observer_resource` over the list. -/
def dup (q : List Ent) (o : Obs) (r : Res) (removed : Bool) : Bool :=
  q.any fun e =>
    e.obs == o.id &&
      match e.tgt with
      | .res i => i == r.id
      | .gone u => removed && u == r.uri

/-- observe.c:1521-1530: the new entry. -/
def mk (r : Res) (removed : Bool) (o : Obs) : Ent :=
  ⟨o.id, if removed then .gone r.uri else .res r.id⟩

/-- observe.c:1481-1533: the loop over the observers; the second component is
false when an allocation failed (1515-1519). -/
def addLoop (env : Env) (luck : Luck) (r : Res) (removed : Bool) :
    List Obs → List Ent → List Ent × Bool
  | [], q => (q, true)
  | o :: os, q =>
    if removed && r.uri == [] then addLoop env luck r removed os q
    else if !env.acl r.uri o.ep then addLoop env luck r removed os q
    else if dup q o r removed then addLoop env luck r removed os q
    else if !luck.entry o.id then (q, false)
    else addLoop env luck r removed os (q ++ [mk r removed o])

/-- observe.c:1470-1539 `coap_add_discovery_batch_observer`. -/
def addBatch (env : Env) (luck : Luck) (r : Res) (removed dispatch : Bool) (s : St) : St :=
  let p := addLoop env luck r removed s.obs s.queue
  { s with queue := p.1, sched := s.sched || (p.2 && dispatch) }

/-- observe.c:149-152, 1462-1468 `coap_remove_discovery_batch_observers`. -/
def dropRes (i : Nat) (q : List Ent) : List Ent :=
  q.filter fun e => !(e.tgt == Tgt.res i)

/-- observe.c:143-147, 246: the entries of an observer. -/
def dropObs (i : Nat) (q : List Ent) : List Ent := q.filter fun e => !(e.obs == i)

/-- observe.c:1250-1289 `create_batch_for_batch_observer`: a resource that was
freed, and a removed uri that does not fit in `href` (299 bytes: the scheme, the
device id, the uri and the terminator), are undefined behaviour. -/
def item (env : Env) (res : List Res) (o : Obs) (t : Tgt) : Out (List Item) :=
  match t with
  | .res i =>
    match res.find? (fun r => r.id == i) with
    | none => .ub
    | some r =>
      .ok (if env.acl r.uri o.ep && env.shown r.uri o.ep then [⟨o.id, r.uri, some (r.id, r.ver)⟩] else [])
  | .gone u => if 6 + 36 + u.length + 1 ≤ 299 then .ok [⟨o.id, u, none⟩] else .ub

/-- observe.c:1313-1324: the entries of one observer, in order. -/
def items (env : Env) (res : List Res) (o : Obs) : List Ent → Out (List Item)
  | [] => .ok []
  | e :: es => (item env res o e.tgt).bind fun a => (items env res o es).bind fun b => .ok (a ++ b)

/-- observe.c:1383-1400: from the head of the list, the first entry whose
observer has no response buffer, with what is before and after it. An entry whose
observer was freed is undefined behaviour. -/
def pick (obs : List Obs) (xfers : List Xf) : List Ent → Out (Option (List Ent × Ent × Obs × List Ent))
  | [] => .ok none
  | e :: es =>
    match obs.find? (fun o => o.id == e.obs) with
    | none => .ub
    | some o =>
      if xfers.any (fun x => x.ep == o.ep) then
        (pick obs xfers es).bind fun r =>
          .ok (r.map fun (pre, e', o', post) => (e :: pre, e', o', post))
      else .ok (some ([], e, o, es))

/-- observe.c:1407-1413, 1291-1304, 591-661, 772-776: sending the payload of one
observer; the second component is false when it failed (`< 0`). An empty payload
(1326) and one that does not fit (1332) are not sent, and count as done. -/
def send (luck : Luck) (o : Obs) (its : List Item) (s : St) : St × Bool :=
  if its == [] then (s, true)
  else if !luck.fits o.id then (s, true)
  else if luck.big o.id then
    if !luck.rbuf o.id then (s, false)
    else if !luck.tx o.id then ({ s with xfers := s.xfers ++ [⟨o.ep, true⟩] }, false)
    else ({ s with xfers := s.xfers ++ [⟨o.ep, true⟩], log := s.log ++ its }, true)
  else if !luck.tx o.id then (s, false)
  else ({ s with log := s.log ++ its }, true)

/-- observe.c:1382-1420: the loop of `coap_process_discovery_batch_observers`;
`n` bounds the turns, each of which takes an entry away. -/
def proc (env : Env) (luck : Luck) : Nat → St → Out St
  | 0, s => .ok s
  | n + 1, s =>
    (pick s.obs s.xfers s.queue).bind fun p =>
      match p with
      | none => .ok s
      | some (pre, e, o, post) =>
        (items env s.res o (e :: post.filter fun x => x.obs == e.obs)).bind fun its =>
          let post' := dropObs e.obs post
          let r := send luck o its s
          if r.2 then proc env luck n { r.1 with queue := pre ++ post' }
          else .ok { r.1 with queue := pre ++ e :: post' }

/-- observe.c:1356-1430 `coap_process_discovery_batch_observers`. -/
def process (env : Env) (luck : Luck) (s : St) : Out St :=
  if !luck.work then .ok s else proc env luck s.queue.length s

/-- observe.c:223-249 `coap_remove_observer`. -/
def cancel (i : Nat) (s : St) : St :=
  { s with obs := s.obs.filter (fun o => !(o.id == i)), queue := dropObs i s.queue }

/-- observe.c:313-354 `coap_add_observer`, after the older registration of the same
endpoint was removed (320), with the representation sent in answer. -/
def register (env : Env) (ep : Nat) (s : St) : St :=
  let old := (s.obs.filter fun o => o.ep == ep).map (·.id)
  let s := old.foldl (fun s i => cancel i s) s
  { s with
    obs := s.obs ++ [⟨s.nextObs, ep⟩],
    nextObs := s.nextObs + 1,
    log := s.log ++ (s.res.filter fun r => r.listed && env.acl r.uri ep && env.shown r.uri ep).map
      fun r => ⟨s.nextObs, r.uri, some (r.id, r.ver)⟩ }

/-- What can happen. `xferStart` is the answer in blocks to a plain GET of the
batch representation by this endpoint; `xferEnd` frees the response buffers of an
endpoint, at the end of the transfer or after its time. -/
inductive Op where
  | register (ep : Nat)
  | cancel (i : Nat)
  | create (uri : Bytes)
  | add (i : Nat)
  | change (i : Nat)
  | delete (i : Nat)
  | tick
  | xferStart (ep : Nat)
  | xferEnd (ep : Nat)
deriving DecidableEq, Repr

/-- api/oc_ri.c:664-667: the uri is in use by a listed resource. -/
def inUse (u : Bytes) (s : St) : Bool := s.res.any fun r => r.listed && r.uri == u

/-- api/oc_ri.c:637-680 `oc_ri_add_resource` and api/oc_server_api.c:836-856
`oc_notify_resource_added`. -/
def addRes (env : Env) (luck : Luck) (r : Res) (s : St) : St :=
  if r.listed || inUse r.uri s then s
  else
    let s := { s with res := s.res.map fun x => if x.id == r.id then { x with listed := true } else x }
    { addBatch env luck r false false s with sched := true }

/-- A change of a resource, told with `oc_notify_observers`: observe.c:1598-1607. -/
def changeRes (env : Env) (luck : Luck) (r : Res) (s : St) : St :=
  let s := { s with res := s.res.map fun x => if x.id == r.id then { x with ver := x.ver + 1 } else x }
  addBatch env luck r false true s

/-- api/oc_ri.c:587-624 `ri_delete_resource` and api/oc_server_api.c:858-879
`oc_notify_resource_removed`, which is called only for a listed resource. -/
def deleteRes (env : Env) (luck : Luck) (r : Res) (s : St) : St :=
  let s' :=
    if r.listed then
      { addBatch env luck r true false { s with queue := dropRes r.id s.queue } with sched := true }
    else s
  { s' with res := s'.res.filter fun x => !(x.id == r.id) }

/-- api/oc_blockwise.c:106-134: `finish_cb` sets the delayed callback. -/
def xferEnd (ep : Nat) (s : St) : St :=
  { s with
    xfers := s.xfers.filter (fun x => !(x.ep == ep)),
    sched := s.sched || s.xfers.any (fun x => x.ep == ep && x.cb) }

/-- One step. -/
def step (env : Env) (s : St) (luck : Luck) (op : Op) : Out St :=
  match op with
  | .register ep => .ok (register env ep s)
  | .cancel i => .ok (cancel i s)
  | .create u => .ok { s with res := s.res ++ [⟨s.nextRes, u, 0, false⟩], nextRes := s.nextRes + 1 }
  | .add i =>
    match s.res.find? (fun r => r.id == i) with
    | none => .ok s
    | some r => .ok (addRes env luck r s)
  | .change i =>
    match s.res.find? (fun r => r.id == i) with
    | none => .ok s
    | some r => .ok (changeRes env luck r s)
  | .delete i =>
    match s.res.find? (fun r => r.id == i) with
    | none => .ok s
    | some r => .ok (deleteRes env luck r s)
  | .tick => if s.sched then process env luck { s with sched := false } else .ok s
  | .xferStart ep => .ok { s with xfers := s.xfers ++ [⟨ep, false⟩] }
  | .xferEnd ep => .ok (xferEnd ep s)

/-- observe.c:125, the start. -/
def init : St := ⟨[], [], [], [], false, [], 0, 0⟩

/-- A history. -/
def run (env : Env) : St → List (Luck × Op) → Out St
  | s, [] => .ok s
  | s, (l, op) :: rest => (step env s l op).bind fun s' => run env s' rest

end Verif.Batch
