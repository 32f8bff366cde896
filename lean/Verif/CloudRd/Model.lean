import Verif.Common
import Verif.Dec

/-!
Model of the directory of resources that a device publishes at the cloud,
api/cloud/oc_cloud_rd.c and api/cloud/rd_client.c: which resources are to be published,
which are published and which are to be removed from the cloud.

Simplifications: one device with a cloud context. A request is what it says (the hrefs with
instance ids of a publication, the instance ids of a removal); whether it can be sent is a
function of the request. The lists hold distinct links, so taking a link out of a list by
its address is taking out the first one that the search found. Encoding of the payload is
done before it is known if the request can be sent.
-/

namespace Verif.CloudRd

/-- Bytes of a URI. -/
abbrev Bytes := List UInt8

/-- `oc_link_t`, as far as it is used here: resource (an address, `none`: NULL) and instance
id, include/oc_collection.h. -/
structure Link where
  res : Option Nat
  ins : Int
  deriving DecidableEq, Repr

/-- The part of `oc_cloud_context_t` used here, api/cloud/oc_cloud_context_internal.h:80-100:
the three lists, flags of the status, state of the device, whether the time to live of a
publication is unlimited, whether the hourly callback is set. -/
structure Ctx where
  pub : List Link
  published : List Link
  del : List Link
  loggedIn : Bool
  refreshed : Bool
  rfnop : Bool
  unowned : Bool
  unlimited : Bool
  timer : Bool
  deriving DecidableEq, Repr

/-- A request to the cloud: POST of links, POST of the two core resources, DELETE with a
query of instance ids. -/
inductive Msg where
  | publish (l : List (Bytes × Int))
  | publishCore
  | delete (l : List Int)
  deriving DecidableEq, Repr

/-- The state: context, memory of the resources (`none`: freed), requests sent. -/
structure St where
  c : Ctx
  uri : Nat → Option Bytes
  sent : List Msg

/-- What the operations depend on: which requests can be sent, the kind of transport,
`COAP_MAX_HEADER_SIZE`. -/
structure Env where
  can : Msg → Bool
  tcp : Bool
  max : Nat

/-! ### rd_client.c -/

/-- `rd_publish_encode`, `rd_encode_resource`, api/cloud/rd_client.c:44-100. NULL fails the
assertion at line 49, freed memory is read at line 52. -/
def encode (uri : Nat → Option Bytes) : List Link → Out (List (Bytes × Int))
  | [] => .ok []
  | l :: r => match l.res with
    | none => .ub
    | some a => match uri a with
      | none => .ub
      | some u => (encode uri r).bind fun x => .ok ((u, l.ins) :: x)

/-- `rd_publish`, api/cloud/rd_client.c:121-152. -/
def rdPublish (env : Env) (links : List Link) (s : St) : Out St :=
  match links with
  | [] => .ok (if env.can .publishCore then { s with sent := s.sent ++ [.publishCore] } else s)
  | _ => (encode s.uri links).bind fun x =>
    .ok (if env.can (.publish x) then { s with sent := s.sent ++ [.publish x] } else s)

/-- Characters written for `PRId64`. -/
def intLen (i : Int) : Nat := (if i < 0 then 1 else 0) + (dec i.natAbs).length

/-- Bytes of an option with a value of `n` bytes and a small delta,
messaging/coap/coap.c:493 and the macros used there. -/
def optLen (n : Nat) : Nat := if n < 13 then 1 + n else if n < 269 then 2 + n else 3 + n

/-- `coap_calculate_header_size`, messaging/coap/coap.c:1298-1328, with a token of eight
bytes, for options of `o` bytes. -/
def headerSize (tcp : Bool) (o : Nat) : Nat :=
  o + 8 + (if tcp then 2 + (if o < 13 then 0 else if o < 269 then 1 else 2) else 4)

/-- The bytes of the options without instance ids: path `oic`, `rd`, query `di=` with 36
characters, Accept and its version (messaging/coap/coap.c:551-595). -/
def optBase : Nat := optLen 3 + optLen 2 + optLen 39 + optLen 2 + 5

/-- The loop of `rd_delete_fill_and_send_single_packet`, api/cloud/rd_client.c:260-280: the
number of links that fit; `t` bytes written to the buffer, `o` bytes of options. -/
def fill (env : Env) : Nat → Nat → List Link → Nat
  | _, _, [] => 0
  | t, o, l :: r =>
    let t' := t + 5 + intLen l.ins
    let o' := o + optLen (4 + intLen l.ins)
    if t' ≥ env.max ∨ headerSize env.tcp o' > env.max then 0 else 1 + fill env t' o' r

/-- `rd_delete_fill_and_send_single_packet`, api/cloud/rd_client.c:242-288 with
`rd_prepare_write_buffer` and `rd_partition_links`: the requests sent and, unless there is
an error, how many links are removed. -/
def rdDelete (env : Env) (links : List Link) : List Msg × Option Nat :=
  if env.max ≤ 39 then ([], none)
  else
    let k := fill env 39 optBase links
    let m := Msg.delete ((links.take k).map (·.ins))
    if env.can m = false then ([], none)
    else if k = 0 then ([m], none)
    else ([m], some k)

/-! ### oc_cloud_rd.c -/

/-- `rd_link_find`, `rd_link_remove_by_resource`, api/cloud/oc_cloud_rd.c:40-48, 96-113:
takes out the first link of the resource. -/
def takeRes (r : Nat) : List Link → Option Link × List Link
  | [] => (none, [])
  | l :: t => if l.res = some r then (some l, t) else let x := takeRes r t; (x.1, l :: x.2)

/-- `rd_link_find` used as a test, api/cloud/oc_cloud_rd.c:40-48. -/
def hasRes (r : Nat) (ls : List Link) : Bool := ls.any fun l => l.res = some r

/-- `rd_link_find_by_href` and `rd_link_remove`, api/cloud/oc_cloud_rd.c:84-107. -/
def takeHref (uri : Nat → Option Bytes) (h : Bytes) : List Link → Out (Option Link × List Link)
  | [] => .ok (none, [])
  | l :: t => match l.res with
    | none => .ub
    | some a => match uri a with
      | none => .ub
      | some u => if u = h then .ok (some l, t)
        else (takeHref uri h t).bind fun x => .ok (x.1, l :: x.2)

/-- `cloud_publish_resources`, api/cloud/oc_cloud_rd.c:159-179. -/
def cloudPublish (env : Env) (s : St) : Out St :=
  if ¬ s.c.rfnop then .ok s
  else if ¬ s.c.loggedIn then .ok s
  else rdPublish env s.c.pub s

/-- What remains to be removed, api/cloud/oc_cloud_rd.c:269-274, 284. -/
def keep : Option Nat → List Link → List Link
  | none, l => l
  | some k, l => l.drop k

/-- `cloud_delete_resources`, api/cloud/oc_cloud_rd.c:251-286. -/
def cloudDelete (env : Env) (s : St) : Out St :=
  if s.c.del = [] then .ub
  else if ¬ s.c.rfnop then .ok s
  else if ¬ s.c.loggedIn then .ok s
  else
    let x := rdDelete env s.c.del
    .ok { s with
      sent := s.sent ++ x.1
      c := { s.c with del := keep x.2 s.c.del } }

/-- `oc_cloud_add_resource`, api/cloud/oc_cloud_rd.c:181-212; `ins`: the random instance id
of the new link, `none` if there is no memory for it. -/
def addResource (env : Env) (ins : Option Int) (r : Nat) (s : St) : Out (Bool × St) :=
  if hasRes r s.c.pub then .ok (true, s)
  else if hasRes r s.c.published then .ok (true, s)
  else
    let s := { s with c := { s.c with del := (takeRes r s.c.del).2 } }
    match ins with
    | none => .ok (false, s)
    | some i => (cloudPublish env { s with c := { s.c with pub := s.c.pub ++ [⟨some r, i⟩] } }).bind fun s => .ok (true, s)

/-- `oc_cloud_delete_resource`, api/cloud/oc_cloud_rd.c:331-367. -/
def deleteResource (env : Env) (r : Nat) (s : St) : Out St :=
  let p := takeRes r s.c.published
  let s := { s with c := { s.c with pub := (takeRes r s.c.pub).2, published := p.2 } }
  if s.c.unowned then .ok { s with c := { s.c with del := (takeRes r s.c.del).2 } }
  else match p.1 with
    | none => .ok s
    | some l => cloudDelete env { s with c := { s.c with del := s.c.del ++ [⟨none, l.ins⟩] } }

/-- The loop of `cloud_publish_resources_handler`, api/cloud/oc_cloud_rd.c:132-156. -/
def acceptAll : List (Option Bytes × Option Int) → St → Out St
  | [], s => .ok s
  | (some h, some i) :: t, s => (takeHref s.uri h s.c.pub).bind fun x => match x.1 with
    | none => acceptAll t s
    | some l => acceptAll t { s with c := { s.c with pub := x.2, published := s.c.published ++ [{ l with ins := i }] } }
  | _ :: t, s => acceptAll t s

/-- `cloud_publish_resources_handler`, api/cloud/oc_cloud_rd.c:115-157; `ok`: code 2.04;
`none`: no links in the payload. -/
def publishAnswer (ok : Bool) (links : Option (List (Option Bytes × Option Int))) (s : St) : Out St :=
  if ¬ s.c.loggedIn then .ok s
  else if ¬ ok then .ok s
  else match links with
    | none => .ok s
    | some ls => acceptAll ls s

/-- `delete_resources_handler`, api/cloud/oc_cloud_rd.c:234-249. -/
def deleteAnswer (env : Env) (internal : Bool) (s : St) : Out St :=
  if s.c.del = [] then .ok s
  else if internal then .ok s
  else cloudDelete env s

/-- `move_published_to_publish_resources`, api/cloud/oc_cloud_rd.c:214-221. -/
def moveBack (c : Ctx) : Ctx := { c with pub := c.pub ++ c.published, published := [] }

/-- `publish_published_resources`, api/cloud/oc_cloud_rd.c:223-230. -/
def republish (env : Env) (s : St) : Out St := cloudPublish env { s with c := moveBack s.c }

/-- Publishing what waits, api/cloud/oc_cloud_rd.c:299-301. -/
def statusPub (env : Env) (s : St) : Out St := if s.c.pub = [] then .ok s else cloudPublish env s

/-- Removing what waits, api/cloud/oc_cloud_rd.c:302-304, 378-380. -/
def statusDel (env : Env) (s : St) : Out St := if s.c.del = [] then .ok s else cloudDelete env s

/-- `cloud_rd_manager_status_changed`, api/cloud/oc_cloud_rd.c:288-310. -/
def statusChanged (env : Env) (s : St) : Out St :=
  if ¬ s.c.loggedIn then .ok { s with c := { s.c with timer := false } }
  else if s.c.refreshed then .ok s
  else (statusPub env s).bind fun s => (statusDel env s).bind fun s =>
    .ok { s with c := { s.c with timer := ¬ s.c.unlimited } }

/-- `cloud_rd_deinit`, api/cloud/oc_cloud_rd.c:312-320. -/
def deinit (s : St) : St := { s with c := { s.c with timer := false, del := [], published := [], pub := [] } }

/-- `cloud_rd_reset_context`, api/cloud/oc_cloud_rd.c:322-329. -/
def reset (s : St) : St := { s with c := moveBack { s.c with timer := false, del := [] } }

/-- `oc_cloud_publish_resources`, api/cloud/oc_cloud_rd.c:369-382. -/
def publishResources (env : Env) (s : St) : Out St := (republish env s).bind (statusDel env)

/-- What can happen: operations of the application, answers of the cloud, changes of the
status and of the state of the device, the hourly callback, freeing of a resource without
`oc_delete_resource` (a collection, api/oc_collection.c `oc_collection_free`). -/
inductive Op where
  | create (r : Nat) (u : Bytes)
  | add (r : Nat) (ins : Option Int)
  | remove (r : Nat)
  | destroy (r : Nat)
  | freeCollection (r : Nat)
  | publish
  | hourly
  | pubAnswer (ok : Bool) (links : Option (List (Option Bytes × Option Int)))
  | delAnswer (internal : Bool)
  | status (loggedIn refreshed : Bool)
  | state (rfnop unowned : Bool)
  | reset

/-- One event; `destroy` is `oc_delete_resource`, which calls `oc_cloud_delete_resource` and
frees the resource, api/oc_ri.c:280-300. The hourly callback does nothing if it is not
set. -/
def step (env : Env) (s : St) : Op → Out St
  | .create r u => .ok { s with uri := fun a => if a = r then some u else s.uri a }
  | .add r ins => (addResource env ins r s).bind fun x => .ok x.2
  | .remove r => deleteResource env r s
  | .destroy r => (deleteResource env r s).bind fun s => .ok { s with uri := fun a => if a = r then none else s.uri a }
  | .freeCollection r => .ok { s with uri := fun a => if a = r then none else s.uri a }
  | .publish => publishResources env s
  | .hourly => if s.c.timer then republish env s else .ok s
  | .pubAnswer ok ls => publishAnswer ok ls s
  | .delAnswer i => deleteAnswer env i s
  | .status l f => statusChanged env { s with c := { s.c with loggedIn := l, refreshed := f } }
  | .state n u => .ok { s with c := { s.c with rfnop := n, unowned := u } }
  | .reset => .ok (reset s)

/-- A history. -/
def run (env : Env) (s : St) : List Op → Out St
  | [] => .ok s
  | o :: l => (step env s o).bind fun s => run env s l

/-- The state after `cloud_context_init`, api/cloud/oc_cloud_context.c. -/
def init (unlimited : Bool) : St :=
  ⟨⟨[], [], [], false, false, false, true, unlimited, false⟩, fun _ => none, []⟩

end Verif.CloudRd
