import Verif.Common
import Verif.Ri.Model

/-!
Model of collections, api/oc_collection.c: the ordered list of links, finding a link,
deleting a resource that is linked (api/oc_ri.c), and requests to a collection through
its interfaces.

Simplifications: a resource is named by a number that stands for its address; what is
written to the answer is the log of events, not CBOR; the decision of access control, the
codes of the handlers, the result of `set_properties` and whether the answer still fits
are inputs that may depend on everything that happened before; the values of the `rt`
parameters of the query are an input (see the area Query); creating resources through
`oic.if.create` is not modelled (`OC_COLLECTIONS_IF_CREATE`); no link has a NULL resource
(`oc_new_link` and `oc_collection_add_link` refuse it). The features `OC_SECURITY` and
`OC_COLLECTIONS` are on.
-/

namespace Verif.Collection

open Verif.Rep (Bytes b)
open Verif.Ri (Method Iface slash)

/-! ### The links of a collection -/

/-- include/oc_link.h `oc_link_t` with its resource; `id` stands for the address of the
link, `uri` is the URI of the resource; `seq`: when the link was added (ghost). -/
structure Link where
  id : Nat
  res : Nat
  uri : Bytes
  seq : Nat := 0
  deriving DecidableEq, Repr

/-- `strcmp (a, b) < 0`, used at api/oc_collection.c:207 for strings of equal length
without NUL. -/
def lexLt : Bytes → Bytes → Bool
  | [], _ => false
  | _ :: _, [] => false
  | x :: r, y :: s => decide (x.toNat < y.toNat) || (x == y && lexLt r s)

/-- The loop stops before a link with this URI, api/oc_collection.c:200-210. -/
def stopsAt (uri next : Bytes) : Bool :=
  decide (next.length > 0) &&
    (decide (uri.length < next.length) || (uri.length == next.length && lexLt uri next))

/-- `oc_collection_add_link`, api/oc_collection.c:178-219, without the notification and
the relation `self`. `oc_list_insert` (util/oc_list.c:98-108) does not remove the element
first, unless it becomes the head (`oc_list_push`): for a link that is already in the
list either a part of the list is cut off or the list has no end (`ub`). -/
def addLink (links : List Link) (l : Link) : Out (List Link) :=
  if l.uri.length = 0 then .ok links
  else
    let pre := links.takeWhile fun n => !stopsAt l.uri n.uri
    let post := links.dropWhile fun n => !stopsAt l.uri n.uri
    match pre.getLast? with
    | none => .ok (l :: links.filter fun n => n.id != l.id)
    | some p =>
      if p.id = l.id then .ub
      else if post.any fun n => n.id == l.id then .ub
      else .ok ((pre.takeWhile fun n => n.id != l.id) ++ l :: post)

/-- `oc_list_remove2` of a link, util/oc_list.c; api/oc_collection.c:221-237: `false` if
the link is not in the collection. -/
def removeLink (links : List Link) (id : Nat) : Bool × List Link :=
  (links.any fun n => n.id == id, links.eraseP fun n => n.id == id)

/-- A path without its leading slashes, api/oc_collection.c:284-287, 296-301. The strings
end with NUL (`oc_string`), so the loop stops at the end. -/
def strip (p : Bytes) : Bytes := p.dropWhile fun c => c == slash

/-- `oc_get_link_by_uri`, api/oc_collection.c:276-308, for a path that ends with NUL. -/
def findLink (links : List Link) (path : Bytes) : Option Link :=
  if path.length = 0 then none
  else links.find? fun l => strip l.uri == strip path

/-- What an application does with the links of one collection. -/
inductive Op where
  | add (id res : Nat) (uri : Bytes)
  | remove (id : Nat)

/-- One call; `n` is the number of the call. -/
def opStep (n : Nat) (links : List Link) : Op → Out (List Link)
  | .add id res uri => addLink links ⟨id, res, uri, n⟩
  | .remove id => .ok (removeLink links id).2

/-- A history of calls. -/
def opRun : Nat → List Link → List Op → Out (List Link)
  | _, links, [] => .ok links
  | n, links, o :: r => (opStep n links o).bind fun l => opRun (n + 1) l r

/-! ### Deleting a resource -/

/-- `oc_collection_t` (api/oc_collection_internal.h): `id` stands for the address. -/
structure Coll where
  id : Nat
  dev : Nat
  links : List Link
  deriving DecidableEq, Repr

/-- `oc_get_next_collection_with_link`, api/oc_collection.c:603-629: the collections that
are visited. -/
def hasLink (c : Coll) (dev res : Nat) : Bool := c.dev == dev && c.links.any fun l => l.res == res

/-- `ri_delete_resource`, api/oc_ri.c:570-587: what it does to one collection. -/
def delFrom (c : Coll) (dev res : Nat) (uri : Bytes) : Coll :=
  if hasLink c dev res then
    match findLink c.links uri with
    | none => c
    | some l => { c with links := (removeLink c.links l.id).2 }
  else c

/-- `ri_delete_resource`, api/oc_ri.c:570-587: the collections after it. -/
def delRes (cs : List Coll) (dev res : Nat) (uri : Bytes) : List Coll := cs.map fun c => delFrom c dev res uri

/-- `collection_free`, api/oc_collection.c:118-141: the collections after it; the links
of the freed collection are deleted. -/
def freeColl (cs : List Coll) (id : Nat) : List Coll := cs.filter fun c => c.id != id

/-! ### Requests to a collection -/

/-- `oc_resource_t` (include/oc_ri.h:317-360): the fields used here. `coll`: it is in the
list of collections, `links` are the resources of its links in order; `setter`:
`set_properties` is configured. -/
structure Res where
  uri : Bytes
  types : List Bytes
  dflt : BitVec 32
  has : Method → Bool
  coll : Bool := false
  links : List Nat := []
  setter : Bool := false

/-- What happens while a request is handled. A payload is named by a number. -/
inductive Ev where
  /-- the handler of a resource was called and answered with this code -/
  | call (res : Nat) (m : Method) (payload : Option Nat) (iface : BitVec 32) (code : Nat)
  /-- access was denied, an empty entry with the link is in the answer -/
  | denied (res : Nat)
  /-- there is no handler, no entry is in the answer -/
  | noHandler (res : Nat)
  /-- the links of a collection were written -/
  | listed (coll : Nat) (links : List Nat)
  /-- `set_properties` was called, and returned that -/
  | setProps (coll : Nat) (ok : Bool)
  /-- the code of the answer was set, by the request to this collection -/
  | answer (coll : Nat) (code : Nat)
  /-- a notification of the observers of the batch interface was scheduled -/
  | notify (coll : Nat)
  deriving DecidableEq, Repr

/-- Everything that happened. -/
abbrev Log := List Ev

/-- A member of an object of the payload, as api/oc_collection.c:958-971 reads it: the
name is not looked at. -/
inductive Mem where
  | str (s : Bytes)
  | obj (p : Nat)
  | other
  deriving DecidableEq, Repr

/-- An element of the payload, api/oc_collection.c:954-988. -/
inductive Elem where
  | obj (ms : List Mem)
  | other
  deriving DecidableEq, Repr

/-- The surroundings. `origin`: the request comes from a client. -/
structure Env where
  world : Nat → Res
  origin : Bool
  acl : Log → Method → Nat → Bool
  code : Log → Nat → Method → Option Nat → Nat
  props : Log → Nat → Bool
  tooBig : Log → Bool

/-- A request; `rts`: the values of `rt` in the query. -/
structure Req where
  method : Method
  rts : List Bytes
  payload : List Elem

/-- `oc_status_code_unsafe (OC_STATUS_BAD_REQUEST)`, and the other codes used here
(messaging/coap/constants.h). -/
def c400 : Nat := 128
/-- 4.03 -/
def c403 : Nat := 131
/-- 4.05 -/
def c405 : Nat := 133
/-- 2.05 -/
def c205 : Nat := 69
/-- 2.04 -/
def c204 : Nat := 68
/-- 2.02 -/
def c202 : Nat := 66

/-- `oc_filter_resource_by_rt`, api/oc_core_res.c:810-837. -/
def rtOk (rts types : List Bytes) : Bool := rts.isEmpty || types.any fun t => rts.any fun r => r == t

/-- The state of `collection_batch_request_process_links`: the log, `ecode`, `pcode`, and
`ok`. -/
structure Acc where
  log : Log
  e : Nat
  p : Nat
  ok : Bool
  deriving DecidableEq, Repr

/-- `method == OC_GET || method == OC_DELETE`, api/oc_collection.c:830, 933. -/
def getDel (m : Method) : Bool := m == .get || m == .delete

/-- The link is taken, api/oc_collection.c:837-849. -/
def taken (w : Nat → Res) (q : Req) (notify : Option Nat) (href : Bytes) (r : Nat) : Bool :=
  (match notify with
   | none => true
   | some n => r == n) &&
  rtOk q.rts (w r).types && (getDel q.method || href == (w r).uri)

/-- The interface for the handler, api/oc_collection.c:797-800. -/
def ifaceFor (w : Nat → Res) (col r : Nat) : BitVec 32 := if r = col then Iface.baseline.bit else (w r).dflt

/-- api/oc_collection.c:901-905. -/
def Acc.note (a : Acc) (log : Log) (code : Nat) : Acc :=
  if code < c400 then { a with log := log, p := code } else { a with log := log, e := code }

/-- A link to another collection, api/oc_collection.c:880-890: `sub` is the nested
request; `response_buffer.code` stays 0. -/
def nested (a : Acc) (x : Out (Bool × Log)) : Out Acc :=
  x.bind fun x => if x.1 then .ok (a.note x.2 0) else .ok ⟨x.2, c205, c400, false⟩

/-- One link of `collection_batch_request_process_links`,
api/oc_collection.c:867-905. -/
def oneLink (env : Env) (sub : Nat → Log → Out (Bool × Log)) (q : Req) (col : Nat) (payload : Option Nat)
    (a : Acc) (r : Nat) : Out Acc :=
  if env.origin && !env.acl a.log q.method r then .ok (a.note (a.log ++ [.denied r]) c403)
  else if r ≠ col ∧ (env.world r).coll = true then nested a (sub r a.log)
  else if !(env.world r).has q.method then .ok { a with log := a.log ++ [.noHandler r], e := c405 }
  else
    let c := env.code a.log r q.method payload
    .ok (a.note (a.log ++ [.call r q.method payload (ifaceFor env.world col r) c]) c)

/-- `collection_batch_request_process_links`, api/oc_collection.c:811-920. -/
def links (env : Env) (sub : Nat → Log → Out (Bool × Log)) (q : Req) (notify : Option Nat) (href : Bytes)
    (col : Nat) (payload : Option Nat) (a : Acc) : List Nat → Out Acc
  | [] => .ok a
  | r :: l =>
    if taken env.world q notify href r then
      (oneLink env sub q col payload a r).bind fun a =>
        if a.ok then links env sub q notify href col payload a l else .ok a
    else links env sub q notify href col payload a l

/-- The start of `collection_batch_request_process_links`, api/oc_collection.c:817-818. -/
def fresh (log : Log) : Acc := ⟨log, c205, c400, true⟩

/-- The last string of an object, api/oc_collection.c:957-963. -/
def lastStr : List Mem → Option Bytes
  | [] => none
  | m :: r => match lastStr r with
    | some s => some s
    | none => match m with
      | .str s => some s
      | _ => none

/-- The last object in an object, api/oc_collection.c:964-966; otherwise what was
there before. -/
def lastObj (old : Option Nat) : List Mem → Option Nat
  | [] => old
  | .obj p :: r => lastObj (some p) r
  | _ :: r => lastObj old r

/-- The loop over the payload, api/oc_collection.c:951-988. `payload` is not reset. -/
def elems (env : Env) (sub : Nat → Log → Out (Bool × Log)) (q : Req) (notify : Option Nat) (col : Nat) :
    Option Nat → Acc → List Elem → Out Acc
  | _, a, [] => .ok a
  | _, a, .other :: _ => .ok { a with e := c400 }
  | p, a, .obj ms :: l =>
    match lastStr ms with
    | none => .ok { a with e := c400 }
    | some href =>
      if href.length = 0 then .ok { a with e := c400 }
      else (links env sub q notify href col (lastObj p ms) (fresh a.log) (env.world col).links).bind fun a =>
        if a.ok then elems env sub q notify col (lastObj p ms) a l else .ok a

/-- `oc_handle_collection_batch_request`, api/oc_collection.c:922-995. -/
def batch (env : Env) (sub : Nat → Log → Out (Bool × Log)) (q : Req) (notify : Option Nat) (col : Nat)
    (log : Log) : Out Acc :=
  if getDel q.method then links env sub q notify [] col none (fresh log) (env.world col).links
  else elems env sub q notify col none (fresh log) q.payload

/-- The links written for a client, api/oc_collection.c:671-726. -/
def listedLinks (w : Nat → Res) (q : Req) (col : Nat) : List Nat :=
  (w col).links.filter fun r => rtOk q.rts (w r).types

/-- `oc_handle_collection_baseline_request`, api/oc_collection.c:728-783. -/
def baseline (env : Env) (q : Req) (col : Nat) (log : Log) : Acc :=
  match q.method with
  | .get => ⟨log ++ [.listed col (listedLinks env.world q col)], c205, c205, true⟩
  | .delete => ⟨log, c205, c400, true⟩
  | _ =>
    if !(env.world col).setter then ⟨log, c205, c400, false⟩
    else ⟨log ++ [.setProps col (env.props log col)], c205, c400, env.props log col⟩

/-- `collection_method_success_code`, api/oc_collection.c:997-1013. -/
def successCode : Method → Nat
  | .get => c205
  | .post => c204
  | .put => c204
  | .delete => c202

/-- The part of `oc_handle_collection_request` before the answer,
api/oc_collection.c:1022-1058. -/
def dispatch (env : Env) (sub : Nat → Log → Out (Bool × Log)) (q : Req) (notify : Option Nat) (col : Nat)
    (iface : BitVec 32) (log : Log) : Out Acc :=
  if iface = Iface.baseline.bit then .ok (baseline env q col log)
  else if iface = Iface.ll.bit then .ok ⟨log ++ [.listed col (listedLinks env.world q col)], c205, c205, true⟩
  else if iface = Iface.b.bit then batch env sub q notify col log
  else .ok (fresh log)

/-- The code of the answer, api/oc_collection.c:1070-1074. -/
def finalCode (m : Method) (a : Acc) : Nat := if a.e < c400 ∧ a.p < c400 then successCode m else c400

/-- The end of `oc_handle_collection_request`, api/oc_collection.c:1060-1089. -/
def finish (env : Env) (q : Req) (col : Nat) (iface : BitVec 32) (a : Acc) : Bool × Log :=
  if !a.ok || env.tooBig a.log then (false, a.log)
  else
    let c := finalCode q.method a
    (true, a.log ++ [.answer col c] ++
      (if (q.method = .put ∨ q.method = .post) ∧ c < c400 ∧ iface = Iface.b.bit then [.notify col] else []))

/-- `oc_handle_collection_request`, api/oc_collection.c:1015-1090. A request to a linked
collection is a recursive call; the first argument bounds the depth of the stack, `ub`:
it was not enough. -/
def handle : Nat → Env → Req → Option Nat → Nat → BitVec 32 → Log → Out (Bool × Log)
  | 0, _, _, _, _, _, _ => .ub
  | n + 1, env, q, notify, col, iface, log =>
    (dispatch env (fun r log => handle n env q none r (env.world r).dflt log) q notify col iface log).bind
      fun a => .ok (finish env q col iface a)

end Verif.Collection
