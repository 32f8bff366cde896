import Verif.Ri.Model

/-!
Model of the notification selectors and push proxies of an origin server:
api/oc_push.c:74-108, :256-496, :644-803, :2314-2444, :2548-2714, with the create
interface of the collection that makes them (api/oc_collection.c:424-564).

Allocations succeed.  Strings carry no NUL byte.  The parser of the target
(`oc_string_to_endpoint`) is a parameter: what it gives for each text.  The resources of
the application do not change while the selectors do.  A selector is named by a number
that is never used again, where the code has its address.
-/

namespace Verif.Push

open Verif.Rep (b Bytes Val Rep)
open Verif.Ri (slash Iface ifaceTable)

/-- api/oc_push.c:74-82 and the texts of :187-195, without the two states that nothing
sets. -/
inductive PState where
  | wfp | wfu | wfr | err | tout
  deriving DecidableEq, Repr

/-- api/oc_push.c:88-108 `oc_ns_t`.  `id` stands for the address and `dev` for
`resource->device`; `phref = none` is a null string; `ep = none` is the zeroed
endpoint.  `user_data` is only a way to hand the resource to `push_update`. -/
structure Ns where
  id : Nat
  dev : Nat
  phref : Option Bytes := none
  prt : List Bytes := []
  pif : List Bytes := []
  ep : Option Nat := none
  path : Bytes := []
  pushqif : Bytes := []
  sourcert : List Bytes := []
  state : PState := .wfp
  deriving DecidableEq, Repr

/-- The fields of `oc_resource_t` (include/oc_ri.h:317-360) that matter here; `builder`
tells that `payload_builder` is set. -/
structure Rsc where
  uri : Bytes
  dev : Nat
  types : List Bytes
  ifaces : BitVec 32
  pushable : Bool
  builder : Bool
  deriving DecidableEq

/-- The surroundings: the parser of targets (`oc_string_to_endpoint`,
api/oc_endpoint.c), giving an endpoint and a path, and the resources of the
application. -/
structure Env where
  parse : Bytes → Option (Nat × Bytes)
  rscs : List Rsc

/-- Copying an array of strings item by item with `oc_string_array_add_item`
(api/oc_push.c:401-412, :422-433, :454-464): each item goes to the first slot that is empty
(api/oc_helpers.c:324-334), so that the empty strings end up behind the others. -/
def arrCopy (l : List Bytes) : List Bytes :=
  l.filter (· ≠ []) ++ l.filter (· = [])

/-- What becomes of one property: go on (with `pushtarget_is_updated`), or `return
false` with the changes made so far. -/
inductive Set1 where
  | go (n : Ns) (upd : Bool)
  | fail (n : Ns)

/-- api/oc_push.c:290-348: `pushtarget`. -/
def setTarget (env : Env) (n : Ns) (upd : Bool) (v : Bytes) : Set1 :=
  if v = [] then .go { n with ep := none, path := [] } upd
  else match env.parse v with
    | none => .fail n
    | some (ep, path) =>
      if path = [] then .fail { n with ep := some ep, path := path }
      else .go { n with ep := some ep, path := path } true

/-- api/oc_push.c:365-391: `state`. -/
def setState (n : Ns) (upd : Bool) (v : Bytes) : Set1 :=
  if n.state ≠ .err ∧ n.state ≠ .tout then .fail n
  else if v ≠ b "waitingforupdate" then .fail n
  else .go { n with state := .wfu } upd

/-- api/oc_push.c:270-392: the properties of type string. -/
def setStr (env : Env) (n : Ns) (upd : Bool) (name v : Bytes) : Set1 :=
  if name = b "phref" then .go { n with phref := if v = [] then none else some v } upd
  else if name = b "pushtarget" then setTarget env n upd v
  else if name = b "pushqif" then .go { n with pushqif := v } upd
  else if name = b "state" then setState n upd v
  else .go n upd

/-- api/oc_push.c:394-467: the properties of type array of strings. -/
def setStrs (n : Ns) (upd : Bool) (name : Bytes) (l : List Bytes) : Set1 :=
  if name = b "prt" then .go { n with prt := arrCopy l } upd
  else if name = b "pif" then .go { n with pif := arrCopy l } upd
  else if name = b "sourcert" then
    if l.all (· == b "oic.r.pushpayload") then .go { n with sourcert := arrCopy l } upd else .fail n
  else .go n upd

/-- api/oc_push.c:269-473: one property of the payload. -/
def setOne (env : Env) (n : Ns) (upd : Bool) : Bytes × Val → Set1
  | (name, .str v) => setStr env n upd name v
  | (name, .strs l) => setStrs n upd name l
  | _ => .go n upd

/-- api/oc_push.c:476-495: the end of `set_ns_properties`. -/
def settle (n : Ns) (upd : Bool) : Ns :=
  if upd ∧ n.state ≠ .err ∧ n.state ≠ .tout ∧ n.state ≠ .wfu then { n with state := .wfu } else n

/-- api/oc_push.c:256-496 `set_ns_properties`: the selector afterwards and the value
returned. -/
def setProps (env : Env) (n : Ns) (upd : Bool) : Rep → Ns × Bool
  | [] => (settle n upd, true)
  | p :: rep =>
    match setOne env n upd p with
    | .fail n' => (n', false)
    | .go n' upd' => setProps env n' upd' rep

/-- A push request that was sent: by which selector, of which resource, to where. -/
structure Sent where
  id : Nat
  uri : Bytes
  ep : Option Nat
  path : Bytes
  deriving DecidableEq, Repr

/-- `g_ns_list`, the requests that wait for a response (`oc_client_cb_t` with
`response_to_push_rsc`; by selector), and, beside the code, everything sent so far. -/
structure St where
  nss : List Ns := []
  inflight : List Nat := []
  sent : List Sent := []
  next : Nat := 0
  deriving DecidableEq

/-- api/oc_ri.c:703-734 `oc_ri_get_interface_mask` with the length given by the caller:
the first name of the table that has this length and is how the text begins. -/
def maskOf (text : Bytes) (len : Nat) : BitVec 32 :=
  match ifaceTable.find? fun i => i.name.length == len && i.name.isPrefixOf text with
  | some i => i.bit
  | none => 0

/-- include/oc_helpers.h:235-236 `oc_byte_string_array_get_item_size`: the first byte of
the slot, a `char` converted to `size_t` (a slot of an empty string begins with NUL). -/
def firstByte : Bytes → Nat
  | [] => 0
  | c :: _ => if c.toNat < 128 then c.toNat else 2 ^ 64 - (256 - c.toNat)

/-- api/oc_push.c:2664-2670: the mask of `pif`. -/
def pifMask (pif : List Bytes) : BitVec 32 :=
  pif.foldl (fun m i => m ||| maskOf i (firstByte i)) 0

/-- api/oc_push.c:2548-2570 `_check_string_array_inclusion`. -/
def anyIn (target source : List Bytes) : Bool :=
  if target = [] ∨ source = [] then false
  else source.any fun x => target.any fun y => x == y

/-- api/oc_push.c:2607-2686: `all_matched` after the three conditions. -/
def allMatched (n : Ns) (r : Rsc) (uri : Bytes) : BitVec 8 :=
  let a : BitVec 8 := 7
  let a := match n.phref with
    | some p => if p ≠ uri then 0 else a
    | none => a &&& 6
  let a := if n.prt.length > 0 then (if anyIn n.prt r.types = false then 0 else a) else a &&& 5
  if n.pif.length > 0 then (if pifMask n.pif &&& r.ifaces = 0 then 0 else a) else a &&& 3

/-- api/oc_ri.c:449-477 `oc_ri_get_app_resource_by_uri`. -/
def findRsc (rscs : List Rsc) (uri : Bytes) (dev : Nat) : Option Rsc :=
  match uri with
  | [] => none
  | c :: _ =>
    let skip := if c ≠ slash then 1 else 0
    rscs.find? fun r => r.uri.length == uri.length + skip && r.uri.drop skip == uri && r.dev == dev

/-- api/oc_push.c:2599-2713: the loop over the selectors.  `ok` tells of each selector
whether `oc_init_post` and `oc_do_post` succeed; `running` that the push process runs. -/
def loop (r : Rsc) (uri : Bytes) (dev : Nat) (running : Bool) (ok : Nat → Bool) :
    List Ns → List Ns × List Sent
  | [] => ([], [])
  | n :: l =>
    if n.dev ≠ dev then (n :: (loop r uri dev running ok l).1, (loop r uri dev running ok l).2)
    else if n.state ≠ .wfu then (n :: (loop r uri dev running ok l).1, (loop r uri dev running ok l).2)
    else if allMatched n r uri = 0 then
      (n :: (loop r uri dev running ok l).1, (loop r uri dev running ok l).2)
    else if running = false then (n :: l, [])
    else if r.builder = true ∧ ok n.id = true then
      ({ n with state := .wfr } :: (loop r uri dev running ok l).1,
        ⟨n.id, r.uri, n.ep, n.path⟩ :: (loop r uri dev running ok l).2)
    else (n :: (loop r uri dev running ok l).1, (loop r uri dev running ok l).2)

/-- api/oc_push.c:2578-2714 `oc_resource_state_changed` with `push_update`
(:2354-2444). -/
def changed (env : Env) (uri : Bytes) (dev : Nat) (running : Bool) (ok : Nat → Bool) (s : St) : St :=
  match findRsc env.rscs uri dev with
  | none => s
  | some r =>
    if r.pushable = false then s
    else
      let x := loop r uri dev running ok s.nss
      { s with nss := x.1, inflight := s.inflight ++ x.2.map (·.id), sent := s.sent ++ x.2 }

/-- The codes that `response_to_push_rsc` tells apart. -/
inductive Code where
  | timeout | changed | other
  deriving DecidableEq, Repr

/-- api/oc_push.c:2314-2345 `response_to_push_rsc`. -/
def codeState : Code → PState
  | .timeout => .tout
  | .changed => .wfu
  | .other => .err

/-- What clients, the application and the network do. -/
inductive Op where
  /-- a selector is made through the create interface of the collection -/
  | create (dev : Nat) (rep : Rep)
  /-- an UPDATE request to a selector -/
  | update (id : Nat) (rep : Rep)
  /-- a DELETE request to a selector -/
  | delete (id : Nat)
  /-- the application tells that a resource changed -/
  | changed (uri : Bytes) (dev : Nat) (running : Bool) (ok : Nat → Bool)
  /-- the `k`-th request waiting gets its response, or gives up -/
  | respond (k : Nat) (code : Code)

/-- The selector with a number. -/
def St.ns? (s : St) (id : Nat) : Option Ns := s.nss.find? fun n => n.id == id

/-- A change of one selector, where it is in the list. -/
def St.setNs (s : St) (n : Ns) : St :=
  { s with nss := s.nss.map fun m => if m.id = n.id then n else m }

/-- api/oc_push.c:696-756 `get_ns_instance`: a new selector. -/
def fresh (id dev : Nat) : Ns := { id := id, dev := dev }

/-- api/oc_collection.c:503-513: the selector is made, its properties are set, and it is
freed again when that fails. -/
def create (env : Env) (dev : Nat) (rep : Rep) (s : St) : St :=
  let x := setProps env (fresh s.next dev) false rep
  if x.2 then { s with nss := s.nss ++ [x.1], next := s.next + 1 }
  else { s with next := s.next + 1 }

/-- api/oc_push.c:644-658 `post_ns`: the answer is CHANGED (`true`) or BAD_REQUEST, and the
selector is what `set_ns_properties` left. -/
def update (env : Env) (id : Nat) (rep : Rep) (s : St) : St :=
  match s.ns? id with
  | none => s
  | some n => s.setNs (setProps env n false rep).1

/-- The answer of api/oc_push.c:644-658 `post_ns`. -/
def accepts (env : Env) (id : Nat) (rep : Rep) (s : St) : Bool :=
  match s.ns? id with
  | none => false
  | some n => (setProps env n false rep).2

/-- api/oc_push.c:668-683 `delete_ns` with :764-803 `free_ns_instance`: the selector is
freed; the requests that wait for a response are left as they are. -/
def delete (id : Nat) (s : St) : St := { s with nss := s.nss.filter fun n => n.id != id }

/-- api/oc_push.c:2314-2345: the callback writes to the selector that it was registered
with, whether it is still there or not; writing to a selector that was freed is
undefined. -/
def respond (k : Nat) (code : Code) (s : St) : Out St :=
  match s.inflight[k]? with
  | none => .ok s
  | some id =>
    match s.ns? id with
    | none => .ub
    | some n => .ok { s.setNs { n with state := codeState code } with inflight := s.inflight.eraseIdx k }

/-- One step. -/
def step (env : Env) (s : St) : Op → Out St
  | .create dev rep => .ok (create env dev rep s)
  | .update id rep => .ok (update env id rep s)
  | .delete id => .ok (delete id s)
  | .changed uri dev running ok => .ok (changed env uri dev running ok s)
  | .respond k code => respond k code s

/-- A history. -/
def run (env : Env) (s : St) : List Op → Out St
  | [] => .ok s
  | o :: os =>
    match step env s o with
    | .ub => .ub
    | .ok s' => run env s' os

end Verif.Push
