import Verif.Collection.Model
import Verif.Acl.Update
import Verif.Dec

/-!
Model of the creation of resources through the interface `oic.if.create` of a collection:
api/oc_resource_factory.c, the request handler in api/oc_collection.c:424-564, and what
deleting a created resource does (api/oc_ri.c:549-617).

Simplifications: one collection and one device; strings without NUL; dynamic allocation
that succeeds (so `oc_new_link` returns a link); the factory does what those of the
sample applications do (apps/smart_home_server_linux.c:501-549): it makes a resource with
the given URI, types, properties and interfaces, calls `oc_add_resource` and does not look
at the result; its destructor deletes the resource. Whether it makes one, whether the
callbacks are set and whether `set_properties` accepts the representation are inputs. The
answer is the record of its properties, not CBOR. Delayed callbacks, observers and
notifications are left out.
-/

namespace Verif.Factory

open Verif.Rep (Bytes b Val Rep)
open Verif.Ri (ifaceMask slash)
open Verif.Collection (Link)
open Verif.Acl (Ace Subject Wc Id Fresh)

/-! ### The name of a new resource -/

/-- `isspace` of the C locale (C11 §7.4.1.10), used by `strtol`. -/
def isSpace (c : UInt8) : Bool := c == 32 || (decide (9 ≤ c.toNat) && decide (c.toNat ≤ 13))

/-- A decimal digit (C11 §7.22.1.4). -/
def isDig (c : UInt8) : Bool := decide (48 ≤ c.toNat) && decide (c.toNat ≤ 57)

/-- The optional sign `strtol` reads (C11 §7.22.1.4): whether it is a minus sign, and the
rest. -/
def sign : Bytes → Bool × Bytes
  | [] => (false, [])
  | c :: r => if c = 45 then (true, r) else if c = 43 then (false, r) else (false, c :: r)

/-- `LONG_MAX` of LP64. -/
def longMax : Int := 9223372036854775807

/-- api/oc_resource_factory.c:103-106: `strtol` in base 10 (C11 §7.22.1.4) that reads the
whole text and whose result is not `LONG_MAX` or `LONG_MIN`; `none`: the loop continues
with the next link. Without digits `end` is the text, which is not empty. -/
def number (s : Bytes) : Option Int :=
  let sg := sign (s.dropWhile isSpace)
  if sg.2 = [] ∨ sg.2.all isDig = false then none
  else
    let v : Int := if sg.1 then - (decVal sg.2 : Int) else decVal sg.2
    if v ≥ longMax ∨ v ≤ - longMax - 1 then none else some v

/-- api/oc_resource_factory.c:79-108: the index a linked URI takes in the collection. -/
def indexOf (coll link : Bytes) : Option Int :=
  if link.length < coll.length + 2 then none
  else if link.take coll.length ≠ coll ∨ link[coll.length]? ≠ some slash then none
  else number (link.drop (coll.length + 1))

/-- The loop of `find_collection_unique_instance_index`,
api/oc_resource_factory.c:77-121, over the URIs of the links; 0: failure. -/
def findLoop (coll : Bytes) : List Bytes → Nat → Nat
  | [], i => i
  | u :: r, i =>
    match indexOf coll u with
    | none => findLoop coll r i
    | some k =>
      if k ≠ (i : Int) then i
      else if i = 4294967295 then 0
      else findLoop coll r (i + 1)

/-- `OC_MAX_COLLECTIONS_INSTANCE_URI_SIZE`, api/oc_resource_factory.c:33-35. -/
def uriSize : Nat := 64

/-- `find_collection_unique_instance_index`, api/oc_resource_factory.c:67-124. -/
def uniqueIndex (coll : Bytes) (links : List Bytes) : Nat :=
  if coll.length = 0 ∨ coll.length ≥ uriSize - 2 then 0 else findLoop coll links 1

/-- `printf` with `%d` of an `unsigned` (converted to `int`),
api/oc_resource_factory.c:158, 164. -/
def decInt (n : Nat) : Bytes :=
  if n < 2147483648 then dec n else 45 :: dec (4294967296 - n)

/-- `get_collection_instance_uri`, api/oc_resource_factory.c:139-167. -/
def instanceUri (coll : Bytes) (links : List Bytes) : Option Bytes :=
  let index := uniqueIndex coll links
  if index = 0 then none
  else if coll.length + 1 > uriSize then none
  else if coll.length + 1 + (decInt index).length + 1 > uriSize then none
  else some (coll ++ slash :: decInt index)

/-- The characters of api/oc_resource_factory.c:40-41. -/
def alpha : Bytes := b "abcdefghijklmnopqrstuvwxyzABCDEFGHIJKLMNOPQRSTUVWXYZ0123456789"

/-- `gen_random_uri` with length 32, api/oc_resource_factory.c:37-50, 187, with the values
of the random generator. -/
def randomUri (rnd : Nat → Nat) : Bytes :=
  slash :: (List.range 30).map fun i => alpha.getD (rnd i % 62) 0

/-- The URI of a new resource, api/oc_resource_factory.c:183-188. -/
def newUri (coll : Bytes) (links : List Bytes) (rnd : Nat → Nat) : Bytes :=
  match instanceUri coll links with
  | some u => u
  | none => randomUri rnd

/-! ### The state -/

/-- `oc_resource_t` (include/oc_ri.h:317-360): the fields used here; `id` stands for the
address. -/
structure R where
  id : Nat
  uri : Bytes
  types : List Bytes
  bm : BitVec 32
  ifaces : BitVec 32
  deriving DecidableEq, Repr

/-- The state: `app` are the resources in `g_app_resources` (api/oc_ri.c), `created` the
list `g_created_res` (api/oc_resource_factory.c:31), `links` those of the collection,
`lparams` the parameters of the links (by link), `params` the list `g_params_list`
(api/oc_collection.c:61), `acl` the access control list, `next` an address that was never
used, `time` counts additions of links (ghost). -/
structure World where
  app : List R
  created : List R
  links : List Link
  lparams : List (Nat × Bytes × Bytes)
  params : List (Bytes × Bytes)
  acl : List Ace
  next : Nat
  time : Nat

/-- The collection and its surroundings: its URI, supported and mandatory resource types,
the registered factories, and other URIs of the device that are in use (core resources,
collections, resources about to be deleted; api/oc_ri.c:257-277). -/
structure Coll where
  uri : Bytes
  supported : List Bytes
  mandatory : List Bytes
  factories : List (Bytes × Nat)
  others : List Bytes

/-- A request to create and what the application and the library decide meanwhile:
`inst`: the factory makes a resource; `cbs`: it has both callbacks; `accepts`:
`set_properties` accepts the representation; `rnd`: random values; `fresh`: ids for ACEs. -/
structure Req where
  client : Id
  rep : Rep
  inst : Bool
  cbs : Bool
  accepts : Rep → Bool
  rnd : Nat → Nat
  fresh : Fresh

/-! ### Factories -/

/-- `collection_get_rtfactory`, api/oc_collection.c:355-367. -/
def findFactory (fs : List (Bytes × Nat)) (rt : Bytes) : Option Nat :=
  (fs.find? fun f => f.1 == rt).map Prod.snd

/-- `oc_collections_add_rt_factory`, api/oc_collection.c:381-403; the number stands for
the functions of the factory. It returns true. -/
def addFactory (fs : List (Bytes × Nat)) (rt : Bytes) (f : Nat) : List (Bytes × Nat) :=
  match findFactory fs rt with
  | some _ => fs
  | none => fs ++ [(rt, f)]

/-! ### The request -/

/-- What the loop over the payload finds, api/oc_collection.c:437-482. -/
structure Parsed where
  rt : Option (List Bytes) := none
  ifaces : BitVec 32 := 0
  bm : BitVec 32 := 0
  payload : Option Rep := none
  params : List (Bytes × Bytes) := []

/-- The interfaces of an array, api/oc_collection.c:448-453. -/
def maskOf (m : BitVec 32) (l : List Bytes) : BitVec 32 := l.foldl (fun m s => m ||| ifaceMask s) m

/-- `bm` of the object `p`: its first property, if that is an integer `bm`,
api/oc_collection.c:458-462. -/
def bmOf (o : Rep) : Option Int :=
  match o with
  | (n, .int i) :: _ => if n = b "bm" then some i else none
  | _ => none

/-- An empty object has no first property: the pointer is NULL. -/
def objOf (o : Rep) : Option Rep := if o.isEmpty then none else some o

/-- One property of the payload, api/oc_collection.c:442-481. -/
def parse1 (p : Parsed) (x : Bytes × Val) : Parsed :=
  match x.2 with
  | .strs l => if x.1 = b "rt" then { p with rt := some l } else { p with ifaces := maskOf p.ifaces l }
  | .obj o =>
    match (if x.1 = b "p" then bmOf o else none) with
    | some i => { p with bm := BitVec.ofInt 32 i }
    | none => if x.1 = b "rep" then { p with payload := objOf o } else p
  | .str s => { p with params := p.params ++ [(x.1, s)] }
  | _ => p

/-- The loop over the payload, api/oc_collection.c:441-484. -/
def parse (rep : Rep) : Parsed := rep.foldl parse1 {}

/-- `OC_SECURE`, include/oc_ri.h:62. -/
def secureBit : BitVec 32 := 16

/-- The first type, api/oc_collection.c:492-494. The decoder makes no array of strings
without an element. -/
def typeOf (rt : List Bytes) : Bytes := rt.headD []

/-- api/oc_collection.c:495-499. -/
def knownType (c : Coll) (t : Bytes) : Bool := c.supported.contains t || c.mandatory.contains t

/-- `oc_ri_URI_is_in_use`, api/oc_ri.c:257-277 (leading slashes: see the area Ri). -/
def inUse (c : Coll) (w : World) (u : Bytes) : Bool :=
  c.uri == u || c.others.contains u || w.app.any fun r => r.uri == u

/-- `get_instance` of the sample applications (apps/smart_home_server_linux.c:501-534): a
new resource, which `oc_add_resource` puts in the list unless its URI is in use. -/
def getInstance (c : Coll) (w : World) (r : R) : World :=
  { w with app := if inUse c w r.uri then w.app else w.app ++ [r], next := w.next + 1 }

/-- The second part of `ri_delete_resource`, api/oc_ri.c:566-616: the link is found by
the URI, removed and deleted with its parameters; the resource leaves the list. -/
def dropRes (w : World) (r : R) : World :=
  let w := { w with app := w.app.filter fun x => x.id != r.id }
  if Collection.hasLink ⟨0, 0, w.links⟩ 0 r.id then
    match Collection.findLink w.links r.uri with
    | none => w
    | some l =>
      { w with links := (Collection.removeLink w.links l.id).2
               lparams := w.lparams.filter fun x => x.1 != l.id }
  else w

/-- `oc_rt_factory_free_created_resource`, api/oc_resource_factory.c:212-223, with the
destructor of the sample applications (apps/smart_home_server_linux.c:536-549). -/
def freeCreated (w : World) (r : R) : World :=
  if w.created.any (fun x => x.id == r.id) then
    dropRes { w with created := w.created.filter fun x => x.id != r.id } r
  else w

/-- The permissions of `oc_sec_acl_add_created_resource_ace`, security/oc_acl.c:268:
RETRIEVE, UPDATE and DELETE. -/
def creatorPerm : BitVec 16 := 14

/-- The properties of the answer, api/oc_collection.c:519-548. -/
structure Answer where
  href : Bytes
  types : List Bytes
  ifaces : BitVec 32
  bm : BitVec 8
  params : List (Bytes × Bytes)
  deriving DecidableEq, Repr

/-- `link_params_free`, api/oc_collection.c:414-422, 561-563: the end of a request that
fails. -/
def fail (w : World) : Out (Option Answer × World) := .ok (none, { w with params := [] })

/-- The resource that is made, api/oc_collection.c:489-491 and `getInstance`. -/
def newRes (c : Coll) (w : World) (q : Req) (p : Parsed) (rt : List Bytes) : R :=
  ⟨w.next, newUri c.uri (w.links.map (·.uri)) q.rnd, rt, p.bm ||| secureBit, p.ifaces⟩

/-- api/oc_collection.c:514-557: the link, the answer, the parameters of the link, the
ACE. A link is named by the next address. -/
def finish (q : Req) (w : World) (r : R) : Out (Option Answer × World) :=
  (Collection.addLink w.links ⟨w.next, r.id, r.uri, w.time⟩).bind fun ls =>
    (Acl.updateRes q.fresh w.acl (.uuid q.client) (-1) creatorPerm none (some r.uri) .no).bind fun u =>
      .ok (some ⟨r.uri, r.types, r.ifaces, (r.bm &&& ~~~ (64 ||| secureBit)).truncate 8, w.params⟩,
        { w with links := ls, lparams := w.lparams ++ w.params.map fun x => (w.next, x), params := []
                 acl := u.aces, next := w.next + 1, time := w.time + 1 })

/-- `oc_rt_factory_create_resource` (api/oc_resource_factory.c:169-210) and the rest of the
request, api/oc_collection.c:504-557. -/
def make (c : Coll) (w : World) (q : Req) (p : Parsed) (rt : List Bytes) : Out (Option Answer × World) :=
  if !q.inst then fail w
  else
    let r := newRes c w q p rt
    let w := getInstance c w r
    let w := { w with created := w.created ++ [r] }
    if !q.cbs then fail (freeCreated w r)
    else
      match p.payload with
      | none => fail (freeCreated w r)
      | some o => if q.accepts o then finish q w r else fail (freeCreated w r)

/-- `oc_handle_collection_create_request` for PUT and POST, api/oc_collection.c:424-564. -/
def create (c : Coll) (w : World) (q : Req) : Out (Option Answer × World) :=
  let p := parse q.rep
  let w := { w with params := w.params ++ p.params }
  match p.rt with
  | none => fail w
  | some rt =>
    if p.ifaces = 0 then fail w
    else if !knownType c (typeOf rt) then fail w
    else if (findFactory c.factories (typeOf rt)).isNone then fail w
    else make c w q p rt

/-! ### Other operations -/

/-- `oc_delete_resource`, api/oc_ri.c:549-617: a created resource through its destructor. -/
def delete (w : World) (id : Nat) : World :=
  match w.created.find? fun r => r.id == id with
  | some r => freeCreated w r
  | none =>
    match w.app.find? fun r => r.id == id with
    | some r => dropRes w r
    | none => w

/-- The application makes a resource and adds it; if the URI is in use it gives up,
otherwise it may link it in the collection (`oc_add_resource`, `oc_new_link`,
`oc_collection_add_link`). -/
def addApp (c : Coll) (w : World) (uri : Bytes) (linked : Bool) : Out World :=
  if inUse c w uri then .ok w
  else
    let r : R := ⟨w.next, uri, [], 0, 0⟩
    let w := getInstance c w r
    if linked then
      (Collection.addLink w.links ⟨w.next, r.id, r.uri, w.time⟩).bind fun ls =>
        .ok { w with links := ls, next := w.next + 1, time := w.time + 1 }
    else .ok w

/-- The loop of `oc_fi_factory_free_all_created_resources` and
`oc_rt_factory_free_created_resources`, api/oc_resource_factory.c:225-261: the pointer to
the next record is read before the destructor runs. `also r`: the created resources that
the destructor of `r` deletes besides `r`. Reading a record that was freed is `ub`. -/
def freeLoop (also : Nat → List Nat) : List Nat → List Nat → Out (List Nat)
  | list, [] => .ok list
  | list, cur :: todo =>
    if list.contains cur then
      freeLoop also ((list.filter fun i => i != cur).filter fun i => !(also cur).contains i) todo
    else .ub

/-- Freeing the created resources of the device when it is reset
(security/oc_pstat.c:414-417), with destructors that delete only their own resource. -/
def reset (w : World) : World := w.created.foldl freeCreated w

/-- What happens to the device. -/
inductive Op where
  | create (q : Req)
  | delete (id : Nat)
  | app (uri : Bytes) (linked : Bool)
  | reset

/-- One operation. -/
def step (c : Coll) (w : World) : Op → Out World
  | .create q => (create c w q).bind fun x => .ok x.2
  | .delete id => .ok (delete w id)
  | .app uri linked => addApp c w uri linked
  | .reset => .ok (reset w)

/-- A history. -/
def run (c : Coll) : World → List Op → Out World
  | w, [] => .ok w
  | w, o :: os => (step c w o).bind fun w => run c w os

/-- The device after the start. -/
def empty : World := ⟨[], [], [], [], [], [], 0, 0⟩

end Verif.Factory
