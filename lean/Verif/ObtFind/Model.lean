import Verif.Rep.Model
import Verif.Sec.Base

/-!
Model of how an onboarding tool finds devices (security/oc_obt.c:226-262, 466-762):
discoveries of devices that are owned or not, the answers to them, the lists of
devices and the callbacks.

Simplifications: the text of an endpoint is read by a parameter (C67); memory can be
allocated; devices stay in their lists (handles that are freed are in C120); a
discovery has a number that is not used again; CBOR is left out; the addresses of an
endpoint other than those in its text (interface, local address, scope) are left out.
-/

namespace Verif.ObtFind

open Verif.Rep (Bytes b Val Rep)
open Verif.Acl (Id)

/-- What is used of `oc_endpoint_t`, include/oc_endpoint.h: the flags `IPV4` and
`IPV6`, and the rest. -/
structure Ep where
  v4 : Bool
  v6 : Bool
  addr : Bytes
  deriving DecidableEq

/-- `oc_device_t`, security/oc_obt_internal.h: `ctx` is the discovery that found it. -/
structure Dev where
  uuid : Id
  eps : List Ep
  ctx : Nat

/-- A callback of the application: the discovery, the device and its endpoints. -/
structure Told where
  cb : Nat
  uuid : Id
  eps : List Ep
  deriving DecidableEq

/-- The tool: its own UUID, the subjects of its owner credentials, `oc_cache`,
`oc_devices`, `oc_discovery_cbs` and the outstanding requests for endpoints. -/
structure St where
  me : Id
  owners : List Id := []
  cache : List Dev := []
  devs : List Dev := []
  cbs : List Nat := []
  gets : List Id := []
  made : Nat := 0
  log : List Told := []

/-- include/oc_ri.h:81 `OC_STATUS_BAD_REQUEST`. -/
def badRequest : Nat := 5

/-- The reader of endpoint texts, `oc_string_to_endpoint` (api/oc_endpoint.c; a parameter). -/
abbrev Reader := Bytes → Option Ep

/-- `value.string` of a property: its text or bytes; that of other types is no string. -/
def textOf : Val → Out Bytes
  | .str s => .ok s
  | .bytes s => .ok s
  | _ => .ub

/-- Whether a property is a text. -/
def isStr : Val → Bool
  | .str _ => true
  | _ => false

/-- security/oc_obt.c:493-496: the families differ. -/
def otherFamily (src e : Ep) : Bool := (src.v4 && e.v6) || (src.v6 && e.v4)

/-- security/oc_obt.c:478-518 `update_endpoint`: the endpoint of one element; the
condition at 483-484 lets pass texts of any name, and `ep` of any type. -/
def pick (P : Reader) (src : Ep) : Rep → Out (Option Ep)
  | [] => .ok none
  | (k, v) :: r =>
    if isStr v = false ∧ k ≠ b "ep" then pick P src r
    else (textOf v).bind fun s =>
      match P s with
      | none => pick P src r
      | some e => if otherFamily src e then .ok none else .ok (some e)

/-- security/oc_obt.c:529-543: the elements of an array. -/
def pickAll (P : Reader) (src : Ep) : List Rep → Out (List Ep)
  | [] => .ok []
  | x :: l => (pick P src x).bind fun e => (pickAll P src l).bind fun es => .ok (e.toList ++ es)

/-- security/oc_obt.c:520-545 `update_endpoints_from_links`: all arrays of objects of
a link. -/
def gather (P : Reader) (src : Ep) : Rep → Out (List Ep)
  | [] => .ok []
  | (_, .objs l) :: r => (pickAll P src l).bind fun es => (gather P src r).bind fun fs => .ok (es ++ fs)
  | _ :: r => gather P src r

/-- security/oc_obt.c:560-567: the anchor of a link. -/
def anchor : Rep → Option Bytes
  | [] => none
  | (k, .str s) :: r => if k = b "anchor" then some s else anchor r
  | _ :: r => anchor r

/-- The UUID of all zeros. -/
def nilId : Id := List.replicate 16 0

/-- security/oc_obt.c:553-576: the first link of an answer and the device it names; a
failing assertion at 559 and a text shorter than the scheme at 576 are undefined. -/
def readLink : Rep → Out (Option (Id × Rep))
  | [] => .ok none
  | (_, .obj l) :: _ =>
    match anchor l with
    | none => .ok none
    | some s => if s.length < 6 then .ub else (Sec.strToUuid nilId (s.drop 6)).bind fun u => .ok (some (u, l))
  | _ :: _ => .ub

/-- security/oc_obt.c:226-262 `cache_new_device`: the device of a UUID gets the one
endpoint, or is added with it. -/
def cacheNew (u : Id) (src : Ep) (l : List Dev) : List Dev :=
  if l.any fun d => d.uuid == u then l.map fun d => if d.uuid = u then { d with eps := [src] } else d
  else l ++ [⟨u, [src], 0⟩]

/-- Change of the device of a UUID (modelling convention). -/
def upd (u : Id) (f : Dev → Dev) (l : List Dev) : List Dev := l.map fun d => if d.uuid = u then f d else d

/-- security/oc_obt.c:603-606: the callback, if the discovery is still there. -/
def tell (c : Nat) (u : Id) (eps : List Ep) (s : St) : St :=
  if c ∉ s.cbs ∨ eps = [] then s else { s with log := s.log ++ [⟨c, u, eps⟩] }

/-- security/oc_obt.c:547-607 `get_endpoints` for an answer to the discovery `c` of
owned devices. -/
def multi (P : Reader) (c code : Nat) (p : Rep) (src : Ep) (s : St) : Out St :=
  if code ≥ badRequest then .ok s
  else (readLink p).bind fun
    | none => .ok s
    | some (u, l) =>
      if u = s.me then .ok s
      else if u ∉ s.owners then .ok s
      else (gather P src l).bind fun eps =>
        .ok (tell c u eps { s with devs := upd u (fun d => { d with eps := eps }) (cacheNew u src s.devs) })

/-- security/oc_obt.c:547-607 `get_endpoints` for the answer to a request to the
device `u` that was found not to be owned. -/
def answer (P : Reader) (u : Id) (code : Nat) (p : Rep) (src : Ep) (s : St) : Out St :=
  if u ∉ s.gets then .ok s
  else
    let s := { s with gets := s.gets.erase u }
    if code ≥ badRequest then .ok s
    else (readLink p).bind fun
      | none => .ok s
      | some (v, l) =>
        if v = s.me then .ok s
        else match s.cache.find? fun d => d.uuid == u with
          | none => .ub
          | some d => (gather P src l).bind fun eps =>
            .ok (tell d.ctx u eps { s with cache := upd u (fun d => { d with eps := eps }) s.cache })

/-- api/oc_uuid.c:120-128 `oc_str_to_uuid` into a variable that has no value yet
(`none`): a text with too many digits leaves it. -/
def readId (old : Option Id) (s : Bytes) : Out (Option Id) :=
  (Uuid.ofStr ((s.takeWhile (· != 0)).take 37)).bind fun x => .ok (match x.2 with | some u => some u | none => old)

/-- security/oc_obt.c:616-642: `deviceuuid` and `owned` of an answer. -/
def readDoxm : Rep → Option Id × Option Bool → Out (Option Id × Option Bool)
  | [], x => .ok x
  | (k, .str s) :: r, x => if k = b "deviceuuid" then (readId x.1 s).bind fun u => readDoxm r (u, x.2) else readDoxm r x
  | (k, .bool v) :: r, x => if k = b "owned" then readDoxm r (x.1, some v) else readDoxm r x
  | _ :: r, x => readDoxm r x

/-- security/oc_obt.c:609-661 `obt_check_owned` for an answer to the discovery `c`;
`ok`: the request for the endpoints can be issued. The use of a UUID that was not read
is undefined. -/
def doxm (c code : Nat) (p : Rep) (src : Ep) (ok : Bool) (s : St) : Out St :=
  if code ≥ badRequest then .ok s
  else (readDoxm p (none, none)).bind fun x =>
    match x.2 with
    | none => .ok s
    | some owned =>
      match x.1 with
      | none => .ub
      | some u =>
        if u = s.me then .ok s
        else if owned then .ok s
        else
          let s := { s with cache := upd u (fun d => { d with ctx := c }) (cacheNew u src s.cache) }
          .ok (if ok then { s with gets := s.gets ++ [u] } else s)

/-- security/oc_obt.c:664-762 `discover_unowned_devices`, `discover_owned_devices`:
`ok` if the multicast is sent; otherwise -1 is returned. -/
def discover (ok : Bool) (s : St) : Bool × St :=
  if ok then (true, { s with cbs := s.cbs ++ [s.made], made := s.made + 1 }) else (false, s)

/-- What can happen; `expire`: security/oc_obt.c:467-476 `free_discovery_cb` after
`DISCOVERY_CB_PERIOD`; `owners`: the owner credentials change. -/
inductive Op where
  | discover (ok : Bool)
  | expire (c : Nat)
  | doxm (c code : Nat) (p : Rep) (src : Ep) (ok : Bool)
  | answer (u : Id) (code : Nat) (p : Rep) (src : Ep)
  | multi (c code : Nat) (p : Rep) (src : Ep)
  | owners (l : List Id)

/-- One event (see the functions). -/
def step (P : Reader) (s : St) : Op → Out St
  | .discover ok => .ok (discover ok s).2
  | .expire c => .ok { s with cbs := s.cbs.filter fun x => x != c }
  | .doxm c code p src ok => doxm c code p src ok s
  | .answer u code p src => answer P u code p src s
  | .multi c code p src => multi P c code p src s
  | .owners l => .ok { s with owners := l }

/-- A history (modelling convention). -/
def run (P : Reader) : List Op → St → Out St
  | [], s => .ok s
  | o :: l, s => (step P s o).bind (run P l)

end Verif.ObtFind
