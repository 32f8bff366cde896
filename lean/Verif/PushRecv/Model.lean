import Verif.Push.Model

/-!
Model of the push receiver resource of a target server: api/oc_push.c:845-1279 and
:1424-2235.

One device with one push receiver resource.  Allocations succeed, texts carry no NUL byte
and are shorter than 4096 bytes (longer paths are not stored, api/oc_core_res.c:465-469).
The query is given by the value of `receiveruri` in it, if there is one (see the model of
queries).  There are no collections with the path of a receiver, no resource waits to be
deleted, and requests passed the checks of method, interface and access (see the model of
the request handler).  A number that is never used again stands for the address of a
resource.
-/

namespace Verif.PushRecv

open Verif.Rep (b Bytes Val Rep)
open Verif.Ri (slash ifaceMask)
open Verif.Push (arrCopy)

/-- api/oc_push.c:110-118 `oc_recv_t`.  `id` stands for the address: the number of the
resource that is made together with it. -/
structure Recv where
  id : Nat
  uri : Bytes
  rts : List Bytes
  deriving DecidableEq, Repr

/-- `oc_resource_t`, with the attributes the code uses.  `listed`: it is in the list of the
resources of the application; `pushed`: its handlers are those of pushed resources. -/
structure Rs where
  id : Nat
  uri : Bytes
  types : List Bytes
  ifaces : BitVec 32
  name : Bytes
  disc : Bool
  listed : Bool := true
  pushed : Bool := true
  deriving DecidableEq, Repr

/-- include/oc_push.h:56-62 `oc_pushd_resource_rep_t`: the resource, by its number, and what was
pushed to it (a null pointer is the empty list). -/
structure PRep where
  rsc : Nat
  rep : Rep

/-- The receivers, the list of representations, all resources that are allocated and the
next number. -/
structure St where
  recvs : List Recv := []
  reps : List PRep := []
  rscs : List Rs := []
  next : Nat := 0

/-- What a request is answered: a status, by the handlers of a resource of the application,
or nothing. -/
inductive Ans where
  | ok | changed | deleted | bad | forbidden | notFound | internal | app | silent
  deriving DecidableEq, Repr

/-- The slot of a byte string of an array (its size, the bytes) read as a text:
include/oc_helpers.h:213-214, :217-218, api/oc_helpers.c:282-295.
The rest of the slot, which is whatever the memory held, is taken to be zero. -/
def slotText (d : Bytes) : Bytes := (UInt8.ofNat d.length :: d).takeWhile (· ≠ 0)

mutual
/-- api/oc_push.c:1221-1275: the copy of a value. -/
def copyVal : Val → Val
  | .nil => .nil
  | .int i => .int i
  | .dbl v => .dbl v
  | .bool v => .bool v
  | .bytes v => .bytes v
  | .str v => .str v
  | .obj l => .obj (copyRep l)
  | .arr => .arr
  | .ints l => .ints l
  | .dbls l => .dbls l
  | .bools l => .bools l
  | .bytess l => .bytess (arrCopy (l.map slotText))
  | .strs l => .strs (arrCopy l)
  | .objs l => .objs (copyObjs l)
/-- api/oc_push.c:1203-1278 `_create_pushd_rsc_rep`. -/
def copyRep : List (Bytes × Val) → List (Bytes × Val)
  | [] => []
  | p :: l => copyProp p :: copyRep l
/-- api/oc_push.c:1215-1219: a property with its name. -/
def copyProp : Bytes × Val → Bytes × Val
  | (n, v) => (n, copyVal v)
/-- api/oc_push.c:1268-1271: the objects of an array. -/
def copyObjs : List (List (Bytes × Val)) → List (List (Bytes × Val))
  | [] => []
  | o :: l => copyRep o :: copyObjs l
end

mutual
/-- api/oc_push.c:858-1041: the value that is encoded; null values and arrays without a type
are not. -/
def showVal : Val → Option Val
  | .nil => none
  | .int i => some (.int i)
  | .dbl v => some (.dbl v)
  | .bool v => some (.bool v)
  | .bytes v => some (.bytes v)
  | .str v => some (.str v)
  | .obj l => some (.obj (showRep l))
  | .arr => none
  | .ints l => some (.ints l)
  | .dbls l => some (.dbls l)
  | .bools l => some (.bools l)
  | .bytess l => some (.bytess l)
  | .strs l => some (.strs l)
  | .objs l => some (.objs (showObjs l))
/-- api/oc_push.c:849-1044 `_build_rep_payload`. -/
def showRep : List (Bytes × Val) → List (Bytes × Val)
  | [] => []
  | p :: l => (showProp p).toList ++ showRep l
/-- api/oc_push.c:866-868: a property with its name. -/
def showProp : Bytes × Val → Option (Bytes × Val)
  | (n, v) => (showVal v).map fun w => (n, w)
/-- api/oc_push.c:1018-1032: the objects of an array. -/
def showObjs : List (List (Bytes × Val)) → List (List (Bytes × Val))
  | [] => []
  | o :: l => showRep o :: showObjs l
end

/-- api/oc_push.c:1053-1069 `_find_pushd_rsc_rep_by_uri`: the path of each resource is read,
which is undefined when it was freed. -/
def findRep (rscs : List Rs) (uri : Bytes) : List PRep → Out (Option PRep)
  | [] => .ok none
  | p :: l =>
    match rscs.find? fun r => r.id == p.rsc with
    | none => .ub
    | some r => if r.uri = uri then .ok (some p) else findRep rscs uri l

/-- api/oc_ri.c:449-477 `oc_ri_get_app_resource_by_uri`, without collections. -/
def findApp (rscs : List Rs) (uri : Bytes) : Option Rs :=
  match uri with
  | [] => none
  | c :: _ =>
    if c = slash then rscs.find? fun r => r.listed && (r.uri == uri)
    else rscs.find? fun r => r.listed && (r.uri != [] && r.uri.drop 1 == uri)

/-- api/oc_ri.c:237-255 `ri_uri_is_in_list` and :257-277 `oc_ri_URI_is_in_use`; `taken`: a
core resource or a collection has this path. -/
def inUse (taken : Bytes → Bool) (rscs : List Rs) (uri : Bytes) : Bool :=
  taken uri || rscs.any fun r => r.listed && (r.uri != [] && r.uri.drop 1 == uri.dropWhile (· == slash))

/-- api/oc_core_res.c:462-484 `oc_store_uri`. -/
def store (uri : Bytes) : Bytes :=
  match uri with
  | [] => [slash]
  | c :: l => if c = slash then c :: l else slash :: c :: l

/-- api/oc_push.c:1432-1447 `_find_recv_obj_by_uri`: the first receiver whose path begins with
the text. -/
def findRecv (recvs : List Recv) (uri : Bytes) : Option Recv := recvs.find? fun r => uri.isPrefixOf r.uri

/-- api/oc_push.c:1704-1735 `_purge_pushd_rsc`; of `oc_delete_resource`, api/oc_ri.c:548-625,
only that the resource is taken off its list and freed. -/
def purge (uri : Bytes) (s : St) : Out St :=
  (findRep s.rscs uri s.reps).bind fun
    | none => .ok s
    | some p =>
      match findApp s.rscs uri with
      | none => .ok { s with reps := s.reps.filter fun q => q.rsc != p.rsc }
      | some r => .ok { s with reps := s.reps.filter fun q => q.rsc != p.rsc
                               rscs := s.rscs.filter fun q => q.id != r.id }

/-- api/oc_push.c:1806-1824 `_purge_recv_obj_list`. -/
def purgeList : List Recv → St → Out St
  | [], s => .ok { s with recvs := [] }
  | r :: l, s => (purge r.uri s).bind (purgeList l)

/-- api/oc_push.c:1912-1944: a property of a new receiver. -/
def take1 (d : Option Bytes × Option (List Bytes)) (p : Bytes × Val) : Option Bytes × Option (List Bytes) :=
  match p.2 with
  | .str v => if p.1 = b "receiveruri" then (some v, d.2) else d
  | .strs l => if p.1 = b "rts" then (d.1, some (arrCopy l)) else d
  | _ => d

/-- api/oc_push.c:1745-1797 `_create_pushd_rsc`: the resource made for a receiver. -/
def newRs (taken : Bytes → Bool) (uri : Bytes) (s : St) : Rs :=
  ⟨s.next, store uri, [b " "], Ri.Iface.rw.bit ||| Ri.Iface.baseline.bit, b "Pushed Resource", false,
    !(inUse taken s.rscs (store uri)), true⟩

/-- api/oc_push.c:1899-1957 `_create_recv_obj`. -/
def create (taken : Bytes → Bool) (rep : Rep) (s : St) : St × Bool :=
  match rep.foldl take1 (none, none) with
  | (some u, some l) =>
    ({ s with recvs := s.recvs ++ [⟨s.next, u, l⟩]
              rscs := s.rscs ++ [newRs taken u s]
              reps := s.reps ++ [⟨s.next, []⟩]
              next := s.next + 1 }, (newRs taken u s).listed)
  | _ => (s, false)

/-- api/oc_push.c:1843-1866: the path of a receiver is set. -/
def setUri (rv : Recv) (v : Bytes) (s : St) : Out (St × Recv) :=
  if rv.uri = v then .ok (s, rv)
  else
    (findRep s.rscs rv.uri s.reps).bind fun
      | none => .ok (s, { rv with uri := v })
      | some p => .ok ({ s with rscs := s.rscs.map fun r => if r.id = p.rsc then { r with uri := store v } else r },
                       { rv with uri := v })

/-- api/oc_push.c:1834-1890 `_update_recv_obj`. -/
def updObj : Rep → Recv → St → Out (St × Recv)
  | [], rv, s => .ok (s, rv)
  | (n, .str u) :: l, rv, s =>
    if n = b "receiveruri" then (setUri rv u s).bind fun x => updObj l x.2 x.1 else updObj l rv s
  | (n, .strs t) :: l, rv, s =>
    if n = b "rts" then updObj l { rv with rts := arrCopy t } s else updObj l rv s
  | _ :: _, rv, s => .ok (s, rv)

/-- api/oc_push.c:1983-2005: a receiver of an array has properties of the two types only, and
both properties. -/
def validObj (o : Rep) : Bool :=
  o.all (fun p => match p.2 with | .str _ => true | .strs _ => true | _ => false) &&
    (o.any (fun p => match p.2 with | .str _ => p.1 == b "receiveruri" | _ => false) &&
     o.any (fun p => match p.2 with | .strs _ => p.1 == b "rts" | _ => false))

/-- api/oc_push.c:1966-2017 `_validate_recv_obj_list`. -/
def validList (l : List Rep) : Bool := !l.isEmpty && l.all validObj

/-- api/oc_push.c:2026-2051 `_replace_recv_obj_array`. -/
def replace (taken : Bytes → Bool) (rep : Rep) (s : St) : Out (St × Ans) :=
  match rep with
  | (_, .objs l) :: _ =>
    if validList l then
      (purgeList s.recvs s).bind fun s => .ok (l.foldl (fun s o => (create taken o s).1) s, .changed)
    else .ok (s, .bad)
  | _ => .ok (s, .bad)

/-- api/oc_push.c:2090-2124: one receiver is updated or made. -/
def postOne (taken : Bytes → Bool) (q : Bytes) (rep : Rep) (s : St) : Out (St × Ans) :=
  match findRecv s.recvs q with
  | some rv =>
    (updObj rep rv s).bind fun x =>
      .ok ({ x.1 with recvs := x.1.recvs.map fun r => if r.id = rv.id then x.2 else r }, .changed)
  | none =>
    if (findApp s.rscs q).isSome then .ok (s, .forbidden)
    else if (create taken rep s).2 then .ok ((create taken rep s).1, .changed)
    else .ok ((create taken rep s).1, .bad)

/-- api/oc_push.c:2057-2150 `post_pushrecv`. -/
def post (taken : Bytes → Bool) (q : Option Bytes) (rep : Rep) (s : St) : Out (St × Ans) :=
  match q with
  | some q => postOne taken q rep s
  | none => replace taken rep s

/-- api/oc_push.c:2155-2230 `delete_pushrecv`. -/
def delete (q : Option Bytes) (s : St) : Out (St × Ans) :=
  match q with
  | some q =>
    match findRecv s.recvs q with
    | none => .ok (s, .notFound)
    | some rv =>
      (purge rv.uri { s with recvs := s.recvs.filter fun r => r.id != rv.id }).bind fun s => .ok (s, .deleted)
  | none => (purgeList s.recvs s).bind fun s => .ok (s, .deleted)

/-- A list of types under the name `rt`. -/
def isRt (p : Bytes × Val) : Bool :=
  match p.2 with
  | .strs _ => p.1 == b "rt"
  | _ => false

/-- api/oc_push.c:1128-1170 `_check_pushd_rsc_rt`. -/
def checkRt (rts : List Bytes) (rep : Rep) : Bool :=
  match rep with
  | [] => false
  | _ :: _ =>
    if rts = [[]] then true
    else
      match rep.find? isRt with
      | some (_, .strs l) => l.all fun t => rts.contains t
      | _ => false

/-- api/oc_push.c:1528-1578: the properties that are set and taken off the payload. -/
def common (p : Bytes × Val) : Bool :=
  match p.2 with
  | .strs _ => p.1 == b "rt" || p.1 == b "if"
  | .str _ => p.1 == b "n"
  | _ => false

/-- api/oc_push.c:1528-1578: setting one of them. -/
def setCommon (r : Rs) (p : Bytes × Val) : Rs :=
  match p.2 with
  | .strs l =>
    if p.1 = b "rt" then { r with types := arrCopy l }
    else if p.1 = b "if" then { r with ifaces := l.foldl (fun m i => m ||| ifaceMask i) 0 }
    else r
  | .str v => if p.1 = b "n" then { r with name := v } else r
  | _ => r

/-- api/oc_push.c:1585-1624: the payload is kept and the resource can be discovered from now
on. -/
def keep (uri : Bytes) (rest : Rep) (s : St) : Out (St × Ans) :=
  (findRep s.rscs uri s.reps).bind fun
    | none => .ok (s, .notFound)
    | some p =>
      let s' := { s with reps := s.reps.map fun q => if q.rsc = p.rsc then { q with rep := copyRep rest } else q }
      match rest with
      | [] => .ok (s', .internal)
      | _ :: _ => .ok ({ s' with rscs := s'.rscs.map fun q => if q.id = p.rsc then { q with disc := true } else q }, .changed)

/-- api/oc_push.c:1483-1627 `post_pushd_rsc`, with the choice of the resource by its path. -/
def push (uri : Bytes) (rep : Rep) (s : St) : Out (St × Ans) :=
  match findApp s.rscs uri with
  | none => .ok (s, .notFound)
  | some r =>
    if r.pushed = false then .ok (s, .app)
    else
      match findRecv s.recvs r.uri with
      | none => .ok (s, .silent)
      | some rv =>
        if checkRt rv.rts rep then
          keep r.uri (rep.filter fun p => !common p)
            { s with rscs := s.rscs.map fun q => if q.id = r.id then rep.foldl setCommon q else q }
        else .ok (s, .forbidden)

/-- api/oc_push.c:1078-1117 `get_pushd_rsc`, with the choice of the resource by its path;
`shown`: over one of the interfaces that show the contents (without the common properties of
the baseline interface). -/
def get (uri : Bytes) (shown : Bool) (s : St) : Out (Ans × Rep) :=
  match findApp s.rscs uri with
  | none => .ok (.notFound, [])
  | some r =>
    if r.pushed = false then .ok (.app, [])
    else
      (findRep s.rscs r.uri s.reps).bind fun
        | none => .ok (.silent, [])
        | some p =>
          match p.rep with
          | [] => .ok (.notFound, [])
          | _ :: _ => .ok (.ok, if shown then showRep p.rep else [])

/-- The requests of clients. -/
inductive Op where
  | post (q : Option Bytes) (rep : Rep)
  | delete (q : Option Bytes)
  | push (uri : Bytes) (rep : Rep)
  | get (uri : Bytes)

/-- One request. -/
def step (taken : Bytes → Bool) (s : St) : Op → Out (St × Ans × Rep)
  | .post q rep => (post taken q rep s).bind fun x => .ok (x.1, x.2, [])
  | .delete q => (delete q s).bind fun x => .ok (x.1, x.2, [])
  | .push uri rep => (push uri rep s).bind fun x => .ok (x.1, x.2, [])
  | .get uri => (get uri true s).bind fun x => .ok (s, x.1, x.2)

/-- A history, with the answers. -/
def run (taken : Bytes → Bool) (s : St) : List Op → Out (St × List (Ans × Rep))
  | [] => .ok (s, [])
  | o :: os => (step taken s o).bind fun x => (run taken x.1 os).bind fun y => .ok (y.1, x.2 :: y.2)

end Verif.PushRecv
