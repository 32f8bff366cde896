import Verif.Rep.Model
import Verif.Query.Model
import Verif.Base64.Model

/-!
Model of api/oc_etag.c: generation of ETags, their storage, and incremental change
queries; and of the part of api/oc_ri.c that answers 2.03 Valid.

`uint64_t` values are naturals, wrapped where the code adds. The payload of a
resource is a value of an arbitrary type `κ`; `crc` is its checksum
(`oc_resource_get_crc64`, :610-672), `none` if there is no payload or no handler.
-/

namespace Verif.Etag

open Verif.Rep (Bytes Rep Val b)

/-- A reading of the clock and a random number (`oc_clock_time`,
`oc_random_value`). -/
abbrev Tick := Nat × BitVec 32

/-- Number of `uint64_t` values. -/
def word : Nat := 2 ^ 64

/-- oc_etag.c:67-71 `etag_random`. -/
def random (v : BitVec 32) : Nat := v.toNat % 1000 + 1

/-- oc_etag.c:79-90 `oc_etag_set_global`: the value stored (and returned);
`OC_ETAG_UNINITIALIZED` is 0 (oc_etag_internal.h:37). -/
def setGlobal (etag : Nat) : Nat := if etag = 0 then 1 else etag

/-- oc_etag.c:92-102 `oc_etag_get`: the new value of `g_etag`, which is returned. -/
def get (g : Nat) (t : Tick) : Nat :=
  let etag := if t.1 > g then t.1 else g
  setGlobal ((etag + random t.2) % word)

/-- The values of consecutive calls of `oc_etag_get`. -/
def gets : Nat → List Tick → List Nat
  | _, [] => []
  | g, t :: l => get g t :: gets (get g t) l

/-! ### Resources -/

/-- The file a resource belongs to: none, the file of the platform's resources
(`etag_platform`, oc_etag_internal.h:92), or the one of a device (`etag`, :90). -/
abbrev Group := Option Nat

/-- A resource is known to clients by its device and path. -/
abbrev Key := Group × Bytes

/-- The fields of `oc_resource_t` used here, and the payload of a GET. -/
structure Res (κ : Type) where
  grp : Group
  uri : Bytes
  etag : Nat
  content : κ
  deriving DecidableEq

/-- The name of a resource. -/
def Res.key {κ : Type} (r : Res κ) : Key := (r.grp, r.uri)

/-- `g_etag` (oc_etag.c:65). The other fields are not part of the code: whether an
addition has overflowed, and the ETags given to the resources with the payload
they stand for. -/
structure G (κ : Type) where
  g : Nat
  wrapped : Bool
  own : List (Key × Nat × κ)

/-- oc_etag.c:92-102 `oc_etag_get` on the state. -/
def G.get {κ : Type} (s : G κ) (t : Tick) : G κ :=
  let etag := if t.1 > s.g then t.1 else s.g
  { s with g := Etag.get s.g t, wrapped := s.wrapped || decide (word ≤ etag + random t.2) }

/-- oc_etag.c:715-719 `oc_resource_update_etag`, also :434, :682,
oc_server_api.c:358 and oc_core_res.c:553. -/
def assign {κ : Type} (s : G κ) (r : Res κ) (t : Tick) : G κ × Res κ :=
  let s := s.get t
  ({ s with own := (r.key, s.g, r.content) :: s.own }, { r with etag := s.g })

/-- A pass over the resources that gives a new ETag to those selected, in order;
`k` counts the calls. -/
def assignAll {κ : Type} (sel : Res κ → Bool) (inp : Nat → Tick) :
    Nat → G κ → List (Res κ) → Nat × G κ × List (Res κ)
  | k, s, [] => (k, s, [])
  | k, s, r :: l =>
    if sel r then
      let a := assign s r (inp k)
      let y := assignAll sel inp (k + 1) a.1 l
      (y.1, y.2.1, a.2 :: y.2.2)
    else
      let y := assignAll sel inp k s l
      (y.1, y.2.1, r :: y.2.2)

/-- A `uint64_t` encoded as a CBOR unsigned integer and read back as `int64_t`
(oc_etag.c:253, :255; `cbor_value_get_int64` does not check the range,
oc_rep_decode.c:306; tinycbor is not part of the repository). -/
def toI64 (n : Nat) : Int := (BitVec.ofNat 64 n).toInt

/-- The conversion back (oc_etag.c:353, :360). -/
def ofI64 (i : Int) : Nat := (BitVec.ofInt 64 i).toNat

/-- oc_etag.c:211-228 `oc_etag_dump_ignore_resource`. -/
def ignored (uri : Bytes) : Bool :=
  uri == b "/.well-known/core" || uri == b ".well-known/core" || uri == b "/oic/sec/csr"

/-- oc_etag.c:230-279: the entry of one resource, if it gets one. -/
def encodeRes {κ : Type} (crc : κ → Option Nat) (r : Res κ) : Option (Bytes × Val) :=
  if ignored r.uri then none
  else if r.etag = 0 then none
  else
    match crc r.content with
    | none => none
    | some c => some (r.uri, .obj [(b "etag", .int (toI64 r.etag)), (b "crc", .int (toI64 c))])

/-- oc_etag.c:286-297 `etag_store_encode`: the representation written for a group
of resources. -/
def encodeGroup {κ : Type} (crc : κ → Option Nat) (grp : Group) (l : List (Res κ)) : Rep :=
  (l.filter fun r => r.grp == grp).filterMap (encodeRes crc)

/-- oc_etag.c:327-362 `oc_etag_decode_resource_etag` with the lookup :376. The
getters never misread a value (`Verif.Rep.getInt_spec`), so that outcome is not
kept apart here. -/
def readEtag {κ : Type} (crc : κ → Option Nat) (rep : Rep) (r : Res κ) : Option Nat :=
  match Rep.getObject rep r.uri with
  | .ok (some o) =>
    match Rep.getInt o (b "etag"), Rep.getInt o (b "crc") with
    | .ok (some e), .ok (some c) =>
      if e = 0 then none
      else
        match crc r.content with
        | none => none
        | some x => if ofI64 c = x then some (ofI64 e) else none
    | _, _ => none
  | _ => none

/-- oc_etag.c:371-396, :413-427: the resources of a group are compared with the
representation; the largest ETag found, and the resources. -/
def loadGroup {κ : Type} (crc : κ → Option Nat) (grp : Group) (upd : Bool) (rep : Rep) :
    Nat → List (Res κ) → Nat × List (Res κ)
  | m, [] => (m, [])
  | m, r :: l =>
    match (if r.grp = grp then readEtag crc rep r else none) with
    | none =>
      let y := loadGroup crc grp upd rep m l
      (y.1, r :: y.2)
    | some e =>
      let y := loadGroup crc grp upd rep (if e > m then e else m) l
      (y.1, (if upd then { r with etag := e } else r) :: y.2)

/-- The state: the generator, the resources in the order of
`oc_resources_iterate`, the files, and the number of devices. `floor` is not part
of the code: the largest value of `g_etag` before the last restart. -/
structure St (κ : Type) where
  gen : G κ
  res : List (Res κ)
  store : Group → Option Rep
  ndev : Nat
  floor : Nat

/-- oc_etag.c:457-461, :471-475: the ETags of a group are cleared. -/
def clearGroup {κ : Type} (grp : Group) (l : List (Res κ)) : List (Res κ) :=
  l.map fun r => if r.grp = grp then { r with etag := 0 } else r

/-- oc_etag.c:457-485 for one group: clearing (unless only the storage is read)
and loading. `can`: the device is in RFNOP (:439-448; always true for the
platform). -/
def loadStep {κ : Type} (crc : κ → Option Nat) (store : Group → Option Rep) (fso : Bool)
    (can : Group → Bool) (m : Nat) (l : List (Res κ)) (grp : Group) : Nat × List (Res κ) :=
  let l := if !fso && can grp then clearGroup grp l else l
  match store grp with
  | none => (m, l)
  | some rep => loadGroup crc grp (can grp) rep m l

/-- The groups in the order they are visited: the platform, then the devices. -/
def groups (n : Nat) : List Group := none :: (List.range n).map some

/-- oc_etag.c:457-485: all groups. -/
def loadAll {κ : Type} (crc : κ → Option Nat) (store : Group → Option Rep) (fso : Bool)
    (can : Group → Bool) : List Group → Nat → List (Res κ) → Nat × List (Res κ)
  | [], m, l => (m, l)
  | grp :: gs, m, l =>
    let y := loadStep crc store fso can m l grp
    loadAll crc store fso can gs y.1 y.2

/-- oc_etag.c:490-503: resources without ETag get one. -/
def fillAll {κ : Type} (can : Group → Bool) (inp : Nat → Tick) :
    List Group → Nat → G κ → List (Res κ) → G κ × List (Res κ)
  | [], _, s, l => (s, l)
  | grp :: gs, k, s, l =>
    if can grp then
      let y := assignAll (fun r => r.grp == grp && r.etag == 0) inp k s l
      fillAll can inp gs y.1 y.2.1 y.2.2
    else fillAll can inp gs k s l

/-- oc_etag.c:486-487: the global ETag after loading. -/
def bump {κ : Type} (s : G κ) (m : Nat) (v : BitVec 32) : G κ :=
  { s with g := setGlobal ((m + random v) % word), wrapped := s.wrapped || decide (word ≤ m + random v) }

/-- oc_etag.c:439-448 `etag_can_update_device`; the platform's resources are always
updated (:462). -/
def canGroup (can : Nat → Bool) : Group → Bool
  | none => true
  | some d => can d

/-- oc_etag.c:450-505 `oc_etag_load_from_storage`. -/
def load {κ : Type} (crc : κ → Option Nat) (fso : Bool) (can : Nat → Bool) (t : Tick) (v : BitVec 32)
    (inp : Nat → Tick) (s : St κ) : St κ :=
  let gen := s.gen.get t
  let y := loadAll crc s.store fso (canGroup can) (groups s.ndev) gen.g s.res
  let gen := bump gen y.1 v
  if fso then { s with gen := gen, res := y.2 }
  else
    let z := fillAll (canGroup can) inp (groups s.ndev) 0 gen y.2
    { s with gen := z.1, res := z.2 }

/-- A resource's name as the API accepts it: a C string that is not empty and
shorter than `OC_MAX_STRING_LENGTH`. -/
def uriOk (uri : Bytes) : Bool := uri.length != 0 && decide (uri.length < 4096) && !uri.contains 0

/-- oc_etag.c:194-209 `oc_etag_clear_storage`. -/
def clearStore (n : Nat) (store : Group → Option Rep) : Group → Option Rep :=
  fun g => if g ∈ groups n then none else store g

/-- What can happen. -/
inductive Op (κ : Type) where
  /-- a resource is created (oc_server_api.c:362-395, oc_core_res.c:553); a path in
  use is refused (oc_ri.c:664-668) -/
  | add (grp : Group) (uri : Bytes) (c : κ) (t : Tick)
  /-- a resource is deleted -/
  | remove (k : Key)
  /-- the payload changes and `oc_notify_resource_changed` is called at once
  (oc_server_api.c:771-788, oc_collection.c:162-167) -/
  | change (k : Key) (c : κ) (t : Tick)
  /-- the payload changes; the notification is still pending
  (`oc_notify_resource_changed_delayed_ms`, oc_ri.c:1194) -/
  | modify (k : Key) (c : κ)
  /-- the pending notification (oc_server_api.c:790-803) -/
  | notify (k : Key) (t : Tick)
  /-- `oc_etag_dump` (:312-325), with the files that could be written -/
  | dump (ok : Group → Bool)
  /-- `oc_etag_clear_storage` -/
  | clearStorage
  /-- `oc_etag_load_from_storage`; with `oc_etag_clear_storage` it is
  `oc_etag_load_and_clear` (:507-513) -/
  | load (fso : Bool) (can : Nat → Bool) (t : Tick) (v : BitVec 32) (inp : Nat → Tick)
  /-- `oc_etag_on_reset` (:686-695) -/
  | reset (d : Nat) (inp : Nat → Tick)
  /-- the process ends and starts again: memory is lost, files remain -/
  | restart

/-- A pass that gives the resource with a name a new payload and ETag. -/
def changeAll {κ : Type} (k : Key) (c : κ) (t : Tick) (s : G κ) (l : List (Res κ)) : G κ × List (Res κ) :=
  let y := assignAll (fun r => r.key == k) (fun _ => t) 0 s
    (l.map fun r => if r.key = k then { r with content := c } else r)
  (y.2.1, y.2.2)

/-- One operation. -/
def step {κ : Type} (crc : κ → Option Nat) (s : St κ) : Op κ → St κ
  | .add grp uri c t =>
    if uriOk uri && !(s.res.any fun r => r.key == (grp, uri)) then
      let a := assign s.gen ⟨grp, uri, 0, c⟩ t
      { s with gen := a.1, res := s.res ++ [a.2] }
    else s
  | .remove k => { s with res := s.res.filter fun r => r.key != k }
  | .change k c t =>
    let y := changeAll k c t s.gen s.res
    { s with gen := y.1, res := y.2 }
  | .modify k c => { s with res := s.res.map fun r => if r.key = k then { r with content := c } else r }
  | .notify k t =>
    let y := assignAll (fun r => r.key == k) (fun _ => t) 0 s.gen s.res
    { s with gen := y.2.1, res := y.2.2 }
  | .dump ok =>
    { s with store := fun g => if g ∈ groups s.ndev ∧ ok g then some (encodeGroup crc g s.res) else s.store g }
  | .clearStorage => { s with store := clearStore s.ndev s.store }
  | .load fso can t v inp => load crc fso can t v inp s
  | .reset d inp =>
    let y := assignAll (fun r => r.grp == some d) inp 0 s.gen s.res
    { s with gen := y.2.1, res := y.2.2, store := fun g => if g = some d then none else s.store g }
  | .restart =>
    { s with gen := { s.gen with g := 0 }, res := [], floor := if s.gen.g > s.floor then s.gen.g else s.floor }

/-- A history. -/
def run {κ : Type} (crc : κ → Option Nat) : St κ → List (Op κ) → St κ
  | s, [] => s
  | s, o :: l => run crc (step crc s o) l

/-- The first start of the process with `n` devices. -/
def init (κ : Type) (n : Nat) : St κ := ⟨⟨0, false, []⟩, [], fun _ => none, n, 0⟩

/-! ### Requests with an ETag -/

/-- The object representation of a `uint64_t` on a little-endian machine. -/
def le64 (n : Nat) : Bytes := (List.range 8).map fun i => UInt8.ofNat (n / 256 ^ i)

/-- `memcpy` into a `uint64_t` on a little-endian machine. -/
def ofLe64 (l : Bytes) : Nat := l.foldr (fun x n => x.toNat + 256 * n) 0

/-- api/oc_ri.c:1666-1688: for a GET of a resource without batch interface, the
answer is 2.03 Valid (`BITMASK_CODE_NOT_MODIFIED`), and the ETag of the response. -/
def serve {κ : Type} (r : Res κ) (reqEtag : Bytes) : Bool × Option Bytes :=
  if r.etag = 0 then (false, none)
  else (reqEtag.length == 8 && ofLe64 reqEtag == r.etag, some (le64 r.etag))

/-! ### Incremental changes -/

/-- oc_etag_internal.h:56 -/
def incKey : Bytes := b "incChanges"

/-- oc_etag.c:114-137: one item; `none` if it is skipped. -/
def incValue (item : Bytes) : Out (Option Nat) :=
  (Base64.decode .url false item 12).bind fun r =>
    match r with
    | none => .ok none
    | some l => .ok (if l.length = 8 then some (ofLe64 l) else none)

/-- oc_etag.c:139-164: the items between commas, empty ones skipped. -/
def incValues : Nat → Bytes → Out (List Nat)
  | 0, _ => .ok []
  | _ + 1, [] => .ok []
  | fuel + 1, c :: l =>
    if c = 44 then incValues fuel l
    else
      (incValue ((c :: l).takeWhile (· != 44))).bind fun r =>
      (incValues fuel ((c :: l).dropWhile (· != 44))).bind fun t =>
        .ok (r.toList ++ t)

/-- oc_etag.c:166-188 `oc_etag_iterate_incremental_updates_query` with a callback
that never stops the iteration: the ETags it is called with. For a key without
value the pointer `value` is null and the subtraction :180 is undefined. -/
def incQuery : Nat → Bytes → Nat → Out (List Nat)
  | 0, _, _ => .ok []
  | fuel + 1, q, pos =>
    if pos < q.length then
      match Query.getValue (q.drop pos) incKey with
      | none => .ok []
      | some (none, _) => .ub
      | some (some v, n) =>
        (incValues (n + 1) (slice q (pos + v) n)).bind fun r =>
        (incQuery fuel q (pos + v + n + 1)).bind fun t =>
          .ok (r ++ t)
    else .ok []

/-- The whole query. -/
def increments (q : Bytes) : Out (List Nat) := incQuery (q.length + 1) q 0

end Verif.Etag
