import Verif.Rep.Model
/-!
Model of the audit event log, `security/oc_ael.c`, for one device.  Memory
allocation and the storage are environment parameters.  CBOR coding is not
modelled: what is stored is the representation.
-/
namespace Verif.Ael
open Verif.Rep (Rep Val Bytes b)

/-- `sizeof(oc_sec_ael_event_t)` and `sizeof(char *)`, oc_ael.c:452, :461. -/
structure Abi where
  event : Nat
  ptr : Nat

/-- The range of `size_t`. -/
def word : Nat := 2 ^ 64

/-- `oc_sec_ael_event_t`, oc_ael_internal.h:42-52 (an absent text is empty). -/
structure Event where
  size : Nat
  cat : UInt8
  pri : UInt8
  ts : Nat
  aeid : Bytes
  msg : Bytes
  aux : List Bytes
  deriving DecidableEq, Repr

/-- `oc_sec_ael_t`, oc_ael_internal.h:86-94. -/
structure Ael where
  cat : UInt8
  pri : UInt8
  maxsize : Nat
  unit : Nat
  used : Nat
  events : List Event
  deriving DecidableEq, Repr

/-- The zeroed structure made by `oc_sec_ael_init`, oc_ael.c:116-128. -/
def Ael.zero : Ael := ⟨0, 0, 0, 0, 0, []⟩

/-- `oc_sec_ael_default` without the dump, oc_ael.c:142-151, with
`oc_sec_ael_reset` :392-401. -/
def Ael.default : Ael := ⟨0xFF, 4, 2048, 0, 0, []⟩

/-- The arguments of an event, oc_ael.c:403-407 (`none` is NULL; the texts are C
strings). -/
structure Arg where
  cat : UInt8
  pri : UInt8
  ts : Nat
  aeid : Option Bytes
  msg : Option Bytes
  aux : List Bytes
  deriving DecidableEq, Repr

/-- Allocations: of the event and of each additional text. -/
structure Mem where
  event : Bool
  aux : Nat → Bool

/-- Size of an optional C string, oc_ael.c:454-459. -/
def optSize : Option Bytes → Nat
  | none => 0
  | some s => s.length + 1

/-- `oc_sec_ael_calc_event_size`, oc_ael.c:448-467. -/
def calcSize (abi : Abi) (a : Arg) : Nat :=
  abi.event + optSize a.aeid + optSize a.msg + a.aux.length * abi.ptr +
    (a.aux.map fun s => s.length + 1).foldr (· + ·) 0

/-- The texts for which memory could be allocated, oc_ael.c:492-501. -/
def keepAux (mem : Nat → Bool) : Nat → List Bytes → List Bytes
  | _, [] => []
  | i, s :: l => if mem i then s :: keepAux mem (i + 1) l else keepAux mem (i + 1) l

/-- `oc_sec_ael_create_event`, oc_ael.c:469-507: the event that is appended. -/
def create (mem : Mem) (a : Arg) (size : Nat) : Option Event :=
  if mem.event then
    some ⟨size, a.cat, a.pri, a.ts, a.aeid.getD [], a.msg.getD [], keepAux mem.aux 0 a.aux⟩
  else none

/-- The loop deleting old events, oc_ael.c:424-429, with the additions and
subtractions of `size_t`. -/
def evict (sz max : Nat) : List Event → Nat → List Event × Nat
  | [], used => ([], used)
  | t :: l, used =>
    if (sz + used) % word > max then evict sz max l ((used + word - t.size) % word)
    else (t :: l, used)

/-- The filter, oc_ael.c:412. -/
def admits (s : Ael) (cat pri : UInt8) : Bool := !((s.cat &&& cat == 0) || decide (s.pri < pri))

/-- `oc_sec_ael_add_event` without the dump, oc_ael.c:403-446. -/
def addEvent (abi : Abi) (mem : Mem) (a : Arg) (s : Ael) : Bool × Ael :=
  if !admits s a.cat a.pri then (false, s)
  else
    let sz := calcSize abi a
    if sz > s.maxsize then (false, s)
    else
      let r := evict sz s.maxsize s.events s.used
      match create mem a sz with
      | none => (false, { s with events := r.1, used := r.2 })
      | some e => (true, { s with events := r.1 ++ [e], used := (r.2 + e.size) % word })

/-- `(uint8_t)value.integer`, oc_ael.c:296, :301, :341, :345. -/
def toU8 (i : Int) : UInt8 := UInt8.ofNat (i % 256).toNat
/-- `(size_t)value.integer` and the conversion to `oc_clock_time_t`, oc_ael.c:306,
:349. -/
def toWord (i : Int) : Nat := (i % (word : Int)).toNat
/-- A `uint64_t` encoded as an integer and decoded as `int64_t`, oc_ael.c:231, :256
(see `Verif.Etag.toI64`). -/
def toI64 (n : Nat) : Int := (BitVec.ofNat 64 n).toInt

/-- One property of the first loop of `oc_sec_ael_decode`, oc_ael.c:289-318. -/
def decodeInt (fromStorage : Bool) (p : Bytes × Val) (s : Ael) : Ael :=
  match p.2 with
  | .int i =>
    if p.1 = b "categoryfilter" then { s with cat := toU8 i }
    else if p.1 = b "priorityfilter" then { s with pri := toU8 i }
    else if fromStorage ∧ p.1 = b "maxspace" then { s with maxsize := toWord i }
    else if fromStorage ∧ p.1 = b "unit" then { s with unit := (i % 4294967296).toNat }
    else s
  | _ => s

/-- One property of a stored event, oc_ael.c:335-379.  More than
`AEL_AUX_INFO_MAX_ITEMS` (256) additional texts are written past the end of
`aux` (:334, :371). -/
def decodeProp (p : Bytes × Val) (a : Arg) : Out Arg :=
  match p.2 with
  | .int i =>
    if p.1 = b "category" then .ok { a with cat := toU8 i }
    else if p.1 = b "priority" then .ok { a with pri := toU8 i }
    else if p.1 = b "timestamp" then .ok { a with ts := toWord i }
    else .ok a
  | .str v =>
    if p.1 = b "aeid" then .ok { a with aeid := some (v.takeWhile (· != 0)) }
    else if p.1 = b "message" then .ok { a with msg := some (v.takeWhile (· != 0)) }
    else .ok a
  | .strs l =>
    if p.1 = b "auxiliaryinfo" then
      if l.length ≤ 256 then .ok { a with aux := l.map (·.takeWhile (· != 0)) } else .ub
    else .ok a
  | _ => .ok a

/-- The properties of a stored event, oc_ael.c:328-379. -/
def decodeArg : Rep → Arg → Out Arg
  | [], a => .ok a
  | p :: l, a => (decodeProp p a).bind (decodeArg l)

/-- The stored events of one array, oc_ael.c:326-382.  `mem k` are the allocations
of the `k`-th call. -/
def decodeEvents (abi : Abi) (mem : Nat → Mem) : Nat → List Rep → Ael → Out Ael
  | _, [], s => .ok s
  | k, r :: l, s =>
    (decodeArg r ⟨0, 0, 0, none, none, []⟩).bind fun a =>
      decodeEvents abi mem (k + 1) l (addEvent abi (mem k) a s).2

/-- The second loop of `oc_sec_ael_decode`, oc_ael.c:319-388.  (Simplification: the
allocations of a second array named "events" start again at `mem 0`.) -/
def decodeArrays (abi : Abi) (mem : Nat → Mem) (fromStorage : Bool) : Rep → Ael → Out Ael
  | [], s => .ok s
  | p :: l, s =>
    match p.2 with
    | .objs evs =>
      if fromStorage ∧ p.1 = b "events" then
        (decodeEvents abi mem 0 evs s).bind (decodeArrays abi mem fromStorage l)
      else decodeArrays abi mem fromStorage l s
    | _ => decodeArrays abi mem fromStorage l s

/-- `oc_sec_ael_decode`, oc_ael.c:284-390 (it always returns true). -/
def decode (abi : Abi) (mem : Nat → Mem) (fromStorage : Bool) (rep : Rep) (s : Ael) : Out Ael :=
  decodeArrays abi mem fromStorage rep (rep.foldl (fun s p => decodeInt fromStorage p s) s)

/-- One stored event, oc_ael.c:245-277 with `to_storage`.  An array without elements
is decoded as `arr`. -/
def encodeEvent (e : Event) : Rep :=
  [(b "category", .int e.cat.toNat), (b "priority", .int e.pri.toNat), (b "timestamp", .int (toI64 e.ts))] ++
  (if e.aeid = [] then [] else [(b "aeid", .str e.aeid)]) ++
  (if e.msg = [] then [] else [(b "message", .str e.msg)]) ++
  [(b "auxiliaryinfo", if e.aux = [] then .arr else .strs e.aux)]

/-- `oc_sec_ael_encode` with `to_storage`, oc_ael.c:212-282. -/
def encode (s : Ael) : Rep :=
  [(b "rt", .strs [b "oic.r.ael"]), (b "if", .strs [b "oic.if.baseline", b "oic.if.rw"]),
   (b "categoryfilter", .int s.cat.toNat), (b "priorityfilter", .int s.pri.toNat),
   (b "maxspace", .int (toI64 s.maxsize)), (b "unit", .int s.unit),
   (b "events", if s.events = [] then .arr else .objs (s.events.map encodeEvent))]

/-- `oc_sec_ael_max_space`, oc_ael.c:85-99: what a client is told. -/
def maxSpace (s : Ael) : Nat :=
  if s.unit = 0 then s.maxsize else if s.unit = 1 then s.maxsize / 1024 else 2048

/-- `oc_sec_ael_used_space`, oc_ael.c:100-114: the unit is that of device 0
(`ael->unit`, not `a->unit`). -/
def usedSpace (unit0 : Nat) (s : Ael) : Nat :=
  if unit0 = 0 then s.used else if unit0 = 1 then s.used / 1024 else 0

/-- The log in memory, the stored representation, and (not part of the code) the
events admitted since the log was last emptied. -/
structure St where
  ael : Ael
  store : Option Rep
  hist : List Event

/-- `oc_sec_dump_ael`, security/oc_store.c:471-501; `ok`: the encoder's buffer was
large enough and the file could be written. -/
def dump (ok : Bool) (s : St) : St := if ok then { s with store := some (encode s.ael) } else s

/-- What can happen. -/
inductive Op where
  /-- `oc_sec_ael_add`, oc_ael.c:155-162 -/
  | add (mem : Mem) (a : Arg) (saved : Bool)
  /-- `post_ael`, oc_ael.c:183-210; `rfnop`: the device is in normal operation;
  `iface`: the interface is baseline or rw -/
  | post (rfnop iface : Bool) (rep : Rep) (saved : Bool)
  /-- `oc_sec_ael_default` (oc_pstat.c:300, oc_security.c:148) -/
  | reset (saved : Bool)
  /-- the program ends and starts again: `oc_sec_ael_init` and `oc_sec_load_ael`
  (security/oc_store.c:442-469); `read`: the file could be read -/
  | restart (mem : Nat → Mem) (read : Bool)

/-- One operation. -/
def step (abi : Abi) (s : St) : Op → Out St
  | .add mem a saved =>
    let r := addEvent abi mem a s.ael
    if r.1 then
      .ok (dump saved ⟨r.2, s.store, s.hist ++ r.2.events.drop (r.2.events.length - 1)⟩)
    else .ok { s with ael := r.2 }
  | .post rfnop iface rep saved =>
    if rfnop ∨ ¬ iface then .ok s
    else (decode abi (fun _ => ⟨true, fun _ => true⟩) false rep s.ael).bind fun a =>
      .ok (dump saved { s with ael := a })
  | .reset saved => .ok (dump saved ⟨Ael.default, s.store, []⟩)
  | .restart mem read =>
    match s.store with
    | none => .ok ⟨Ael.zero, s.store, []⟩
    | some rep =>
      if read then (decode abi mem true rep Ael.zero).bind fun a => .ok ⟨a, s.store, a.events⟩
      else .ok ⟨Ael.zero, s.store, []⟩

/-- A history. -/
def run (abi : Abi) : St → List Op → Out St
  | s, [] => .ok s
  | s, o :: os => (step abi s o).bind fun s => run abi s os

end Verif.Ael
