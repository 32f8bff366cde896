import Verif.Json.Model
import Verif.Dec

/-!
Model of the JSON encoder behind the `oc_rep_*` interface.

* api/oc_rep_encode_json.c
* api/oc_rep_encode.c (conversion of pointers and offsets, reallocation and retry)

An encoder (`CborEncoder`) is represented by the bytes written before its
position, so writing through it is appending.  The encoders are used as the macros
of include/oc_rep.h use them: while a container is open only its own encoder is
used (the stack of encoders below, innermost first).  The state `end == NULL`, in
which only the missing bytes are counted, is `over`.  `realloc` itself succeeds.
-/

namespace Verif.Json

open Verif.Rep (b)

/-- A `CborEncoder`: the bytes written before `data.ptr`, `data.bytes_needed` if
`end == NULL`, and the flags `KeyType`, `ValueType`, `ArrayType`, `MapType`
(api/oc_rep_encode_json.c:30-35). -/
structure Sub where
  out : List UInt8 := []
  over : Option Nat := none
  key : Bool := false
  value : Bool := false
  array : Bool := false
  map : Bool := false

/-- `oc_rep_encoder_t` with its buffer (api/oc_rep_encode.c:91-117): the stack of
encoders, the size of the buffer, its maximal size, whether it may be
reallocated, and whether `g_err` is set. -/
structure Enc where
  stack : List Sub
  cap : Nat
  max : Nat
  grow : Bool
  err : Bool := false

/-- rep_json_would_overflow api/oc_rep_encode_json.c:49-57, for a buffer of `cap`
bytes (oc_rep_encoder_convert_offset_to_ptr api/oc_rep_encode.c:71-82 sets `end`
to the end of the buffer before each call). -/
def wouldOverflow (cap : Nat) (s : Sub) (len : Nat) : Bool :=
  let remaining : Int := match s.over with
    | none => (cap : Int) - s.out.length
    | some n => 0 - (n : Int)
  remaining - len < 0

/-- rep_json_append_to_buffer api/oc_rep_encode_json.c:59-76.  The copy in line 73
is undefined when it does not fit, or when there is no pointer any more. -/
def append (cap : Nat) (s : Sub) (l : List UInt8) : Out Sub :=
  if wouldOverflow cap s l.length then
    match s.over with
    | none => .ok { s with over := some (l.length - (cap - s.out.length)) }
    | some n => .ok { s with over := some (n + l.length) }
  else match s.over with
    | some _ => .ub
    | none => if s.out.length + l.length ≤ cap then .ok { s with out := s.out ++ l } else .ub

/-- The appends of one call, one after another (`err |= …`). -/
def appends (cap : Nat) : Sub → List (List UInt8) → Out Sub
  | s, [] => .ok s
  | s, l :: r => (append cap s l).bind fun s' => appends cap s' r

/-- rep_json_append_separator api/oc_rep_encode_json.c:78-97. -/
def separator (s : Sub) : List (List UInt8) :=
  if s.map then
    if s.key then [[58]] else if s.value then [[44]] else []
  else if s.array && !s.key && !s.value then []
  else if s.array then [[44]]
  else []

/-- Calls of the encoder interface (api/oc_rep_encode.c:458-939). -/
inductive Op where
  | null
  | bool (x : Bool)
  | int (i : Int)
  | uint (n : Nat)
  | text (s : List UInt8)
  | bytes (s : List UInt8)
  /-- the text `%f` gives for the number -/
  | dbl (t : List UInt8)
  | arr
  | map
  | close

/-- The text of a signed number (`PRId64`), api/oc_rep_encode_json.c:152. -/
def printInt (i : Int) : List UInt8 := if i < 0 then 45 :: dec i.natAbs else dec i.natAbs

/-- The checks before anything is written (`CborErrorImproperValue`,
`CborErrorDataTooLarge`, `CborErrorUnsupportedType`, `CborErrorUnexpectedEOF`):
api/oc_rep_encode_json.c:102, 120, 145-150, 168-173, 196, 244-251, 275, 295 and
api/oc_rep_encode_json_internal.h:32-34. -/
def refused (s : Sub) : Op → Bool
  | .null | .bool _ | .arr | .map => !s.key && s.map
  | .int i => (!s.key && s.map) || (i > 9007199254740992) || (i < -4503599627370497)
  | .uint n => (!s.key && s.map) || (n > 9007199254740992)
  | .text _ | .close => false
  | .bytes _ => true
  | .dbl t => (!s.key && s.map) || 320 ≤ t.length

/-- What is appended after the separator, api/oc_rep_encode_json.c:107-108, 126-132,
157, 180, 204-206, 253, 279, 299. -/
def body : Op → List (List UInt8)
  | .null => [b "null"]
  | .bool x => [if x then b "true" else b "false"]
  | .int i => [printInt i]
  | .uint n => [dec n]
  | .text s => [[34], s, [34]]
  | .dbl t => [t]
  | .arr => [[91]]
  | .map => [[123]]
  | .bytes _ | .close => []

/-- The flags after a value other than a text string, e.g.
api/oc_rep_encode_json.c:110-113. -/
def afterValue (s : Sub) : Sub := { s with key := false, value := true }

/-- The flags after a text string, api/oc_rep_encode_json.c:210-226. -/
def afterText (s : Sub) : Sub :=
  let s1 := if s.map then
      if s.key then { s with key := false, value := true }
      else if s.value then { s with value := false, key := true }
      else { s with key := true }
    else s
  if s1.array then { s1 with value := true } else s1

/-- rep_buffer_realloc api/oc_rep_encode.c:129-158: the new size of the buffer. -/
def bufRealloc (e : Enc) (needed : Nat) : Option Nat :=
  if !e.grow then none
  else if e.cap + needed > e.max then none
  else if 2 * (e.cap + needed) < e.max / 4 then some (e.cap + (needed + (e.cap + needed)))
  else some (e.cap + (e.max - e.cap))

/-- A call with retry after reallocation, e.g. oc_rep_encoder_write_null
api/oc_rep_encode.c:468-488: `s` is the encoder before the call, `l` the pieces it
appends.  The result is the encoder after the call and the size of the buffer;
the call has succeeded if the encoder is not in the state `over`. -/
def call (e : Enc) (s : Sub) (l : List (List UInt8)) : Out (Sub × Nat) :=
  (appends e.cap s l).bind fun s1 =>
    match s1.over with
    | none => .ok (s1, e.cap)
    | some n =>
      match bufRealloc e n with
      | none => .ok (s1, e.cap)
      | some c => (appends c s l).bind fun s2 => .ok (s2, c)

/-- rep_json_encoder_create_array, rep_json_encoder_create_map
api/oc_rep_encode_json.c:261-308: the encoder of the container and its parent,
from the encoder `s1` after the call. -/
def opened (isMap : Bool) (s1 : Sub) : List Sub :=
  match s1.over with
  | none => [{ out := s1.out, map := isMap, array := !isMap }, afterValue s1]
  | some _ => [s1, s1]

/-- The flags after a call other than opening and closing. -/
def after (s : Sub) : Op → Sub
  | .text _ => afterText s
  | _ => afterValue s

/-- One call.  A refused opening of a container leaves the container's encoder as
it was initialised (zero).  A refused or failed call sets `g_err`
(`g_err |= …` in include/oc_rep.h). -/
def step (e : Enc) (op : Op) : Out Enc :=
  match e.stack with
  | [] => .ok e
  | s :: rest =>
    match op with
    | .close =>
      -- rep_json_encoder_close_container api/oc_rep_encode_json.c:310-319
      match rest with
      | [] => .ok e
      | p :: rest' =>
        (call e { p with out := s.out, over := s.over } [if s.map then [125] else [93]]).bind fun r =>
          .ok { e with stack := r.1 :: rest', cap := r.2, err := e.err || r.1.over.isSome }
    | .arr =>
      if refused s .arr then .ok { e with stack := {} :: s :: rest, err := true }
      else (call e s (separator s ++ body .arr)).bind fun r =>
        .ok { e with stack := opened false r.1 ++ rest, cap := r.2, err := e.err || r.1.over.isSome }
    | .map =>
      if refused s .map then .ok { e with stack := {} :: s :: rest, err := true }
      else (call e s (separator s ++ body .map)).bind fun r =>
        .ok { e with stack := opened true r.1 ++ rest, cap := r.2, err := e.err || r.1.over.isSome }
    | op =>
      if refused s op then .ok { e with err := true }
      else (call e s (separator s ++ body op)).bind fun r =>
        match r.1.over with
        | none => .ok { e with stack := after r.1 op :: rest, cap := r.2 }
        | some _ => .ok { e with stack := r.1 :: rest, cap := r.2, err := true }

/-- A sequence of calls. -/
def run : Enc → List Op → Out Enc
  | e, [] => .ok e
  | e, op :: r => (step e op).bind fun e' => run e' r

/-- oc_rep_encoder_buffer_init and oc_rep_encoder_buffer_realloc_init
api/oc_rep_encode.c:91-117 for a buffer of `cap` bytes. -/
def init (cap max : Nat) (grow : Bool) : Enc := { stack := [{}], cap := cap, max := max, grow := grow }

/-- oc_rep_encoder_payload_size (and the buffer up to it),
api/oc_rep_encode.c:363-389: `none` is `-1`. -/
def payload (e : Enc) : Option (List UInt8) :=
  if e.err then none else match e.stack.getLast? with
    | some s => some s.out
    | none => none

end Verif.Json
