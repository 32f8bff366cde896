import Verif.Common
import Verif.Bytes
import Verif.Rep.Model

/-!
Model of the JSON decoder (`oc_rep_parse_json`) and of the tokenizer below it.

* util/jsmn/jsmn.c (`OC_JSON_ENCODER` builds)
* api/oc_rep_decode_json.c

Simplifications: the position in the text is represented by the bytes that are
still to be read, so reading past the end of the text cannot be expressed and is
excluded by the bounds checks of jsmn.c (`parser->pos < len`, lines 84, 123, 137,
180, 296), each of which appears here as the `[]` case of a match.  The text is
at most `INT_MAX` bytes long (positions are stored as `int`).  Allocation of
representation nodes, strings and arrays succeeds (`OC_DYNAMIC_ALLOCATION`).
The numeric error codes are not kept, only success or failure.
-/

namespace Verif.Json

open Verif.Rep (b)

/-- Types of the tokens handed to the callback (util/jsmn/jsmn_internal.h:
`jsmntype_t`). -/
inductive Kind where
  | obj | arr | str | prim
  deriving DecidableEq, Repr

/-- The characters that end a primitive, jsmn_parse_primitive
util/jsmn/jsmn.c:85-95. -/
def isDelim (c : UInt8) : Bool :=
  c == 58 || c == 9 || c == 13 || c == 10 || c == 32 || c == 44 || c == 93 || c == 125

/-- jsmn_parse_primitive util/jsmn/jsmn.c:77-115: the primitive that starts here
and the bytes after it; `none` is `JSMN_ERROR_INVAL`.  `char` is signed, so bytes
of 128 and more are below 32.  The callback is called by `feed`. -/
def scanPrim : List UInt8 → Option (List UInt8 × List UInt8)
  | [] => some ([], [])
  | c :: r =>
    if isDelim c then some ([], c :: r)
    else if c < 32 || 127 ≤ c then none
    else match scanPrim r with
      | some (s, q) => some (c :: s, q)
      | none => none

/-- Where `jsmn_parse_string` stands in a string: in plain text, after a
backslash (jsmn_parse_escaped_char util/jsmn/jsmn.c:134-165), or before at most
`n` more hexadecimal digits (jsmn_parse_hex_char util/jsmn/jsmn.c:117-132). -/
inductive StrSt where
  | plain | esc | hex (n : Nat)

/-- Result of `jsmn_parse_string`: the text between the quotes and the bytes after
the closing quote, or one of the errors (util/jsmn/jsmn.c:183-196). -/
inductive StrRes where
  | done (s rest : List UInt8)
  | fail
  deriving DecidableEq, Repr

/-- `isxdigit`, used by jsmn_parse_hex_char util/jsmn/jsmn.c:125. -/
def isHex (c : UInt8) : Bool :=
  (48 ≤ c && c ≤ 57) || (65 ≤ c && c ≤ 70) || (97 ≤ c && c ≤ 102)

/-- The characters allowed after a backslash, jsmn_parse_escaped_char
util/jsmn/jsmn.c:143-153. -/
def isEsc (c : UInt8) : Bool :=
  c == 34 || c == 47 || c == 92 || c == 98 || c == 102 || c == 114 || c == 110 || c == 116

/-- One plain character of a string, util/jsmn/jsmn.c:180-194: the state after it,
or `none` for the closing quote; a zero byte and errors are handled in `scanStr`. -/
def plainStep (c : UInt8) : Option StrSt :=
  if c == 34 then none else if c == 92 then some .esc else some .plain

/-- The step of the string automaton for one byte: `inl true` closing quote,
`inl false` error, `inr` the next state.  jsmn_parse_string,
jsmn_parse_escaped_char and jsmn_parse_hex_char util/jsmn/jsmn.c:117-197 merged
into one automaton.  A backslash as the last byte, and hexadecimal digits cut off
by the end or by a zero byte, lead to `JSMN_ERROR_PART` in the enclosing loop. -/
def strStep (st : StrSt) (c : UInt8) : Bool ⊕ StrSt :=
  match st with
  | .plain =>
    if c == 0 then .inl false
    else match plainStep c with
      | none => .inl true
      | some q => .inr q
  | .esc =>
    if isEsc c then .inr .plain
    else if c == 117 then .inr (.hex 4)
    else .inl false
  | .hex 0 =>
    if c == 0 then .inl false
    else match plainStep c with
      | none => .inl true
      | some q => .inr q
  | .hex (n + 1) =>
    if c == 0 then .inl false
    else if isHex c then .inr (.hex n)
    else .inl false

/-- jsmn_parse_string util/jsmn/jsmn.c:170-197, from the byte after the opening
quote.  `fail` stands for `JSMN_ERROR_INVAL` and `JSMN_ERROR_PART`. -/
def scanStr : StrSt → List UInt8 → StrRes
  | _, [] => .fail
  | st, c :: r =>
    match strStep st c with
    | .inl true => .done [] r
    | .inl false => .fail
    | .inr q =>
      match scanStr q r with
      | .done s rest => .done (c :: s) rest
      | .fail => .fail

/-- `jsmn_parser_t` and the token of the container being skipped
(util/jsmn/jsmn_internal.h, jsmn_parse util/jsmn/jsmn.c:290-294).  `cont` is
`parsing_container`; `isObj` and `start` are the type of the container and the
bytes from its first byte on. -/
structure Parser where
  cont : Bool := false
  depth : Nat := 0
  isObj : Bool := false
  start : List UInt8 := []

/-- jsmn_open_container util/jsmn/jsmn.c:199-208; `rest` are the bytes after the
bracket. -/
def openC (p : Parser) (isObj : Bool) (rest : List UInt8) : Parser :=
  if p.cont then { p with depth := p.depth + 1 }
  else { cont := true, depth := p.depth + 1, isObj := isObj, start := rest }

/-- jsmn_close_container util/jsmn/jsmn.c:210-232; `here` are the bytes from the
bracket on.  `none` is an error; otherwise the new parser and the token for the
callback, if the outermost container is complete.  The type and start of a
finished container are forgotten (they are overwritten before their next use,
lines 202-206). -/
def closeC (p : Parser) (isObj : Bool) (here : List UInt8) :
    Option (Parser × Option (Kind × List UInt8)) :=
  if !p.cont then none
  else if p.depth - 1 ≠ 0 then some ({ p with depth := p.depth - 1 }, none)
  else if p.isObj ≠ isObj then none
  else some ({}, some (if isObj then .obj else .arr,
    p.start.take (p.start.length - here.length)))

/-- White space, colon and comma, util/jsmn/jsmn.c:266-272. -/
def isSkip (c : UInt8) : Bool :=
  c == 9 || c == 13 || c == 10 || c == 32 || c == 58 || c == 44

/-- Tokens seen so far put in front of the tokens of the rest. -/
def prep (t : List (Kind × List UInt8)) (q : List (Kind × List UInt8) × Bool) :
    List (Kind × List UInt8) × Bool := (t ++ q.1, q.2)

/-- jsmn_parse and jsmn_parse_next_char util/jsmn/jsmn.c:234-311 without the
callback: the tokens for which the callback is called, in order, and whether the
text is accepted.  The callback cannot influence the tokenizer other than by
stopping it, see `feed`.  The first argument bounds the number of steps. -/
def scanF : Nat → Parser → List UInt8 → List (Kind × List UInt8) × Bool
  | 0, _, _ => ([], false)
  | _ + 1, p, [] => ([], p.depth == 0)
  | n + 1, p, c :: r =>
    if c == 0 then ([], p.depth == 0)
    else if c == 123 || c == 91 then scanF n (openC p (c == 123) r) r
    else if c == 125 || c == 93 then
      match closeC p (c == 125) (c :: r) with
      | none => ([], false)
      | some (p', t) => prep t.toList (scanF n p' r)
    else if c == 34 then
      match scanStr .plain r with
      | .fail => ([], false)
      | .done s r' => prep (if p.cont then [] else [(.str, s)]) (scanF n p r')
    else if isSkip c then scanF n p r
    else match scanPrim (c :: r) with
      | none => ([], false)
      | some (s, r') => prep (if p.cont then [] else [(.prim, s)]) (scanF n p r')

/-- `jsmn_parse` on a whole text (every step consumes a byte). -/
def scan (p : Parser) (s : List UInt8) : List (Kind × List UInt8) × Bool :=
  scanF (s.length + 1) p s

/-- The calls of the callback, util/jsmn/jsmn.c:110, 185, 228: the first call that
returns `false` ends the parsing with an error. -/
def feed {σ : Type} (cb : σ → Kind → List UInt8 → Out (Bool × σ)) :
    σ → List (Kind × List UInt8) → Out (Bool × σ)
  | d, [] => .ok (true, d)
  | d, (k, s) :: r =>
    match cb d k s with
    | .ub => .ub
    | .ok (false, d') => .ok (false, d')
    | .ok (true, d') => feed cb d' r

/-- jsmn_init and jsmn_parse util/jsmn/jsmn.c:289-319 with a callback: the number
of tokens, or `none` for a negative result, and the callback's data. -/
def jsmn {σ : Type} (cb : σ → Kind → List UInt8 → Out (Bool × σ)) (d : σ)
    (s : List UInt8) : Out (Option Nat × σ) :=
  match feed cb d (scan {} s).1 with
  | .ub => .ub
  | .ok (false, d') => .ok (none, d')
  | .ok (true, d') => .ok (if (scan {} s).2 then some (scan {} s).1.length else none, d')

/-- Values of `oc_rep_t` built by the decoder (include/oc_rep.h
`oc_rep_value_type_t`, `oc_rep_t`); `unknown` is `OC_REP_UNKNOWN_TYPE`
(api/oc_rep_decode_json.c:88).  A node is its name and its value; `next` links
are list order. -/
inductive Val where
  | nil
  | bool (x : Bool)
  | int (i : Int)
  | str (s : List UInt8)
  | bools (l : List Bool)
  | ints (l : List Int)
  | strs (l : List (List UInt8))
  | obj (l : List (Option (List UInt8) × Val))
  | objs (l : List (Option (List UInt8) × Val))
  | unknown

/-- A node of a representation (include/oc_rep.h `oc_rep_t`): name and value. -/
abbrev Node := Option (List UInt8) × Val

/-- `rep_data_t` api/oc_rep_decode_json.c:37-49: the nodes built so far (from
`root.rep` to `previous`), whether `cur` points to the last of them, and whether
`root.type` is `REP_ROOT_TYPE_EMPTY_ARRAY`.  `err` is nonzero exactly when a
function has returned `false`, so it is not kept. -/
structure Data where
  nodes : List Node := []
  cur : Bool := false
  empty : Bool := false

/-- The last node gets the value `v` (`data->cur->type = …`, `data->cur->value = …`). -/
def setLast (l : List Node) (v : Val) : List Node :=
  match l.getLast? with
  | some x => l.dropLast ++ [(x.1, v)]
  | none => []

/-- json_set_rep api/oc_rep_decode_json.c:59-86 together with the assignment of the
value and `data->cur = NULL` that follow it in every caller (222-223, 301, 342,
386, 442, 484 and 493).  `none` is `false`. -/
def setRep (d : Data) (v : Val) (emptyRoot : Bool) : Option Data :=
  if d.cur then
    match d.nodes.getLast? with
    | some (some _, _) => some { d with nodes := setLast d.nodes v, cur := false }
    | _ => none
  else some { nodes := d.nodes ++ [(none, v)], cur := false,
              empty := if d.nodes.isEmpty then emptyRoot else d.empty }

/-- json_parse_string api/oc_rep_decode_json.c:51-57 and 90-106. -/
def parseString (d : Data) (s : List UInt8) : Bool × Data :=
  if d.cur then
    match setRep d (.str s) false with
    | some d' => (true, d')
    | none => (false, d)
  else (true, { nodes := d.nodes ++ [(some s, .unknown)], cur := true,
                empty := if d.nodes.isEmpty then false else d.empty })

/-- json_parse_null api/oc_rep_decode_json.c:108-115. -/
def isNull (s : List UInt8) : Bool := s == b "null"

/-- json_parse_bool api/oc_rep_decode_json.c:117-139. -/
def parseBool (s : List UInt8) : Option Bool :=
  if s == b "true" then some true
  else if s == b "false" then some false
  else none

/-- A decimal digit (C library, `strtoll` base 10). -/
def isDig (c : UInt8) : Bool := 48 ≤ c && c ≤ 57

/-- The digits `strtoll` reads (C11 §7.22.1.4). -/
def digits (s : List UInt8) : List UInt8 := s.takeWhile isDig

/-- The value of decimal digits (C11 §7.22.1.4). -/
def digitsVal (s : List UInt8) : Nat := s.foldl (fun a c => 10 * a + (c.toNat - 48)) 0

/-- The optional sign `strtoll` reads (C11 §7.22.1.4): whether it is a minus sign,
and the bytes after it. -/
def sign : List UInt8 → Bool × List UInt8
  | [] => (false, [])
  | c :: r => if c == 45 then (true, r) else if c == 43 then (false, r) else (false, c :: r)

/-- A number with its sign. -/
def signed (neg : Bool) (n : Nat) : Int := if neg then - (n : Int) else n

/-- `strtoll (s, &eptr, 10)` followed by the test of `errno` and `eptr`
(api/oc_rep_decode_json.c:149-154); leading white space cannot occur in a
primitive.  `none`: no digits, or out of range of `int64_t`. -/
def strtoll (s : List UInt8) : Option Int :=
  if (digits (sign s).2).isEmpty then none
  else if -9223372036854775808 ≤ signed (sign s).1 (digitsVal (digits (sign s).2)) ∧
      signed (sign s).1 (digitsVal (digits (sign s).2)) ≤ 9223372036854775807 then
    some (signed (sign s).1 (digitsVal (digits (sign s).2)))
  else none

/-- json_parse_int api/oc_rep_decode_json.c:141-159. -/
def parseInt (s : List UInt8) : Option Int := strtoll (s.take 31)

/-- The value of a primitive, json_parse_primitive
api/oc_rep_decode_json.c:169-181. -/
def primVal (s : List UInt8) : Option Val :=
  if isNull s then some .nil
  else match parseBool s with
    | some x => some (.bool x)
    | none =>
      match parseInt s with
      | some i => some (.int i)
      | none => none

/-- json_parse_primitive api/oc_rep_decode_json.c:161-184. -/
def parsePrim (d : Data) (s : List UInt8) : Bool × Data :=
  if d.cur then
    match primVal s with
    | some v => (true, { d with nodes := setLast d.nodes v, cur := false })
    | none => (false, d)
  else (false, d)

/-- json_parse_object api/oc_rep_decode_json.c:189-225; `tok` is
`json_parse_token` for the tokens inside. -/
def parseObj (tok : Data → Kind → List UInt8 → Out (Bool × Data)) (d : Data)
    (s : List UInt8) : Out (Bool × Data) :=
  match jsmn tok {} s with
  | .ub => .ub
  | .ok (none, _) => .ok (false, d)
  | .ok (some _, o) =>
    match o.nodes with
    | (none, _) :: _ => .ok (false, d)
    | (some _, .unknown) :: _ => .ok (false, d)
    | _ =>
      match setRep d (.obj o.nodes) false with
      | some d' => .ok (true, d')
      | none => .ok (false, d)

/-- Element types found by `json_scan_array_type` (api/oc_rep_decode_json.c:234-259). -/
inductive Elem where
  | nil | bool | int | str | obj | arr
  deriving DecidableEq, Repr

/-- The type of one element, api/oc_rep_decode_json.c:238-259. -/
def elemType : Kind → List UInt8 → Option Elem
  | .prim, s =>
    if isNull s then some .nil
    else if (parseBool s).isSome then some .bool
    else if (parseInt s).isSome then some .int
    else none
  | .str, _ => some .str
  | .obj, _ => some .obj
  | .arr, _ => some .arr

/-- json_scan_array_type api/oc_rep_decode_json.c:234-269. -/
def scanType (a : Option Elem × Nat) (k : Kind) (s : List UInt8) :
    Out (Bool × (Option Elem × Nat)) :=
  match elemType k s with
  | none => .ok (false, a)
  | some t =>
    match a.1 with
    | none => .ok (true, some t, a.2 + 1)
    | some u => if u = t then .ok (true, some u, a.2 + 1) else .ok (false, a)

/-- json_assign_array_bool_values api/oc_rep_decode_json.c:278-292 for an array of
`size` elements: the values stored so far. -/
def assignBool (size : Nat) (l : List Bool) (k : Kind) (s : List UInt8) :
    Out (Bool × List Bool) :=
  if k ≠ .prim then .ub
  else match parseBool s with
    | none => .ok (false, l)
    | some x => if l.length < size then .ok (true, l ++ [x]) else .ub

/-- json_assign_array_int_values api/oc_rep_decode_json.c:319-333. -/
def assignInt (size : Nat) (l : List Int) (k : Kind) (s : List UInt8) :
    Out (Bool × List Int) :=
  if k ≠ .prim then .ub
  else match parseInt s with
    | none => .ok (false, l)
    | some x => if l.length < size then .ok (true, l ++ [x]) else .ub

/-- `STRING_ARRAY_ITEM_MAX_LEN` of include/oc_helpers.h:190. -/
def itemMax : Nat := 128

/-- json_assign_array_string_values api/oc_rep_decode_json.c:360-377. -/
def assignStr (size : Nat) (l : List (List UInt8)) (k : Kind) (s : List UInt8) :
    Out (Bool × List (List UInt8)) :=
  if k ≠ .str then .ub
  else if l.length < size then .ok (true, l ++ [s.take (itemMax - 1)]) else .ub

/-- json_assign_array_object_values api/oc_rep_decode_json.c:404-412. -/
def assignObj (tok : Data → Kind → List UInt8 → Out (Bool × Data)) (d : Data) (k : Kind)
    (s : List UInt8) : Out (Bool × Data) :=
  if k ≠ .obj then .ub else parseObj tok d s

/-- json_parse_array_bool, json_parse_array_int and json_parse_array_string
api/oc_rep_decode_json.c:294-317, 335-358, 379-402: the array has room for `size`
elements; reading it with fewer stored would read uninitialised memory. -/
def fill {α : Type} (mk : List α → Val)
    (cb : List α → Kind → List UInt8 → Out (Bool × List α)) (size : Nat) (d : Data)
    (s : List UInt8) : Out (Bool × Data) :=
  match jsmn cb [] s with
  | .ub => .ub
  | .ok (none, _) => .ok (false, d)
  | .ok (some _, l) =>
    if l.length ≠ size then .ub
    else match setRep d (mk l) false with
      | some d' => .ok (true, d')
      | none => .ok (false, d)

/-- json_parse_array_object api/oc_rep_decode_json.c:414-444 and the assignment of
`data->cur` in line 493.  When the parsing of the elements fails, the function
returns the (nonzero) error code as a `bool`, that is `true`, lines 432-438. -/
def fillObj (tok : Data → Kind → List UInt8 → Out (Bool × Data)) (d : Data)
    (s : List UInt8) : Out (Bool × Data) :=
  match jsmn (assignObj tok) {} s with
  | .ub => .ub
  | .ok (none, _) => .ok (true, { d with cur := false })
  | .ok (some 0, _) => .ok (true, { d with cur := false })
  | .ok (some (_ + 1), o) =>
    match setRep d (.objs o.nodes) false with
    | some d' => .ok (true, d')
    | none => .ok (false, d)

/-- json_parse_array api/oc_rep_decode_json.c:449-495. -/
def parseArr (tok : Data → Kind → List UInt8 → Out (Bool × Data)) (d : Data)
    (s : List UInt8) : Out (Bool × Data) :=
  match jsmn scanType (none, 0) s with
  | .ub => .ub
  | .ok (none, _) => .ok (false, d)
  | .ok (some _, t, size) =>
    match t with
    | some .arr => .ok (false, d)
    | some .bool => fill .bools (assignBool size) size d s
    | some .int => fill .ints (assignInt size) size d s
    | some .str => fill .strs (assignStr size) size d s
    | some .obj => fillObj tok d s
    | _ =>
      match setRep d .nil true with
      | some d' => .ok (true, d')
      | none => .ok (false, d)

/-- json_parse_token api/oc_rep_decode_json.c:497-516.  The first argument bounds
the depth of the recursion; that it is never exhausted is part of the theorem
`decode_safe_partial`. -/
def parseTok : Nat → Data → Kind → List UInt8 → Out (Bool × Data)
  | 0, _, _, _ => .ub
  | n + 1, d, k, s =>
    match k with
    | .prim => .ok (parsePrim d s)
    | .str => .ok (parseString d s)
    | .arr => parseArr (parseTok n) d s
    | .obj => parseObj (parseTok n) d s

/-- Results of `oc_rep_parse_json` (api/oc_rep_decode_json.c:518-557,
api/oc_rep_internal.h `oc_rep_parse_result_t`). -/
inductive Result where
  | error
  | emptyArray
  | rep (l : List Node)

/-- The result from the root nodes, api/oc_rep_decode_json.c:540-555. -/
def finish (d : Data) : Out Result :=
  if d.empty then .ok .emptyArray
  else match d.nodes with
    | [] => .ub
    | [(none, .obj l)] => .ok (.rep l)
    | [(none, .objs l)] => .ok (.rep l)
    | l => .ok (.rep l)

/-- oc_rep_parse_json api/oc_rep_decode_json.c:518-557. -/
def decode (s : List UInt8) : Out Result :=
  match jsmn (parseTok (s.length + 1)) {} s with
  | .ub => .ub
  | .ok (none, _) => .ok .error
  | .ok (some 0, _) => .ok .error
  | .ok (some (_ + 1), d) => finish d

end Verif.Json
