import Verif.Common
import Verif.Bytes

/-!
Model of the CoAP option codec: option headers, integer options, array options
with splitting, and block options (messaging/coap/coap.c,
messaging/coap/options.c).

Conventions.  Writers return the pair of the byte count computed by the C code
and the bytes stored through `buffer`; the C functions run the same code with
`buffer == NULL` to learn the count only, which is the first component.
`unsigned int` subtraction wraps modulo 2^32.  `size_t` is not bounded.
-/

namespace Verif.Coap

/-- messaging/coap/coap.c:166-176 `coap_option_nibble`. -/
def optionNibble (value : Nat) : Nat :=
  if value < 13 then value
  else if value ≤ 0xFF + 13 then 13
  else 14

/-- messaging/coap/coap.c:188-202 (delta) and 204-218 (length): the extended
bytes of `coap_set_option_header`; both halves of the C function are the same
code. -/
def extBytes (v : Nat) : List UInt8 :=
  if v > 268 then
    [UInt8.ofNat (((v - 269) >>> 8) &&& 0xff), UInt8.ofNat ((v - 269) &&& 0xff)]
  else if v > 12 then [UInt8.ofNat (v - 13)]
  else []

/-- messaging/coap/coap.c:188-202 and 204-218: the counter `written` of
`coap_set_option_header`, which advances whether or not there is a buffer. -/
def extWritten (v : Nat) : Nat :=
  if v > 268 then 2 else if v > 12 then 1 else 0

/-- messaging/coap/coap.c:178-225 `coap_set_option_header`: returned count and
bytes written to `buffer`. -/
def setOptionHeader (delta length : Nat) : Nat × List UInt8 :=
  (extWritten delta + extWritten length + 1,
   UInt8.ofNat ((optionNibble delta <<< 4) ||| optionNibble length)
     :: (extBytes delta ++ extBytes length))

/-- messaging/coap/coap.c:152-164 `coap_parse_int_option`, `none` for -1. -/
def parseIntOption (bytes : List UInt8) : Option Nat :=
  if bytes.length > 4 then none
  else some (bytes.foldl (fun var b => ((var <<< 8) % 2^32) ||| b.toNat) 0)

/-- messaging/coap/coap.c:233-244: number of value bytes counted before the
header is written by `coap_serialize_int_option`. -/
def intOptionCount (value : Nat) : Nat :=
  (if 0xFF000000 &&& value ≠ 0 then 1 else 0)
  + (if 0xFFFF0000 &&& value ≠ 0 then 1 else 0)
  + (if 0xFFFFFF00 &&& value ≠ 0 then 1 else 0)
  + (if 0xFFFFFFFF &&& value ≠ 0 then 1 else 0)

/-- messaging/coap/coap.c:252-275: the value bytes written by
`coap_serialize_int_option`. -/
def intOptionBytes (value : Nat) : List UInt8 :=
  (if 0xFF000000 &&& value ≠ 0 then [UInt8.ofNat (value >>> 24)] else [])
  ++ (if 0xFFFF0000 &&& value ≠ 0 then [UInt8.ofNat (value >>> 16)] else [])
  ++ (if 0xFFFFFF00 &&& value ≠ 0 then [UInt8.ofNat (value >>> 8)] else [])
  ++ (if 0xFFFFFFFF &&& value ≠ 0 then [UInt8.ofNat value] else [])

/-- `number - current_number` on `unsigned int`, as used at
messaging/coap/coap.c:250, 293 and 322. -/
def optDelta (number current : Nat) : Nat := (number + 2^32 - current) % 2^32

/-- messaging/coap/coap.c:227-277 `coap_serialize_int_option`: returned count
and bytes written.  The second pass over the masks (252-275) advances `i` by
the same count as the first (233-244). -/
def serIntOption (number current value : Nat) : Nat × List UInt8 :=
  let h := setOptionHeader (optDelta number current) (intOptionCount value)
  (h.1 + intOptionCount value, h.2 ++ intOptionBytes value)

/-- messaging/coap/coap.c:312-343: the loop of `coap_serialize_array_option`
with a split character.  `mem` is the whole object `array` points into, from
`array` on; every `array[j]` is a checked access, also the one at `j == length`
and at `j == length + 1`.  The `memcpy` is checked too; in the `buffer == NULL`
pass the C code does not perform it, which can only make that pass safer. -/
def splitLoop (mem : List UInt8) (number length : Nat) (split : UInt8)
    (j partStart current i : Nat) (acc : List UInt8) : Out (Nat × List UInt8) :=
  if j ≤ length + 1 then do
    let c ← Out.get mem j
    if c = split ∨ j = length then do
      let tl := j - partStart
      let h := setOptionHeader (optDelta number current) tl
      let part ← sliceChk mem partStart tl
      splitLoop mem number length split (j + 2) (j + 1) number (i + h.1 + tl)
        (acc ++ h.2 ++ part)
    else
      splitLoop mem number length split (j + 1) partStart current i acc
  else .ok (i, acc)
termination_by length + 2 - j

/-- messaging/coap/coap.c:279-346 `coap_serialize_array_option`. -/
def serArrayOption (number current : Nat) (mem : List UInt8) (length : Nat)
    (split : UInt8) : Out (Nat × List UInt8) :=
  if split = 0 then do
    let h := setOptionHeader (optDelta number current) length
    let part ← sliceChk mem 0 length
    .ok (h.1 + length, h.2 ++ part)
  else splitLoop mem number length split 0 0 current 0 []

/-- messaging/coap/coap.c:1045-1054 (delta) and 1056-1065 (length): extended
bytes of an option header are read without any check of the end of the message.
Result: value and new position. -/
def readExt (mem : List UInt8) (nib pos : Nat) : Out (Nat × Nat) :=
  if nib = 13 then do
    let b ← Out.get mem pos
    .ok (nib + b.toNat, pos + 1)
  else if nib = 14 then do
    let b0 ← Out.get mem pos
    let b1 ← Out.get mem (pos + 1)
    .ok (nib + 255 + (b0.toNat <<< 8) + b1.toNat, pos + 2)
  else .ok (nib, pos)

/-- messaging/coap/coap.c:1041-1065: header of one option; result: delta,
length and position of the value. -/
def readHeader (mem : List UInt8) (pos : Nat) : Out (Nat × Nat × Nat) := do
  let b ← Out.get mem pos
  let (d, p1) ← readExt mem (b.toNat >>> 4) (pos + 1)
  let (l, p2) ← readExt mem (b.toNat &&& 0x0F) p1
  .ok (d, l, p2)

/-- A string held by pointer and length into the received message
(messaging/coap/coap_internal.h:116-153, e.g. `uri_path` and `uri_path_len`);
the pointer is an offset into the message. -/
structure Span where
  off : Nat
  len : Nat
  deriving Repr, DecidableEq

/-- messaging/coap/coap.c:348-367 `coap_merge_multi_option`: joins the option
value at `[optOff, optOff + optLen)` to `dst` in place, in the message itself.
Result: changed message and new `dst`. -/
def mergeMulti (mem : List UInt8) (dst : Span) (optOff optLen : Nat) (sep : UInt8) :
    Out (List UInt8 × Span) :=
  if dst.len > 0 then do
    let mem1 ← writeChk mem (dst.off + dst.len) [sep]
    let v ← sliceChk mem1 optOff optLen
    let mem2 ← writeChk mem1 (dst.off + dst.len + 1) v
    .ok (mem2, ⟨dst.off, dst.len + 1 + optLen⟩)
  else .ok (mem, ⟨optOff, optLen⟩)

/-- messaging/coap/coap_internal.h:142-149, the four fields of a block
option. -/
structure Block where
  num : Nat
  more : Nat
  size : Nat
  offset : Nat
  deriving Repr, DecidableEq

/-- messaging/coap/options.c:443-454 `coap_log_2` after the first halving:
number of further halvings until zero.  Simplification: the do/while loop over
`uint16_t` is written as recursion; `result - 1` is the returned value. -/
def log2Loop (value : Nat) : Nat :=
  if h : value / 2 = 0 then 0 else log2Loop (value / 2) + 1
termination_by value
decreasing_by omega

/-- messaging/coap/options.c:456-465 `coap_options_block_encode`. -/
def blockEncode (num more size : Nat) : Nat :=
  let block := (num <<< 4) % 2^32
  let block := if more ≠ 0 then block ||| 0x8 else block
  block ||| (0xF &&& log2Loop (size / 16))

/-- messaging/coap/options.c:467-475 `coap_options_block_decode`; `size` is
`uint16_t`, `offset` is `uint32_t`. -/
def blockDecode (value : Nat) : Block where
  num := (value >>> 4) &&& 0xFFFFF
  more := (value &&& 0x08) >>> 3
  size := (16 <<< (value &&& 0x07)) % 2^16
  offset := ((value &&& 0xFFFFFFF0) <<< (value &&& 0x07)) % 2^32

/-- messaging/coap/options.c:380-398 `coap_options_set_block1`: `none` when the
call returns false and leaves the packet alone, otherwise the stored fields. -/
def setBlock1 (num more size offset : Nat) : Option Block :=
  if num > 0x0FFFFF then none
  else if size < 16 ∨ size > 2048 then none
  else some ⟨num, more, size, offset⟩

/-- messaging/coap/options.c:423-441 `coap_options_set_block2`; as
`coap_options_set_block1` but the flag is normalised. -/
def setBlock2 (num more size offset : Nat) : Option Block :=
  if num > 0x0FFFFF then none
  else if size < 16 ∨ size > 2048 then none
  else some ⟨num, if more ≠ 0 then 1 else 0, size, offset⟩

end Verif.Coap
