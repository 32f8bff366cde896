import Verif.Common
/-!
Model of `api/oc_base64.c`.
-/
namespace Verif.Base64

/-- `oc_base64_encoding_t`, include/oc_base64.h (`OC_BASE64_ENCODING_STD`,
`OC_BASE64_ENCODING_URL`). -/
inductive Encoding where
  | std
  | url
  deriving Repr, DecidableEq

/-- Result of the C functions that return a length or `-1`: `some out` is the
sequence of bytes stored in the output buffer (its length is the return value),
`none` is `-1`.  `Out.ub` is undefined behaviour.
api/oc_base64.c:42-45, 217-220. -/
abbrev Res := Out (Option (List UInt8))

/-- `oc_base64_encoded_output_size`, api/oc_base64.c:29-40.  Simplification:
`size_t` arithmetic does not wrap (sizes of objects in memory). -/
def encodedSize (size : Nat) (padding : Bool) : Nat :=
  if padding then
    let outputSize := (size / 3) * 4
    if size % 3 ≠ 0 then outputSize + 4 else outputSize
  else
    (size * 4 + 2) / 3

/-- The alphabet table, api/oc_base64.c:54-65 (65='A', 97='a', 48='0', 43='+',
47='/', 45='-', 95='_'). -/
def alphabet (e : Encoding) : List UInt8 :=
  let base : List UInt8 :=
    [65, 66, 67, 68, 69, 70, 71, 72, 73, 74, 75, 76, 77,
     78, 79, 80, 81, 82, 83, 84, 85, 86, 87, 88, 89, 90,
     97, 98, 99, 100, 101, 102, 103, 104, 105, 106, 107, 108, 109,
     110, 111, 112, 113, 114, 115, 116, 117, 118, 119, 120, 121, 122,
     48, 49, 50, 51, 52, 53, 54, 55, 56, 57]
  match e with
  | .std => base ++ [43, 47]
  | .url => base ++ [45, 95]

/-- The loop over the input and the flush of leftover bits,
api/oc_base64.c:83-128.  `i` is the loop counter, `val` the carried bits; the
result is the sequence of bytes stored through `output_buffer[j++]`. -/
def encLoop (e : Encoding) (i : Nat) (val : UInt8) : List UInt8 → Out (List UInt8)
  | [] => do
    if i % 3 ≠ 0 then
      let c ← Out.get (alphabet e) val.toNat
      return [c]
    else
      return []
  | b :: rest => do
    if i % 3 = 0 then
      let c ← Out.get (alphabet e) (b >>> 2).toNat
      let out ← encLoop e (i + 1) ((b <<< 4) &&& 0x30) rest
      return c :: out
    else if i % 3 = 1 then
      let c ← Out.get (alphabet e) (val ||| (b >>> 4)).toNat
      let out ← encLoop e (i + 1) ((b <<< 2) &&& 0x3D) rest
      return c :: out
    else
      let c ← Out.get (alphabet e) (val ||| (b >>> 6)).toNat
      let val' := b &&& 0x3F
      let d ← Out.get (alphabet e) val'.toNat
      let out ← encLoop e (i + 1) val' rest
      return c :: d :: out

/-- `oc_base64_encode_v1`, api/oc_base64.c:42-141.  `cap` is
`output_buffer_size`.  Storing more than `cap` bytes and overflowing the `int`
counter `j` are undefined behaviour, as is the failing assertion at line 131.
Simplification: the check for stores past the buffer is made once, on all bytes
stored. -/
def encode (e : Encoding) (padding : Bool) (input : List UInt8) (cap : Nat) : Res :=
  if input.length = 0 then .ok (some [])
  else
    let outputLen := encodedSize input.length padding
    if cap < outputLen then .ok none
    else if intMax < outputLen then .ub
    else do
      let body ← encLoop e 0 0 input
      let out := if padding then body ++ List.replicate (outputLen - body.length) 61 else body
      if !padding && body.length != outputLen then .ub
      else if cap < out.length then .ub
      else return some out

/-- `base64_decode_char`, api/oc_base64.c:151-179; `none` is `-1`. -/
def decodeChar (e : Encoding) (c : UInt8) : Option UInt8 :=
  if 65 ≤ c ∧ c ≤ 90 then some (c - 65)
  else if 97 ≤ c ∧ c ≤ 122 then some (c - 71)
  else if 48 ≤ c ∧ c ≤ 57 then some (c + 4)
  else match e with
    | .std => if c = 43 then some 62 else if c = 47 then some 63 else none
    | .url => if c = 45 then some 62 else if c = 95 then some 63 else none

/-- `oc_base64_decoded_output_size`, api/oc_base64.c:181-215; `none` is `-1`.
The result above `INT_MAX` fails the assertion of line 213 (`ub`).  The loop of
lines 195-199 reads the last two characters. -/
def decodedSize (input : List UInt8) (padding : Bool) : Out (Option Nat) :=
  let n := input.length
  if n = 0 then .ok (some 0)
  else if padding then
    if n % 4 ≠ 0 then .ok none
    else do
      let x ← Out.get input (n - 2)
      let y ← Out.get input (n - 1)
      let pc := (if x = 61 then 1 else 0) + (if y = 61 then 1 else 0)
      let out := (n * 3) / 4 - pc
      if intMax < out then .ub else return some out
  else
    if n % 4 = 1 then .ok none
    else
      let pc := if n % 4 ≠ 0 then 4 - n % 4 else 0
      let out := ((n + pc) * 3) / 4 - pc
      if intMax < out then .ub else .ok (some out)

/-- The decoding loop, api/oc_base64.c:234-284.  `n` is `input_size`, `i` the
loop counter, the list argument is `input[i..]`, `val_c` the partially filled
output byte.  The result is the sequence of bytes stored, `none` is the
`return -1` of lines 243, 246 and 254. -/
def decLoop (e : Encoding) (padding : Bool) (n i : Nat) (valC : UInt8) :
    List UInt8 → Out (Option (List UInt8))
  | [] => .ok (some [])
  | c :: rest =>
    if padding && c == 61 then
      if i + 2 < n then .ok none
      else if i + 2 = n then
        match rest with
        | [] => .ub
        | d :: _ => if d ≠ 61 then .ok none else .ok (some [])
      else .ok (some [])
    else
      match decodeChar e c with
      | none => .ok none
      | some v =>
        if i % 4 = 0 then
          decLoop e padding n (i + 1) ((v <<< 2) &&& 0xFD) rest
        else if i % 4 = 1 then do
          let r ← decLoop e padding n (i + 1) ((v <<< 4) &&& 0xF0) rest
          return r.map ((valC ||| (v >>> 4)) :: ·)
        else if i % 4 = 2 then do
          let r ← decLoop e padding n (i + 1) ((v <<< 6) &&& 0xD0) rest
          return r.map ((valC ||| (v >>> 2)) :: ·)
        else do
          let r ← decLoop e padding n (i + 1) valC rest
          return r.map ((valC ||| v) :: ·)

/-- `oc_base64_decode_v1`, api/oc_base64.c:217-287, with distinct input and
output buffers.  Storing more than `cap` bytes is undefined behaviour.  When
the input contains `i < input_size - 2` with `input_size < 2` the C expression
wraps; this cannot happen because a padded input has at least 4 characters. -/
def decode (e : Encoding) (padding : Bool) (input : List UInt8) (cap : Nat) : Res := do
  match ← decodedSize input padding with
  | none => return none
  | some size =>
    if cap < size then return none
    else
      match ← decLoop e padding input.length 0 0 input with
      | none => return none
      | some out => if cap < out.length then .ub else return some out

/-- Store into a buffer: an index outside the object is undefined behaviour
(helper for `output_buffer[j++] = val_c`, api/oc_base64.c:268, 275, 282). -/
def store (buf : List UInt8) (j : Nat) (x : UInt8) : Out (List UInt8) :=
  if j < buf.length then .ok (buf.set j x) else .ub

/-- The decoding loop of `oc_base64_decode_v1` when input and output are the
same buffer, as called by `oc_base64_decode`, api/oc_base64.c:234-284, 292.
`m = input_size - i` counts the iterations left.  The result is the counter `j`
and the buffer; `none` is `return -1`. -/
def ipLoop (e : Encoding) (n : Nat) : Nat → Nat → UInt8 → List UInt8 →
    Out (Option (Nat × List UInt8))
  | 0, j, _, buf => .ok (some (j, buf))
  | m + 1, j, valC, buf => do
    let i := n - (m + 1)
    let c ← Out.get buf i
    if c == 61 then
      if i + 2 < n then return none
      else if i + 2 = n then
        let d ← Out.get buf (i + 1)
        if d ≠ 61 then return none else return some (j, buf)
      else return some (j, buf)
    else
      match decodeChar e c with
      | none => return none
      | some v =>
        if i % 4 = 0 then
          ipLoop e n m j ((v <<< 2) &&& 0xFD) buf
        else if i % 4 = 1 then
          let buf ← store buf j (valC ||| (v >>> 4))
          ipLoop e n m (j + 1) ((v <<< 4) &&& 0xF0) buf
        else if i % 4 = 2 then
          let buf ← store buf j (valC ||| (v >>> 2))
          ipLoop e n m (j + 1) ((v <<< 6) &&& 0xD0) buf
        else
          let buf ← store buf j (valC ||| v)
          ipLoop e n m (j + 1) valC buf

/-- `oc_base64_decode`, api/oc_base64.c:289-303: in-place decoding with the
standard alphabet and padding; the bytes after the decoded data are zeroed.  On
failure (`none`) the buffer contents are unspecified. -/
def decodeInPlace (buf : List UInt8) : Out (Option (Nat × List UInt8)) := do
  match ← decodedSize buf true with
  | none => return none
  | some size =>
    if buf.length < size then return none
    else
      match ← ipLoop .std buf.length buf.length 0 0 buf with
      | none => return none
      | some (j, b) => return some (j, b.take j ++ List.replicate (b.length - j) 0)

end Verif.Base64
